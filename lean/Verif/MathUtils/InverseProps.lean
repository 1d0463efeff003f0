import Verif.MathUtils.InverseModel
import Verif.MathUtils.PiecewiseProps
import Mathlib.Tactic.FieldSimp
import Mathlib.Tactic.Ring
import Mathlib.Tactic.Linarith
import Mathlib.Tactic.NormNum
import Mathlib.Tactic.Positivity
import Mathlib.Analysis.SpecialFunctions.Integrals.Basic
import Mathlib.Analysis.SpecialFunctions.Sqrt

/-! # The inverse of a cumulative (C38) -/

namespace Alexandria.MathUtils

section
variable {K : Type} [Field K] [LinearOrder K]

/-! ## Specification -/

/-- A square root. -/
def Spec.IsSqrt (sqrt : K → K) : Prop := ∀ x, 0 ≤ x → 0 ≤ sqrt x ∧ sqrt x * sqrt x = x

/-- The density between the points `p` and `q`. -/
def Spec.density (p q : K × K) (x : K) : K := p.2 + (q.2 - p.2) / (q.1 - p.1) * (x - p.1)

/-- The area below the density from the point `p` to `x`, a trapezoid. -/
def Spec.part (p q : K × K) (x : K) : K := (x - p.1) * (p.2 + Spec.density p q x) / 2

/-- The area below the density up to `x`. -/
def Spec.mass : List (K × K) → K → K
  | p :: q :: l, x => if x ≤ q.1 then Spec.part p q x else Spec.part p q q.1 + Spec.mass (q :: l) x
  | _, _ => 0

/-! ## Lemmas -/

theorem inverseSegment_spec [IsStrictOrderedRing K] {sqrt : K → K} (hsq : Spec.IsSqrt sqrt) {u x0 x1 c0 c1 p0 p1 : K} (hx : x0 < x1) (h0 : 0 ≤ p0) (h1 : 0 ≤ p1)
    (hc : c1 - c0 = (x1 - x0) * (p1 + p0) / 2) (hu0 : c0 ≤ u) (hu1 : u < c1) :
    ∃ r x, inverseSegment sqrt u x0 x1 c0 c1 p0 p1 = .ok r ∧ x0 ≤ x ∧ x ≤ x1 ∧ Spec.part (x0, p0) (x1, p1) x = u - c0 ∧
      (r = x ∨ p0 < p1 ∧ x0 < x ∧ x ≤ x0 + tol ∧ x0 - tol ≤ r ∧ r ≤ x0) := by
  have hL : 0 < x1 - x0 := sub_pos.mpr hx
  have hL' : x1 - x0 ≠ 0 := ne_of_gt hL
  rw [inverseSegment]
  by_cases hp : p0 = p1
  · subst hp
    have hcc : c1 - c0 ≠ 0 := ne_of_gt (by linarith)
    have hp0 : p0 ≠ 0 := by rintro rfl; apply hcc; rw [hc]; simp
    have hc2 : c1 - c0 = (x1 - x0) * p0 := by rw [hc]; ring
    refine ⟨_, (x1 - x0) * ((u - c0) / (c1 - c0)) + x0, by rw [if_pos rfl, div?, if_neg hcc]; rfl, ?_, ?_, ?_, Or.inl rfl⟩
    · have : 0 ≤ (u - c0) / (c1 - c0) := div_nonneg (by linarith) (by linarith)
      have := mul_nonneg hL.le this
      linarith
    · have : (u - c0) / (c1 - c0) ≤ 1 := (div_le_one (by linarith)).mpr (by linarith)
      have := mul_le_mul_of_nonneg_left this hL.le
      linarith
    · simp only [Spec.part, Spec.density, sub_self, zero_div, zero_mul, add_zero]
      rw [hc2]
      field_simp
      ring
  · rw [if_neg hp]
    by_cases hu : u ≤ c0
    · have : u = c0 := le_antisymm hu hu0
      exact ⟨x0, x0, by rw [if_pos (Or.inr (Or.inr hu))], le_refl _, hx.le, by simp [Spec.part, this], Or.inl rfl⟩
    · have hcc : c0 ≠ c1 := ne_of_lt (by linarith)
      rw [if_neg (by push Not; exact ⟨ne_of_gt hx, hcc, not_le.mp hu⟩), div?, if_neg hL']
      simp only [Outcome.bind_ok]
      have hw : 0 < u - c0 := sub_pos.mpr (not_le.mp hu)
      have hpd : p1 - p0 ≠ 0 := sub_ne_zero.mpr (Ne.symm hp)
      generalize ha : (p1 - p0) / (x1 - x0) = a
      have ha0 : a ≠ 0 := by rw [← ha]; exact div_ne_zero hpd hL'
      have hal : a * (x1 - x0) = p1 - p0 := by rw [← ha]; field_simp
      have ha2 : a / 2 ≠ 0 := div_ne_zero ha0 two_ne_zero
      have h2a : 2 * (a / 2) = a := by ring
      have ht : (u - (c0 - a / 2 * (x0 * x0) - (p0 - a * x0) * x0)) / (a / 2) + (p0 - a * x0) / a * ((p0 - a * x0) / a) =
          2 * (u - c0) / a + p0 / a * (p0 / a) := by
        field_simp
        ring
      have hex : (p0 - a * x0) / a = p0 / a - x0 := by field_simp
      -- the sign of what the root is taken of
      have hW : u - c0 < (x1 - x0) * (p1 + p0) / 2 := by linarith
      have hnn : p1 / a * (p1 / a) - p0 / a * (p0 / a) = 2 * ((x1 - x0) * (p1 + p0) / 2) / a := by
        rw [show p1 = p0 + a * (x1 - x0) by linarith]
        field_simp
        ring
      have hT : 0 ≤ 2 * (u - c0) / a + p0 / a * (p0 / a) := by
        rcases lt_or_gt_of_ne ha0 with hneg | hpos
        · have : 2 * ((x1 - x0) * (p1 + p0) / 2) / a ≤ 2 * (u - c0) / a := by
            rw [div_le_div_right_of_neg hneg]
            linarith
          have hsq1 : 0 ≤ p1 / a * (p1 / a) := mul_self_nonneg _
          linarith
        · have : 0 < 2 * (u - c0) / a := div_pos (by linarith) hpos
          have := mul_self_nonneg (p0 / a)
          linarith
      obtain ⟨hs0, hs1⟩ := hsq _ hT
      rw [solveSquare, if_pos ha2, h2a, div?, if_neg ha0, div?, if_neg ha2]
      simp only [Outcome.bind_ok, Outcome.pure_eq]
      rw [ht, if_neg (not_lt.mpr hT), hex]
      simp only [Outcome.bind_ok]
      generalize hS : sqrt (2 * (u - c0) / a + p0 / a * (p0 / a)) = S at hs0 hs1
      have hpart : ∀ d, Spec.part (x0, p0) (x1, p1) (x0 + d) = p0 * d + a * d * d / 2 := by
        intro d
        simp only [Spec.part, Spec.density, ha]
        ring
      have hq : p0 / a * a = p0 := by field_simp
      have hq2 : 2 * (u - c0) / a * a = 2 * (u - c0) := by field_simp
      have root : ∀ s, s * s = S * S → Spec.part (x0, p0) (x1, p1) (x0 + (s - p0 / a)) = u - c0 := by
        intro s hs
        rw [hpart]
        have : a * (S * S) = 2 * (u - c0) + p0 * (p0 / a) := by
          rw [hs1]
          linear_combination hq2 + p0 / a * hq
        linear_combination a / 2 * hs + this / 2 - (s - p0 / a / 2) * hq
      rcases lt_or_gt_of_ne ha0 with hneg | hpos
      · -- a falling density: the smaller root
        have hb0 : p0 / a ≤ 0 := div_nonpos_of_nonneg_of_nonpos h0 hneg.le
        have hb1 : p1 / a ≤ 0 := div_nonpos_of_nonneg_of_nonpos h1 hneg.le
        have hlen : x1 - x0 = p1 / a - p0 / a := by
          rw [← sub_div, ← hal]
          field_simp
        have hSle : S ≤ -(p0 / a) := by
          apply le_of_not_gt
          intro hc
          have := mul_self_lt_mul_self (by linarith : 0 ≤ -(p0 / a)) hc
          have h3 : 2 * (u - c0) / a < 0 := div_neg_of_pos_of_neg (by linarith) hneg
          rw [hs1] at this
          linarith
        have hSge : -(p1 / a) ≤ S := by
          apply le_of_not_gt
          intro hc
          have := mul_self_lt_mul_self hs0 hc
          have h3 : 2 * ((x1 - x0) * (p1 + p0) / 2) / a ≤ 2 * (u - c0) / a := by
            rw [div_le_div_right_of_neg hneg]
            linarith
          rw [hs1] at this
          linarith
        have htol : (0 : K) < tol := by unfold tol; positivity
        refine ⟨-S - (p0 / a - x0), x0 + (-S - p0 / a), ?_, by linarith, by linarith, root _ (by ring), Or.inl (by ring)⟩
        rw [if_pos ⟨by linarith, by linarith⟩]
      · -- a rising density: the greater root, or the smaller one if that is within the tolerance
        have hb0 : 0 ≤ p0 / a := div_nonneg h0 hpos.le
        have hb1 : 0 ≤ p1 / a := div_nonneg h1 hpos.le
        have hlen : x1 - x0 = p1 / a - p0 / a := by
          rw [← sub_div, ← hal]
          field_simp
        have hSgt : p0 / a < S := by
          apply lt_of_not_ge
          intro hc
          have := mul_self_le_mul_self hs0 hc
          have h3 : 0 < 2 * (u - c0) / a := div_pos (by linarith) hpos
          rw [hs1] at this
          linarith
        have hSle : S ≤ p1 / a := by
          apply le_of_not_gt
          intro hc
          have := mul_self_lt_mul_self hb1 hc
          have h3 : 2 * (u - c0) / a ≤ 2 * ((x1 - x0) * (p1 + p0) / 2) / a := by
            apply div_le_div_of_nonneg_right _ hpos.le
            linarith
          rw [hs1] at this
          linarith
        have hp01 : p0 < p1 := by
          have := mul_pos hpos hL
          linarith
        refine ⟨if -S - (p0 / a - x0) ≥ x0 - tol ∧ -S - (p0 / a - x0) ≤ x1 + tol then -S - (p0 / a - x0) else S - (p0 / a - x0), x0 + (S - p0 / a), ?_,
          by linarith, by linarith, root _ rfl, ?_⟩
        · split_ifs <;> rfl
        · split_ifs with h
          · right
            exact ⟨hp01, by linarith, by linarith [h.1], by linarith [h.1], by linarith⟩
          · left
            ring

/-- The sum of the first `i` trapezoids. -/
def upto : List (K × K) → Nat → K
  | p :: q :: l, i + 1 => Spec.part p q q.1 + upto (q :: l) i
  | _, _ => 0

theorem part_end (p q : K × K) : Spec.part p q q.1 = (q.1 - p.1) * (q.2 + p.2) / 2 := by
  simp only [Spec.part, Spec.density]
  by_cases h : q.1 - p.1 = 0
  · simp [h]
  · rw [div_mul_cancel₀ _ h]
    ring

theorem part_begin (p q : K × K) : Spec.part p q p.1 = 0 := by simp [Spec.part]

theorem mass_begin (p : K × K) (l : List (K × K)) (hs : ((p :: l).map Prod.fst).Pairwise (· ≤ ·)) : Spec.mass (p :: l) p.1 = 0 := by
  cases l with
  | nil => simp [Spec.mass]
  | cons q l =>
    rw [Spec.mass, if_pos, part_begin]
    simp only [List.map_cons, List.pairwise_cons] at hs
    exact hs.1 _ List.mem_cons_self

theorem mass_step (p q : K × K) (l : List (K × K)) (hs : ((p :: q :: l).map Prod.fst).Pairwise (· ≤ ·)) (x : K) (hx : q.1 ≤ x) :
    Spec.mass (p :: q :: l) x = Spec.part p q q.1 + Spec.mass (q :: l) x := by
  rw [Spec.mass]
  split_ifs with h
  · have := le_antisymm h hx
    subst this
    rw [mass_begin q l (by simp only [List.map_cons, List.pairwise_cons] at hs ⊢; exact hs.2), add_zero]
  · rfl

theorem mass_in (pts : List (K × K)) (hs : (pts.map Prod.fst).Pairwise (· ≤ ·)) (i : Nat) (p q : K × K) (hp : pts[i]? = some p) (hq : pts[i + 1]? = some q)
    (x : K) (h1 : p.1 ≤ x) (h2 : x ≤ q.1) : Spec.mass pts x = upto pts i + Spec.part p q x := by
  induction i generalizing pts with
  | zero =>
    match pts, hp, hq with
    | a :: b :: l, hp, hq =>
      simp at hp hq
      subst hp hq
      rw [Spec.mass, if_pos h2, upto, zero_add]
      simp
  | succ i ih =>
    match pts, hp, hq with
    | a :: b :: l, hp, hq =>
      simp only [List.getElem?_cons_succ] at hp hq
      have hs' : ((b :: l).map Prod.fst).Pairwise (· ≤ ·) := by simp only [List.map_cons, List.pairwise_cons] at hs ⊢; exact hs.2
      have hb : b.1 ≤ p.1 := sorted_get hs' (Nat.zero_le i) (a := b.1) (b := p.1) rfl (by rw [List.getElem?_map, hp]; rfl)
      rw [mass_step a b l hs x (hb.trans h1), ih (b :: l) hs' hp hq, upto, add_assoc]

theorem mass_knot (pts : List (K × K)) (hs : (pts.map Prod.fst).Pairwise (· ≤ ·)) (i : Nat) (p : K × K) (hp : pts[i]? = some p) :
    Spec.mass pts p.1 = upto pts i := by
  induction i generalizing pts with
  | zero =>
    match pts, hp with
    | a :: l, hp =>
      simp at hp
      subst hp
      rw [mass_begin a l hs, upto]
      simp
  | succ i ih =>
    match pts, hp with
    | a :: b :: l, hp =>
      simp only [List.getElem?_cons_succ] at hp
      have hs' : ((b :: l).map Prod.fst).Pairwise (· ≤ ·) := by simp only [List.map_cons, List.pairwise_cons] at hs ⊢; exact hs.2
      have hb : b.1 ≤ p.1 := sorted_get hs' (Nat.zero_le i) (a := b.1) (b := p.1) rfl (by rw [List.getElem?_map, hp]; rfl)
      rw [mass_step a b l hs _ hb, ih (b :: l) hs' hp, upto]

theorem upto_succ (pts : List (K × K)) (i : Nat) (p q : K × K) (hp : pts[i]? = some p) (hq : pts[i + 1]? = some q) :
    upto pts (i + 1) = upto pts i + Spec.part p q q.1 := by
  induction i generalizing pts with
  | zero =>
    match pts, hp, hq with
    | a :: b :: l, hp, hq =>
      simp at hp hq
      subst hp hq
      rw [upto, upto, upto]
      · simp
      · simp
      · simp
  | succ i ih =>
    match pts, hp, hq with
    | a :: b :: l, hp, hq =>
      simp only [List.getElem?_cons_succ] at hp hq
      rw [upto, ih (b :: l) hp hq]
      conv_rhs => rw [upto]
      ring

theorem cdfLoop_ok (x0 p0 c0 : K) (xs ps : List K) (hl : xs.length = ps.length) :
    ∃ r, cdfLoop x0 p0 c0 xs ps = .ok r ∧ r.length = xs.length ∧
      ∀ i < xs.length + 1, (c0 :: r)[i]? = some (c0 + upto ((x0, p0) :: xs.zip ps) i) := by
  induction xs generalizing x0 p0 c0 ps with
  | nil =>
    cases ps with
    | nil =>
      refine ⟨[], rfl, rfl, ?_⟩
      intro i hi
      obtain rfl : i = 0 := by simpa using hi
      rw [upto] <;> simp
    | cons _ _ => cases hl
  | cons x xs ih =>
    cases ps with
    | nil => cases hl
    | cons p ps =>
      obtain ⟨r, h1, h2, h3⟩ := ih x p ((x - x0) * (p + p0) / 2 + c0) ps (by simpa using hl)
      refine ⟨((x - x0) * (p + p0) / 2 + c0) :: r, ?_, by simp [h2], ?_⟩
      · rw [cdfLoop]
        simp only [h1, Outcome.bind_ok, Outcome.pure_eq]
      · intro i hi
        cases i with
        | zero => rw [upto] <;> simp
        | succ i =>
          rw [List.getElem?_cons_succ, h3 i (by simpa using hi), List.zip_cons_cons, upto, part_end]
          congr 1
          simp only
          ring

theorem trailing_spec (l : List K) (hne : l ≠ []) : trailing l < l.length ∧ l[trailing l]? = l[0]? := by
  induction l with
  | nil => exact absurd rfl hne
  | cons c l ih =>
    cases l with
    | nil => simp [trailing]
    | cons d l =>
      obtain ⟨h1, h2⟩ := ih (by simp)
      rw [trailing]
      split_ifs with h
      · subst h
        exact ⟨by simpa using h1, by rw [List.getElem?_cons_succ, h2]; rfl⟩
      · simp

/-- What the constructor makes of sorted knots and as many densities. -/
theorem mkInverse_ok (knots pdf : List K) (hl : knots.length = pdf.length) (hne : pdf ≠ []) (hs : knots.Pairwise (· ≤ ·)) :
    ∃ (p0 : K) (cdf : List K) (m : Nat), pdf[0]? = some p0 ∧ cdf.length = pdf.length ∧ (∀ i < pdf.length, cdf[i]? = some (p0 + upto (knots.zip pdf) i)) ∧ 0 < m ∧ m ≤ pdf.length ∧
      cdf[m - 1]? = cdf[pdf.length - 1]? ∧ mkInverse knots pdf = .ok ⟨knots.take m, pdf, cdf.take m⟩ := by
  cases pdf with
  | nil => exact absurd rfl hne
  | cons p0 ps =>
    cases knots with
    | nil => cases hl
    | cons x0 xs =>
      have hl' : xs.length = ps.length := by simpa using hl
      obtain ⟨r, h1, h2, h3⟩ := cdfLoop_ok x0 p0 p0 xs ps hl'
      have hcl : (p0 :: r).length = (p0 :: ps).length := by simp [h2, hl']
      have ht := trailing_spec (p0 :: r).reverse (by simp)
      rw [List.length_reverse, hcl] at ht
      refine ⟨p0, p0 :: r, (p0 :: ps).length - trailing (p0 :: r).reverse, rfl, hcl, ?_, by omega, by omega, ?_, ?_⟩
      · intro i hi
        rw [h3 i (by rw [hl']; simpa using hi)]
        rfl
      · have ht2 := ht.2
        rw [List.getElem?_reverse (by rw [hcl]; omega), List.getElem?_reverse (by simp), hcl] at ht2
        rw [show (p0 :: ps).length - trailing (p0 :: r).reverse - 1 = (p0 :: ps).length - 1 - trailing (p0 :: r).reverse by omega, ht2]
        rfl
      · rw [mkInverse, if_neg (by simp [(knotsOk_iff _).mpr hs])]
        simp only
        simp only [h1, Outcome.bind_ok, Outcome.pure_eq]
        rw [hl, hcl]

/-- The total area. -/
def Spec.total (pts : List (K × K)) : K :=
  match pts.getLast? with
  | some p => Spec.mass pts p.1
  | none => 0

section
variable [IsStrictOrderedRing K]

theorem part_nonneg {p q : K × K} (hx : p.1 ≤ q.1) (hp : 0 ≤ p.2) (hq : 0 ≤ q.2) : 0 ≤ Spec.part p q q.1 := by
  rw [part_end]
  have := mul_nonneg (sub_nonneg.mpr hx) (add_nonneg hq hp)
  linarith

/-- **C38 (continuous).** For knots in increasing order with non-negative densities, and every `p` from 0 to 1: there is a point `x` within the knots with
`p` times the total area below it.  The result is `x`, except in one case: the density rises in the segment of `x`, and `x` is at most `1e-8` beyond
its beginning; then it may be a point at most `1e-8` before that. -/
theorem C38_continuous_partial (sqrt : K → K) (hsq : Spec.IsSqrt sqrt) (knots pdf : List K) (hl : knots.length = pdf.length) (first last : K)
    (hfirst : knots.head? = some first) (hlast : knots.getLast? = some last) (hs : knots.Pairwise (· ≤ ·)) (hpos : ∀ v ∈ pdf, 0 ≤ v) (p : K)
    (hp0 : 0 ≤ p) (hp1 : p ≤ 1) :
    ∃ I r x, mkInverse knots pdf = .ok I ∧ inverseCall sqrt I p = .ok r ∧ first ≤ x ∧ x ≤ last ∧
      Spec.mass (knots.zip pdf) x = p * Spec.total (knots.zip pdf) ∧
      (r = x ∨ ∃ (i : Nat) (x0 p0 p1 : K), knots[i]? = some x0 ∧ pdf[i]? = some p0 ∧ pdf[i + 1]? = some p1 ∧ p0 < p1 ∧ x0 < x ∧ x ≤ x0 + tol ∧
        x0 - tol ≤ r ∧ r ≤ x0) := by
  have hn0 : 0 < knots.length := by
    cases knots with
    | nil => cases hfirst
    | cons _ _ => simp
  have hne : pdf ≠ [] := by
    intro h
    rw [h, List.length_nil] at hl
    omega
  obtain ⟨p0, cdf, m, hpd0, hclen, hcdf, hm0, hm1, hmlast, hI⟩ := mkInverse_ok knots pdf hl hne hs
  let pts := knots.zip pdf
  have hzl : pts.length = pdf.length := by simp [pts, hl]
  have hfst : pts.map Prod.fst = knots := by simp [pts, List.map_fst_zip, hl]
  have hs' : (pts.map Prod.fst).Pairwise (· ≤ ·) := by rw [hfst]; exact hs
  have hpt : ∀ (i : Nat) x v, knots[i]? = some x → pdf[i]? = some v → pts[i]? = some (x, v) := by
    intro i x v h1 h2
    simp [pts, List.zip, List.getElem?_zipWith, h1, h2]
  have hget : ∀ i, i < pdf.length → ∃ x v, knots[i]? = some x ∧ pdf[i]? = some v ∧ 0 ≤ v := fun i hi =>
    ⟨_, _, List.getElem?_eq_getElem (by omega), List.getElem?_eq_getElem hi, hpos _ (List.getElem_mem hi)⟩
  have hmono : ∀ i j, i ≤ j → j < pdf.length → upto pts i ≤ upto pts j := by
    intro i j hij hj
    induction j with
    | zero =>
      obtain rfl : i = 0 := by omega
      exact le_refl _
    | succ j ih =>
      rcases Nat.eq_or_lt_of_le hij with rfl | h
      · exact le_refl _
      · obtain ⟨x, v, h1, h2, h3⟩ := hget j (by omega)
        obtain ⟨y, w, h4, h5, h6⟩ := hget (j + 1) hj
        rw [upto_succ pts j _ _ (hpt j x v h1 h2) (hpt _ y w h4 h5)]
        have := part_nonneg (p := (x, v)) (q := (y, w)) (sorted_get hs (Nat.le_succ j) h1 h4) h3 h6
        have := ih (by omega) (by omega)
        linarith
  have h00 : upto pts 0 = 0 := by rw [upto]; simp
  have hlastk : knots[pdf.length - 1]? = some last := by rw [← hlast, List.getLast?_eq_getElem?, hl]
  have hfirstk : knots[0]? = some first := by rw [← hfirst, List.head?_eq_getElem?]
  obtain ⟨_, vl, _, hvl, _⟩ := hget (pdf.length - 1) (by omega)
  have htot : Spec.total pts = upto pts (pdf.length - 1) := by
    have hg : pts.getLast? = some (last, vl) := by rw [List.getLast?_eq_getElem?, hzl]; exact hpt _ _ _ hlastk hvl
    rw [Spec.total, hg]
    exact mass_knot pts hs' _ _ (hpt _ _ _ hlastk hvl)
  have htm : upto pts (m - 1) = upto pts (pdf.length - 1) := by
    rw [hcdf _ (by omega), hcdf _ (by omega)] at hmlast
    simpa using hmlast
  have hT : 0 ≤ Spec.total pts := by rw [htot, ← h00]; exact hmono _ _ (by omega) (by omega)
  obtain ⟨xm, vm, hxm, hvm, _⟩ := hget (m - 1) (by omega)
  refine ⟨⟨knots.take m, pdf, cdf.take m⟩, ?_⟩
  -- the members
  have e1 : (cdf.take m).head? = some p0 := by
    rw [List.head?_eq_getElem?, List.getElem?_take_of_lt hm0, hcdf 0 (by omega)]
    simp [pts] at h00
    simp [h00]
  have e2 : (cdf.take m).getLast? = some (p0 + Spec.total pts) := by
    rw [List.getLast?_eq_getElem?, List.length_take, hclen, Nat.min_eq_left hm1, List.getElem?_take_of_lt (by omega), hcdf _ (by omega), htot, ← htm]
  have e3 : (knots.take m).head? = some first := by
    rw [List.head?_eq_getElem?, List.getElem?_take_of_lt hm0, hfirstk]
  have e4 : (knots.take m).getLast? = some xm := by
    rw [List.getLast?_eq_getElem?, List.length_take, hl, Nat.min_eq_left hm1, List.getElem?_take_of_lt (by omega), hxm]
  have hcall : inverseCall sqrt ⟨knots.take m, pdf, cdf.take m⟩ p =
      (let u := p * Spec.total pts + p0
      if u ≤ p0 then .ok first
      else if u ≥ p0 + Spec.total pts then .ok xm
      else
        let i := ((cdf.take m).takeWhile (· ≤ u)).length - 1
        match (knots.take m)[i]?, (knots.take m)[i + 1]?, (cdf.take m)[i]?, (cdf.take m)[i + 1]?, pdf[i]?, pdf[i + 1]? with
        | some x0, some x1, some cdf0, some cdf1, some p0, some p1 => inverseSegment sqrt u x0 x1 cdf0 cdf1 p0 p1
        | _, _, _, _, _, _ => .ub) := by
    rw [inverseCall, if_neg (by push Not; exact ⟨hp0, hp1⟩)]
    simp only [e1, e2, e3, e4, add_sub_cancel_left]
    rfl
  rw [hcall]
  simp only
  have hpT : 0 ≤ p * Spec.total pts := mul_nonneg hp0 hT
  have hpT1 : p * Spec.total pts ≤ Spec.total pts := mul_le_of_le_one_left hT hp1
  by_cases hu1 : p * Spec.total pts + p0 ≤ p0
  · refine ⟨first, first, hI, by rw [if_pos hu1], le_refl _, sorted_get hs (Nat.zero_le _) hfirstk hlastk, ?_, Or.inl rfl⟩
    have : p * Spec.total pts = 0 := by linarith
    obtain ⟨_, v0, _, hv0, _⟩ := hget 0 (by omega)
    rw [show knots.zip pdf = pts from rfl, this, ← h00]
    exact mass_knot pts hs' 0 _ (hpt 0 _ _ hfirstk hv0)
  · by_cases hu2 : p * Spec.total pts + p0 ≥ p0 + Spec.total pts
    · refine ⟨xm, xm, hI, by rw [if_neg hu1, if_pos hu2], sorted_get hs (Nat.zero_le _) hfirstk hxm, sorted_get hs (by omega) hxm hlastk, ?_, Or.inl rfl⟩
      have : p * Spec.total pts = Spec.total pts := by linarith
      rw [show knots.zip pdf = pts from rfl, this, htot, ← htm]
      exact mass_knot pts hs' _ _ (hpt _ _ _ hxm hvm)
    · push Not at hu1 hu2
      rw [if_neg (not_le.mpr hu1), if_neg (not_le.mpr hu2)]
      generalize hu : p * Spec.total pts + p0 = u at hu1 hu2
      obtain ⟨t1, t2, t3⟩ := takeWhile_length_spec (fun c => decide (c ≤ u)) (cdf.take m)
      generalize hk : ((cdf.take m).takeWhile fun c => decide (c ≤ u)).length = k at t1 t2 t3
      have hlen : (cdf.take m).length = m := by rw [List.length_take, hclen, Nat.min_eq_left hm1]
      rw [hlen] at t3
      have hkm : k < m := by
        rcases Nat.eq_or_lt_of_le t3 with h | h
        · have := t1 (m - 1) (p0 + Spec.total pts) (by omega) (by rw [← e2, List.getLast?_eq_getElem?, hlen])
          simp at this
          linarith
        · exact h
      have hk0 : 0 < k := by
        rcases Nat.eq_zero_or_pos k with h | h
        · have := t2 p0 (by rw [h, ← e1, List.head?_eq_getElem?])
          simp at this
          linarith
        · exact h
      obtain ⟨x0, v0, hx0, hv0, hv0p⟩ := hget (k - 1) (by omega)
      obtain ⟨x1, v1, hx1, hv1, hv1p⟩ := hget k (by omega)
      have c0 : (cdf.take m)[k - 1]? = some (p0 + upto pts (k - 1)) := by rw [List.getElem?_take_of_lt (by omega), hcdf _ (by omega)]
      have c1 : (cdf.take m)[k]? = some (p0 + upto pts k) := by rw [List.getElem?_take_of_lt hkm, hcdf _ (by omega)]
      have q0 := hpt _ _ _ hx0 hv0
      have q1 := hpt _ _ _ hx1 hv1
      have hk1 : k - 1 + 1 = k := by omega
      have hstep := upto_succ pts (k - 1) _ _ q0 (by rw [hk1]; exact q1)
      rw [hk1, part_end] at hstep
      simp only at hstep
      have hb0 := t1 (k - 1) _ (by omega) c0
      have hb1 := t2 _ c1
      simp only [decide_eq_true_eq, decide_eq_false_iff_not, not_le] at hb0 hb1
      have hx01 : x0 ≤ x1 := sorted_get hs (by omega) hx0 hx1
      have hxlt : x0 < x1 := by
        rcases lt_or_eq_of_le hx01 with h | h
        · exact h
        · exfalso
          rw [h] at hstep
          simp at hstep
          linarith
      obtain ⟨r, x, hr, h1, h2, h3, h4⟩ := inverseSegment_spec hsq (u := u) (c0 := p0 + upto pts (k - 1)) (c1 := p0 + upto pts k) hxlt hv0p hv1p
        (by rw [hstep]; ring) hb0 hb1
      refine ⟨r, x, hI, ?_, ?_, ?_, ?_, ?_⟩
      · rw [hk1, List.getElem?_take_of_lt (by omega), List.getElem?_take_of_lt hkm, hx0, hx1, c0, c1, hv0, hv1]
        exact hr
      · exact (sorted_get hs (Nat.zero_le _) hfirstk hx0).trans h1
      · exact h2.trans (sorted_get hs (by omega) hx1 hlastk)
      · rw [show knots.zip pdf = pts from rfl, mass_in pts hs' (k - 1) _ _ q0 (by rw [hk1]; exact q1) x h1 h2, h3]
        linarith
      · rcases h4 with h4 | ⟨h4, h5, h6, h7, h8⟩
        · exact Or.inl h4
        · exact Or.inr ⟨k - 1, x0, v0, v1, hx0, hv0, by rw [hk1]; exact hv1, h4, h5, h6, h7, h8⟩

theorem tol_pos : (0 : K) < tol := by unfold tol; positivity

/-- **C38 (accuracy).** The result is within `2e-8` of a point with `p` times the total area below it. -/
theorem C38_close (sqrt : K → K) (hsq : Spec.IsSqrt sqrt) (knots pdf : List K) (hl : knots.length = pdf.length) (first last : K)
    (hfirst : knots.head? = some first) (hlast : knots.getLast? = some last) (hs : knots.Pairwise (· ≤ ·)) (hpos : ∀ v ∈ pdf, 0 ≤ v) (p : K)
    (hp0 : 0 ≤ p) (hp1 : p ≤ 1) :
    ∃ I r x, mkInverse knots pdf = .ok I ∧ inverseCall sqrt I p = .ok r ∧ first ≤ x ∧ x ≤ last ∧
      Spec.mass (knots.zip pdf) x = p * Spec.total (knots.zip pdf) ∧ x - 2 / 100000000 ≤ r ∧ r ≤ x := by
  obtain ⟨I, r, x, h1, h2, h3, h4, h5, h6⟩ := C38_continuous_partial sqrt hsq knots pdf hl first last hfirst hlast hs hpos p hp0 hp1
  refine ⟨I, r, x, h1, h2, h3, h4, h5, ?_⟩
  have ht : (tol : K) + tol = 2 / 100000000 := by unfold tol; norm_num
  have := tol_pos (K := K)
  rcases h6 with rfl | ⟨_, _, _, _, _, _, _, _, h7, h8, h9, h10⟩
  · exact ⟨by linarith, le_refl _⟩
  · exact ⟨by linarith, by linarith⟩

/-- **C38 (falling densities).** When the density nowhere rises the result is exact. -/
theorem C38_falling (sqrt : K → K) (hsq : Spec.IsSqrt sqrt) (knots pdf : List K) (hl : knots.length = pdf.length) (first last : K)
    (hfirst : knots.head? = some first) (hlast : knots.getLast? = some last) (hs : knots.Pairwise (· ≤ ·)) (hpos : ∀ v ∈ pdf, 0 ≤ v)
    (hfall : pdf.Pairwise (· ≥ ·)) (p : K) (hp0 : 0 ≤ p) (hp1 : p ≤ 1) :
    ∃ I x, mkInverse knots pdf = .ok I ∧ inverseCall sqrt I p = .ok x ∧ first ≤ x ∧ x ≤ last ∧
      Spec.mass (knots.zip pdf) x = p * Spec.total (knots.zip pdf) := by
  obtain ⟨I, r, x, h1, h2, h3, h4, h5, h6⟩ := C38_continuous_partial sqrt hsq knots pdf hl first last hfirst hlast hs hpos p hp0 hp1
  refine ⟨I, x, h1, ?_, h3, h4, h5⟩
  rcases h6 with rfl | ⟨i, _, p0, p1, _, h7, h8, h9, _⟩
  · exact h2
  · obtain ⟨hi, rfl⟩ := List.getElem?_eq_some_iff.mp h7
    obtain ⟨hj, rfl⟩ := List.getElem?_eq_some_iff.mp h8
    exact absurd h9 (not_lt.mpr (List.pairwise_iff_getElem.mp hfall i (i + 1) hi hj (Nat.lt_succ_self i)))

/-- **C38 (refused).** Decreasing knots and numbers outside `[0, 1]` are refused. -/
theorem C38_throws (sqrt : K → K) (knots pdf : List K) :
    (¬ knots.Pairwise (· ≤ ·) → mkInverse knots pdf = .throw .elements) ∧
    (∀ (I : Inverse K) p, (p < 0 ∨ 1 < p) → inverseCall sqrt I p = .throw .elements) := by
  constructor
  · intro h
    rw [mkInverse.eq_def, if_pos]
    by_contra hc
    exact h ((knotsOk_iff _).mp (by simpa using hc))
  · intro I p h
    rw [inverseCall, if_pos h]

/-- **C93 (quadratic).** With a leading coefficient and a discriminant that is not negative, the two results are the solutions of `a x² + b x + c = y`, the smaller first. -/
theorem C93_quadratic (sqrt : K → K) (hsq : Spec.IsSqrt sqrt) (a b c y : K) (ha : a ≠ 0) (hd : 0 ≤ b ^ 2 - 4 * a * (c - y)) :
    ∃ x1 x2, solveSquare sqrt a b c y = .ok (x1, x2) ∧ x1 ≤ x2 ∧ ∀ x, a * x ^ 2 + b * x + c = y ↔ x = x1 ∨ x = x2 := by
  have h2a : 2 * a ≠ 0 := mul_ne_zero two_ne_zero ha
  have hdisc : (y - c) / a + b / (2 * a) * (b / (2 * a)) = (b ^ 2 - 4 * a * (c - y)) / (2 * a) ^ 2 := by field_simp; ring
  have hnn : 0 ≤ (y - c) / a + b / (2 * a) * (b / (2 * a)) := by rw [hdisc]; positivity
  obtain ⟨h0, hs⟩ := hsq _ hnn
  generalize hS : sqrt ((y - c) / a + b / (2 * a) * (b / (2 * a))) = S at h0 hs
  refine ⟨-S - b / (2 * a), S - b / (2 * a), ?_, by linarith, ?_⟩
  · rw [solveSquare, if_pos ha, div?, if_neg h2a]
    simp only [Outcome.bind_ok]
    rw [div?, if_neg ha]
    simp only [Outcome.bind_ok]
    rw [if_neg (not_lt.mpr hnn), hS]
    rfl
  · intro x
    have key : a * x ^ 2 + b * x + c - y = a * ((x - (-S - b / (2 * a))) * (x - (S - b / (2 * a)))) := by
      have : (x - (-S - b / (2 * a))) * (x - (S - b / (2 * a))) = (x + b / (2 * a)) ^ 2 - S * S := by ring
      rw [this, hs]
      field_simp
      ring
    rw [← sub_eq_zero, key, mul_eq_zero, mul_eq_zero, sub_eq_zero, sub_eq_zero]
    simp [ha]

/-- **C93 (no solution).** With a negative discriminant there is no solution, and the results are not numbers. -/
theorem C93_none (sqrt : K → K) (a b c y : K) (ha : a ≠ 0) (hd : b ^ 2 - 4 * a * (c - y) < 0) :
    solveSquare sqrt a b c y = .throw .notFinite ∧ ∀ x, a * x ^ 2 + b * x + c ≠ y := by
  have h2a : 2 * a ≠ 0 := mul_ne_zero two_ne_zero ha
  have hdisc : (y - c) / a + b / (2 * a) * (b / (2 * a)) = (b ^ 2 - 4 * a * (c - y)) / (2 * a) ^ 2 := by field_simp; ring
  have hneg : (y - c) / a + b / (2 * a) * (b / (2 * a)) < 0 := by
    rw [hdisc]
    exact div_neg_of_neg_of_pos hd (by positivity)
  constructor
  · rw [solveSquare, if_pos ha, div?, if_neg h2a]
    simp only [Outcome.bind_ok]
    rw [div?, if_neg ha]
    simp only [Outcome.bind_ok]
    rw [if_pos hneg]
  · intro x hx
    have : (2 * a * x + b) ^ 2 = b ^ 2 - 4 * a * (c - y) := by rw [← hx]; ring
    have := sq_nonneg (2 * a * x + b)
    linarith

/-- **C93 (linear).** Without the leading coefficient both results are the solution; if the equation has no `x` at all it is refused. -/
theorem C93_linear (sqrt : K → K) (b c y : K) :
    (b ≠ 0 → ∃ x1, solveSquare sqrt 0 b c y = .ok (x1, x1) ∧ ∀ x, 0 * x ^ 2 + b * x + c = y ↔ x = x1) ∧ solveSquare sqrt 0 0 c y = .throw .elements := by
  constructor
  · intro hb
    refine ⟨(y - c) / b, ?_, ?_⟩
    · rw [solveSquare, if_neg (by simp), if_pos hb, div?, if_neg hb]
      rfl
    · intro x
      rw [eq_div_iff hb]
      constructor
      · intro h; rw [← h]; ring
      · intro h; rw [zero_mul, zero_add, mul_comm b x, h]; ring
  · rw [solveSquare, if_neg (by simp), if_neg (by simp)]

/-! ## Discrete densities -/

/-- The sum of the first `n` elements. -/
def Spec.firstSum (l : List K) (n : Nat) : K := (l.take n).sum

theorem sumLoop_get (s : K) (ps : List K) (i : Nat) (hi : i < ps.length) : (sumLoop s ps)[i]? = some (s + (ps.take (i + 1)).sum) := by
  induction ps generalizing s i with
  | nil => cases hi
  | cons p ps ih =>
    cases i with
    | zero => simp [sumLoop]
    | succ i =>
      rw [sumLoop, List.getElem?_cons_succ, ih _ _ (by simpa using hi)]
      simp [add_assoc]

theorem length_sumLoop (s : K) (ps : List K) : (sumLoop s ps).length = ps.length := by
  induction ps generalizing s with
  | nil => rfl
  | cons p ps ih => simp [sumLoop, ih]

/-- **C38 (discrete).** For non-negative weights with a positive sum, and every `p` from 0 to 1, the result is the first knot up to which the weights add up to
at least `p` times their sum. -/
theorem C38_discrete {D : Type} (knots : List D) (pdf : List K) (hl : knots.length = pdf.length) (hpos : ∀ v ∈ pdf, 0 ≤ v) (hsum : 0 < pdf.sum) (p : K)
    (hp0 : 0 ≤ p) (hp1 : p ≤ 1) :
    ∃ (cdf : List K) (i : Nat) (d : D), mkDiscrete pdf = .ok cdf ∧ discreteCall knots cdf p = .ok d ∧ knots[i]? = some d ∧
      p * pdf.sum ≤ Spec.firstSum pdf (i + 1) ∧ ∀ j < i, Spec.firstSum pdf (j + 1) < p * pdf.sum := by
  cases pdf with
  | nil => simp at hsum
  | cons p0 ps =>
    have hc : ∀ i < ps.length + 1, (p0 :: sumLoop p0 ps)[i]? = some (Spec.firstSum (p0 :: ps) (i + 1)) := by
      intro i hi
      cases i with
      | zero => simp [Spec.firstSum]
      | succ i => rw [List.getElem?_cons_succ, sumLoop_get p0 ps i (by omega), Spec.firstSum]; simp
    have hlast : (p0 :: sumLoop p0 ps).getLastD 0 = (p0 :: ps).sum := by
      rw [List.getLastD_eq_getLast?, List.getLast?_eq_getElem?, List.length_cons, length_sumLoop, Nat.add_sub_cancel, hc _ (by omega), Spec.firstSum, List.take_of_length_le (by simp)]
      rfl
    have hmk : mkDiscrete (p0 :: ps) = .ok ((p0 :: sumLoop p0 ps).map fun v => v / (p0 :: ps).sum) := by
      rw [mkDiscrete]
      simp only [hlast]
      rw [if_neg (ne_of_gt hsum)]
    let cdf := (p0 :: sumLoop p0 ps).map fun v => v / (p0 :: ps).sum
    have hlen : cdf.length = ps.length + 1 := by simp [cdf, length_sumLoop]
    have hcd : ∀ i < ps.length + 1, cdf[i]? = some (Spec.firstSum (p0 :: ps) (i + 1) / (p0 :: ps).sum) := by
      intro i hi
      simp only [cdf]
      rw [List.getElem?_map, hc i hi]
      rfl
    obtain ⟨t1, t2, t3⟩ := takeWhile_length_spec (fun c => decide (c < p)) cdf
    generalize hk : (cdf.takeWhile fun c => decide (c < p)).length = k at t1 t2 t3
    have hkn : k < ps.length + 1 := by
      rcases Nat.eq_or_lt_of_le t3 with h | h
      · have := t1 ps.length _ (by omega) (hcd _ (by omega))
        rw [Spec.firstSum, List.take_of_length_le (by simp), div_self (ne_of_gt hsum)] at this
        simp at this
        linarith
      · omega
    have hkk : k < knots.length := by rw [hl]; simpa using hkn
    refine ⟨cdf, k, knots[k], hmk, ?_, List.getElem?_eq_getElem hkk, ?_, ?_⟩
    · rw [discreteCall, if_neg (by push Not; exact ⟨hp0, hp1⟩), hk, List.getElem?_eq_getElem hkk]
    · have := t2 _ (hcd k hkn)
      simp only [decide_eq_false_iff_not, not_lt] at this
      exact (le_div_iff₀ hsum).mp this
    · intro j hj
      have := t1 j _ hj (hcd j (by omega))
      simp only [decide_eq_true_eq] at this
      exact (div_lt_iff₀ hsum).mp this

end

end

/-! ## The real numbers -/

theorem Spec.isSqrt_real : Spec.IsSqrt Real.sqrt := fun x hx => ⟨Real.sqrt_nonneg x, Real.mul_self_sqrt hx⟩

/-- The linear interpolation of the density. -/
noncomputable def Spec.lin : List (ℝ × ℝ) → ℝ → ℝ
  | p :: q :: l, t => if t ≤ q.1 then Spec.density p q t else Spec.lin (q :: l) t
  | _, _ => 0

open MeasureTheory in
/-- The area of the specification is the integral of the interpolated density. -/
theorem C38_mass_integral (p : ℝ × ℝ) (l : List (ℝ × ℝ)) (hs : ((p :: l).map Prod.fst).Pairwise (· ≤ ·)) (x : ℝ) (hx : p.1 ≤ x) :
    IntervalIntegrable (Spec.lin (p :: l)) volume p.1 x ∧ Spec.mass (p :: l) x = ∫ t in p.1..x, Spec.lin (p :: l) t := by
  induction l generalizing p with
  | nil =>
    have : Spec.lin [p] = fun _ => 0 := by funext t; simp [Spec.lin]
    rw [this]
    simp [Spec.mass]
  | cons q l ih =>
    have hs' : ((q :: l).map Prod.fst).Pairwise (· ≤ ·) := by simp only [List.map_cons, List.pairwise_cons] at hs ⊢; exact hs.2
    have hpq : p.1 ≤ q.1 := by
      simp only [List.map_cons, List.pairwise_cons] at hs
      exact hs.1 _ List.mem_cons_self
    have hcont : Continuous (Spec.density p q) := by unfold Spec.density; fun_prop
    have hint : ∀ y, ∫ t in p.1..y, Spec.density p q t = Spec.part p q y := by
      intro y
      have hd : ∀ t, HasDerivAt (fun t => Spec.part p q t) (Spec.density p q t) t := by
        intro t
        have h1 : HasDerivAt (fun t : ℝ => t - p.1) 1 t := (hasDerivAt_id t).sub_const _
        have h2 : HasDerivAt (fun t : ℝ => (t - p.1) * (p.2 + (p.2 + (q.2 - p.2) / (q.1 - p.1) * (t - p.1))) / 2)
            ((1 * (p.2 + (p.2 + (q.2 - p.2) / (q.1 - p.1) * (t - p.1))) + (t - p.1) * ((q.2 - p.2) / (q.1 - p.1) * 1)) / 2) t :=
          (h1.mul (((h1.const_mul _).const_add _).const_add _)).div_const _
        refine h2.congr_deriv ?_
        simp only [Spec.density]
        ring
      rw [intervalIntegral.integral_eq_sub_of_hasDerivAt (fun t _ => hd t) (hcont.intervalIntegrable _ _), part_begin, sub_zero]
    have heq : ∀ y, y ≤ q.1 → p.1 ≤ y → Set.EqOn (Spec.lin (p :: q :: l)) (Spec.density p q) (Set.uIcc p.1 y) := by
      intro y hy hpy t ht
      rw [Set.uIcc_of_le hpy] at ht
      rw [Spec.lin, if_pos (ht.2.trans hy)]
    have hii : ∀ y, y ≤ q.1 → p.1 ≤ y → IntervalIntegrable (Spec.lin (p :: q :: l)) volume p.1 y := by
      intro y hy hpy
      refine (hcont.intervalIntegrable p.1 y).congr ?_
      intro t ht
      exact (heq y hy hpy (Set.uIoc_subset_uIcc ht)).symm
    by_cases hxq : x ≤ q.1
    · refine ⟨hii x hxq hx, ?_⟩
      rw [Spec.mass, if_pos hxq, intervalIntegral.integral_congr (heq x hxq hx), hint]
    · have hqx := le_of_lt (not_le.mp hxq)
      obtain ⟨ih1, ih2⟩ := ih q hs' hqx
      have hcg : Set.EqOn (Spec.lin (q :: l)) (Spec.lin (p :: q :: l)) (Set.uIoc q.1 x) := by
        intro t ht
        rw [Set.uIoc_of_le hqx] at ht
        conv_rhs => rw [Spec.lin, if_neg (not_le.mpr ht.1)]
      have h2 : IntervalIntegrable (Spec.lin (p :: q :: l)) volume q.1 x := ih1.congr hcg
      refine ⟨(hii q.1 (le_refl _) hpq).trans h2, ?_⟩
      rw [Spec.mass, if_neg hxq, ← intervalIntegral.integral_add_adjacent_intervals (hii q.1 (le_refl _) hpq) h2,
        intervalIntegral.integral_congr (heq q.1 (le_refl _) hpq), hint, ih2]
      congr 1
      exact intervalIntegral.integral_congr_ae (Filter.Eventually.of_forall fun t ht => hcg ht)

/-- The full statement: the result itself is within the knots and has `p` times the total area below it. -/
def C38_full : Prop :=
  ∀ (knots pdf : List ℝ) (first last p : ℝ), knots.length = pdf.length → knots.head? = some first → knots.getLast? = some last →
    knots.Pairwise (· ≤ ·) → (∀ v ∈ pdf, 0 ≤ v) → 0 ≤ p → p ≤ 1 →
    ∃ I r, mkInverse knots pdf = .ok I ∧ inverseCall Real.sqrt I p = .ok r ∧ first ≤ r ∧ r ≤ last ∧
      Spec.mass (knots.zip pdf) r = p * Spec.total (knots.zip pdf)

/-- **C38 (violated).** For the density that rises from 0 to 1 between the knots 0 and `1e-9`, a quarter of the area is found at `-0.5e-9`, before the
first knot. -/
theorem C38_violated : ¬ C38_full := by
  intro h
  obtain ⟨I, r, h1, h2, h3, -⟩ := h [0, 1 / 1000000000] [0, 1] 0 (1 / 1000000000) (1 / 4) rfl rfl rfl (by simp) (by simp) (by norm_num) (by norm_num)
  have hI : mkInverse [(0 : ℝ), 1 / 1000000000] [0, 1] = .ok ⟨[0, 1 / 1000000000], [0, 1], [0, 1 / 2000000000]⟩ := by
    rw [mkInverse, if_neg (by simp [knotsOk])]
    simp only [cdfLoop, Outcome.bind_ok, Outcome.pure_eq]
    have : trailing ([0, (1 / 1000000000 - 0) * (1 + 0) / 2 + 0].reverse : List ℝ) = 0 := by
      simp only [List.reverse_cons, List.reverse_nil, List.nil_append, List.cons_append, trailing]
      rw [if_neg (by norm_num)]
    simp only [this]
    norm_num
  rw [hI] at h1
  cases h1
  have hcall : inverseCall Real.sqrt ⟨[0, 1 / 1000000000], [0, 1], [0, 1 / 2000000000]⟩ (1 / 4) = .ok (-(1 / 2000000000)) := by
    rw [inverseCall, if_neg (by norm_num)]
    simp only [List.head?_cons, List.getLast?_cons_cons, List.getLast?_singleton]
    rw [if_neg (by norm_num), if_neg (by norm_num)]
    have hi : ([0, 1 / 2000000000] : List ℝ).takeWhile (fun c => decide (c ≤ 1 / 4 * (1 / 2000000000 - 0) + 0)) = [0] := by
      rw [List.takeWhile_cons_of_pos (by norm_num), List.takeWhile_cons_of_neg (by norm_num)]
    rw [hi]
    simp only [List.length_cons, List.length_nil, List.getElem?_cons_zero, List.getElem?_cons_succ, Nat.zero_add, Nat.sub_self]
    rw [inverseSegment, if_neg (by norm_num), if_neg (by norm_num), div?, if_neg (by norm_num)]
    simp only [Outcome.bind_ok]
    rw [solveSquare, if_pos (by norm_num), div?, if_neg (by norm_num), div?, if_neg (by norm_num)]
    simp only [Outcome.bind_ok]
    rw [if_neg (by norm_num)]
    have hsq : Real.sqrt ((1 / 4 * (1 / 2000000000 - 0) + 0 - (0 - (1 - 0) / (1 / 1000000000 - 0) / 2 * (0 * 0) - (0 - (1 - 0) / (1 / 1000000000 - 0) * 0) * 0)) /
        ((1 - 0) / (1 / 1000000000 - 0) / 2) + (0 - (1 - 0) / (1 / 1000000000 - 0) * 0) / (2 * ((1 - 0) / (1 / 1000000000 - 0) / 2)) *
        ((0 - (1 - 0) / (1 / 1000000000 - 0) * 0) / (2 * ((1 - 0) / (1 / 1000000000 - 0) / 2)))) = 1 / 2000000000 := by
      rw [Real.sqrt_eq_iff_mul_self_eq (by norm_num) (by norm_num)]
      norm_num
    rw [hsq]
    simp only [Outcome.pure_eq, Outcome.bind_ok]
    rw [if_pos (by unfold tol; norm_num)]
    norm_num
  rw [hcall] at h2
  cases h2
  norm_num at h3

/-- **C38 (size check).** The check of the sizes does nothing: fewer knots than densities are read out of bounds. -/
theorem C38_sizes_violated : mkInverse ([0, 1] : List ℚ) [1, 1, 1] = .ub := by
  decide +kernel

/-- **C38 (plateau).** The header promises the first value that reaches `p`; over a stretch without probability the code returns its end: with densities 1, 0, 0, 1 at 0,
1, 2, 3 one half is reached at 1, the result is 2. -/
theorem C38_plateau_violated (sqrt : ℚ → ℚ) : ∃ I, mkInverse ([0, 1, 2, 3] : List ℚ) [1, 0, 0, 1] = .ok I ∧
    inverseCall sqrt I (1 / 2) = .ok 2 ∧ Spec.mass ([0, 1, 2, 3].zip [1, 0, 0, (1 : ℚ)]) 1 = 1 / 2 * Spec.total ([0, 1, 2, 3].zip [1, 0, 0, (1 : ℚ)]) := by
  refine ⟨⟨[0, 1, 2, 3], [1, 0, 0, 1], [1, 3 / 2, 3 / 2, 2]⟩, by decide +kernel, ?_, by decide +kernel⟩
  rw [inverseCall, if_neg (by norm_num)]
  simp only [List.head?_cons, List.getLast?_cons_cons, List.getLast?_singleton]
  rw [if_neg (by norm_num), if_neg (by norm_num)]
  have hi : ([1, 3 / 2, 3 / 2, 2] : List ℚ).takeWhile (fun c => decide (c ≤ 1 / 2 * (2 - 1) + 1)) = [1, 3 / 2, 3 / 2] := by decide +kernel
  rw [hi]
  simp only [List.length_cons, List.length_nil, List.getElem?_cons_zero, List.getElem?_cons_succ, Nat.zero_add, Nat.reduceAdd, Nat.reduceSub]
  rw [inverseSegment, if_neg (by norm_num), if_pos (by norm_num)]

/-- A density with a plateau and both kinds of slopes. -/
example : (([0, 1, 2, 4] : List ℝ).Pairwise (· ≤ ·)) ∧ (∀ v ∈ ([1, 2, 2, 0] : List ℝ), 0 ≤ v) ∧
    Spec.total ([0, 1, 2, 4].zip [1, 2, 2, (0 : ℚ)]) = 11 / 2 ∧ Spec.mass ([0, 1, 2, 4].zip [1, 2, 2, (0 : ℚ)]) 3 = 5 := by
  refine ⟨by norm_num, by norm_num, by decide +kernel, by decide +kernel⟩

example : ∃ x1 x2, solveSquare Real.sqrt 1 (-3) 2 0 = .ok (x1, x2) ∧ x1 ≤ x2 ∧ ∀ x, 1 * x ^ 2 + -3 * x + 2 = 0 ↔ x = x1 ∨ x = x2 :=
  C93_quadratic _ Spec.isSqrt_real _ _ _ _ one_ne_zero (by norm_num)

/-- Weights 1, 0, 3: half of the sum is reached at the third knot. -/
example : ∃ cdf, mkDiscrete ([1, 0, 3] : List ℚ) = .ok cdf ∧ discreteCall ["a", "b", "c"] cdf (1 / 2) = .ok "c" ∧
    discreteCall ["a", "b", "c"] cdf (1 / 4) = .ok "a" := ⟨[1 / 4, 1 / 4, 1], by decide +kernel, by decide +kernel, by decide +kernel⟩

end Alexandria.MathUtils
