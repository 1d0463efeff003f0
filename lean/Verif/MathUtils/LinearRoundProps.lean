import Verif.MathUtils.LinearRoundModel
import Verif.MathUtils.SimpleProps
import Verif.Common.Binary
import Mathlib.Tactic.Ring
import Mathlib.Tactic.NormNum
import Mathlib.Tactic.Positivity

/-! # Linear interpolation with rounding (C123) -/

namespace Alexandria.MathUtils

section
variable {K : Type} [Field K] [LinearOrder K] [IsStrictOrderedRing K] (R : Rounding K)

/-! ## Lemmas -/

theorem length_machinePieces (pts : List (K × K)) : (machinePieces R pts).length = pts.length - 1 := by
  induction pts with
  | nil => rfl
  | cons p l ih => cases l with
    | nil => rfl
    | cons q l => rw [machinePieces]; simp only [List.length_cons] at ih ⊢; omega

theorem machinePieces_get (pts : List (K × K)) : ∀ (i : Nat) (p q : K × K), pts[i]? = some p → pts[i + 1]? = some q →
    (machinePieces R pts)[i]? = some (machinePiece R p q) := by
  induction pts with
  | nil => intro i p q h; cases h
  | cons a l ih => cases l with
    | nil => intro i p q _ h; simp at h
    | cons b l =>
      intro i p q hp hq
      rw [machinePieces]
      cases i with
      | zero => simp at hp hq ⊢; rw [hp, hq]
      | succ i => simpa using ih i p q (by simpa using hp) (by simpa using hq)

/-- The slope as it is calculated. -/
def roundedSlope (p q : K × K) : K := R.rnd (R.rnd (q.2 - p.2) / R.rnd (q.1 - p.1))

/-- The ordinate at zero as it is calculated. -/
def roundedOffset (p q : K × K) : K := R.rnd (p.2 - R.rnd (roundedSlope R p q * p.1))

theorem machineCoefs_ok {p q : K × K} (h : 0 < R.rnd (q.1 - p.1)) : machineCoefs R p q = .ok (roundedOffset R p q, roundedSlope R p q) := by
  rw [machineCoefs, div?, if_neg (ne_of_gt h)]
  rfl

theorem machinePiece_eval {p q : K × K} (half : R.rnd (1 / 2) = 1 / 2) (h : 0 < R.rnd (q.1 - p.1)) (t : K) :
    eval (machinePiece R p q) t = .ok (R.rnd (roundedOffset R p q + R.rnd (roundedSlope R p q * R.rnd t))) := by
  have h0 : R.rnd (roundedOffset R p q) = roundedOffset R p q := R.idem _
  rw [machinePiece, machineCoefs_ok R h]
  simp only [eval, machinePolyEval, machinePolyLoop, mul_one, one_mul, zero_add]
  rw [h0, h0]

theorem machineLinear_eval (lo hi : K) (x y : List K) (e : Bool) (hl : x.length = y.length) (hs : x.Pairwise (· < ·)) (hn : 2 ≤ x.length)
    (hb : e = true → ∀ a ∈ x, lo ≤ a ∧ a ≤ hi) :
    ∃ F, machineLinear R lo hi x y e = .ok F ∧ (∀ i p q, (x.zip y)[i]? = some p → (x.zip y)[i + 1]? = some q →
      ∀ t, Spec.Inside lo hi e x.length i p q t → eval F t = eval (machinePiece R p q) t) ∧
      (e = false → ∀ t, ((∀ a ∈ x, t < a) ∨ ∀ a ∈ x, a < t) → eval F t = .ok 0) := by
  have hz : x = (x.zip y).map Prod.fst := by rw [List.map_fst_zip (le_of_eq hl)]
  have hlen : (x.zip y).length = x.length := by rw [List.length_zip]; omega
  have hs0 : (x.zip y).Pairwise (fun a b => a.1 < b.1) := by
    rw [← List.pairwise_map (f := Prod.fst) (R := (· < ·)), ← hz]; exact hs
  have hdis : Spec.distinct (x.zip y) = x.zip y := destutter_ne_sorted _ hs0
  rw [machineLinear, if_neg (not_not.mpr hl)]
  cases hc : x.zip y with
  | nil => rw [hc] at hlen; simp at hlen; omega
  | cons p l =>
    rw [hc] at hdis hs0 hlen
    obtain ⟨r, hr, hd⟩ := dedup_sorted l p (hs0.imp fun h => le_of_lt h)
    have hd' : p :: r = p :: l := by rw [hd]; exact hdis
    have hln : l ≠ [] := by
      rintro rfl
      simp at hlen
      omega
    simp only
    rw [if_neg (by rintro ⟨h, _⟩; exact hln h), hr, Outcome.bind_ok, hd', ← hc, ← hz]
    have hx0 : ∃ a, a ∈ x := List.exists_mem_of_length_pos (by omega)
    have hmk : mkPiecewise (finalKnots lo hi e x) (machinePieces R (x.zip y)) = .ok _ := (C32_constructor _ _).1 ⟨by
      rw [length_finalKnots, length_machinePieces, hc, hlen]; omega, sorted_finalKnots (hs.imp fun h => le_of_lt h) (fun he => ⟨by
        obtain ⟨a, ha⟩ := hx0
        exact (hb he a ha).1.trans (hb he a ha).2, hb he⟩)⟩
    refine ⟨_, hmk, ?_, ?_⟩
    · intro i a b ha hb' t ht
      have hab : a.1 < b.1 := by
        rw [hc] at ha hb'
        obtain ⟨h1, rfl⟩ := List.getElem?_eq_some_iff.mp ha
        obtain ⟨h2, rfl⟩ := List.getElem?_eq_some_iff.mp hb'
        exact List.pairwise_iff_getElem.mp hs0 i (i + 1) h1 h2 (Nat.lt_succ_self i)
      exact finalKnots_eval (pts := x.zip y) (by rw [List.map_fst_zip (le_of_eq hl)]; exact hmk) ha hb' hab (machinePieces_get R _ i a b ha hb') (by
        rw [hc, hlen]; exact ht)
    · rintro rfl t ht
      exact (C32_eval _ _ _ hmk t).2 ht

theorem rounded_mul_mono {c s t : K} (hc : 0 ≤ c) (h : s ≤ t) : R.rnd (c * R.rnd s) ≤ R.rnd (c * R.rnd t) :=
  R.mono _ _ (mul_le_mul_of_nonneg_left (R.mono _ _ h) hc)

theorem rounded_mul_anti {c s t : K} (hc : c ≤ 0) (h : s ≤ t) : R.rnd (c * R.rnd t) ≤ R.rnd (c * R.rnd s) :=
  R.mono _ _ (mul_le_mul_of_nonpos_left (R.mono _ _ h) hc)

theorem roundedSlope_nonneg {p q : K × K} (h : 0 < R.rnd (q.1 - p.1)) (hy : p.2 ≤ q.2) : 0 ≤ roundedSlope R p q :=
  R.nonneg (div_nonneg (R.nonneg (sub_nonneg.mpr hy)) h.le)

theorem roundedSlope_nonpos {p q : K × K} (h : 0 < R.rnd (q.1 - p.1)) (hy : q.2 ≤ p.2) : roundedSlope R p q ≤ 0 :=
  R.le_fix (div_nonpos_of_nonpos_of_nonneg (R.le_fix (sub_nonpos.mpr hy) R.zero) h.le) R.zero

theorem machineSimple_eq {x : K} {xp yp : List K} {e : Bool} (hl : xp.length = yp.length) (hn : 2 ≤ xp.length) :
    machineSimple R x xp yp e =
      (let i := (xp.takeWhile (· ≤ x)).length
      if i = 0 ∧ !e ∧ x < xp.headD 0 then .ok 0
      else
        let i := if i = 0 then 1 else i
        if i = xp.length ∧ !e ∧ xp.getLastD 0 < x then .ok 0
        else
          let i := if i = xp.length then i - 1 else i
          match xp[i]?, xp[i - 1]?, yp[i]?, yp[i - 1]? with
          | some x1, some x0, some y1, some y0 => machineLineThrough R x x1 x0 y1 y0
          | _, _, _, _ => .ub) := by
  unfold machineSimple
  rw [if_neg (by rintro rfl; simp at hn), if_neg (not_not.mpr hl)]
  match xp, yp, hl, hn with
  | [_], _, _, hn => simp at hn
  | _ :: _ :: _, [], hl, _ => simp at hl
  | _ :: _ :: _, [_], hl, _ => simp at hl
  | _ :: _ :: _, _ :: _ :: _, _, _ => rfl

theorem machineLineThrough_eq (half : R.rnd (1 / 2) = 1 / 2) {a b a' b' t : K} (h : a < a') (pos : 0 < R.rnd (a' - a)) (ht : R.rnd t = t) :
    machineLineThrough R t a' a b' b = eval (machinePiece R (a, b) (a', b')) t := by
  rw [machinePiece_eval R half pos, machineLineThrough, if_neg (ne_of_gt h), machineCoefs_ok R pos, ht]
  rfl

/-- Where an argument can be with respect to increasing abscissae. -/
theorem find_segment {x : List K} {t a z : K} {n : Nat} (hn : n + 2 = x.length) (ha : x[0]? = some a) (hz : x[n + 1]? = some z) :
    t < a ∨ z ≤ t ∨ ∃ (i : Nat) (c c' : K), x[i]? = some c ∧ x[i + 1]? = some c' ∧ c ≤ t ∧ t < c' := by
  by_cases h1 : t < a
  · exact Or.inl h1
  by_cases h2 : z ≤ t
  · exact Or.inr (Or.inl h2)
  refine Or.inr (Or.inr ?_)
  have key : ∀ k : Nat, k ≤ n + 1 → (∃ (i : Nat) (c c' : K), x[i]? = some c ∧ x[i + 1]? = some c' ∧ c ≤ t ∧ t < c') ∨ ∃ c, x[k]? = some c ∧ c ≤ t := by
    intro k
    induction k with
    | zero => intro _; exact Or.inr ⟨a, ha, not_lt.mp h1⟩
    | succ k ih =>
      intro hk
      rcases ih (by omega) with h | ⟨c, hc, hct⟩
      · exact Or.inl h
      · have hg : x[k + 1]? = some (x[k + 1]'(by omega)) := List.getElem?_eq_getElem (by omega)
        by_cases h3 : x[k + 1]'(by omega) ≤ t
        · exact Or.inr ⟨_, hg, h3⟩
        · exact Or.inl ⟨k, c, _, hc, hg, hct, not_le.mp h3⟩
  rcases key (n + 1) (le_refl _) with h | ⟨c, hc, hct⟩
  · exact h
  · rw [hz] at hc
    cases hc
    exact absurd hct h2

/-! ## Theorems -/

/-- **C123 (monotone on each piece).** However the operations are rounded, on the piece between two neighbouring points the values rise with the argument if the second ordinate is
not less than the first, and fall if it is not greater; between equal ordinates the value is theirs exactly. Without extrapolation the value is zero outside. -/
theorem C123_monotone_partial (half : R.rnd (1 / 2) = 1 / 2) (pos : ∀ v, 0 < v → 0 < R.rnd v) (lo hi : K) (x y : List K) (e : Bool) (hl : x.length = y.length)
    (hs : x.Pairwise (· < ·)) (hn : 2 ≤ x.length) (hb : e = true → ∀ a ∈ x, lo ≤ a ∧ a ≤ hi) (hfix : ∀ v ∈ y, R.rnd v = v) :
    ∃ F, machineLinear R lo hi x y e = .ok F ∧
      (∀ i a b a' b', (x.zip y)[i]? = some (a, b) → (x.zip y)[i + 1]? = some (a', b') → ∀ s t, s ≤ t → Spec.Inside lo hi e x.length i (a, b) (a', b') s →
        Spec.Inside lo hi e x.length i (a, b) (a', b') t → ∃ v w, eval F s = .ok v ∧ eval F t = .ok w ∧ (b ≤ b' → v ≤ w) ∧ (b' ≤ b → w ≤ v) ∧ (b = b' → v = b)) ∧
      (e = false → ∀ t, ((∀ a ∈ x, t < a) ∨ ∀ a ∈ x, a < t) → eval F t = .ok 0) := by
  obtain ⟨F, hF, hseg, hout⟩ := machineLinear_eval R lo hi x y e hl hs hn hb
  refine ⟨F, hF, ?_, hout⟩
  intro i a b a' b' hp hq s t hst h1 h2
  have hab : 0 < a' - a := by
    obtain ⟨ha, -⟩ := List.getElem?_zip_eq_some.mp hp
    obtain ⟨ha', -⟩ := List.getElem?_zip_eq_some.mp hq
    obtain ⟨g1, rfl⟩ := List.getElem?_eq_some_iff.mp ha
    obtain ⟨g2, rfl⟩ := List.getElem?_eq_some_iff.mp ha'
    exact sub_pos.mpr (List.pairwise_iff_getElem.mp hs i (i + 1) g1 g2 (Nat.lt_succ_self i))
  have hd := pos _ hab
  have hbf : R.rnd b = b := hfix b (List.mem_of_getElem? (List.getElem?_zip_eq_some.mp hp).2)
  refine ⟨_, _, (hseg i _ _ hp hq s h1).trans (machinePiece_eval R half hd s), (hseg i _ _ hp hq t h2).trans (machinePiece_eval R half hd t), ?_, ?_, ?_⟩
  · intro hy
    exact R.mono _ _ (add_le_add_right (rounded_mul_mono R (roundedSlope_nonneg R (p := (a, b)) (q := (a', b')) hd hy) hst) _)
  · intro hy
    exact R.mono _ _ (add_le_add_right (rounded_mul_anti R (roundedSlope_nonpos R (p := (a, b)) (q := (a', b')) hd hy) hst) _)
  · rintro rfl
    have hsl : roundedSlope R (a, b) (a', b) = 0 := by simp [roundedSlope, R.zero]
    rw [roundedOffset, hsl, zero_mul, zero_mul, R.zero, sub_zero, hbf, add_zero, hbf]

/-- **C123 (the two functions agree).** For an argument that is none of the inner abscissae `simple_interpolation` and the function of `interpolate` give the same number. -/
theorem C123_simple_partial (half : R.rnd (1 / 2) = 1 / 2) (pos : ∀ v, 0 < v → 0 < R.rnd v) (lo hi : K) (x y : List K) (e : Bool) (hl : x.length = y.length)
    (hs : x.Pairwise (· < ·)) (hn : 2 ≤ x.length) (hb : e = true → ∀ a ∈ x, lo ≤ a ∧ a ≤ hi) :
    ∃ F, machineLinear R lo hi x y e = .ok F ∧ ∀ t, R.rnd t = t → (e = true → lo ≤ t ∧ t ≤ hi) → (∀ j, 0 < j → j + 1 < x.length → x[j]? ≠ some t) →
      machineSimple R t x y e = eval F t ∧ ∃ v, eval F t = .ok v := by
  obtain ⟨F, hF, hseg, hout⟩ := machineLinear_eval R lo hi x y e hl hs hn hb
  refine ⟨F, hF, ?_⟩
  intro t ht htb hk
  obtain ⟨n, hn2⟩ : ∃ n, n + 2 = x.length := ⟨x.length - 2, by omega⟩
  have hs' : x.Pairwise (· ≤ ·) := hs.imp fun h => le_of_lt h
  have inc : ∀ (i : Nat) a a', x[i]? = some a → x[i + 1]? = some a' → a < a' := by
    intro i a a' ha ha'
    obtain ⟨g1, rfl⟩ := List.getElem?_eq_some_iff.mp ha
    obtain ⟨g2, rfl⟩ := List.getElem?_eq_some_iff.mp ha'
    exact List.pairwise_iff_getElem.mp hs i (i + 1) g1 g2 (Nat.lt_succ_self i)
  have gx : ∀ i (h : i < x.length), x[i]? = some x[i] := fun i h => List.getElem?_eq_getElem h
  have gy : ∀ i (h : i < x.length), y[i]? = some (y[i]'(by omega)) := fun i h => List.getElem?_eq_getElem (by omega)
  have ha := gx 0 (by omega)
  have hz := gx (n + 1) (by omega)
  have hle : ∀ c ∈ x, c ≤ x[n + 1] := by
    intro c hc
    obtain ⟨j, hj, rfl⟩ := List.mem_iff_getElem.mp hc
    exact sorted_get hs' (by omega) (List.getElem?_eq_getElem hj) hz
  have hge : ∀ c ∈ x, x[0] ≤ c := by
    intro c hc
    obtain ⟨j, hj, rfl⟩ := List.mem_iff_getElem.mp hc
    exact sorted_get hs' (Nat.zero_le j) ha (List.getElem?_eq_getElem hj)
  have key : ∀ (i : Nat) a b a' b', x[i]? = some a → y[i]? = some b → x[i + 1]? = some a' → y[i + 1]? = some b' →
      Spec.Inside lo hi e x.length i (a, b) (a', b') t → machineLineThrough R t a' a b' b = eval F t ∧ ∃ v, eval F t = .ok v := by
    intro i a b a' b' h1 h2 h3 h4 hin
    have hlt := inc i a a' h1 h3
    have hp := pos _ (sub_pos.mpr hlt)
    rw [hseg i (a, b) (a', b') (List.getElem?_zip_eq_some.mpr ⟨h1, h2⟩) (List.getElem?_zip_eq_some.mpr ⟨h3, h4⟩) t hin]
    exact ⟨machineLineThrough_eq R half hlt hp ht, _, machinePiece_eval R half hp t⟩
  rw [machineSimple_eq R hl hn]
  rcases find_segment (t := t) hn2 ha hz with h1 | h1 | ⟨i, c, c', hc, hc', h1, h2⟩
  · simp only
    rw [upper_zero ha h1]
    cases e with
    | false =>
      rw [if_pos ⟨rfl, rfl, by rw [headD_get ha]; exact h1⟩, hout rfl t (Or.inl fun a hax => lt_of_lt_of_le h1 (hge a hax))]
      exact ⟨rfl, _, rfl⟩
    | true =>
      rw [if_neg (by simp), if_pos rfl, if_neg (by simp), if_neg (by omega), gx 1 (by omega), gy 1 (by omega)]
      simp only [Nat.sub_self]
      rw [ha, gy 0 (by omega)]
      refine key 0 _ _ _ _ ha (gy 0 (by omega)) (gx 1 (by omega)) (gy 1 (by omega)) ⟨(htb rfl).1, (htb rfl).2, Or.inl rfl, Or.inr ?_⟩
      exact h1.le.trans (inc 0 _ _ ha (gx 1 (by omega))).le
  · have hu := upper_all (xp := x) (x := t) (fun c hc => (hle c hc).trans h1)
    simp only
    rw [hu, if_neg (by omega), if_neg (by omega : ¬ x.length = 0)]
    by_cases hc : !e ∧ x.getLastD 0 < t
    · rw [if_pos ⟨rfl, hc⟩]
      rw [getLastD_get (by omega) hz] at hc
      have he : e = false := by simpa using hc.1
      rw [hout he t (Or.inr fun a hax => lt_of_le_of_lt (hle a hax) hc.2)]
      exact ⟨rfl, _, rfl⟩
    · rw [if_neg (by rintro ⟨_, h⟩; exact hc h), if_pos rfl, show x.length - 1 = n + 1 by omega, hz, gy (n + 1) (by omega), Nat.add_sub_cancel, gx n (by omega), gy n (by omega)]
      refine key n _ _ _ _ (gx n (by omega)) (gy n (by omega)) hz (gy (n + 1) (by omega)) ?_
      have hlt := inc n _ _ (gx n (by omega)) hz
      rw [getLastD_get (by omega) hz] at hc
      cases e with
      | false => exact ⟨Or.inl (lt_of_lt_of_le hlt h1), not_lt.mp fun h => hc ⟨rfl, h⟩⟩
      | true => exact ⟨(htb rfl).1, (htb rfl).2, Or.inr (lt_of_lt_of_le hlt h1), Or.inl hn2⟩
  · have hi := (List.getElem?_eq_some_iff.mp hc').1
    have hu := upper_index hs' hc hc' h1 h2
    simp only
    rw [hu, if_neg (by omega), if_neg (by omega : ¬ i + 1 = 0), if_neg (by omega), if_neg (by omega), hc', gy (i + 1) hi, Nat.add_sub_cancel, hc, gy i (by omega)]
    refine key i _ _ _ _ hc (gy i (by omega)) hc' (gy (i + 1) hi) ?_
    have hor : c < t ∨ i = 0 ∧ t = c := by
      rcases lt_or_eq_of_le h1 with h | h
      · exact Or.inl h
      · refine Or.inr ⟨?_, h.symm⟩
        by_contra h0
        exact hk i (by omega) hi (by rw [hc, h])
    cases e with
    | false => exact ⟨hor, h2.le⟩
    | true => exact ⟨(htb rfl).1, (htb rfl).2, by
        rcases hor with h | h
        · exact Or.inr h
        · exact Or.inl h.1, Or.inr h2.le⟩

end

/-- The error of the slope. -/
theorem slope_error {u M h d r m : ℚ} (hu0 : 0 ≤ u) (hu : u ≤ 1 / 8) (hh : 0 < h) (hd : |d - M * h| ≤ |M * h| * u) (hr : |r - h| ≤ |h| * u)
    (hm : |m - d / r| ≤ |d / r| * u) : |m - M| ≤ 4 * u * |M| := by
  have hrp : 7 / 8 * h ≤ r := by
    rw [abs_of_pos hh] at hr
    have := (abs_le.mp hr).1
    nlinarith
  have hr0 : 0 < r := by linarith
  -- the slope
  have e1 : |d / r - M| ≤ 16 / 7 * u * |M| := by
    have : d / r - M = ((d - M * h) - M * (r - h)) / r := by field_simp; ring
    rw [this, abs_div, abs_of_pos hr0, div_le_iff₀ hr0]
    have h1 : |(d - M * h) - M * (r - h)| ≤ 2 * u * |M| * h := by
      calc |(d - M * h) - M * (r - h)| ≤ |d - M * h| + |M * (r - h)| := abs_sub _ _
        _ ≤ |M * h| * u + |M| * (|h| * u) := by rw [abs_mul M (r - h)]; exact add_le_add hd (mul_le_mul_of_nonneg_left hr (abs_nonneg _))
        _ = 2 * u * |M| * h := by rw [abs_mul, abs_of_pos hh]; ring
    have h2 : 0 ≤ u * |M| := mul_nonneg hu0 (abs_nonneg _)
    nlinarith
  have hM := abs_nonneg M
  have uM : u * |M| ≤ |M| / 8 := by nlinarith
  have e2 : |d / r| ≤ 9 / 7 * |M| := by
    have := abs_sub_abs_le_abs_sub (d / r) M
    linarith
  have h1 : |m - M| ≤ |m - d / r| + |d / r - M| := abs_sub_le _ _ _
  have h2 : |d / r| * u ≤ 9 / 7 * |M| * u := mul_le_mul_of_nonneg_right e2 hu0
  have h3 : 0 ≤ u * |M| := mul_nonneg hu0 hM
  nlinarith

/-- The errors of the operations added up. -/
theorem line_error {u b M a t m q c0 s v : ℚ} (hu0 : 0 ≤ u) (hu : u ≤ 1 / 8) (e3 : |m - M| ≤ 4 * u * |M|)
    (hq : |q - m * a| ≤ |m * a| * u) (hc : |c0 - (b - q)| ≤ |b - q| * u) (hs : |s - m * t| ≤ |m * t| * u)
    (hv : |v - (c0 + s)| ≤ |c0 + s| * u) : |v - (b + M * (t - a))| ≤ u * (3 * |b| + |M| * (10 * |a| + 8 * |t|)) := by
  have hM := abs_nonneg M
  have uM : u * |M| ≤ |M| / 8 := by nlinarith
  have e4 : |m| ≤ 3 / 2 * |M| := by
    have := abs_sub_abs_le_abs_sub m M
    linarith
  have hA : 0 ≤ |M| * |a| := mul_nonneg hM (abs_nonneg _)
  have hT : 0 ≤ |M| * |t| := mul_nonneg hM (abs_nonneg _)
  have hB := abs_nonneg b
  have ma : |m * a| ≤ 3 / 2 * (|M| * |a|) := by
    rw [abs_mul, ← mul_assoc]; exact mul_le_mul_of_nonneg_right e4 (abs_nonneg _)
  have mt : |m * t| ≤ 3 / 2 * (|M| * |t|) := by
    rw [abs_mul, ← mul_assoc]; exact mul_le_mul_of_nonneg_right e4 (abs_nonneg _)
  have last : |(m - M) * (t - a)| ≤ 4 * u * (|M| * |a| + |M| * |t|) := by
    rw [abs_mul]
    calc |m - M| * |t - a| ≤ (4 * u * |M|) * (|t| + |a|) := mul_le_mul e3 (abs_sub _ _) (abs_nonneg _) (by positivity)
      _ = _ := by ring
  have goal : u * (3 * |b| + |M| * (10 * |a| + 8 * |t|)) = 3 * (u * |b|) + 10 * (u * (|M| * |a|)) + 8 * (u * (|M| * |t|)) := by ring
  rw [goal]
  generalize |M| * |a| = A at *
  generalize |M| * |t| = T at *
  have uA : u * A ≤ A / 8 := by nlinarith
  have uB : u * |b| ≤ |b| / 8 := by nlinarith
  have uT : u * T ≤ T / 8 := by nlinarith
  have q1 : |q - m * a| ≤ 3 / 2 * (u * A) := hq.trans (by nlinarith)
  have q2 : |q| ≤ 27 / 16 * A := by
    have := abs_sub_abs_le_abs_sub q (m * a)
    linarith
  have s1 : |s - m * t| ≤ 3 / 2 * (u * T) := hs.trans (by nlinarith)
  have s2 : |s| ≤ 27 / 16 * T := by
    have := abs_sub_abs_le_abs_sub s (m * t)
    linarith
  have bq : |b - q| ≤ |b| + 27 / 16 * A := (abs_sub _ _).trans (by linarith)
  have c1 : |c0 - (b - q)| ≤ u * |b| + 27 / 16 * (u * A) := hc.trans (by nlinarith)
  have c2 : |c0| ≤ 9 / 8 * (|b| + 27 / 16 * A) := by
    have := abs_sub_abs_le_abs_sub c0 (b - q)
    linarith
  have v1 : |v - (c0 + s)| ≤ 9 / 8 * (u * |b|) + 243 / 128 * (u * A) + 27 / 16 * (u * T) := hv.trans (by
    have := abs_add_le c0 s
    nlinarith)
  have split : v - (b + M * (t - a)) = (v - (c0 + s)) + (c0 - (b - q)) - (q - m * a) + (s - m * t) + (m - M) * (t - a) := by ring
  rw [split]
  have uA0 : 0 ≤ u * A := mul_nonneg hu0 hA
  have uB0 : 0 ≤ u * |b| := mul_nonneg hu0 hB
  have uT0 : 0 ≤ u * T := mul_nonneg hu0 hT
  have f1 := abs_add_le ((v - (c0 + s)) + (c0 - (b - q)) - (q - m * a) + (s - m * t)) ((m - M) * (t - a))
  have f2 := abs_add_le ((v - (c0 + s)) + (c0 - (b - q)) - (q - m * a)) (s - m * t)
  have f3 := abs_sub ((v - (c0 + s)) + (c0 - (b - q))) (q - m * a)
  have f4 := abs_add_le (v - (c0 + s)) (c0 - (b - q))
  linarith

/-- **C123 (error).** With `p` bits the value differs from that of the straight line by not more than a few units in the last place of the terms that are added. -/
theorem C123_error (p : Nat) (hp : 3 ≤ p) (lo hi : ℚ) (x y : List ℚ) (e : Bool) (hl : x.length = y.length) (hs : x.Pairwise (· < ·)) (hn : 2 ≤ x.length)
    (hb : e = true → ∀ a ∈ x, lo ≤ a ∧ a ≤ hi) :
    ∃ F, machineLinear (Binary.rounding p (by omega)) lo hi x y e = .ok F ∧
      ∀ i a b a' b', (x.zip y)[i]? = some (a, b) → (x.zip y)[i + 1]? = some (a', b') → ∀ t, Binary.Rep p t → Spec.Inside lo hi e x.length i (a, b) (a', b') t →
        ∃ v, eval F t = .ok v ∧ ∀ w, Spec.OnLine (a, b) (a', b') t w → |v - w| ≤ (1 / 2) ^ p * (3 * |b| + |(b' - b) / (a' - a)| * (10 * |a| + 8 * |t|)) := by
  obtain ⟨F, hF, hseg, -⟩ := machineLinear_eval (Binary.rounding p (by omega)) lo hi x y e hl hs hn hb
  refine ⟨F, hF, ?_⟩
  intro i a b a' b' hpq hq t ht h1
  have hab : 0 < a' - a := by
    obtain ⟨ha, -⟩ := List.getElem?_zip_eq_some.mp hpq
    obtain ⟨ha', -⟩ := List.getElem?_zip_eq_some.mp hq
    obtain ⟨g1, rfl⟩ := List.getElem?_eq_some_iff.mp ha
    obtain ⟨g2, rfl⟩ := List.getElem?_eq_some_iff.mp ha'
    exact sub_pos.mpr (List.pairwise_iff_getElem.mp hs i (i + 1) g1 g2 (Nat.lt_succ_self i))
  have hd : 0 < (Binary.rounding p (by omega)).rnd (a' - a) := by
    show 0 < Binary.rnd p (a' - a)
    rw [Binary.rnd_of_pos hab]; exact Binary.rndPos_pos (by omega) hab
  refine ⟨_, (hseg i _ _ hpq hq t h1).trans (machinePiece_eval _ (Binary.rounding_half p (by omega)) hd t), ?_⟩
  intro w hw
  simp only [roundedOffset, roundedSlope]
  show |Binary.rnd p (Binary.rnd p (b - Binary.rnd p (Binary.rnd p (Binary.rnd p (b' - b) / Binary.rnd p (a' - a)) * a)) +
    Binary.rnd p (Binary.rnd p (Binary.rnd p (b' - b) / Binary.rnd p (a' - a)) * Binary.rnd p t)) - w| ≤ _
  rw [Binary.rnd_of_rep (by omega) ht]
  have hM : (b' - b) / (a' - a) * (a' - a) = b' - b := div_mul_cancel₀ _ (ne_of_gt hab)
  have hwe : w = b + (b' - b) / (a' - a) * (t - a) := by
    unfold Spec.OnLine at hw
    have hne := ne_of_gt hab
    field_simp
    linear_combination hw
  rw [hwe]
  have hu : ((1 : ℚ) / 2) ^ p ≤ 1 / 8 := by
    calc ((1 : ℚ) / 2) ^ p ≤ (1 / 2) ^ 3 := pow_le_pow_of_le_one (by norm_num) (by norm_num) hp
      _ = 1 / 8 := by norm_num
  refine line_error (by positivity) hu ?_ (Binary.rnd_err p _) (Binary.rnd_err p _) (Binary.rnd_err p _) (Binary.rnd_err p _)
  exact slope_error (by positivity) hu hab (by rw [hM]; exact Binary.rnd_err p _) (Binary.rnd_err p _) (Binary.rnd_err p _)

/-! ## What does not hold for doubles -/

/-- The value of the interpolated function for doubles. -/
def doubleLinear (x y : List ℚ) (t : ℚ) : Res ℚ := do
  let F ← machineLinear (Binary.rounding 53 (by decide)) 0 0 x y false
  eval F t

/-- Lists as they are given to the function: increasing abscissae, all numbers doubles. -/
structure Spec.DoubleTable (x y : List ℚ) : Prop where
  length : x.length = y.length
  two : 2 ≤ x.length
  sorted : x.Pairwise (· < ·)
  xs : ∀ v ∈ x, Binary.Rep 53 v
  ys : ∀ v ∈ y, Binary.Rep 53 v

/-- The data would be reproduced. -/
def C123_nodes_full : Prop := ∀ (x y : List ℚ) (i : Nat) a b, Spec.DoubleTable x y → x[i]? = some a → y[i]? = some b → doubleLinear x y a = .ok b

/-- Between nonnegative numbers there would be no negative ones. -/
def C123_range_full : Prop := ∀ (x y : List ℚ) (t v : ℚ), Spec.DoubleTable x y → (∀ b ∈ y, 0 ≤ b) → Binary.Rep 53 t → doubleLinear x y t = .ok v → 0 ≤ v

/-- Values that do not fall would be interpolated by a function that does not fall. -/
def C123_monotone_full : Prop := ∀ (x y : List ℚ) (a z s t v w : ℚ), Spec.DoubleTable x y → y.Pairwise (· ≤ ·) → x.head? = some a → x.getLast? = some z → Binary.Rep 53 s →
  Binary.Rep 53 t → a ≤ s → s ≤ t → t ≤ z → doubleLinear x y s = .ok v → doubleLinear x y t = .ok w → v ≤ w

/-- The two functions would agree everywhere. -/
def C123_simple_full : Prop := ∀ (x y : List ℚ) (t : ℚ), Spec.DoubleTable x y → Binary.Rep 53 t →
  machineSimple (Binary.rounding 53 (by decide)) t x y false = doubleLinear x y t

theorem rep_small (n : Nat) (h : n ≤ 10) : Binary.Rep 53 (n : ℚ) := Binary.rep_nat (h.trans (by decide))

theorem table_small {x y : List Nat} (hl : x.length = y.length) (h2 : 2 ≤ x.length) (hs : x.Pairwise (· < ·)) (hx : ∀ v ∈ x, v ≤ 10) (hy : ∀ v ∈ y, v ≤ 10) :
    Spec.DoubleTable (x.map fun n : Nat => (n : ℚ)) (y.map fun n : Nat => (n : ℚ)) := by
  refine ⟨by simpa using hl, by simpa using h2, ?_, ?_, ?_⟩
  · rw [List.pairwise_map]; exact hs.imp fun h => by exact_mod_cast h
  · intro v hv; obtain ⟨n, hn, rfl⟩ := List.mem_map.mp hv; exact rep_small n (hx n hn)
  · intro v hv; obtain ⟨n, hn, rfl⟩ := List.mem_map.mp hv; exact rep_small n (hy n hn)

/-- **C123 (violated: data).** From the points (1, 4) and (4, 3) the first is not reproduced. -/
theorem C123_nodes_violated : ¬ C123_nodes_full := by
  intro h
  have h1 := h [1, 4] [4, 3] 0 1 4 (by simpa using table_small (x := [1, 4]) (y := [4, 3]) rfl (by decide) (by decide) (by decide) (by decide)) rfl rfl
  revert h1
  decide +kernel

/-- **C123 (violated: range).** From the points (1, 1) and (6, 0) the value at 6 is negative. -/
theorem C123_range_violated : ¬ C123_range_full := by
  intro h
  have h1 := h [1, 6] [1, 0] 6 (-(1 / 2) ^ 52) (by simpa using table_small (x := [1, 6]) (y := [1, 0]) rfl (by decide) (by decide) (by decide) (by decide)) (by decide +kernel)
    (rep_small 6 (by decide)) (by decide +kernel)
  revert h1
  decide +kernel

/-- **C123 (violated: monotone).** From the points (1, 0), (6, 1) and (7, 1) the value at 6 is greater than that at 7. -/
theorem C123_monotone_violated : ¬ C123_monotone_full := by
  intro h
  have h1 := h [1, 6, 7] [0, 1, 1] 1 7 6 7 (1 + (1 / 2) ^ 52) 1
    (by simpa using table_small (x := [1, 6, 7]) (y := [0, 1, 1]) rfl (by decide) (by decide) (by decide) (by decide)) (by decide +kernel) rfl rfl
    (rep_small 6 (by decide)) (rep_small 7 (by decide)) (by norm_num) (by norm_num) (by norm_num) (by decide +kernel) (by decide +kernel)
  revert h1
  decide +kernel

/-- **C123 (violated: agreement).** For the same points the two functions differ at 6. -/
theorem C123_simple_violated : ¬ C123_simple_full := by
  intro h
  have h1 := h [1, 6, 7] [0, 1, 1] 6 (by simpa using table_small (x := [1, 6, 7]) (y := [0, 1, 1]) rfl (by decide) (by decide) (by decide) (by decide)) (rep_small 6 (by decide))
  revert h1
  decide +kernel

/-- The hypotheses of the theorems hold for doubles. -/
example : ((Binary.rounding 53 (by decide)).rnd (1 / 2) = 1 / 2) ∧ ∀ v, 0 < v → 0 < (Binary.rounding 53 (by decide)).rnd v :=
  ⟨Binary.rounding_half 53 (by decide), fun v hv => by
    show 0 < Binary.rnd 53 v
    rw [Binary.rnd_of_pos hv]; exact Binary.rndPos_pos (by decide) hv⟩

/-- An argument on the second piece; between the first two points and beyond the last. -/
example : doubleLinear [1, 6, 7] [0, 1, 1] (13 / 2) = .ok 1 ∧ doubleLinear [1, 6, 7] [0, 1, 1] 8 = .ok 0 ∧
    Spec.Inside (0 : ℚ) 0 false 3 1 (6, 1) (7, 1) (13 / 2) ∧ Spec.OnLine ((6 : ℚ), 1) (7, 1) (13 / 2) 1 ∧ Binary.Rep 53 (13 / 2) :=
  ⟨by decide +kernel, by decide +kernel, ⟨Or.inl (by norm_num), by norm_num⟩, by norm_num [Spec.OnLine], ⟨13, -1, by decide, by norm_num⟩⟩

end Alexandria.MathUtils
