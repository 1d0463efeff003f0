import Verif.MathUtils.InterpModel
import Verif.MathUtils.PiecewiseProps
import Mathlib.Data.List.Destutter
import Mathlib.Tactic.Linarith
import Mathlib.Tactic.LinearCombination

/-! # Linear interpolation (C34) -/

namespace Alexandria.MathUtils

section
variable {K : Type} [Field K] [LinearOrder K]

/-! ## Specification -/

/-- The point `(t, v)` is on the straight line through `p` and `q`. -/
def Spec.OnLine (p q : K × K) (t v : K) : Prop := (v - p.2) * (q.1 - p.1) = (q.2 - p.2) * (t - p.1)

/-- On a line that is not vertical there is only one value. -/
theorem OnLine.unique {p q : K × K} (h : p.1 ≠ q.1) {t v w : K} (hv : Spec.OnLine p q t v) (hw : Spec.OnLine p q t w) : v = w := by
  have h' : q.1 - p.1 ≠ 0 := sub_ne_zero.mpr (Ne.symm h)
  have : (v - p.2) * (q.1 - p.1) = (w - p.2) * (q.1 - p.1) := hv.trans hw.symm
  have := mul_right_cancel₀ h' this
  linear_combination this

/-- The points without those that are equal to the one before. -/
def Spec.distinct (pts : List (K × K)) : List (K × K) := pts.destutter (· ≠ ·)

/-! ## Lemmas -/

theorem dedup_sorted (l : List (K × K)) : ∀ p : K × K, (p :: l).Pairwise (fun a b => a.1 ≤ b.1) →
    ∃ r, dedupLoop p.1 p.2 l = .ok r ∧ p :: r = List.destutter' (· ≠ ·) p l := by
  induction l with
  | nil => intro p _; exact ⟨[], rfl, rfl⟩
  | cons q l ih =>
    intro p hs
    obtain ⟨h1, h2⟩ := List.pairwise_cons.mp hs
    obtain ⟨x, y⟩ := q
    rw [dedupLoop]
    by_cases he : x = p.1 ∧ y = p.2
    · rw [if_pos he]
      obtain ⟨r, hr, hd⟩ := ih (x, y) h2
      have hp : p = (x, y) := by rw [he.1, he.2]
      refine ⟨r, hr, ?_⟩
      rw [hp, hd, List.destutter'_cons_neg _ (by simp)]
    · rw [if_neg he, if_neg (not_lt.mpr (h1 (x, y) List.mem_cons_self))]
      obtain ⟨r, hr, hd⟩ := ih (x, y) h2
      refine ⟨(x, y) :: r, ?_, ?_⟩
      · rw [show dedupLoop x y l = .ok r from hr]; rfl
      · rw [hd, List.destutter'_cons_pos _ (by
          intro hp
          rw [hp] at he
          exact he ⟨rfl, rfl⟩)]

theorem dedup_throws (l : List (K × K)) : ∀ p : K × K, ¬ (p :: l).Pairwise (fun a b => a.1 ≤ b.1) → dedupLoop p.1 p.2 l = .throw .elements := by
  induction l with
  | nil => intro p h; exact absurd (List.pairwise_singleton _ _) h
  | cons q l ih =>
    intro p hs
    obtain ⟨x, y⟩ := q
    rw [dedupLoop]
    by_cases hq : ((x, y) :: l).Pairwise (fun a b => a.1 ≤ b.1)
    · have hlt : x < p.1 := by
        by_contra hn
        refine hs (List.pairwise_cons.mpr ⟨fun a ha => ?_, hq⟩)
        rcases List.mem_cons.mp ha with rfl | ha
        · exact not_lt.mp hn
        · exact (not_lt.mp hn).trans ((List.pairwise_cons.mp hq).1 a ha)
      rw [if_neg (by rintro ⟨h, _⟩; exact absurd h (ne_of_lt hlt)), if_pos hlt]
    · have := ih (x, y) hq
      by_cases he : x = p.1 ∧ y = p.2
      · rw [if_pos he]; exact this
      · rw [if_neg he]
        by_cases hlt : x < p.1
        · rw [if_pos hlt]
        · rw [if_neg hlt, show dedupLoop x y l = _ from this]; rfl

theorem length_segments (pts : List (K × K)) : (segments pts).length = pts.length - 1 := by
  induction pts with
  | nil => rfl
  | cons p l ih => cases l with
    | nil => rfl
    | cons q l => rw [segments]; simp only [List.length_cons] at ih ⊢; omega

theorem segments_get (pts : List (K × K)) : ∀ (i : Nat) (p q : K × K), pts[i]? = some p → pts[i + 1]? = some q → (segments pts)[i]? = some (segment p q) := by
  induction pts with
  | nil => intro i p q h; cases h
  | cons a l ih => cases l with
    | nil => intro i p q _ h; simp at h
    | cons b l =>
      intro i p q hp hq
      rw [segments]
      cases i with
      | zero => simp at hp hq ⊢; rw [hp, hq]
      | succ i => simpa using ih i p q (by simpa using hp) (by simpa using hq)

theorem segment_eval {p q : K × K} (h : p.1 < q.1) (t : K) : ∃ v, eval (segment p q) t = .ok v ∧ Spec.OnLine p q t v := by
  have h' : q.1 - p.1 ≠ 0 := sub_ne_zero.mpr (ne_of_gt h)
  refine ⟨_, by rw [segment, div?, if_neg h']; rfl, ?_⟩
  simp only [polyEval, polyLoop, Spec.OnLine]
  field_simp
  ring

theorem getElem_extKnots (lo hi : K) (xs : List K) (i : Nat) (h : i < xs.length) :
    (extKnots lo hi xs)[i]? = some (if i = xs.length - 1 then hi else if i = 0 then lo else xs[i]) := by
  unfold extKnots
  rw [List.getElem?_set, List.getElem?_set, List.length_set, List.getElem?_eq_getElem h]
  by_cases h1 : xs.length - 1 = i
  · rw [if_pos h1, if_pos h1.symm, if_pos (by omega)]
  · rw [if_neg h1]
    by_cases h2 : 0 = i
    · rw [if_pos h2, if_pos (by omega), if_neg (by omega), if_pos h2.symm]
    · rw [if_neg h2, if_neg (by omega), if_neg (by omega)]

theorem length_finalKnots (lo hi : K) (e : Bool) (xs : List K) : (finalKnots lo hi e xs).length = xs.length := by
  unfold finalKnots extKnots
  split <;> simp

theorem sorted_finalKnots {lo hi : K} {e : Bool} {xs : List K} (hs : xs.Pairwise (· ≤ ·)) (hb : e = true → lo ≤ hi ∧ ∀ x ∈ xs, lo ≤ x ∧ x ≤ hi) :
    (finalKnots lo hi e xs).Pairwise (· ≤ ·) := by
  cases e with
  | false => exact hs
  | true =>
    obtain ⟨hlh, hb⟩ := hb rfl
    simp only [finalKnots, if_true]
    rw [List.pairwise_iff_getElem]
    intro i j hi' hj' hij
    have hi'' : i < xs.length := by simpa [extKnots] using hi'
    have hj'' : j < xs.length := by simpa [extKnots] using hj'
    have g1 := getElem_extKnots lo hi xs i hi''
    have g2 := getElem_extKnots lo hi xs j hj''
    rw [List.getElem?_eq_getElem hi', Option.some.injEq] at g1
    rw [List.getElem?_eq_getElem hj', Option.some.injEq] at g2
    rw [g1, g2, if_neg (by omega), if_neg (by omega : j ≠ 0)]
    have hx : xs[i] ≤ xs[j] := List.pairwise_iff_getElem.mp hs i j hi'' hj'' hij
    split <;> split
    · exact hlh
    · exact (hb _ (List.getElem_mem _)).1
    · exact (hb _ (List.getElem_mem _)).2
    · exact hx

/-- Where the piece with index `i` of an interpolation is used: between its two points, and beyond the outer ones when extrapolating. -/
def Spec.Inside (lo hi : K) (extrapolate : Bool) (n i : Nat) (p q : K × K) (t : K) : Prop :=
  match extrapolate with
  | false => (p.1 < t ∨ i = 0 ∧ t = p.1) ∧ t ≤ q.1
  | true => lo ≤ t ∧ t ≤ hi ∧ (i = 0 ∨ p.1 < t) ∧ (i + 2 = n ∨ t ≤ q.1)

/-- The pieces of a function with the knots of an interpolation. -/
theorem finalKnots_eval {lo hi : K} {e : Bool} {pts : List (K × K)} {fs : List (Fn K)} {F : Fn K}
    (h : mkPiecewise (finalKnots lo hi e (pts.map Prod.fst)) fs = .ok F) {i : Nat} {p q : K × K} (hp : pts[i]? = some p) (hq : pts[i + 1]? = some q)
    (hpq : p.1 < q.1) {g : Fn K} (hg : fs[i]? = some g) {t : K} (ht : Spec.Inside lo hi e pts.length i p q t) : eval F t = eval g t := by
  refine (C32_eval _ _ _ h t).1 i g hg ?_
  obtain ⟨hi1, hpe⟩ := List.getElem?_eq_some_iff.mp hp
  obtain ⟨hi2, hqe⟩ := List.getElem?_eq_some_iff.mp hq
  cases e with
  | false =>
    refine ⟨p.1, q.1, by simp [finalKnots, hp], by simp [finalKnots, hq], ?_⟩
    obtain ⟨h1 | h1, h2⟩ := ht
    · exact Or.inl ⟨h1, h2⟩
    · exact Or.inr h1
  | true =>
    obtain ⟨h1, h2, h3, h4⟩ := ht
    have e1 := getElem_extKnots lo hi (pts.map Prod.fst) i (by simpa using hi1)
    have e2 := getElem_extKnots lo hi (pts.map Prod.fst) (i + 1) (by simpa using hi2)
    simp only [List.length_map, List.getElem_map, hpe, hqe, if_neg (by omega : ¬ i = pts.length - 1), if_neg (by omega : ¬ i + 1 = 0)] at e1 e2
    refine ⟨_, _, e1, e2, ?_⟩
    have up : t ≤ if i + 1 = pts.length - 1 then hi else q.1 := by
      split
      · exact h2
      · rcases h4 with h4 | h4
        · omega
        · exact h4
    by_cases hi0 : i = 0
    · rw [if_pos hi0]
      rcases lt_or_eq_of_le h1 with h1 | h1
      · exact Or.inl ⟨h1, up⟩
      · exact Or.inr ⟨hi0, h1.symm⟩
    · rw [if_neg hi0]
      exact Or.inl ⟨h3.resolve_left hi0, up⟩

/-! ## C34 -/

/-- Sizes that differ and decreasing abscissae are refused. -/
theorem C34_throws (lo hi : K) (x y : List K) (type : InterpType) (e : Bool) (h : x.length ≠ y.length ∨ ¬ x.Pairwise (· ≤ ·)) :
    interpolate lo hi x y type e = .throw .elements := by
  rw [interpolate]
  by_cases hl : x.length = y.length
  · rw [if_neg (not_not.mpr hl)]
    have hx : ¬ x.Pairwise (· ≤ ·) := h.resolve_left (not_not.mpr hl)
    have hz : x = (x.zip y).map Prod.fst := by rw [List.map_fst_zip (le_of_eq hl)]
    cases hc : x.zip y with
    | nil => rw [hc] at hz; rw [hz] at hx; exact absurd List.Pairwise.nil hx
    | cons p l =>
      have hs : ¬ (p :: l).Pairwise (fun a b => a.1 ≤ b.1) := by
        rw [← hc, ← List.pairwise_map (f := Prod.fst) (R := (· ≤ ·)), ← hz]; exact hx
      simp only
      rw [if_neg, dedup_throws l p hs]
      · rfl
      · rintro ⟨rfl, _⟩
        exact hs (List.pairwise_singleton _ _)
  · rw [if_pos hl]

/-- What the interpolation does for increasing abscissae, equal neighbours allowed: on the segment from one point to the next that is
different, the value is on the line through the two.  Where two points have the same abscissa (a step) the value is that of the segment to
the left of it. -/
theorem C34_segments (lo hi : K) (x y : List K) (e : Bool) (hl : x.length = y.length) (hs : x.Pairwise (· ≤ ·)) (hne : 2 ≤ x.length)
    (hb : e = true → lo ≤ hi ∧ ∀ a ∈ x, lo ≤ a ∧ a ≤ hi) :
    ∃ F, interpolate lo hi x y .linear e = .ok F ∧ ∀ i p q, (Spec.distinct (x.zip y))[i]? = some p → (Spec.distinct (x.zip y))[i + 1]? = some q →
      p.1 < q.1 → ∀ t, Spec.Inside lo hi e (Spec.distinct (x.zip y)).length i p q t → ∃ v, eval F t = .ok v ∧ Spec.OnLine p q t v := by
  rw [interpolate, if_neg (not_not.mpr hl)]
  have hz : x = (x.zip y).map Prod.fst := by rw [List.map_fst_zip (le_of_eq hl)]
  cases hc : x.zip y with
  | nil => rw [hc] at hz; rw [hz] at hne; simp at hne
  | cons p l =>
    have hs' : (p :: l).Pairwise (fun a b => a.1 ≤ b.1) := by
      rw [← hc, ← List.pairwise_map (f := Prod.fst) (R := (· ≤ ·)), ← hz]; exact hs
    obtain ⟨r, hr, hd⟩ := dedup_sorted l p hs'
    have hln : l ≠ [] := by
      rintro rfl
      rw [hc] at hz
      rw [hz] at hne
      simp at hne
    simp only
    rw [if_neg (by rintro ⟨h, _⟩; exact hln h), hr]
    have hdd : Spec.distinct (p :: l) = p :: r := by rw [hd]; rfl
    rw [hdd]
    have hsub : (p :: r).Sublist (p :: l) := by rw [← hdd]; exact List.destutter_sublist _ _
    have hs2 : ((p :: r).map Prod.fst).Pairwise (· ≤ ·) := by
      rw [List.pairwise_map]; exact hs'.sublist hsub
    have hmk : mkPiecewise (finalKnots lo hi e ((p :: r).map Prod.fst)) (segments (p :: r)) = .ok _ := (C32_constructor _ _).1 ⟨by
      rw [length_finalKnots, length_segments]; simp, sorted_finalKnots hs2 (fun he => ⟨(hb he).1, fun a ha => (hb he).2 a (by
        rw [hz, hc]
        obtain ⟨b, hb', rfl⟩ := List.mem_map.mp ha
        exact List.mem_map_of_mem (hsub.subset hb'))⟩)⟩
    refine ⟨_, hmk, ?_⟩
    intro i a b ha hb' hab t ht
    obtain ⟨v, hv, hline⟩ := segment_eval hab t
    exact ⟨v, by rw [finalKnots_eval hmk ha hb' hab (segments_get _ i a b ha hb') ht, hv], hline⟩

theorem destutter_ne_sorted (l : List (K × K)) (h : l.Pairwise fun a b => a.1 < b.1) : Spec.distinct l = l := by
  apply List.destutter_of_isChain
  exact (h.imp fun hab => by rintro rfl; exact lt_irrefl _ hab).isChain

variable [IsStrictOrderedRing K]

theorem OnLine.between {p q : K × K} (h : p.1 < q.1) {t v : K} (hv : Spec.OnLine p q t v) (h1 : p.1 ≤ t) (h2 : t ≤ q.1) :
    min p.2 q.2 ≤ v ∧ v ≤ max p.2 q.2 := by
  unfold Spec.OnLine at hv
  have hh : 0 < q.1 - p.1 := sub_pos.mpr h
  have e1 : (q.2 - v) * (q.1 - p.1) = (q.2 - p.2) * (q.1 - t) := by linear_combination -hv
  rcases le_total p.2 q.2 with hpq | hpq
  · rw [min_eq_left hpq, max_eq_right hpq]
    have a1 : 0 ≤ (v - p.2) * (q.1 - p.1) := by rw [hv]; exact mul_nonneg (sub_nonneg.mpr hpq) (sub_nonneg.mpr h1)
    have a2 : 0 ≤ (q.2 - v) * (q.1 - p.1) := by rw [e1]; exact mul_nonneg (sub_nonneg.mpr hpq) (sub_nonneg.mpr h2)
    exact ⟨sub_nonneg.mp (nonneg_of_mul_nonneg_left a1 hh), sub_nonneg.mp (nonneg_of_mul_nonneg_left a2 hh)⟩
  · rw [min_eq_right hpq, max_eq_left hpq]
    have a1 : 0 ≤ (p.2 - v) * (q.1 - p.1) := by
      rw [show (p.2 - v) * (q.1 - p.1) = (p.2 - q.2) * (t - p.1) by linear_combination -hv]
      exact mul_nonneg (sub_nonneg.mpr hpq) (sub_nonneg.mpr h1)
    have a2 : 0 ≤ (v - q.2) * (q.1 - p.1) := by
      rw [show (v - q.2) * (q.1 - p.1) = (p.2 - q.2) * (q.1 - t) by linear_combination -e1]
      exact mul_nonneg (sub_nonneg.mpr hpq) (sub_nonneg.mpr h2)
    exact ⟨sub_nonneg.mp (nonneg_of_mul_nonneg_left a2 hh), sub_nonneg.mp (nonneg_of_mul_nonneg_left a1 hh)⟩

/-- Strictly increasing abscissae: the data are reproduced; between two neighbours the value is on the line through them and between
theirs; outside it is zero or, when extrapolating, on the line of the outer segment. -/
theorem C34_linear (lo hi : K) (x y : List K) (e : Bool) (hl : x.length = y.length) (hs : x.Pairwise (· < ·)) (hn : 2 ≤ x.length)
    (hb : e = true → ∀ a ∈ x, lo ≤ a ∧ a ≤ hi) :
    ∃ F, interpolate lo hi x y .linear e = .ok F ∧
      (∀ (i : Nat) a b, x[i]? = some a → y[i]? = some b → eval F a = .ok b) ∧
      (∀ (i : Nat) a b a' b', x[i]? = some a → y[i]? = some b → x[i + 1]? = some a' → y[i + 1]? = some b' → ∀ t, a ≤ t → t ≤ a' →
        ∃ v, eval F t = .ok v ∧ Spec.OnLine (a, b) (a', b') t v ∧ min b b' ≤ v ∧ v ≤ max b b') ∧
      (e = false → ∀ t, ((∀ a ∈ x, t < a) ∨ ∀ a ∈ x, a < t) → eval F t = .ok 0) ∧
      (e = true → ∀ a b a' b', x[0]? = some a → y[0]? = some b → x[1]? = some a' → y[1]? = some b' → ∀ t, lo ≤ t → t ≤ a →
        ∃ v, eval F t = .ok v ∧ Spec.OnLine (a, b) (a', b') t v) ∧
      (e = true → ∀ (i : Nat) a b a' b', i + 2 = x.length → x[i]? = some a → y[i]? = some b → x[i + 1]? = some a' → y[i + 1]? = some b' → ∀ t, a' ≤ t → t ≤ hi →
        ∃ v, eval F t = .ok v ∧ Spec.OnLine (a, b) (a', b') t v) := by
  have hs' : x.Pairwise (· ≤ ·) := hs.imp fun h => le_of_lt h
  have hx0 : ∃ a, a ∈ x := List.exists_mem_of_length_pos (by omega)
  obtain ⟨F, hF, hseg⟩ := C34_segments lo hi x y e hl hs' hn (fun he => ⟨by
    obtain ⟨a, ha⟩ := hx0
    exact (hb he a ha).1.trans (hb he a ha).2, hb he⟩)
  have hz : x = (x.zip y).map Prod.fst := by rw [List.map_fst_zip (le_of_eq hl)]
  have hdis : Spec.distinct (x.zip y) = x.zip y := destutter_ne_sorted _ (by
    rw [← List.pairwise_map (f := Prod.fst) (R := (· < ·)), ← hz]; exact hs)
  rw [hdis] at hseg
  have hlen : (x.zip y).length = x.length := by rw [List.length_zip]; omega
  have hget : ∀ (i : Nat) a b, x[i]? = some a → y[i]? = some b → (x.zip y)[i]? = some (a, b) := by
    intro i a b ha hb'
    rw [List.getElem?_zip_eq_some]
    exact ⟨ha, hb'⟩
  have hinc : ∀ (i : Nat) a a', x[i]? = some a → x[i + 1]? = some a' → a < a' := by
    intro i a a' ha ha'
    obtain ⟨h1, rfl⟩ := List.getElem?_eq_some_iff.mp ha
    obtain ⟨h2, rfl⟩ := List.getElem?_eq_some_iff.mp ha'
    exact List.pairwise_iff_getElem.mp hs i (i + 1) h1 h2 (Nat.lt_succ_self i)
  have hbd : e = true → ∀ (i : Nat) a, x[i]? = some a → lo ≤ a ∧ a ≤ hi := fun he i a ha => hb he a (List.mem_of_getElem? ha)
  -- on the segment, its left end excluded unless it is the first one
  have hin : ∀ (i : Nat) a b a' b', x[i]? = some a → y[i]? = some b → x[i + 1]? = some a' → y[i + 1]? = some b' → ∀ t, (a < t ∨ i = 0 ∧ t = a) → t ≤ a' →
      ∃ v, eval F t = .ok v ∧ Spec.OnLine (a, b) (a', b') t v := by
    intro i a b a' b' ha hb1 ha' hb2 t h1 h2
    refine hseg i (a, b) (a', b') (hget _ _ _ ha hb1) (hget _ _ _ ha' hb2) (hinc i a a' ha ha') t ?_
    cases he : e with
    | false => exact ⟨h1, h2⟩
    | true =>
      have b1 := hbd he i a ha
      have b2 := hbd he (i + 1) a' ha'
      refine ⟨?_, h2.trans b2.2, ?_, Or.inr h2⟩
      · rcases h1 with h1 | ⟨_, rfl⟩
        · exact b1.1.trans h1.le
        · exact b1.1
      · rcases h1 with h1 | ⟨h1, _⟩
        · exact Or.inr h1
        · exact Or.inl h1
  have hnode : ∀ (i : Nat) a b, x[i]? = some a → y[i]? = some b → eval F a = .ok b := by
    intro i a b ha hb1
    have hi1 := (List.getElem?_eq_some_iff.mp ha).1
    cases i with
    | zero =>
      have ha' : x[1]? = some x[1] := List.getElem?_eq_getElem (by omega)
      have hb2 : y[1]? = some (y[1]'(by omega)) := List.getElem?_eq_getElem (by omega)
      obtain ⟨v, hv, hline⟩ := hin 0 a b _ _ ha hb1 ha' hb2 a (Or.inr ⟨rfl, rfl⟩) (hinc 0 _ _ ha ha').le
      rw [hv, OnLine.unique (p := (a, b)) (ne_of_lt (hinc 0 _ _ ha ha')) hline (w := b) (by simp [Spec.OnLine])]
    | succ i =>
      have ha' : x[i]? = some x[i] := List.getElem?_eq_getElem (by omega)
      have hb2 : y[i]? = some (y[i]'(by omega)) := List.getElem?_eq_getElem (by omega)
      obtain ⟨v, hv, hline⟩ := hin i _ _ a b ha' hb2 ha hb1 a (Or.inl (hinc i _ _ ha' ha)) (le_refl _)
      rw [hv, OnLine.unique (q := (a, b)) (ne_of_lt (hinc i _ _ ha' ha)) hline (w := b) (by simp [Spec.OnLine])]
  refine ⟨F, hF, hnode, ?_, ?_, ?_, ?_⟩
  · intro i a b a' b' ha hb1 ha' hb2 t h1 h2
    have haa := hinc i a a' ha ha'
    have : ∃ v, eval F t = .ok v ∧ Spec.OnLine (a, b) (a', b') t v := by
      rcases lt_or_eq_of_le h1 with h1 | rfl
      · exact hin i a b a' b' ha hb1 ha' hb2 t (Or.inl h1) h2
      · exact ⟨b, hnode i a b ha hb1, by simp [Spec.OnLine]⟩
    obtain ⟨v, hv, hline⟩ := this
    exact ⟨v, hv, hline, OnLine.between (p := (a, b)) (q := (a', b')) haa hline h1 h2⟩
  · rintro rfl t ht
    rw [interpolate, if_neg (not_not.mpr hl)] at hF
    cases hc : x.zip y with
    | nil => rw [hc] at hlen; simp at hlen; omega
    | cons p l =>
      rw [hc] at hF hdis
      have hs2 : (p :: l).Pairwise (fun a b => a.1 ≤ b.1) := by
        rw [← hc, ← List.pairwise_map (f := Prod.fst) (R := (· ≤ ·)), ← hz]; exact hs'
      obtain ⟨r, hr, hd⟩ := dedup_sorted l p hs2
      have hd' : p :: r = p :: l := by rw [hd]; exact hdis
      simp only at hF
      rw [if_neg (by simp), hr, Outcome.bind_ok, hd'] at hF
      have hF' : mkPiecewise (finalKnots lo hi false ((p :: l).map Prod.fst)) (segments (p :: l)) = .ok F := hF
      rw [← hc, ← hz] at hF'
      exact (C32_eval _ _ _ hF' t).2 ht
  · intro he a b a' b' ha hb1 ha' hb2 t h1 h2
    refine hseg 0 (a, b) (a', b') (hget _ _ _ ha hb1) (hget _ _ _ ha' hb2) (hinc 0 a a' ha ha') t ?_
    rw [he]
    exact ⟨h1, h2.trans (hbd he 0 a ha).2, Or.inl rfl, Or.inr (h2.trans (hinc 0 a a' ha ha').le)⟩
  · intro he i a b a' b' hi2 ha hb1 ha' hb2 t h1 h2
    have haa := hinc i a a' ha ha'
    refine hseg i (a, b) (a', b') (hget _ _ _ ha hb1) (hget _ _ _ ha' hb2) haa t ?_
    rw [he]
    exact ⟨(hbd he i a ha).1.trans (haa.le.trans h1), h2, Or.inr (lt_of_lt_of_le haa h1), Or.inl (by rw [hlen]; omega)⟩

/-- Repeated points do not change the result. -/
theorem C34_repeated (lo hi : K) (l1 l2 : List (K × K)) (p : K × K) (type : InterpType) (e : Bool) (h : e = true → l1 ≠ [] ∨ l2 ≠ []) :
    interpolate lo hi ((l1 ++ p :: p :: l2).map Prod.fst) ((l1 ++ p :: p :: l2).map Prod.snd) type e =
      interpolate lo hi ((l1 ++ p :: l2).map Prod.fst) ((l1 ++ p :: l2).map Prod.snd) type e := by
  have dd : ∀ (l : List (K × K)) (q : K × K), dedupLoop q.1 q.2 (l ++ p :: p :: l2) = dedupLoop q.1 q.2 (l ++ p :: l2) := by
    intro l
    induction l with
    | nil =>
      intro q
      simp only [List.nil_append]
      obtain ⟨p1, p2⟩ := p
      have e : dedupLoop p1 p2 ((p1, p2) :: l2) = dedupLoop p1 p2 l2 := by rw [dedupLoop, if_pos ⟨rfl, rfl⟩]
      conv_lhs => rw [dedupLoop, e]
      conv_rhs => rw [dedupLoop]
    | cons a l ih =>
      intro q
      simp only [List.cons_append]
      obtain ⟨a1, a2⟩ := a
      rw [dedupLoop, dedupLoop, ih (a1, a2)]
  have zz : ∀ l : List (K × K), (l.map Prod.fst).zip (l.map Prod.snd) = l := by
    intro l
    induction l with
    | nil => rfl
    | cons a l ih => simp [ih]
  unfold interpolate
  rw [if_neg (by simp), if_neg (by simp), zz, zz]
  cases l1 with
  | nil =>
    simp only [List.nil_append]
    have : dedupLoop p.1 p.2 (p :: l2) = dedupLoop p.1 p.2 l2 := by rw [dedupLoop.eq_def]; simp
    rw [this, if_neg (by simp), if_neg (by
      rintro ⟨h1, h2⟩
      rcases h h2 with h | h
      · exact h rfl
      · exact h h1)]
  | cons a l1 =>
    simp only [List.cons_append]
    rw [dd, if_neg (by simp), if_neg (by simp)]

end

/-- The value of an interpolation, for examples. -/
def interpolated (x y : List ℚ) (type : InterpType) (e : Bool) (t : ℚ) : Res ℚ := do
  let F ← interpolate (-1000) 1000 x y type e
  eval F t

example : interpolated [0, 1, 3] [5, 7, 1] .linear false 2 = .ok 4 ∧ interpolated [0, 1, 3] [5, 7, 1] .linear false 3 = .ok 1 ∧
    interpolated [0, 1, 3] [5, 7, 1] .linear false 4 = .ok 0 ∧ interpolated [0, 1, 3] [5, 7, 1] .linear true 4 = .ok (-2) := by decide +kernel

/-- The documentation says that points with the same abscissa but different values are refused. -/
def C34_steps_full : Prop := ∀ (x y : List ℚ) (i : Nat), x.length = y.length → i + 1 < x.length → x[i]? = x[i + 1]? → y[i]? ≠ y[i + 1]? →
  interpolate (-1000) 1000 x y .linear false = .throw .elements

/-- They are not. -/
theorem C34_steps_violated : ¬ C34_steps_full := by
  intro h
  have := h [0, 1, 1, 2] [5, 7, 8, 9] 1 rfl (by decide) rfl (by decide)
  have h2 : interpolated [0, 1, 1, 2] [5, 7, 8, 9] .linear false 1 = .ok 7 := by decide +kernel
  unfold interpolated at h2
  rw [this] at h2
  cases h2

/-- A step at the first point: the value there is not a number. -/
theorem C34_first_step : interpolated [1, 1, 2] [5, 7, 8] .linear false 1 = .throw .notFinite := by decide +kernel

/-- A single point: with extrapolation the function is constant, but not if the point is given twice; without, the value at the point is
undefined. -/
theorem C34_single : interpolated [1] [5] .linear true 2 = .ok 5 ∧ interpolated [1, 1] [5, 5] .linear true 2 = .ok 0 ∧
    interpolated [1] [5] .linear false 1 = .ub ∧ interpolated [] [] .linear false 1 = .ub := by decide +kernel

end Alexandria.MathUtils
