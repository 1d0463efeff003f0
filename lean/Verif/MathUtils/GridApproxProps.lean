import Verif.MathUtils.GridInterpProps
import Verif.MathUtils.ApproxProps
import Mathlib.Algebra.BigOperators.Intervals

/-!
# C143: what interpolations on grids tell about the function that was tabulated

The error of the interpolation on a grid is at most the sum, over the axes, of the errors of linear interpolations of the function along a single axis.
-/

namespace Alexandria.MathUtils

open NdArray (Nd Heap)
open NdArray.Spec (card)

section
variable {K D : Type} [Field K] [LinearOrder K] [IsStrictOrderedRing K] [DecidableEq D]

/-! ## Specification -/

/-- The argument is not outside the knots of the axis; on a discrete axis, it is one of them. -/
def Spec.Within : Axis K D → K ⊕ D → Prop
  | .cont ks, .inl x => (∃ k ∈ ks, k ≤ x) ∧ ∃ l ∈ ks, x ≤ l
  | .disc ks, .inr d => d ∈ ks
  | _, _ => False

/-- `k` and `l` are neighbouring knots with `x` between them. -/
def Spec.Cell (ks : List K) (k l x : K) : Prop := (∃ i : Nat, ks[i]? = some k ∧ ks[i + 1]? = some l) ∧ k ≤ x ∧ x ≤ l

/-- The array holds the values of `G` at the nodes. -/
def Spec.Tabulates (h' : Heap K) (a : Nd) (axes : List (Axis K D)) (G : List (K ⊕ D) → K) : Prop :=
  ∀ is xs, Spec.AtNode axes is xs → NdArray.at' h' a is.reverse = .ok (G xs)

/-- On the `j`-th axis, the line through the values of `G` at two neighbouring knots is at most `δ` from `G` at `x`, whatever the other arguments. -/
def Spec.LineError (axes : List (Axis K D)) (G : List (K ⊕ D) → K) (j : Nat) (x δ : K) : Prop :=
  ∀ ks k l, axes[j]? = some (.cont ks) → Spec.Cell ks k l x → ∀ pre post, pre.length = j → List.Forall₂ Spec.Within axes (pre ++ .inl x :: post) →
    ∀ u, Spec.OnLine (k, G (pre ++ .inl k :: post)) (l, G (pre ++ .inl l :: post)) x u → |u - G (pre ++ .inl x :: post)| ≤ δ

/-! ## Lemmas -/

/-- The argument is a knot of the axis. -/
def IsKnot (ax : Axis K D) (x : K ⊕ D) : Prop := ∃ i, Spec.knot ax i = some x

omit [IsStrictOrderedRing K] [DecidableEq D] in
theorem IsKnot.within {ax : Axis K D} {x : K ⊕ D} (h : IsKnot ax x) : Spec.Within ax x := by
  obtain ⟨i, hi⟩ := h
  cases ax with
  | cont ks =>
    rw [Spec.knot, Option.map_eq_some_iff] at hi
    obtain ⟨k, hk, rfl⟩ := hi
    exact ⟨⟨k, List.mem_of_getElem? hk, le_rfl⟩, k, List.mem_of_getElem? hk, le_rfl⟩
  | disc ks =>
    rw [Spec.knot, Option.map_eq_some_iff] at hi
    obtain ⟨k, hk, rfl⟩ := hi
    exact List.mem_of_getElem? hk

omit [IsStrictOrderedRing K] [DecidableEq D] in
theorem Within.fits {ax : Axis K D} {x : K ⊕ D} (h : Spec.Within ax x) : Spec.Fits ax x := by
  cases ax <;> cases x <;> first | exact h.elim | trivial | exact h

omit [Field K] [LinearOrder K] [IsStrictOrderedRing K] [DecidableEq D] in
theorem knots_node {axes : List (Axis K D)} {xs : List (K ⊕ D)} (h : List.Forall₂ IsKnot axes xs) : ∃ is, Spec.AtNode axes is xs := by
  induction h with
  | nil => exact ⟨[], .nil⟩
  | cons h _ ih =>
    obtain ⟨is, hi⟩ := ih
    obtain ⟨i, hk⟩ := h
    exact ⟨i :: is, .cons hk hi⟩

omit [Field K] [IsStrictOrderedRing K] in
theorem cell_of_bounds (ks : List K) (x : K) : ∀ k₀, (k₀ :: ks).head? = some k₀ → k₀ ≤ x → (∃ l ∈ ks, x ≤ l) → ∃ i k l, (k₀ :: ks)[i]? = some k ∧ (k₀ :: ks)[i + 1]? = some l ∧ k ≤ x ∧ x ≤ l := by
  induction ks with
  | nil => rintro _ _ _ ⟨l, h, _⟩; cases h
  | cons a ks ih =>
    intro k₀ _ h0 hl
    by_cases ha : x ≤ a
    · exact ⟨0, k₀, a, rfl, rfl, h0, ha⟩
    · obtain ⟨l, hl, hxl⟩ := hl
      have hl' : l ∈ ks := by
        rcases List.mem_cons.mp hl with rfl | h
        · exact absurd hxl ha
        · exact h
      obtain ⟨i, k, l, e1, e2, e3⟩ := ih a rfl (le_of_lt (not_le.mp ha)) ⟨l, hl', hxl⟩
      exact ⟨i + 1, k, l, e1, e2, e3⟩

omit [IsStrictOrderedRing K] in
/-- An argument that is not outside is a knot or between neighbouring knots. -/
theorem within_cases {ax : Axis K D} {x : K ⊕ D} (hok : Spec.AxisOk ax) (h : Spec.Within ax x) :
    IsKnot ax x ∨ ∃ ks k l t, ax = .cont ks ∧ x = .inl t ∧ Spec.Cell ks k l t := by
  cases ax with
  | disc ks =>
    cases x with
    | inl _ => exact h.elim
    | inr d =>
      obtain ⟨i, hi⟩ := List.getElem?_of_mem h
      exact .inl ⟨i, by rw [Spec.knot, hi]; rfl⟩
  | cont ks =>
    cases x with
    | inr _ => exact h.elim
    | inl t =>
      obtain ⟨⟨k, hk, hkt⟩, l, hl, htl⟩ := h
      cases ks with
      | nil => cases hk
      | cons k₀ ks =>
        have h0 : k₀ ≤ t := by
          rcases List.mem_cons.mp hk with rfl | hk'
          · exact hkt
          · exact le_trans (le_of_lt (List.rel_of_pairwise_cons hok.2 hk')) hkt
        by_cases hm : ∃ l ∈ ks, t ≤ l
        · obtain ⟨i, k, l, e1, e2, e3, e4⟩ := cell_of_bounds ks t k₀ rfl h0 hm
          exact .inr ⟨_, k, l, t, rfl, rfl, ⟨i, e1, e2⟩, e3, e4⟩
        · have : l = k₀ := by
            rcases List.mem_cons.mp hl with h | h
            · exact h
            · exact absurd ⟨l, h, htl⟩ hm
          subst this
          exact .inl ⟨0, by rw [le_antisymm htl h0]; rfl⟩

omit [IsStrictOrderedRing K] in
/-- One argument after the other is moved from a knot to its place. -/
theorem move_arguments {axes : List (Axis K D)} {xs : List (K ⊕ D)} (hok : ∀ ax ∈ axes, Spec.AxisOk ax) (hx : List.Forall₂ Spec.Within axes xs) (P : Nat → List (K ⊕ D) → Prop)
    (h0 : ∀ zs, List.Forall₂ IsKnot axes zs → P 0 zs) (hk : ∀ j ys, j < axes.length → P j ys → P (j + 1) ys)
    (hc : ∀ (pre post : List (K ⊕ D)) (apre apost : List (Axis K D)) ks k l x, axes = apre ++ .cont ks :: apost → xs[apre.length]? = some (.inl x) → List.Forall₂ Spec.Within apre pre →
      List.Forall₂ Spec.Within apost post → Spec.Cell ks k l x → P apre.length (pre ++ .inl k :: post) → P apre.length (pre ++ .inl l :: post) → P (apre.length + 1) (pre ++ .inl x :: post)) :
    P axes.length xs := by
  have hlen : axes.length = xs.length := hx.length_eq
  have main : ∀ j, j ≤ axes.length → ∀ zs, List.Forall₂ IsKnot (axes.drop j) zs → P j (xs.take j ++ zs) := by
    intro j
    induction j with
    | zero => intro _ zs hz; simpa using h0 zs hz
    | succ j ih =>
      intro hj zs hz
      have hj' : j < axes.length := hj
      have ea : axes.drop j = axes[j] :: axes.drop (j + 1) := List.drop_eq_getElem_cons hj'
      have ex : xs.take (j + 1) = xs.take j ++ [xs[j]'(by omega)] := by rw [List.take_succ_eq_append_getElem]
      have hw : Spec.Within axes[j] (xs[j]'(by omega)) := List.Forall₂.get hx hj' (by omega)
      rw [ex, List.append_assoc, List.singleton_append]
      rcases within_cases (hok _ (List.getElem_mem hj')) hw with h | ⟨ks, k, l, t, e1, e2, hcell⟩
      · exact hk j _ hj' (ih (by omega) _ (by rw [ea]; exact .cons h hz))
      · have hpre : List.Forall₂ Spec.Within (axes.take j) (xs.take j) := List.forall₂_take j hx
        have hl1 : (axes.take j).length = j := by rw [List.length_take]; omega
        have hsplit : axes = axes.take j ++ .cont ks :: axes.drop (j + 1) := by
          conv_lhs => rw [← List.take_append_drop j axes, ea, e1]
        have := hc (xs.take j) zs (axes.take j) (axes.drop (j + 1)) ks k l t hsplit (by rw [hl1, List.getElem?_eq_getElem (by omega), e2]) hpre (hz.imp fun _ _ h => h.within) hcell
        rw [hl1] at this
        rw [e2]
        refine this (ih (by omega) _ ?_) (ih (by omega) _ ?_)
        · rw [ea, e1]
          obtain ⟨⟨i, hi, _⟩, _⟩ := hcell
          exact .cons ⟨i, by rw [Spec.knot, hi]; rfl⟩ hz
        · rw [ea, e1]
          obtain ⟨⟨i, _, hi⟩, _⟩ := hcell
          exact .cons ⟨i + 1, by rw [Spec.knot, hi]; rfl⟩ hz
  have := main axes.length (le_refl _) [] (by rw [List.drop_length]; exact .nil)
  rw [hlen, List.take_length, List.append_nil] at this
  rwa [hlen]

/-- The values on two lines differ by no more than the values at the ends. -/
theorem line_distance {k l x b b' c c' u v E : K} (h : k < l) (h1 : k ≤ x) (h2 : x ≤ l) (hv : Spec.OnLine (k, b) (l, b') x v) (hu : Spec.OnLine (k, c) (l, c') x u)
    (hb : |b - c| ≤ E) (hb' : |b' - c'| ≤ E) : |v - u| ≤ E := by
  have m1 := OnLine.mean h hv
  have m2 := OnLine.mean h hu
  have hh : 0 < l - k := sub_pos.mpr h
  have e : (v - u) * (l - k) = (l - x) * (b - c) + (x - k) * (b' - c') := by linear_combination m1 - m2
  refine le_of_mul_le_mul_right ?_ hh
  rw [← abs_of_pos hh, ← abs_mul, e, abs_of_pos hh]
  calc |(l - x) * (b - c) + (x - k) * (b' - c')| ≤ |(l - x) * (b - c)| + |(x - k) * (b' - c')| := abs_add_le _ _
    _ = (l - x) * |b - c| + (x - k) * |b' - c'| := by rw [abs_mul, abs_mul, abs_of_nonneg (sub_nonneg.mpr h2), abs_of_nonneg (sub_nonneg.mpr h1)]
    _ ≤ (l - x) * E + (x - k) * E := add_le_add (mul_le_mul_of_nonneg_left hb (sub_nonneg.mpr h2)) (mul_le_mul_of_nonneg_left hb' (sub_nonneg.mpr h1))
    _ = E * (l - k) := by ring

omit [Field K] [IsStrictOrderedRing K] in
theorem cell_lt {ks : List K} (h : ks.Pairwise (· < ·)) {k l x : K} (hc : Spec.Cell ks k l x) : k < l := by
  obtain ⟨⟨i, h1, h2⟩, _⟩ := hc
  obtain ⟨p1, rfl⟩ := List.getElem?_eq_some_iff.mp h1
  obtain ⟨p2, rfl⟩ := List.getElem?_eq_some_iff.mp h2
  exact List.pairwise_iff_getElem.mp h i (i + 1) p1 p2 (Nat.lt_succ_self i)

omit [IsStrictOrderedRing K] [DecidableEq D] in
theorem within_append {apre apost : List (Axis K D)} {pre post : List (K ⊕ D)} {ax : Axis K D} {x : K ⊕ D} (h1 : List.Forall₂ Spec.Within apre pre) (h : Spec.Within ax x)
    (h2 : List.Forall₂ Spec.Within apost post) : List.Forall₂ Spec.Within (apre ++ ax :: apost) (pre ++ x :: post) := List.rel_append h1 (.cons h h2)

/-! ## Theorems -/

/-- **C143 (error).** If the array holds the values of a function `G`, and along the `j`-th axis linear interpolation of `G` between the neighbouring knots is off by `δ j` at most, the
interpolation on the grid is off by the sum of the `δ j` at most. -/
theorem C143_error (h h' : Heap K) (shape : List Nat) (data : List K) (a : Nd) (axes : List (Axis K D)) (S : Spec.Setup h h' shape data a axes) (G : List (K ⊕ D) → K)
    (T : Spec.Tabulates h' a axes G) (I : Interp K D) (hI : build h' axes a = .ok I) (e : Bool) (xs : List (K ⊕ D)) (hx : List.Forall₂ Spec.Within axes xs) (δ : Nat → K)
    (hδ0 : ∀ j, j < axes.length → 0 ≤ δ j) (hδ : ∀ (j : Nat) x, xs[j]? = some (.inl x) → Spec.LineError axes G j x (δ j)) :
    ∃ v, call e I xs = .ok v ∧ |v - G xs| ≤ ∑ j ∈ Finset.range axes.length, δ j := by
  refine move_arguments S.axesOk hx (fun n ys => ∃ v, call e I ys = .ok v ∧ |v - G ys| ≤ ∑ j ∈ Finset.range n, δ j) ?_ ?_ ?_
  · intro zs hz
    obtain ⟨is, his⟩ := knots_node hz
    obtain ⟨I', hI', hn⟩ := C37_node h h' shape data a axes S
    rw [hI] at hI'
    cases hI'
    obtain ⟨v, hv, hcall⟩ := hn e is zs his
    rw [T is zs his, Outcome.ok.injEq] at hv
    exact ⟨v, hcall, by rw [hv]; simp⟩
  · rintro j ys hj ⟨v, hv, hle⟩
    exact ⟨v, hv, hle.trans (by rw [Finset.sum_range_succ]; linarith [hδ0 j hj])⟩
  · rintro pre post apre apost ks k l x rfl hxj hpre hpost hcell ⟨v1, c1, d1⟩ ⟨v2, c2, d2⟩
    have hks : Spec.AxisOk (.cont ks : Axis K D) := S.axesOk _ (by simp)
    have hkl := cell_lt hks.2 hcell
    have hcell' := hcell
    obtain ⟨⟨i, hk, hl⟩, hkx, hxl⟩ := hcell
    have hwx : Spec.Within (.cont ks : Axis K D) (.inl x) := ⟨⟨k, List.mem_of_getElem? hk, hkx⟩, l, List.mem_of_getElem? hl, hxl⟩
    obtain ⟨u, w, z, q1, q2, q3, q4⟩ := C37_affine h h' shape data a apre ks apost S I hI e pre post (hpre.imp fun _ _ h => Within.fits h) (hpost.imp fun _ _ h => Within.fits h) i k l x hk hl (.inl hkx) (.inl hxl)
    rw [c1, Outcome.ok.injEq] at q1
    rw [c2, Outcome.ok.injEq] at q2
    subst q1 q2
    have hline := lam_line (x := x) (y := G (pre ++ .inl k :: post)) (z := G (pre ++ .inl l :: post)) hkl
    have hd := hδ apre.length x hxj ks k l (by simp) hcell' pre post hpre.length_eq.symm (within_append hpre hwx hpost) _ hline
    have hm := line_distance hkl hkx hxl q4 hline d1 d2
    refine ⟨z, q3, ?_⟩
    rw [Finset.sum_range_succ]
    refine (abs_sub_le _ (lam x k l (G (pre ++ .inl k :: post)) (G (pre ++ .inl l :: post))) _).trans (add_le_add hm hd)

/-- **C143 (range).** An interpolation with no argument outside is between the smallest and the largest element of the array. -/
theorem C143_range (h h' : Heap K) (shape : List Nat) (data : List K) (a : Nd) (axes : List (Axis K D)) (S : Spec.Setup h h' shape data a axes) (I : Interp K D) (hI : build h' axes a = .ok I)
    (e : Bool) (xs : List (K ⊕ D)) (hx : List.Forall₂ Spec.Within axes xs) (m M : K) (hm : ∀ c v, NdArray.at' h' a c = .ok v → m ≤ v ∧ v ≤ M) :
    ∃ v, call e I xs = .ok v ∧ m ≤ v ∧ v ≤ M := by
  refine move_arguments S.axesOk hx (fun _ ys => ∃ v, call e I ys = .ok v ∧ m ≤ v ∧ v ≤ M) ?_ (fun _ _ _ h => h) ?_
  · intro zs hz
    obtain ⟨is, his⟩ := knots_node hz
    obtain ⟨I', hI', hn⟩ := C37_node h h' shape data a axes S
    rw [hI] at hI'
    cases hI'
    obtain ⟨v, hv, hcall⟩ := hn e is zs his
    exact ⟨v, hcall, hm _ _ hv⟩
  · rintro pre post apre apost ks k l x rfl hxj hpre hpost hcell ⟨v1, c1, d1, d1'⟩ ⟨v2, c2, d2, d2'⟩
    have hks : Spec.AxisOk (.cont ks : Axis K D) := S.axesOk _ (by simp)
    have hkl := cell_lt hks.2 hcell
    obtain ⟨⟨i, hk, hl⟩, hkx, hxl⟩ := hcell
    obtain ⟨u, w, z, q1, q2, q3, q4⟩ := C37_affine h h' shape data a apre ks apost S I hI e pre post (hpre.imp fun _ _ h => Within.fits h) (hpost.imp fun _ _ h => Within.fits h) i k l x hk hl (.inl hkx) (.inl hxl)
    rw [c1, Outcome.ok.injEq] at q1
    rw [c2, Outcome.ok.injEq] at q2
    subst q1 q2
    have hmean := OnLine.mean hkl q4
    have hh : 0 < l - k := sub_pos.mpr hkl
    have n1 : 0 ≤ l - x := sub_nonneg.mpr hxl
    have n2 : 0 ≤ x - k := sub_nonneg.mpr hkx
    refine ⟨z, q3, ?_, ?_⟩
    · refine le_of_mul_le_mul_right ?_ hh
      rw [hmean]
      nlinarith [mul_le_mul_of_nonneg_left d1 n1, mul_le_mul_of_nonneg_left d2 n2]
    · refine le_of_mul_le_mul_right ?_ hh
      rw [hmean]
      nlinarith [mul_le_mul_of_nonneg_left d1' n1, mul_le_mul_of_nonneg_left d2' n2]

/-- **C143 (Lipschitz).** If `G` changes by at most `L j` times the distance along the `j`-th axis, and the knots around the `j`-th argument are at most `H j` apart, the interpolation is
off by at most the sum of `L j * H j / 2`. -/
theorem C143_lipschitz (h h' : Heap K) (shape : List Nat) (data : List K) (a : Nd) (axes : List (Axis K D)) (S : Spec.Setup h h' shape data a axes) (G : List (K ⊕ D) → K)
    (T : Spec.Tabulates h' a axes G) (I : Interp K D) (hI : build h' axes a = .ok I) (e : Bool) (xs : List (K ⊕ D)) (hx : List.Forall₂ Spec.Within axes xs) (L H : Nat → K)
    (hL0 : ∀ j, j < axes.length → 0 ≤ L j ∧ 0 ≤ H j)
    (hL : ∀ pre post s t, List.Forall₂ Spec.Within axes (pre ++ .inl s :: post) → List.Forall₂ Spec.Within axes (pre ++ .inl t :: post) →
      |G (pre ++ .inl s :: post) - G (pre ++ .inl t :: post)| ≤ L pre.length * |s - t|)
    (hH : ∀ (j : Nat) ks x k l, axes[j]? = some (.cont ks) → xs[j]? = some (.inl x) → Spec.Cell ks k l x → l - k ≤ H j) :
    ∃ v, call e I xs = .ok v ∧ |v - G xs| ≤ ∑ j ∈ Finset.range axes.length, L j * H j / 2 := by
  refine C143_error h h' shape data a axes S G T I hI e xs hx _ (fun j hj => ?_) ?_
  · have := mul_nonneg (hL0 j hj).1 (hL0 j hj).2
    linarith
  · rintro j x hxj ks k l hj hcell pre post rfl hw u hu
    have hks : Spec.AxisOk (.cont ks : Axis K D) := S.axesOk _ (List.mem_of_getElem? hj)
    have hkl := cell_lt hks.2 hcell
    have hHj := hH pre.length ks x k l hj hxj hcell
    obtain ⟨⟨i, hk, hl⟩, hkx, hxl⟩ := hcell
    have hjl := (List.getElem?_eq_some_iff.mp hj).1
    -- arguments between the two knots are not outside
    have hin : ∀ s, k ≤ s → s ≤ l → List.Forall₂ Spec.Within axes (pre ++ .inl s :: post) := by
      intro s h1 h2
      obtain ⟨ha, hae⟩ := List.getElem?_eq_some_iff.mp hj
      have hsplit : axes = axes.take pre.length ++ .cont ks :: axes.drop (pre.length + 1) := by
        rw [← hae, List.cons_getElem_drop_succ, List.take_append_drop]
      have t1 := List.forall₂_take pre.length hw
      have t2 := List.forall₂_drop (pre.length + 1) hw
      rw [List.take_left'] at t1
      have e2 : (pre ++ Sum.inl x :: post).drop (pre.length + 1) = post := by simp [List.drop_append]
      rw [e2] at t2
      rw [hsplit]
      exact within_append t1 ⟨⟨k, List.mem_of_getElem? hk, h1⟩, l, List.mem_of_getElem? hl, h2⟩ t2
      rfl
    have := line_lipschitz (g := fun s => G (pre ++ .inl s :: post)) (L := L pre.length) hkl hkx hxl hu fun s s1 s2 t t1 t2 => hL pre post s t (hin s s1 s2) (hin t t1 t2)
    refine this.trans ?_
    have := mul_le_mul_of_nonneg_left hHj (hL0 pre.length hjl).1
    linarith

/-- **C143 (reproduction).** A function that is affine in every continuous argument is reproduced. -/
theorem C143_multilinear (h h' : Heap K) (shape : List Nat) (data : List K) (a : Nd) (axes : List (Axis K D)) (S : Spec.Setup h h' shape data a axes) (G : List (K ⊕ D) → K)
    (T : Spec.Tabulates h' a axes G) (I : Interp K D) (hI : build h' axes a = .ok I) (e : Bool) (xs : List (K ⊕ D)) (hx : List.Forall₂ Spec.Within axes xs)
    (hG : ∀ pre post, ∃ α β, ∀ s, G (pre ++ .inl s :: post) = α + β * s) : call e I xs = .ok (G xs) := by
  obtain ⟨v, hv, hle⟩ := C143_error h h' shape data a axes S G T I hI e xs hx (fun _ => 0) (fun _ _ => le_rfl) (by
    intro j x hxj ks k l hj hcell pre post _ _ u hu
    have hks : Spec.AxisOk (.cont ks : Axis K D) := S.axesOk _ (List.mem_of_getElem? hj)
    have hkl := cell_lt hks.2 hcell
    obtain ⟨α, β, hab⟩ := hG pre post
    have hm : Spec.OnLine (k, G (pre ++ .inl k :: post)) (l, G (pre ++ .inl l :: post)) x (G (pre ++ .inl x :: post)) := by
      unfold Spec.OnLine
      simp only [hab]
      ring
    rw [OnLine.unique (ne_of_lt hkl) hu hm, sub_self, abs_zero])
  rw [hv]
  simp only [Finset.sum_const_zero] at hle
  rw [sub_eq_zero.mp (abs_nonpos_iff.mp hle)]

omit [Field K] [LinearOrder K] [IsStrictOrderedRing K] in
theorem GridNode.reverse {grid : List (List K)} {is : List Nat} {xs : List K} (h : Spec.GridNode grid is xs) : Spec.GridNode grid.reverse is.reverse xs.reverse := by
  have app : ∀ (grid : List (List K)) is xs ks i x, Spec.GridNode grid is xs → ks[i]? = some x → Spec.GridNode (grid ++ [ks]) (is ++ [i]) (xs ++ [x]) := by
    intro grid is xs ks i x h hk
    induction h with
    | nil => exact .cons hk .nil
    | cons hk' _ ih => exact .cons hk' ih
  induction h with
  | nil => exact .nil
  | cons hk _ ih =>
    simp only [List.reverse_cons]
    exact app _ _ _ _ _ _ ih hk

omit [Field K] [LinearOrder K] [IsStrictOrderedRing K] [DecidableEq D] in
theorem atNode_grid {grid : List (List K)} {is : List Nat} {zs : List (K ⊕ D)} (h : Spec.AtNode (grid.map .cont) is zs) : ∃ xs, zs = xs.map .inl ∧ Spec.GridNode grid is xs := by
  induction grid generalizing is zs with
  | nil => cases h; exact ⟨[], rfl, .nil⟩
  | cons ks grid ih =>
    cases h with
    | cons hk hr =>
      obtain ⟨xs, rfl, hn⟩ := ih hr
      rw [Spec.knot, Option.map_eq_some_iff] at hk
      obtain ⟨x, hx, rfl⟩ := hk
      exact ⟨x :: xs, rfl, .cons hx hn⟩

omit [Field K] [IsStrictOrderedRing K] in
/-- All arguments are between the first and the last knot of their axes. -/
def Spec.GridWithin (grid : List (List K)) (xs : List K) : Prop := List.Forall₂ (fun ks x => (∃ k ∈ ks, k ≤ x) ∧ ∃ l ∈ ks, x ≤ l) grid xs

omit [Field K] [IsStrictOrderedRing K] [DecidableEq D] in
theorem within_grid {grid : List (List K)} {zs : List (K ⊕ D)} : List.Forall₂ Spec.Within (grid.map .cont) zs ↔ ∃ xs, zs = xs.map .inl ∧ Spec.GridWithin grid xs := by
  constructor
  · intro h
    induction grid generalizing zs with
    | nil => cases h; exact ⟨[], rfl, .nil⟩
    | cons ks grid ih =>
      cases h with
      | @cons _ z _ zs hk hr =>
        obtain ⟨xs, rfl, hn⟩ := ih hr
        cases z with
        | inl x => exact ⟨x :: xs, rfl, .cons hk hn⟩
        | inr _ => exact hk.elim
  · rintro ⟨xs, rfl, h⟩
    induction h with
    | nil => exact .nil
    | cons hk _ ih => exact .cons hk ih

/-- **C143 (`interpn`).** The function that `interpn` returns for the values of a function `G` on the grid is off by at most the sum of `L j * H j / 2`, if `G` changes by at most `L j`
times the distance along the `j`-th axis and the knots around the `j`-th argument are at most `H j` apart; and it is between the smallest and the largest value. -/
theorem C143_interpn (h h' : Heap K) (shape : List Nat) (data : List K) (a : Nd) (grid : List (List K)) (hm : NdArray.mkData h shape data = .ok (h', a)) (hsmall : card shape < 2 ^ 31)
    (hg : grid ≠ []) (hok : ∀ ks ∈ grid, ks ≠ [] ∧ ks.Pairwise (· < ·)) (hs : shape = grid.map List.length) (G : List K → K)
    (T : ∀ is xs, Spec.GridNode grid is xs → NdArray.at' h' a is = .ok (G xs)) (e : Bool) (xs : List K) (hx : Spec.GridWithin grid xs) (L H : Nat → K)
    (hL0 : ∀ j, j < grid.length → 0 ≤ L j ∧ 0 ≤ H j)
    (hL : ∀ pre post s t, Spec.GridWithin grid (pre ++ s :: post) → Spec.GridWithin grid (pre ++ t :: post) → |G (pre ++ s :: post) - G (pre ++ t :: post)| ≤ L pre.length * |s - t|)
    (hH : ∀ (j : Nat) ks x k l, grid[j]? = some ks → xs[j]? = some x → Spec.Cell ks k l x → l - k ≤ H j) :
    ∃ I : Interp K D, interpn h' grid a .linear = .ok I ∧ ∃ v, interpnCall e I xs = .ok v ∧ |v - G xs| ≤ ∑ j ∈ Finset.range grid.length, L j * H j / 2 ∧
      ∀ m M, (∀ c v, NdArray.at' h' a c = .ok v → m ≤ v ∧ v ≤ M) → m ≤ v ∧ v ≤ M := by
  have S := interpn_setup (D := D) hm hsmall hg hok hs
  obtain ⟨I, hI, _⟩ := C37_node _ _ _ _ _ _ S
  refine ⟨I, by rw [interpn, hI]; rfl, ?_⟩
  have hxr : List.Forall₂ (Spec.Within (D := D)) (grid.reverse.map .cont) (xs.reverse.map .inl) := within_grid.mpr ⟨_, rfl, List.rel_reverse hx⟩
  have hlen : (grid.reverse.map (Axis.cont (D := D))).length = grid.length := by simp
  have hxl : grid.length = xs.length := List.Forall₂.length_eq hx
  have back : ∀ zs : List K, ((zs.map (Sum.inl (β := D))).map (Sum.elim id fun _ => (0 : K))) = zs := fun zs => by simp [Function.comp_def]
  obtain ⟨v, hv, hle⟩ := C143_lipschitz h h' shape data a _ S (fun zs => G ((zs.map (Sum.elim id fun _ => 0)).reverse)) (by
      intro is zs hz
      obtain ⟨ys, rfl, hn⟩ := atNode_grid hz
      have hr := GridNode.reverse hn
      rw [List.reverse_reverse] at hr
      rw [T _ _ hr]
      simp only [back]) I hI e _ hxr (fun j => L (grid.length - 1 - j)) (fun j => H (grid.length - 1 - j)) (fun j hj => hL0 _ (by rw [hlen] at hj; omega)) (by
      intro pre post s t h1 h2
      obtain ⟨ys, e1, g1⟩ := within_grid.mp h1
      obtain ⟨ys', e2, g2⟩ := within_grid.mp h2
      have l1 : grid.length = pre.length + 1 + post.length := by
        have := h1.length_eq
        simp at this
        omega
      have r1 : ys = (pre.map (Sum.elim id fun _ => 0)) ++ s :: post.map (Sum.elim id fun _ => 0) := by
        rw [← back ys, ← e1]
        simp
      have r2 : ys' = (pre.map (Sum.elim id fun _ => 0)) ++ t :: post.map (Sum.elim id fun _ => 0) := by
        rw [← back ys', ← e2]
        simp
      have f1 := List.rel_reverse g1
      have f2 := List.rel_reverse g2
      rw [List.reverse_reverse, r1, List.reverse_append, List.reverse_cons, List.append_assoc, List.singleton_append] at f1
      rw [List.reverse_reverse, r2, List.reverse_append, List.reverse_cons, List.append_assoc, List.singleton_append] at f2
      have := hL _ _ _ _ f1 f2
      simp only [List.map_append, List.map_cons, Sum.elim_inl, id, List.reverse_append, List.reverse_cons, List.append_assoc, List.singleton_append]
      rw [show grid.length - 1 - pre.length = post.length by omega]
      simpa using this) (by
      intro j ks x k l hj hxj hcell
      have hjl := (List.getElem?_eq_some_iff.mp hj).1
      rw [hlen] at hjl
      rw [List.getElem?_map, List.getElem?_reverse (by omega), Option.map_eq_some_iff] at hj
      rw [List.getElem?_map, List.getElem?_reverse (by omega), Option.map_eq_some_iff] at hxj
      obtain ⟨ks', hj, he⟩ := hj
      obtain ⟨x', hxj, he'⟩ := hxj
      cases he
      cases he'
      rw [← hxl] at hxj
      exact hH _ _ _ _ _ hj hxj hcell)
  refine ⟨v, hv, ?_, fun m M hmM => ?_⟩
  · rw [hlen] at hle
    rw [back, List.reverse_reverse] at hle
    rwa [Finset.sum_range_reflect (fun j => L j * H j / 2)] at hle
  · obtain ⟨v', hv', h1, h2⟩ := C143_range h h' shape data a _ S I hI e _ hxr m M hmM
    rw [hv, Outcome.ok.injEq] at hv'
    rw [hv']
    exact ⟨h1, h2⟩

end

/-- Half the product of a number and one of two weights, on the knots 0, 1 and 3: reproduced at every argument between 0 and 3. -/
def product : List (ℚ ⊕ String) → ℚ
  | [.inl x, .inr "a"] => x / 2
  | [.inl x, .inr "b"] => x
  | _ => 0

example : ∃ I, build [[0, 1 / 2, 3 / 2, 0, 1, 3]] [Axis.cont [0, 1, 3], Axis.disc ["a", "b"]] ⟨0, 0, [2, 3], [3, 1], [], 6⟩ = .ok I ∧
    ∀ x : ℚ, 0 ≤ x → x ≤ 3 → call false I [.inl x, .inr "a"] = .ok (x / 2) ∧ call false I [.inl x, .inr "b"] = .ok x := by
  have S : Spec.Setup (D := String) ([] : Heap ℚ) [[0, 1 / 2, 3 / 2, 0, 1, 3]] [2, 3] [0, 1 / 2, 3 / 2, 0, 1, 3] ⟨0, 0, [2, 3], [3, 1], [], 6⟩ [Axis.cont [0, 1, 3], Axis.disc ["a", "b"]] := by
    refine ⟨rfl, by decide, by simp, ?_, rfl⟩
    intro ax hax
    simp only [List.mem_cons, List.not_mem_nil, or_false] at hax
    rcases hax with rfl | rfl
    · exact ⟨by simp, by decide +kernel⟩
    · exact ⟨by simp, by decide⟩
  have T : Spec.Tabulates [[0, 1 / 2, 3 / 2, 0, 1, 3]] ⟨0, 0, [2, 3], [3, 1], [], 6⟩ [Axis.cont [0, 1, 3], Axis.disc ["a", "b"]] product := by
    rintro _ _ (_ | ⟨h1, _ | ⟨h2, _ | _⟩⟩)
    rename_i i x j y
    have hi : i < 3 := by
      by_contra hc
      rw [Spec.knot, List.getElem?_eq_none (by simp; omega)] at h1
      cases h1
    have hj : j < 2 := by
      by_contra hc
      rw [Spec.knot, List.getElem?_eq_none (by simp; omega)] at h2
      cases h2
    interval_cases i <;> interval_cases j <;> cases h1 <;> cases h2 <;> decide +kernel
  have hG : ∀ pre post, ∃ α β, ∀ s, product (pre ++ .inl s :: post) = α + β * s := by
    intro pre post
    rcases pre with _ | ⟨p, _ | ⟨p', pre⟩⟩
    · rcases post with _ | ⟨q | q, _ | ⟨q', post⟩⟩
      · exact ⟨0, 0, fun s => by simp [product]⟩
      · exact ⟨0, 0, fun s => by simp [product]⟩
      · exact ⟨0, 0, fun s => by simp [product]⟩
      · by_cases ha : q = "a"
        · exact ⟨0, 1 / 2, fun s => by simp only [List.nil_append, ha, product]; ring⟩
        · by_cases hb : q = "b"
          · exact ⟨0, 1, fun s => by simp only [List.nil_append, hb, product]; ring⟩
          · refine ⟨0, 0, fun s => ?_⟩
            simp only [List.nil_append]
            rw [product]
            · simp
            · intro x h; simp at h; exact ha h.2
            · intro x h; simp at h; exact hb h.2
      · exact ⟨0, 0, fun s => by simp [product]⟩
    · refine ⟨0, 0, fun s => ?_⟩
      rcases post with _ | ⟨q, post⟩ <;> cases p <;> simp [product]
    · refine ⟨0, 0, fun s => ?_⟩
      rcases pre with _ | ⟨q, pre⟩ <;> cases p <;> cases p' <;> simp [product]
  refine ⟨_, rfl, fun x h0 h3 => ⟨?_, ?_⟩⟩
  · exact C143_multilinear _ _ _ _ _ _ S product T _ rfl false [.inl x, .inr "a"] (.cons ⟨⟨0, by simp, h0⟩, 3, by simp, h3⟩ (.cons (by simp [Spec.Within]) .nil)) hG
  · exact C143_multilinear _ _ _ _ _ _ S product T _ rfl false [.inl x, .inr "b"] (.cons ⟨⟨0, by simp, h0⟩, 3, by simp, h3⟩ (.cons (by simp [Spec.Within]) .nil)) hG

end Alexandria.MathUtils
