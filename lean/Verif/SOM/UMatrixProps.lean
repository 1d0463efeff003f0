import Verif.SOM.UMatrixModel
import Verif.SOM.Props2
import Verif.NdArray.RoundProps
import Verif.Common.Gradual

/-! # C174: u-matrices of floating point numbers -/

namespace Alexandria.SOM.FloatU

open MathUtils.FloatModes (Arith)

/-! ## Specification -/

namespace Spec

/-- `p` is a cell of the map that touches `c`. -/
def Touches (sx sy : Nat) (c p : Nat × Nat) : Prop := SOM.Spec.Adjacent p c ∧ p.1 < sx ∧ p.2 < sy

/-- `p` is the first of the cells that touch `c`, in the order of the first and then of the second coordinate. -/
def First (sx sy : Nat) (c p : Nat × Nat) : Prop :=
  Touches sx sy c p ∧ ∀ q, Touches sx sy c q → q = p ∨ p.1 < q.1 ∨ (p.1 = q.1 ∧ p.2 < q.2)

/-- `r` is one of the values at the cells that touch `c`, none of them is before it, and it is NaN exactly if the value at the first of these cells is. -/
def Best {K : Type} (lt : Ext K → Ext K → Bool) (sx sy : Nat) (c : Nat × Nat) (f : Nat × Nat → Ext K) (r : Ext K) : Prop :=
  (∃ p, Touches sx sy c p ∧ r = f p) ∧ (∀ p, Touches sx sy c p → lt (f p) r = false) ∧ ∀ p, First sx sy c p → (r = .nan ↔ f p = .nan)

/-- The difference of two numbers is not a number. -/
def NoDiff {K : Type} (a b : Ext K) : Prop := a = .nan ∨ b = .nan ∨ (a = .pinf ∧ b = .pinf) ∨ (a = .ninf ∧ b = .ninf)

/-- A number that is not negative, or the infinity. -/
def Nonneg {K : Type} [Field K] [LinearOrder K] : Ext K → Prop
  | .fin a => 0 ≤ a
  | .pinf => True
  | _ => False

/-- What is assumed of the square root. -/
def SquareRoot {K : Type} [Field K] [LinearOrder K] (root : Ext K → Ext K) : Prop := root .nan = .nan ∧ ∀ a, Nonneg a → Nonneg (root a)

end Spec

/-! ## Lemmas -/

theorem distances_ok {F : Type} {nd : Nat} (m : Map nd F) (dist : (Fin nd → F) → (Fin nd → F) → F) (wt : Nat → Nat → Fin nd → F) (w : Fin nd → F) :
    ∀ ps : List (Nat × Nat), (∀ p ∈ ps, m.at p.1 p.2 = .ok (wt p.1 p.2)) → distances m dist w ps = .ok (ps.map fun p => dist w (wt p.1 p.2)) := by
  intro ps
  induction ps with
  | nil => intro _; rfl
  | cons p ps ih =>
    intro h
    rw [distances, h p List.mem_cons_self, Outcome.bind_ok, ih (fun q hq => h q (List.mem_cons_of_mem _ hq)), Outcome.bind_ok]
    rfl

theorem uCellF_eq {F : Type} (A : Arith F) (count : Nat → F) {nd : Nat} (m : Map nd F) (dist : (Fin nd → F) → (Fin nd → F) → F) (t : UType) (x y : Nat)
    (hx : x < m.sx) (hy : y < m.sy) (wt : Nat → Nat → Fin nd → F) (hwt : ∀ x y, x < m.sx → y < m.sy → m.at x y = .ok (wt x y)) :
    uCellF A count m dist t x y = reduceF A count t ((neighbours m.sx m.sy x y).map fun p => dist (wt x y) (wt p.1 p.2)) := by
  unfold uCellF
  rw [hwt x y hx hy, Outcome.bind_ok, distances_ok m dist wt (wt x y) _ (fun p hp => ?_), Outcome.bind_ok]
  obtain ⟨_, h1, h2⟩ := (mem_neighbours hx hy p).mp hp
  exact hwt _ _ h1 h2

theorem foldl_best {F : Type} (lt : F → F → Bool) (htr : ∀ a b c, lt a b = true → lt b c = true → lt a c = true) (hir : ∀ a, lt a a = false) (l : List F) :
    ∀ a : F, (l.foldl (fun b x => if lt x b = true then x else b) a ∈ a :: l) ∧
      (l.foldl (fun b x => if lt x b = true then x else b) a = a ∨ lt (l.foldl (fun b x => if lt x b = true then x else b) a) a = true) ∧
      ∀ x ∈ a :: l, lt x (l.foldl (fun b x => if lt x b = true then x else b) a) = false := by
  induction l with
  | nil =>
    intro a
    refine ⟨List.mem_cons_self, .inl rfl, ?_⟩
    intro x hx
    rw [List.mem_singleton] at hx
    rw [hx]; exact hir a
  | cons b l ih =>
    intro a
    simp only [List.foldl_cons]
    by_cases h : lt b a = true
    · rw [if_pos h]
      obtain ⟨h1, h2, h3⟩ := ih b
      have h4 : lt (l.foldl (fun b x => if lt x b = true then x else b) b) a = true := by
        rcases h2 with h2 | h2
        · rw [h2]; exact h
        · exact htr _ _ _ h2 h
      refine ⟨List.mem_cons_of_mem _ h1, .inr h4, ?_⟩
      intro x hx
      rcases List.mem_cons.mp hx with rfl | hx
      · by_contra hc
        rw [Bool.not_eq_false] at hc
        have := htr _ _ _ hc h4
        rw [hir] at this
        exact Bool.false_ne_true this
      · exact h3 x hx
    · rw [if_neg h]
      obtain ⟨h1, h2, h3⟩ := ih a
      refine ⟨?_, h2, ?_⟩
      · rcases List.mem_cons.mp h1 with h1 | h1
        · rw [h1]; exact List.mem_cons_self
        · exact List.mem_cons_of_mem _ (List.mem_cons_of_mem _ h1)
      · intro x hx
        rcases List.mem_cons.mp hx with rfl | hx
        · exact h3 _ List.mem_cons_self
        · rcases List.mem_cons.mp hx with rfl | hx
          · by_contra hc
            rw [Bool.not_eq_false] at hc
            rcases h2 with h2 | h2
            · rw [h2] at hc; exact h hc
            · exact h (htr _ _ _ hc h2)
          · exact h3 x (List.mem_cons_of_mem _ hx)

theorem first_neighbour {sx sy x y : Nat} (hx : x < sx) (hy : y < sy) (p : Nat × Nat) (h : Spec.First sx sy (x, y) p) (d : Nat × Nat) :
    (neighbours sx sy x y).headD d = p := by
  obtain ⟨⟨⟨h0, h1, h2, h3, h4⟩, h5, h6⟩, h7⟩ := h
  have key : ∀ q : Nat × Nat, ∀ l, neighbours sx sy x y = q :: l → (∀ q', Spec.Touches sx sy (x, y) q' → q.1 < q'.1 ∨ (q.1 = q'.1 ∧ q.2 ≤ q'.2)) → (neighbours sx sy x y).headD d = p := by
    intro q l e hm
    have hq : Spec.Touches sx sy (x, y) q := (mem_neighbours hx hy q).mp (e ▸ List.mem_cons_self)
    have a1 := h7 q hq
    have a2 := hm p ⟨⟨h0, h1, h2, h3, h4⟩, h5, h6⟩
    rw [e, List.headD_cons]
    rcases a1 with a1 | a1 | a1
    · exact a1
    · omega
    · omega
  have touch : ∀ q' : Nat × Nat, Spec.Touches sx sy (x, y) q' → ¬ (q'.1 = x ∧ q'.2 = y) ∧ q'.1 ≤ x + 1 ∧ x ≤ q'.1 + 1 ∧ q'.2 ≤ y + 1 ∧ y ≤ q'.2 + 1 ∧ q'.1 < sx ∧ q'.2 < sy := by
    rintro q' ⟨⟨g0, g1, g2, g3, g4⟩, g5, g6⟩
    refine ⟨fun g => g0 (Prod.ext g.1 g.2), g1, g2, g3, g4, g5, g6⟩
  have tp := touch p ⟨⟨h0, h1, h2, h3, h4⟩, h5, h6⟩
  by_cases c1 : 0 < x
  · by_cases c2 : 0 < y
    · refine key (x - 1, y - 1) _ (by
        simp only [neighbours, List.flatMap_cons]
        rw [List.filterMap_cons_some (b := (x - 1, y - 1)) (by rw [if_neg (by omega), if_neg (by omega)]; congr 2 <;> omega)]
        rfl) ?_
      intro q' hq'; have := touch q' hq'; simp only; omega
    · refine key (x - 1, y) _ (by
        simp only [neighbours, List.flatMap_cons]
        rw [List.filterMap_cons_none (by rw [if_neg (by omega), if_pos (by omega)]),
          List.filterMap_cons_some (b := (x - 1, y)) (by rw [if_neg (by omega), if_neg (by omega)]; congr 2; omega)]
        rfl) ?_
      intro q' hq'; have := touch q' hq'; simp only; omega
  · have e1 : List.filterMap (fun j : Int => if (x : Int) - 1 = x ∧ j = y then none else if (x : Int) - 1 < 0 ∨ (x : Int) - 1 = sx ∨ j < 0 ∨ j = sy then none
        else some (((x : Int) - 1).toNat, j.toNat)) [(y : Int) - 1, (y : Int), (y : Int) + 1] = [] := by
      rw [List.filterMap_eq_nil_iff]
      intro j _
      rw [if_neg (by omega), if_pos (by omega)]
    by_cases c2 : 0 < y
    · refine key (x, y - 1) _ (by
        simp only [neighbours, List.flatMap_cons]
        rw [e1, List.nil_append, List.filterMap_cons_some (b := (x, y - 1)) (by rw [if_neg (by omega), if_neg (by omega)]; congr 2; omega)]
        rfl) ?_
      intro q' hq'; have := touch q' hq'; simp only; omega
    · by_cases c3 : y + 1 < sy
      · refine key (x, y + 1) _ (by
          simp only [neighbours, List.flatMap_cons]
          rw [e1, List.nil_append, List.filterMap_cons_none (by rw [if_neg (by omega), if_pos (by omega)]), List.filterMap_cons_none (by rw [if_pos ⟨trivial, rfl⟩]),
            List.filterMap_cons_some (b := (x, y + 1)) (by rw [if_neg (by omega), if_neg (by omega)]; congr 2)]
          rfl) ?_
        intro q' hq'; have := touch q' hq'; simp only; omega
      · refine key (x + 1, y) _ (by
          simp only [neighbours, List.flatMap_cons]
          rw [e1, List.nil_append, List.filterMap_cons_none (by rw [if_neg (by omega), if_pos (by omega)]), List.filterMap_cons_none (by rw [if_pos ⟨trivial, rfl⟩]),
            List.filterMap_cons_none (by rw [if_neg (by omega), if_pos (by omega)]), List.filterMap_nil, List.nil_append,
            List.filterMap_cons_none (by rw [if_neg (by omega), if_pos (by omega)]),
            List.filterMap_cons_some (b := (x + 1, y)) (by rw [if_neg (by omega), if_neg (by omega)]; congr 2)]
          rfl) ?_
        intro q' hq'; have := touch q' hq'; simp only; omega

theorem length_neighbours (sx sy x y : Nat) : (neighbours sx sy x y).length ≤ 8 := by
  simp only [neighbours, List.flatMap_cons, List.flatMap_nil, List.append_nil, List.length_append]
  have h : ∀ (f : Int → Option (Nat × Nat)) (a b c : Int), (List.filterMap f [a, b, c]).length ≤ 3 := fun f a b c => List.length_filterMap_le f _
  have h2 : ∀ (f : Int → Option (Nat × Nat)) (a b c : Int), f b = none → (List.filterMap f [a, b, c]).length ≤ 2 := by
    intro f a b c hb
    rw [List.filterMap_cons]
    cases f a with
    | none => simp only [List.filterMap_cons_none hb]; have := List.length_filterMap_le f [c]; simp only [List.length_cons, List.length_nil] at this; omega
    | some q => simp only [List.filterMap_cons_none hb, List.length_cons]; have := List.length_filterMap_le f [c]; simp only [List.length_cons, List.length_nil] at this; omega
  have a1 := h (fun j : Int => if (x : Int) - 1 = x ∧ j = y then none else if (x : Int) - 1 < 0 ∨ (x : Int) - 1 = sx ∨ j < 0 ∨ j = sy then none
        else some (((x : Int) - 1).toNat, j.toNat)) ((y : Int) - 1) y (y + 1)
  have a2 := h2 (fun j : Int => if True ∧ j = y then none else if (x : Int) < 0 ∨ (x : Int) = sx ∨ j < 0 ∨ j = sy then none
        else some ((x : Int).toNat, j.toNat)) ((y : Int) - 1) y (y + 1) (if_pos ⟨trivial, rfl⟩)
  have a3 := h (fun j : Int => if (x : Int) + 1 = x ∧ j = y then none else if (x : Int) + 1 < 0 ∨ (x : Int) + 1 = sx ∨ j < 0 ∨ j = sy then none
        else some (((x : Int) + 1).toNat, j.toNat)) ((y : Int) - 1) y (y + 1)
  omega

section Ext
variable {K : Type} [Field K] [LinearOrder K]

theorem lt_trans' (a b c : Ext K) (h1 : Ext.lt a b = true) (h2 : Ext.lt b c = true) : Ext.lt a c = true := by
  cases a <;> cases b <;> cases c <;> simp_all [Ext.lt]
  exact lt_trans h1 h2

theorem lt_irrefl' (a : Ext K) : Ext.lt a a = false := by cases a <;> simp [Ext.lt]

variable [IsStrictOrderedRing K] {R : Rounding K} {M : K}

theorem result_nonneg (hM : 0 ≤ M) {x : K} (h : 0 ≤ x) : Spec.Nonneg (Ext.result R M x) := by
  unfold Ext.result
  have h1 := R.nonneg h
  by_cases h2 : M < R.rnd x
  · rw [if_pos h2]; trivial
  · rw [if_neg h2, if_neg (by linarith)]; exact h1

theorem result_ne_nan (x : K) : Ext.result R M x ≠ .nan := by
  unfold Ext.result
  by_cases h2 : M < R.rnd x
  · rw [if_pos h2]; simp
  · rw [if_neg h2]
    by_cases h3 : R.rnd x < -M
    · rw [if_pos h3]; simp
    · rw [if_neg h3]; simp

theorem add_nonneg' (hM : 0 ≤ M) {a b : Ext K} (ha : Spec.Nonneg a) (hb : Spec.Nonneg b) : Spec.Nonneg (Ext.add R M a b) := by
  cases a <;> cases b <;> simp only [Spec.Nonneg, Ext.add] at * <;> first | trivial | exact result_nonneg hM (add_nonneg ha hb)

theorem Spec.Nonneg.ne_nan {a : Ext K} (h : Spec.Nonneg a) : a ≠ .nan := by
  rintro rfl; exact h

theorem foldl_sum (hM : 0 ≤ M) (l : List (Ext K)) : ∀ s : Ext K, (s = .nan ∨ Spec.Nonneg s) → (∀ a ∈ l, a = .nan ∨ Spec.Nonneg a) →
    (l.foldl (Ext.add R M) s = .nan ↔ s = .nan ∨ .nan ∈ l) ∧ (l.foldl (Ext.add R M) s = .nan ∨ Spec.Nonneg (l.foldl (Ext.add R M) s)) := by
  induction l with
  | nil => intro s hs _; simp [hs]
  | cons a l ih =>
    intro s hs hl
    rw [List.foldl_cons]
    have ha := hl a List.mem_cons_self
    have hsum : (Ext.add R M s a = .nan ↔ s = .nan ∨ a = .nan) ∧ (Ext.add R M s a = .nan ∨ Spec.Nonneg (Ext.add R M s a)) := by
      rcases hs with rfl | hs
      · have : Ext.add R M .nan a = .nan := by cases a <;> rfl
        rw [this]; simp
      · rcases ha with rfl | ha
        · have : Ext.add R M s .nan = .nan := by cases s <;> rfl
          rw [this]; simp
        · have h := add_nonneg' (R := R) hM hs ha
          have h1 := h.ne_nan
          refine ⟨⟨fun e => absurd e h1, ?_⟩, .inr h⟩
          rintro (e | e)
          · exact absurd e hs.ne_nan
          · exact absurd e ha.ne_nan
    obtain ⟨h1, h2⟩ := ih (Ext.add R M s a) hsum.2 (fun b hb => hl b (List.mem_cons_of_mem _ hb))
    refine ⟨?_, h2⟩
    rw [h1, hsum.1, List.mem_cons, or_assoc, @eq_comm _ a]

theorem square_ok (hM : 0 ≤ M) (a b : Ext K) : let d := Ext.sub R M a b
    (Ext.mul R M d d = .nan ↔ Spec.NoDiff a b) ∧ (Ext.mul R M d d = .nan ∨ Spec.Nonneg (Ext.mul R M d d)) := by
  have hfin : ∀ d : K, Spec.Nonneg (Ext.mul R M (.fin d) (.fin d)) := fun d => result_nonneg hM (mul_self_nonneg d)
  have hnn : ∀ d : Ext K, d ≠ .nan → Spec.Nonneg (Ext.mul R M d d) := by
    intro d hd
    cases d with
    | nan => exact absurd rfl hd
    | ninf => trivial
    | pinf => trivial
    | fin d => exact hfin d
  have hd : Ext.sub R M a b = .nan ↔ Spec.NoDiff a b := by
    cases a <;> cases b <;> simp [Ext.sub, Ext.neg, Ext.add, Spec.NoDiff]
    exact result_ne_nan _
  intro d
  by_cases h : d = .nan
  · have : Ext.mul R M d d = .nan := by rw [h]; rfl
    refine ⟨⟨fun _ => hd.mp h, fun _ => this⟩, .inl this⟩
  · have h1 := hnn d h
    exact ⟨⟨fun e => absurd e h1.ne_nan, fun e => absurd (hd.mpr e) h⟩, .inr h1⟩

theorem l2_ok (hM : 0 ≤ M) (root : Ext K → Ext K) (hroot : Spec.SquareRoot root) {nd : Nat} (w v : Fin nd → Ext K) :
    (l2 (Arith.ieee R M) root w v = .nan ↔ ∃ i, Spec.NoDiff (w i) (v i)) ∧ (l2 (Arith.ieee R M) root w v = .nan ∨ Spec.Nonneg (l2 (Arith.ieee R M) root w v)) := by
  obtain ⟨h1, h2⟩ := foldl_sum (R := R) hM ((List.finRange nd).map fun i => Ext.mul R M (Ext.sub R M (w i) (v i)) (Ext.sub R M (w i) (v i))) (.fin 0) (.inr (le_refl _))
    (by
      intro a ha
      obtain ⟨i, _, rfl⟩ := List.mem_map.mp ha
      exact (square_ok hM (w i) (v i)).2)
  rw [List.foldl_map] at h1 h2
  have e : l2 (Arith.ieee R M) root w v =
    root ((List.finRange nd).foldl (fun s i => Ext.add R M s (Ext.mul R M (Ext.sub R M (w i) (v i)) (Ext.sub R M (w i) (v i)))) (.fin 0)) := rfl
  rw [e]
  have h3 : (Ext.fin (0 : K) = .nan ∨ .nan ∈ (List.finRange nd).map fun i => Ext.mul R M (Ext.sub R M (w i) (v i)) (Ext.sub R M (w i) (v i))) ↔ ∃ i, Spec.NoDiff (w i) (v i) := by
    simp only [reduceCtorEq, false_or, List.mem_map, List.mem_finRange, true_and]
    exact exists_congr fun i => (square_ok hM (w i) (v i)).1
  rw [h3] at h1
  generalize (List.finRange nd).foldl (fun s i => Ext.add R M s (Ext.mul R M (Ext.sub R M (w i) (v i)) (Ext.sub R M (w i) (v i)))) (.fin 0) = S at h1 h2
  rcases h2 with h2 | h2
  · rw [h2] at h1 ⊢
    rw [hroot.1]
    exact ⟨⟨fun _ => h1.mp rfl, fun _ => rfl⟩, .inl rfl⟩
  · have h4 := hroot.2 S h2
    refine ⟨⟨fun e => absurd e h4.ne_nan, fun h => absurd (h1.mpr h) h2.ne_nan⟩, .inr h4⟩

theorem result_neg (hM : 0 ≤ M) (x : K) : Ext.result R M (-x) = (Ext.result R M x).neg := by
  unfold Ext.result
  rw [R.neg]
  by_cases h1 : M < R.rnd x
  · rw [if_pos h1, if_neg (by linarith), if_pos (by linarith)]; rfl
  · by_cases h2 : R.rnd x < -M
    · rw [if_neg h1, if_pos h2, if_pos (by linarith)]; rfl
    · rw [if_neg h1, if_neg h2, if_neg (by linarith), if_neg (by linarith)]; rfl

theorem sub_swap (hM : 0 ≤ M) (a b : Ext K) : Ext.sub R M a b = (Ext.sub R M b a).neg := by
  cases a with
  | fin a => cases b with
    | fin b =>
      show Ext.result R M (a + -b) = (Ext.result R M (b + -a)).neg
      rw [← result_neg hM]
      congr 1; ring
    | _ => rfl
  | _ => cases b <;> rfl

theorem mul_neg_neg' (d : Ext K) : Ext.mul R M d.neg d.neg = Ext.mul R M d d := by
  cases d <;> simp [Ext.mul, Ext.neg]

end Ext

/-! ## Theorems -/

section
variable {K : Type} [Field K] [LinearOrder K] [IsStrictOrderedRing K] (R : Rounding K) (M : K)

/-- **C174 (minimum and maximum).** Whatever the distances are, NaN included, the minimum and the maximum are one of them, and no distance is less (greater). They are NaN
exactly if the distance to the first of the neighbours is NaN; a NaN at any other neighbour is passed over. -/
theorem C174_extrema {nd : Nat} (count : Nat → Ext K) (m : Map nd (Ext K)) (h2 : 2 ≤ m.sx * m.sy) (dist : (Fin nd → Ext K) → (Fin nd → Ext K) → Ext K)
    (x y : Nat) (hx : x < m.sx) (hy : y < m.sy) (wt : Nat → Nat → Fin nd → Ext K) (hwt : ∀ x y, x < m.sx → y < m.sy → m.at x y = .ok (wt x y)) :
    (∃ r, uCellF (Arith.ieee R M) count m dist .min x y = .ok r ∧ Spec.Best Ext.lt m.sx m.sy (x, y) (fun p => dist (wt x y) (wt p.1 p.2)) r) ∧
    ∃ r, uCellF (Arith.ieee R M) count m dist .max x y = .ok r ∧ Spec.Best (fun a b => Ext.lt b a) m.sx m.sy (x, y) (fun p => dist (wt x y) (wt p.1 p.2)) r := by
  rw [uCellF_eq _ _ m dist .min x y hx hy wt hwt, uCellF_eq _ _ m dist .max x y hx hy wt hwt]
  have hmem := mem_neighbours hx hy
  have hne := neighbours_ne_nil hx hy h2
  have hfirst := fun p h => first_neighbour hx hy p h (0, 0)
  generalize neighbours m.sx m.sy x y = ps at hmem hne hfirst
  generalize (fun p : Nat × Nat => dist (wt x y) (wt p.1 p.2)) = f
  obtain ⟨a, as, rfl⟩ := List.exists_cons_of_ne_nil hne
  have hmm : ∀ v, v ∈ f a :: as.map f ↔ ∃ p, Spec.Touches m.sx m.sy (x, y) p ∧ v = f p := by
    intro v
    rw [← List.map_cons, List.mem_map]
    constructor
    · rintro ⟨p, hp, rfl⟩; exact ⟨p, (hmem p).mp hp, rfl⟩
    · rintro ⟨p, h1, rfl⟩; exact ⟨p, (hmem p).mpr h1, rfl⟩
  constructor
  · obtain ⟨h1, h3, h4⟩ := foldl_best Ext.lt lt_trans' lt_irrefl' (as.map f) (f a)
    refine ⟨_, rfl, (hmm _).mp h1, fun p hp => h4 _ ((hmm _).mpr ⟨p, hp, rfl⟩), ?_⟩
    intro p hp
    have e := hfirst p hp
    rw [List.headD_cons] at e
    subst e
    rcases h3 with h3 | h3
    · exact Eq.congr_left h3
    · refine ⟨fun h => ?_, fun h => ?_⟩
      · have h5 := h ▸ h3
        rw [show Ext.lt (Ext.nan : Ext K) (f a) = false from Ext.nan_lt _] at h5; exact absurd h5 Bool.false_ne_true
      · rw [h, Ext.lt_nan] at h3; exact absurd h3 Bool.false_ne_true
  · obtain ⟨h1, h3, h4⟩ := foldl_best (fun a b : Ext K => Ext.lt b a) (fun a b c h1 h2 => lt_trans' c b a h2 h1) lt_irrefl' (as.map f) (f a)
    refine ⟨_, rfl, (hmm _).mp h1, fun p hp => h4 _ ((hmm _).mpr ⟨p, hp, rfl⟩), ?_⟩
    intro p hp
    have e := hfirst p hp
    rw [List.headD_cons] at e
    subst e
    rcases h3 with h3 | h3
    · exact Eq.congr_left h3
    · refine ⟨fun h => ?_, fun h => ?_⟩
      · have h5 := h ▸ h3
        rw [show Ext.lt (f a) (Ext.nan : Ext K) = false from Ext.lt_nan _] at h5; exact absurd h5 Bool.false_ne_true
      · rw [h, Ext.nan_lt] at h3; exact absurd h3 Bool.false_ne_true

/-- **C174 (mean).** With the distance `L2` the mean is NaN exactly if the cell and a neighbour have, in some dimension, weights whose difference is not a number; otherwise it
is not negative (it may have overflowed). -/
theorem C174_mean_nan (hM : 0 ≤ M) (root : Ext K → Ext K) (hroot : Spec.SquareRoot root) {nd : Nat} (m : Map nd (Ext K)) (h2 : 2 ≤ m.sx * m.sy)
    (x y : Nat) (hx : x < m.sx) (hy : y < m.sy) (wt : Nat → Nat → Fin nd → Ext K) (hwt : ∀ x y, x < m.sx → y < m.sy → m.at x y = .ok (wt x y)) :
    ∃ r, uCellF (Arith.ieee R M) (fun n => .fin n) m (l2 (Arith.ieee R M) root) .mean x y = .ok r ∧
      (r = .nan ↔ ∃ p, Spec.Touches m.sx m.sy (x, y) p ∧ ∃ i, Spec.NoDiff (wt x y i) (wt p.1 p.2 i)) ∧ (r = .nan ∨ Spec.Nonneg r) := by
  rw [uCellF_eq _ _ m _ .mean x y hx hy wt hwt]
  have hmem := mem_neighbours hx hy
  have hne := neighbours_ne_nil hx hy h2
  generalize neighbours m.sx m.sy x y = ps at hmem hne
  refine ⟨_, rfl, ?_⟩
  obtain ⟨h1, h3⟩ := foldl_sum (R := R) hM (ps.map fun p => l2 (Arith.ieee R M) root (wt x y) (wt p.1 p.2)) (.fin 0) (.inr (le_refl _))
    (by
      intro a ha
      obtain ⟨p, _, rfl⟩ := List.mem_map.mp ha
      exact (l2_ok hM root hroot _ _).2)
  have h4 : (Ext.fin (0 : K) = .nan ∨ .nan ∈ ps.map fun p => l2 (Arith.ieee R M) root (wt x y) (wt p.1 p.2)) ↔
      ∃ p, Spec.Touches m.sx m.sy (x, y) p ∧ ∃ i, Spec.NoDiff (wt x y i) (wt p.1 p.2 i) := by
    simp only [reduceCtorEq, false_or, List.mem_map]
    exact exists_congr fun p => and_congr (hmem p) (l2_ok hM root hroot _ _).1
  rw [h4] at h1
  change (Ext.div R M (List.foldl (Ext.add R M) (.fin 0) (ps.map fun p => l2 (Arith.ieee R M) root (wt x y) (wt p.1 p.2)))
    (.fin ((ps.map fun p => l2 (Arith.ieee R M) root (wt x y) (wt p.1 p.2)).length : K)) = .nan ↔ _) ∧
    (Ext.div R M (List.foldl (Ext.add R M) (.fin 0) (ps.map fun p => l2 (Arith.ieee R M) root (wt x y) (wt p.1 p.2)))
      (.fin ((ps.map fun p => l2 (Arith.ieee R M) root (wt x y) (wt p.1 p.2)).length : K)) = .nan ∨
    Spec.Nonneg (Ext.div R M (List.foldl (Ext.add R M) (.fin 0) (ps.map fun p => l2 (Arith.ieee R M) root (wt x y) (wt p.1 p.2)))
      (.fin ((ps.map fun p => l2 (Arith.ieee R M) root (wt x y) (wt p.1 p.2)).length : K))))
  have hlen : (0 : K) < ((ps.map fun p => l2 (Arith.ieee R M) root (wt x y) (wt p.1 p.2)).length : K) := by
    rw [Nat.cast_pos, List.length_map]; exact List.length_pos_iff.mpr hne
  generalize ((ps.map fun p => l2 (Arith.ieee R M) root (wt x y) (wt p.1 p.2)).length : K) = n at hlen
  generalize List.foldl (Ext.add R M) (.fin 0) (ps.map fun p => l2 (Arith.ieee R M) root (wt x y) (wt p.1 p.2)) = S at h1 h3
  rcases h3 with h3 | h3
  · subst h3
    exact ⟨⟨fun _ => h1.mp rfl, fun _ => rfl⟩, .inl rfl⟩
  · have h5 : Spec.Nonneg (Ext.div R M S (.fin n)) := by
      cases S with
      | nan => exact h3.elim
      | ninf => exact h3.elim
      | fin a =>
        rw [Ext.div, if_neg (ne_of_gt hlen)]
        exact result_nonneg hM (div_nonneg h3 hlen.le)
      | pinf =>
        simp only [Ext.div]
        first | trivial | (rw [if_neg (not_lt.mpr hlen.le)]; trivial)
    exact ⟨⟨fun e => absurd e h5.ne_nan, fun h => absurd (h1.mpr h) h3.ne_nan⟩, .inr h5⟩

/-- **C174 (symmetry).** The distance `L2` does not depend on the order of the two cells, whatever the weights are, however the operations are rounded and whether or not they
overflow. -/
theorem C174_symmetric (hM : 0 ≤ M) (root : Ext K → Ext K) {nd : Nat} (w v : Fin nd → Ext K) : l2 (Arith.ieee R M) root w v = l2 (Arith.ieee R M) root v w := by
  unfold l2
  congr 2
  funext s i
  show Ext.add R M s (Ext.mul R M (Ext.sub R M (w i) (v i)) (Ext.sub R M (w i) (v i))) = Ext.add R M s (Ext.mul R M (Ext.sub R M (v i) (w i)) (Ext.sub R M (v i) (w i)))
  rw [sub_swap hM (w i) (v i), mul_neg_neg']

/-- **C174 (a single cell).** The mean of a map with one cell is NaN; its minimum and maximum are undefined. -/
theorem C174_single {nd : Nat} (w : Fin nd → Ext K) (dist : (Fin nd → Ext K) → (Fin nd → Ext K) → Ext K) :
    uCellF (Arith.ieee R M) (fun n => .fin n) ⟨1, 1, [w]⟩ dist .mean 0 0 = .ok .nan ∧
    uCellF (Arith.ieee R M) (fun n => .fin n) ⟨1, 1, [w]⟩ dist .min 0 0 = .ub ∧ uCellF (Arith.ieee R M) (fun n => .fin n) ⟨1, 1, [w]⟩ dist .max 0 0 = .ub := by
  refine ⟨?_, rfl, rfl⟩
  show Outcome.ok (Ext.div R M (.fin 0) (.fin ((0 : Nat) : K))) = _
  rw [Nat.cast_zero, Ext.div, if_pos rfl, if_pos rfl]

end

/-- **C174 (accuracy of the mean).** With `p` bits and distances that are not negative, the mean has at most one rounding error more than there are neighbours (so at most nine). -/
theorem C174_mean (p : Nat) (hp : 1 ≤ p) {nd : Nat} (m : Map nd ℚ) (h2 : 2 ≤ m.sx * m.sy) (dist : (Fin nd → ℚ) → (Fin nd → ℚ) → ℚ)
    (x y : Nat) (hx : x < m.sx) (hy : y < m.sy) (wt : Nat → Nat → Fin nd → ℚ) (hwt : ∀ x y, x < m.sx → y < m.sy → m.at x y = .ok (wt x y))
    (hd : ∀ q, Spec.Touches m.sx m.sy (x, y) q → 0 ≤ dist (wt x y) (wt q.1 q.2)) :
    ∃ (r : ℚ) (ps : List (Nat × Nat)), uCellF (Arith.rounded (Binary.rounding p hp)) (fun n => (n : ℚ)) m dist .mean x y = .ok r ∧
      ps.Nodup ∧ (∀ q, q ∈ ps ↔ Spec.Touches m.sx m.sy (x, y) q) ∧ 0 < ps.length ∧ ps.length ≤ 8 ∧
      |r - (ps.map fun q => dist (wt x y) (wt q.1 q.2)).sum / ps.length| ≤
        ((1 + (1 / 2) ^ p) ^ (ps.length + 1) - 1) * ((ps.map fun q => dist (wt x y) (wt q.1 q.2)).sum / ps.length) := by
  rw [uCellF_eq _ _ m dist .mean x y hx hy wt hwt]
  have hmem := mem_neighbours hx hy
  have hu : (0 : ℚ) ≤ (1 / 2) ^ p := by positivity
  refine ⟨_, neighbours m.sx m.sy x y, rfl, nodup_neighbours _ _ _ _, hmem, List.length_pos_iff.mpr (neighbours_ne_nil hx hy h2), length_neighbours _ _ _ _, ?_⟩
  have hpos : 0 < (neighbours m.sx m.sy x y).length := List.length_pos_iff.mpr (neighbours_ne_nil hx hy h2)
  generalize neighbours m.sx m.sy x y = ps at hmem hpos
  have hr : ∀ x, |(Binary.rounding p hp).rnd x - x| ≤ (1 / 2) ^ p * |x| := fun x => by rw [mul_comm]; exact Binary.rnd_err p x
  have h1 := NdArray.foldl_zero_close (R := Binary.rounding p hp) hu hr 0 (fun a => a) (fun a => a) (fun a => a) (ps.map fun q => dist (wt x y) (wt q.1 q.2)) (by
    intro a ha
    obtain ⟨q, hq, rfl⟩ := List.mem_map.mp ha
    have := Close.refl ((1 / 2 : ℚ) ^ p) (dist (wt x y) (wt q.1 q.2))
    rwa [abs_of_nonneg (hd q ((hmem q).mp hq))] at this)
  rw [List.map_id', List.length_map, Nat.zero_add] at h1
  have hc : (0 : ℚ) < (ps.length : ℚ) := Nat.cast_pos.mpr hpos
  have h3 := ((h1.div hu (ps.length : ℚ)).rnd hu hr).1
  rw [abs_of_pos hc] at h3
  show |(Binary.rounding p hp).rnd ((ps.map fun q => dist (wt x y) (wt q.1 q.2)).foldl (fun a b => (Binary.rounding p hp).rnd (a + b)) 0 /
    ((ps.map fun q => dist (wt x y) (wt q.1 q.2)).length : ℚ)) - _| ≤ _
  rw [List.length_map]
  exact h3

/-! ## The mean and the extrema -/

/-- The mean would be between the minimum and the maximum. -/
def C174_between_full : Prop := ∀ (m : Map 1 ℚ) (dist : (Fin 1 → ℚ) → (Fin 1 → ℚ) → ℚ) (x y : Nat) (a b r : ℚ), x < m.sx → y < m.sy →
  (∀ w v, Binary.Rep 53 (dist w v) ∧ 0 ≤ dist w v) →
  uCellF (Arith.rounded (Binary.rounding 53 (by decide))) (fun n => (n : ℚ)) m dist .min x y = .ok a →
  uCellF (Arith.rounded (Binary.rounding 53 (by decide))) (fun n => (n : ℚ)) m dist .max x y = .ok b →
  uCellF (Arith.rounded (Binary.rounding 53 (by decide))) (fun n => (n : ℚ)) m dist .mean x y = .ok r → a ≤ r ∧ r ≤ b

/-- **C174 (violated).** In a map with four cells and the same distance between any two of them, the mean of the three distances at a cell is greater than all of them. -/
theorem C174_between_violated : ¬ C174_between_full := by
  intro h
  have h1 := (h ⟨2, 2, [fun _ => 0, fun _ => 1, fun _ => 2, fun _ => 3]⟩ (fun _ _ => 9007199254740794) 0 0 9007199254740794 9007199254740794 9007199254740795 (by decide) (by decide)
    (fun _ _ => ⟨⟨9007199254740794, 0, by decide, by norm_num⟩, by norm_num⟩) (by decide +kernel) (by decide +kernel) (by decide +kernel)).2
  revert h1
  norm_num

/-- **C174 (up to rounding).** With `p` bits the mean is between the minimum and the maximum up to nine relative rounding errors. -/
theorem C174_between_partial (p : Nat) (hp : 1 ≤ p) {nd : Nat} (m : Map nd ℚ) (h2 : 2 ≤ m.sx * m.sy) (dist : (Fin nd → ℚ) → (Fin nd → ℚ) → ℚ)
    (x y : Nat) (hx : x < m.sx) (hy : y < m.sy) (wt : Nat → Nat → Fin nd → ℚ) (hwt : ∀ x y, x < m.sx → y < m.sy → m.at x y = .ok (wt x y))
    (lo hi : ℚ) (hlo : 0 ≤ lo) (hd : ∀ q, Spec.Touches m.sx m.sy (x, y) q → lo ≤ dist (wt x y) (wt q.1 q.2) ∧ dist (wt x y) (wt q.1 q.2) ≤ hi) :
    ∃ r, uCellF (Arith.rounded (Binary.rounding p hp)) (fun n => (n : ℚ)) m dist .mean x y = .ok r ∧
      lo - ((1 + (1 / 2) ^ p) ^ 9 - 1) * hi ≤ r ∧ r ≤ (1 + (1 / 2) ^ p) ^ 9 * hi := by
  obtain ⟨r, ps, h1, _, h3, h4, h5, h6⟩ := C174_mean p hp m h2 dist x y hx hy wt hwt (fun q hq => hlo.trans (hd q hq).1)
  refine ⟨r, h1, ?_⟩
  have hc : (0 : ℚ) < (ps.length : ℚ) := Nat.cast_pos.mpr h4
  have hs : ∀ ps' : List (Nat × Nat), (∀ q ∈ ps', Spec.Touches m.sx m.sy (x, y) q) →
      lo * (ps'.length : ℚ) ≤ (ps'.map fun q => dist (wt x y) (wt q.1 q.2)).sum ∧ (ps'.map fun q => dist (wt x y) (wt q.1 q.2)).sum ≤ hi * (ps'.length : ℚ) := by
    intro ps'
    induction ps' with
    | nil => intro _; simp
    | cons q ps' ih =>
      intro hq
      obtain ⟨a1, a2⟩ := ih (fun q' hq' => hq q' (List.mem_cons_of_mem _ hq'))
      obtain ⟨b1, b2⟩ := hd q (hq q List.mem_cons_self)
      rw [List.map_cons, List.sum_cons, List.length_cons, Nat.cast_succ, mul_add, mul_add, mul_one, mul_one]
      constructor <;> linarith
  obtain ⟨g1, g2⟩ := hs ps (fun q hq => (h3 q).mp hq)
  have e1 : lo ≤ (ps.map fun q => dist (wt x y) (wt q.1 q.2)).sum / ps.length := (le_div_iff₀ hc).mpr g1
  have e2 : (ps.map fun q => dist (wt x y) (wt q.1 q.2)).sum / ps.length ≤ hi := (div_le_iff₀ hc).mpr g2
  generalize (ps.map fun q => dist (wt x y) (wt q.1 q.2)).sum / (ps.length : ℚ) = S at h6 e1 e2
  have hu : (1 : ℚ) ≤ 1 + (1 / 2) ^ p := by
    have : (0 : ℚ) ≤ (1 / 2) ^ p := by positivity
    linarith
  have hpow : (1 + (1 / 2 : ℚ) ^ p) ^ (ps.length + 1) ≤ (1 + (1 / 2) ^ p) ^ 9 := pow_le_pow_right₀ hu (by omega)
  have hone : (1 : ℚ) ≤ (1 + (1 / 2) ^ p) ^ (ps.length + 1) := one_le_pow₀ hu
  generalize (1 + (1 / 2 : ℚ) ^ p) ^ (ps.length + 1) = E at h6 hpow hone
  generalize (1 + (1 / 2 : ℚ) ^ p) ^ 9 = G at hpow
  have hb : |r - S| ≤ (G - 1) * hi := h6.trans (mul_le_mul (by linarith) e2 (hlo.trans e1) (by linarith))
  rw [abs_le] at hb
  constructor <;> nlinarith [hb.1, hb.2]

/-! ## Examples -/

/-- A map of 2×2 cells with a NaN at (1, 0): for the cell (1, 1) the first neighbour is (0, 0) and the NaN is passed over; for the cell (0, 1) likewise; for the cell
(0, 0) the first neighbour is (0, 1); the mean is NaN. -/
example : let m : Map 1 (Ext ℚ) := ⟨2, 2, [fun _ => .fin 0, fun _ => .nan, fun _ => .fin 3, fun _ => .fin 7]⟩
    let d : (Fin 1 → Ext ℚ) → (Fin 1 → Ext ℚ) → Ext ℚ := l2 (Arith.ieee (Binary.rounding 53 (by decide)) Binary.doubleMax) id
    uCellF (Arith.ieee (Binary.rounding 53 (by decide)) Binary.doubleMax) (fun n => .fin n) m d .min 0 0 = .ok (.fin 9) ∧
    uCellF (Arith.ieee (Binary.rounding 53 (by decide)) Binary.doubleMax) (fun n => .fin n) m d .max 1 1 = .ok (.fin 49) ∧
    uCellF (Arith.ieee (Binary.rounding 53 (by decide)) Binary.doubleMax) (fun n => .fin n) m d .mean 0 0 = .ok .nan ∧
    uCellF (Arith.ieee (Binary.rounding 53 (by decide)) Binary.doubleMax) (fun n => .fin n) m d .min 1 0 = .ok .nan := by
  decide +kernel

example : Spec.SquareRoot (K := ℚ) id := ⟨rfl, fun _ h => h⟩

example : Spec.First 2 2 (1, 1) (0, 0) := by
  refine ⟨⟨⟨by decide, by decide, by decide, by decide, by decide⟩, by decide, by decide⟩, ?_⟩
  rintro ⟨a, b⟩ ⟨⟨h, _⟩, h1, h2⟩
  simp only [Prod.mk.injEq, ne_eq] at h h1 h2 ⊢
  omega

/-- The mean of the distances 9, 16 and 49 in a map without NaN. -/
example : uCellF (Arith.rounded (Binary.rounding 53 (by decide))) (fun n => (n : ℚ)) (⟨2, 2, [fun _ => 0, fun _ => 4, fun _ => 3, fun _ => 7]⟩ : Map 1 ℚ)
    (l2 (Arith.rounded (Binary.rounding 53 (by decide))) id) .mean 0 0 = .ok ((Binary.rounding 53 (by decide)).rnd (74 / 3)) := by
  decide +kernel

end Alexandria.SOM.FloatU
