import Verif.MathUtils.GridInterpModel
import Verif.MathUtils.SimpleProps
import Verif.NdArray.Props
import Mathlib.Data.List.Forall2

/-! # Interpolation on grids (C37) -/

namespace Alexandria.MathUtils

open NdArray (Nd Heap Step)
open NdArray.Spec (card Valid allCoords embed)

section
variable {K D : Type} [Field K] [LinearOrder K] [DecidableEq D]

/-! ## Specification -/

/-- Axes for which the claims are made: not empty, strictly increasing or (discrete) without repetition. -/
def Spec.AxisOk : Axis K D → Prop
  | .cont ks => ks ≠ [] ∧ ks.Pairwise (· < ·)
  | .disc ks => ks ≠ [] ∧ ks.Nodup

/-- The knot with the given index. -/
def Spec.knot : Axis K D → Nat → Option (K ⊕ D)
  | .cont ks, i => ks[i]?.map .inl
  | .disc ks, i => ks[i]?.map .inr

/-- The argument has the type of the axis and, on a discrete axis, is one of the knots. -/
def Spec.Fits : Axis K D → K ⊕ D → Prop
  | .cont _, .inl _ => True
  | .disc ks, .inr d => d ∈ ks
  | _, _ => False

/-- The arguments `xs` are the knots with the indices `idx`. -/
inductive Spec.AtNode : List (Axis K D) → List Nat → List (K ⊕ D) → Prop
  | nil : Spec.AtNode [] [] []
  | cons {ax : Axis K D} {i : Nat} {x : K ⊕ D} {axs : List (Axis K D)} {is : List Nat} {xs : List (K ⊕ D)} : Spec.knot ax i = some x →
    Spec.AtNode axs is xs → Spec.AtNode (ax :: axs) (i :: is) (x :: xs)

/-- `x` belongs to the segment from the knot with index `i` to the next one, beyond its ends if it is an outer one and one
extrapolates. -/
def Spec.Region (e : Bool) (ks : List K) (i : Nat) (k l x : K) : Prop :=
  (k ≤ x ∨ e = true ∧ i = 0) ∧ (x ≤ l ∨ e = true ∧ i + 2 = ks.length)

/-! ## Lemmas -/

/-- The value at `x` of the line through `(k, y)` and `(l, z)`. -/
def lam (x k l y z : K) : K := y + (z - y) / (l - k) * (x - k)

theorem lam_line {x k l y z : K} (h : k < l) : Spec.OnLine (k, y) (l, z) x (lam x k l y z) := by
  have : l - k ≠ 0 := sub_ne_zero.mpr (ne_of_gt h)
  simp only [Spec.OnLine, lam]
  field_simp
  ring

theorem lam_left (k l y z : K) : lam k k l y z = y := by simp [lam]

theorem lam_right {k l : K} (h : k < l) (y z : K) : lam l k l y z = z := by
  have : l - k ≠ 0 := sub_ne_zero.mpr (ne_of_gt h)
  simp only [lam]
  field_simp
  ring

theorem strict_get {ks : List K} (hs : ks.Pairwise (· < ·)) {i j : Nat} {a b : K} (hij : i < j) (ha : ks[i]? = some a) (hb : ks[j]? = some b) : a < b := by
  obtain ⟨h1, rfl⟩ := List.getElem?_eq_some_iff.mp ha
  obtain ⟨h2, rfl⟩ := List.getElem?_eq_some_iff.mp hb
  exact List.pairwise_iff_getElem.mp hs i j h1 h2 hij

theorem simple_line {x : K} {xp yp : List K} {e : Bool} (hl : xp.length = yp.length) (hs : xp.Pairwise (· < ·)) {i : Nat} {k l y z : K}
    (hk : xp[i]? = some k) (hk' : xp[i + 1]? = some l) (hy : yp[i]? = some y) (hz : yp[i + 1]? = some z) (hr : Spec.Region e xp i k l x) :
    simpleInterpolation x xp yp e = .ok (lam x k l y z) := by
  have hi := (List.getElem?_eq_some_iff.mp hk').1
  have hkl := strict_get hs (Nat.lt_succ_self i) hk hk'
  have hs' : xp.Pairwise (· ≤ ·) := hs.imp fun h => le_of_lt h
  obtain ⟨n, hn⟩ : ∃ n, n + 2 = xp.length := ⟨xp.length - 2, by omega⟩
  obtain ⟨h1, h2, h3, h4⟩ := C36_segments_partial x xp yp e hl hs' n hn _ _ _ _ _ _ _ _ (List.getElem?_eq_getElem (by omega))
      (List.getElem?_eq_getElem (by omega)) (List.getElem?_eq_getElem (by omega)) (List.getElem?_eq_getElem (by omega)) (List.getElem?_eq_getElem (by omega))
      (List.getElem?_eq_getElem (by omega)) (List.getElem?_eq_getElem (by omega)) (List.getElem?_eq_getElem (by omega))
      (ne_of_lt (List.pairwise_iff_getElem.mp hs n (n + 1) (by omega) (by omega) (by omega)))
      (fun _ => ne_of_lt (List.pairwise_iff_getElem.mp hs 0 1 (by omega) (by omega) (by omega)))
  have fin : (∃ v, simpleInterpolation x xp yp e = .ok v ∧ Spec.OnLine (k, y) (l, z) x v) → simpleInterpolation x xp yp e = .ok (lam x k l y z) := by
    rintro ⟨v, hv, hline⟩
    rw [hv, OnLine.unique (p := (k, y)) (ne_of_lt hkl) hline (lam_line hkl)]
  apply fin
  by_cases hxk : k ≤ x
  · rcases lt_trichotomy x l with hxl | rfl | hxl
    · exact h4 i k y l z hk hy hk' hz hxk hxl
    · exact ⟨z, C36_nodes_partial xp yp e hl hs (i + 1) x z hk' hz, by simp [Spec.OnLine]⟩
    · obtain ⟨he, hi2⟩ := hr.2.resolve_left (not_le.mpr hxl)
      have : n = i := by omega
      subst this
      obtain ⟨_, q1⟩ := List.getElem?_eq_some_iff.mp hk
      obtain ⟨_, q2⟩ := List.getElem?_eq_some_iff.mp hk'
      obtain ⟨_, q3⟩ := List.getElem?_eq_some_iff.mp hy
      obtain ⟨_, q4⟩ := List.getElem?_eq_some_iff.mp hz
      rw [q1, q2, q3, q4] at h3
      exact h3 (Or.inr ⟨he, hxl.le⟩)
  · obtain ⟨he, rfl⟩ := hr.1.resolve_left hxk
    obtain ⟨_, q1⟩ := List.getElem?_eq_some_iff.mp hk
    obtain ⟨_, q2⟩ := List.getElem?_eq_some_iff.mp hk'
    obtain ⟨_, q3⟩ := List.getElem?_eq_some_iff.mp hy
    obtain ⟨_, q4⟩ := List.getElem?_eq_some_iff.mp hz
    simp only [Nat.zero_add] at q2 q4
    rw [q1, q2, q3, q4] at h2
    exact h2 he (not_le.mp hxk)

theorem simple_out {x : K} {xp yp : List K} (hl : xp.length = yp.length) (hs : xp.Pairwise (· < ·)) (hne : xp ≠ [])
    (ho : (∀ k ∈ xp, x < k) ∨ ∀ k ∈ xp, k < x) : simpleInterpolation x xp yp false = .ok 0 := by
  match hlen : xp.length with
  | 0 => exact absurd (List.length_eq_zero_iff.mp hlen) hne
  | 1 =>
    obtain ⟨c, rfl⟩ := List.length_eq_one_iff.mp hlen
    obtain ⟨d, rfl⟩ := List.length_eq_one_iff.mp (hl.symm.trans hlen)
    refine (C36_single x c d).2.2 ?_
    rcases ho with ho | ho
    · exact ne_of_lt (ho c List.mem_cons_self)
    · exact ne_of_gt (ho c List.mem_cons_self)
  | n + 2 =>
    have hs' : xp.Pairwise (· ≤ ·) := hs.imp fun h => le_of_lt h
    obtain ⟨h1, _⟩ := C36_segments_partial x xp yp false hl hs' n hlen.symm _ _ _ _ _ _ _ _ (List.getElem?_eq_getElem (by omega))
      (List.getElem?_eq_getElem (by omega)) (List.getElem?_eq_getElem (by omega)) (List.getElem?_eq_getElem (by omega)) (List.getElem?_eq_getElem (by omega))
      (List.getElem?_eq_getElem (by omega)) (List.getElem?_eq_getElem (by omega)) (List.getElem?_eq_getElem (by omega))
      (ne_of_lt (List.pairwise_iff_getElem.mp hs n (n + 1) (by omega) (by omega) (by omega))) (by simp)
    apply h1 rfl
    rcases ho with ho | ho
    · exact Or.inl (ho _ (List.getElem_mem _))
    · exact Or.inr (ho _ (List.getElem_mem _))

theorem callNth_eq (e : Bool) (subs : List (Interp K D)) (i : Nat) (xs : List (K ⊕ D)) :
    callNth e subs i xs = match subs[i]? with | some I => call e I xs | none => .ub := by
  induction subs generalizing i with
  | nil => rw [callNth]; rfl
  | cons I subs ih => cases i with
    | zero => rw [callNth]; rfl
    | succ i => rw [callNth, ih]; rfl

/-- What a function of the arguments of an axis and further ones does with the first argument, given the functions `g` that belong to its
knots. -/
def Head (e : Bool) (ax : Axis K D) (f : List (K ⊕ D) → Res K) (g : Nat → List (K ⊕ D) → Res K) (rest : List (K ⊕ D)) : Prop :=
  match ax with
  | .cont ks =>
    (∀ (x : K) (y : Nat → K), (∀ j < ks.length, g j rest = .ok (y j)) → ∀ (i : Nat) k l, ks[i]? = some k → ks[i + 1]? = some l → Spec.Region e ks i k l x →
      f (.inl x :: rest) = .ok (lam x k l (y i) (y (i + 1)))) ∧
    (∀ x k, ks = [k] → (x = k ∨ e = true) → f (.inl x :: rest) = g 0 rest) ∧
    (∀ x, e = false → ((∀ k ∈ ks, x < k) ∨ ∀ k ∈ ks, k < x) → f (.inl x :: rest) = .ok 0)
  | .disc ks => ∀ (i : Nat) d, ks[i]? = some d → f (.inr d :: rest) = g i rest

/-- A function that interpolates the values `v`. -/
def Den (e : Bool) : List (Axis K D) → (List (K ⊕ D) → Res K) → (List Nat → K) → Prop
  | [], f, v => f [] = .ok (v [])
  | ax :: axs, f, v => Spec.AxisOk ax ∧ ∃ g : Nat → List (K ⊕ D) → Res K, (∀ j < ax.size, Den e axs (g j) fun is => v (j :: is)) ∧
    ∀ rest, List.Forall₂ Spec.Fits axs rest → Head e ax f g rest

/-- Every argument belongs to a segment, or is outside. -/
theorem region_exists (e : Bool) {ks : List K} (hs : ks.Pairwise (· < ·)) (hn : 2 ≤ ks.length) (x : K) :
    (∃ (i : Nat) (k l : K), ks[i]? = some k ∧ ks[i + 1]? = some l ∧ Spec.Region e ks i k l x) ∨
      (e = false ∧ ((∀ k ∈ ks, x < k) ∨ ∀ k ∈ ks, k < x)) := by
  have hmk := (C32_constructor ks (List.replicate (ks.length - 1) (Fn.poly ([] : List K)))).1 ⟨by simp; omega, hs.imp fun h => le_of_lt h⟩
  rcases C32_cases _ _ _ hmk (by simp; omega) x with ⟨i, _, _, k, l, hk, hl, hin⟩ | ho
  · left
    refine ⟨i, k, l, hk, hl, ?_⟩
    have hkl := strict_get hs (Nat.lt_succ_self i) hk hl
    rcases hin with ⟨h1, h2⟩ | ⟨_, rfl⟩
    · exact ⟨Or.inl h1.le, Or.inl h2⟩
    · exact ⟨Or.inl (le_refl _), Or.inl hkl.le⟩
  · cases e with
    | false => exact Or.inr ⟨rfl, ho⟩
    | true =>
      left
      rcases ho with ho | ho
      · exact ⟨0, _, _, List.getElem?_eq_getElem (by omega), List.getElem?_eq_getElem (by omega), Or.inr ⟨rfl, rfl⟩,
          Or.inl (ho _ (List.getElem_mem (show 1 < ks.length by omega))).le⟩
      · exact ⟨ks.length - 2, _, _, List.getElem?_eq_getElem (by omega), List.getElem?_eq_getElem (by omega),
          Or.inl (ho _ (List.getElem_mem (show ks.length - 2 < ks.length by omega))).le, Or.inr ⟨rfl, by omega⟩⟩

/-- The three ways in which the first argument of a continuous axis is used, the same one for all further arguments. -/
theorem cont_cases (e : Bool) {ks : List K} (hok : ks ≠ [] ∧ ks.Pairwise (· < ·)) (x : K) :
    (∃ (i : Nat) (k l : K), ks[i]? = some k ∧ ks[i + 1]? = some l ∧ Spec.Region e ks i k l x) ∨ (∃ k, ks = [k] ∧ (x = k ∨ e = true)) ∨
      (e = false ∧ ((∀ k ∈ ks, x < k) ∨ ∀ k ∈ ks, k < x)) := by
  match hlen : ks.length with
  | 0 => exact absurd (List.length_eq_zero_iff.mp hlen) hok.1
  | 1 =>
    obtain ⟨k, rfl⟩ := List.length_eq_one_iff.mp hlen
    right
    by_cases h : x = k ∨ e = true
    · exact Or.inl ⟨k, rfl, h⟩
    · right
      push Not at h
      refine ⟨by simpa using h.2, ?_⟩
      rcases lt_or_gt_of_ne h.1 with h1 | h1
      · left; simpa using h1
      · right; simpa using h1
  | n + 2 =>
    rcases region_exists e hok.2 (by omega) x with h | h
    · exact Or.inl h
    · exact Or.inr (Or.inr h)

theorem Den.returns {e : Bool} (axs : List (Axis K D)) : ∀ (f : List (K ⊕ D) → Res K) (v : List Nat → K), Den e axs f v →
    ∀ xs, List.Forall₂ Spec.Fits axs xs → ∃ u, f xs = .ok u := by
  induction axs with
  | nil =>
    intro f v hd xs hx
    cases hx
    exact ⟨_, hd⟩
  | cons ax axs ih =>
    intro f v hd xs hx
    cases hx with
    | cons hx hrest =>
      obtain ⟨hok, g, hg, hh⟩ := hd
      rename_i x rest
      have hy : ∃ y : Nat → K, ∀ j < ax.size, g j rest = .ok (y j) := by
        have : ∀ j, ∃ u, j < ax.size → g j rest = .ok u := by
          intro j
          by_cases hj : j < ax.size
          · obtain ⟨u, hu⟩ := ih (g j) _ (hg j hj) rest hrest
            exact ⟨u, fun _ => hu⟩
          · exact ⟨0, fun h => absurd h hj⟩
        choose y hy using this
        exact ⟨y, hy⟩
      obtain ⟨y, hy⟩ := hy
      have hhead := hh rest hrest
      match ax, x, hx with
      | .cont ks, .inl x, _ =>
        obtain ⟨h1, h2, h3⟩ := hhead
        rcases cont_cases e hok x with ⟨i, k, l, hk, hl, hr⟩ | ⟨k, rfl, hk⟩ | ⟨he, ho⟩
        · exact ⟨_, h1 x y hy i k l hk hl hr⟩
        · exact ⟨y 0, by rw [h2 x k rfl hk]; exact hy 0 (by simp [Axis.size])⟩
        · exact ⟨0, h3 x he ho⟩
      | .disc ks, .inr d, hx =>
        obtain ⟨i, hi, rfl⟩ := List.mem_iff_getElem.mp (show d ∈ ks from hx)
        exact ⟨y i, by rw [hhead i _ (List.getElem?_eq_getElem hi)]; exact hy i hi⟩

theorem Spec.AtNode.fits {axs : List (Axis K D)} {is : List Nat} {xs : List (K ⊕ D)} (h : Spec.AtNode axs is xs) : List.Forall₂ Spec.Fits axs xs := by
  induction h with
  | nil => exact .nil
  | cons hk _ ih =>
    rename_i ax i x axs is xs _
    refine .cons ?_ ih
    match ax, hk with
    | .cont ks, hk =>
      simp only [Spec.knot, Option.map_eq_some_iff] at hk
      obtain ⟨k, _, rfl⟩ := hk
      trivial
    | .disc ks, hk' =>
      simp only [Spec.knot, Option.map_eq_some_iff] at hk'
      obtain ⟨k, hkk, rfl⟩ := hk'
      exact List.mem_of_getElem? hkk

/-- The value of the head at a knot. -/
theorem Head.at_knot {e : Bool} {ks : List K} (hs : ks.Pairwise (· < ·)) {f : List (K ⊕ D) → Res K} {g : Nat → List (K ⊕ D) → Res K}
    {rest : List (K ⊕ D)} (hh : Head e (.cont ks) f g rest) {y : Nat → K} (hy : ∀ j < ks.length, g j rest = .ok (y j)) {i : Nat} {k : K}
    (hk : ks[i]? = some k) : f (.inl k :: rest) = .ok (y i) := by
  obtain ⟨h1, h2, _⟩ := hh
  have hi := (List.getElem?_eq_some_iff.mp hk).1
  by_cases hlast : i + 1 < ks.length
  · have hl : ks[i + 1]? = some ks[i + 1] := List.getElem?_eq_getElem hlast
    rw [h1 k y hy i k _ hk hl ⟨Or.inl (le_refl _), Or.inl (strict_get hs (Nat.lt_succ_self i) hk hl).le⟩, lam_left]
  · cases i with
    | zero =>
      obtain ⟨c, rfl⟩ := List.length_eq_one_iff.mp (show ks.length = 1 by omega)
      simp at hk
      subst hk
      rw [h2 c c rfl (Or.inl rfl), hy 0 (by simp)]
    | succ i =>
      have hl : ks[i]? = some ks[i] := List.getElem?_eq_getElem (by omega)
      have hlt := strict_get hs (Nat.lt_succ_self i) hl hk
      rw [h1 k y hy i _ k hl hk ⟨Or.inl hlt.le, Or.inl (le_refl _)⟩, lam_right hlt]

theorem Den.node {e : Bool} (axs : List (Axis K D)) : ∀ (f : List (K ⊕ D) → Res K) (v : List Nat → K), Den e axs f v →
    ∀ is xs, Spec.AtNode axs is xs → f xs = .ok (v is) := by
  induction axs with
  | nil =>
    intro f v hd is xs h
    cases h
    exact hd
  | cons ax axs ih =>
    intro f v hd is xs h
    cases h with
    | cons hk hrest =>
      obtain ⟨hok, g, hg, hh⟩ := hd
      rename_i i x is xs
      have hhead := hh xs hrest.fits
      match ax, hk with
      | .cont ks, hk' =>
        simp only [Spec.knot, Option.map_eq_some_iff] at hk'
        obtain ⟨k, hkk, rfl⟩ := hk'
        exact hhead.at_knot hok.2 (y := fun j => v (j :: is)) (fun j hj => ih (g j) _ (hg j hj) is xs hrest) hkk
      | .disc ks, hk' =>
        simp only [Spec.knot, Option.map_eq_some_iff] at hk'
        obtain ⟨k, hkk, rfl⟩ := hk'
        rw [hhead i k hkk]
        exact ih (g i) _ (hg i (List.getElem?_eq_some_iff.mp hkk).1) is xs hrest

theorem Den.outside (axs : List (Axis K D)) : ∀ (f : List (K ⊕ D) → Res K) (v : List Nat → K), Den false axs f v →
    ∀ xs, List.Forall₂ Spec.Fits axs xs → (∃ (j : Nat) (ks : List K) (x : K), axs[j]? = some (.cont ks) ∧ xs[j]? = some (.inl x) ∧
      ((∀ k ∈ ks, x < k) ∨ ∀ k ∈ ks, k < x)) → f xs = .ok 0 := by
  induction axs with
  | nil =>
    rintro f v hd xs hx ⟨j, ks, x, h, _⟩
    cases h
  | cons ax axs ih =>
    rintro f v hd xs hx ⟨j, ks', x', hj, hxj, ho⟩
    cases hx with
    | cons hx hrest =>
      obtain ⟨hok, g, hg, hh⟩ := hd
      rename_i x rest
      have hhead := hh rest hrest
      cases j with
      | zero =>
        simp only [List.getElem?_cons_zero, Option.some.injEq] at hj hxj
        subst hj hxj
        exact hhead.2.2 x' rfl ho
      | succ j =>
        have hy : ∀ i < ax.size, g i rest = .ok 0 := fun i hi =>
          ih (g i) _ (hg i hi) rest hrest ⟨j, ks', x', by simpa using hj, by simpa using hxj, ho⟩
        match ax, x, hx with
        | .cont ks, .inl x, _ =>
          obtain ⟨h1, h2, h3⟩ := hhead
          rcases cont_cases false hok x with ⟨i, k, l, hk, hl, hr⟩ | ⟨k, rfl, hk⟩ | ⟨he, ho⟩
          · rw [h1 x (fun _ => 0) hy i k l hk hl hr]
            simp [lam]
          · rw [h2 x k rfl hk]
            exact hy 0 (by simp [Axis.size])
          · exact h3 x he ho
        | .disc ks, .inr d, hx =>
          obtain ⟨i, hi, rfl⟩ := List.mem_iff_getElem.mp (show d ∈ ks from hx)
          rw [hhead i _ (List.getElem?_eq_getElem hi)]
          exact hy i hi

theorem Den.affine {e : Bool} (pre : List (Axis K D)) (ks : List K) (post : List (Axis K D)) : ∀ (f : List (K ⊕ D) → Res K) (v : List Nat → K),
    Den e (pre ++ .cont ks :: post) f v → ∀ (xpre xpost : List (K ⊕ D)), List.Forall₂ Spec.Fits pre xpre → List.Forall₂ Spec.Fits post xpost →
    ∀ (i : Nat) k l t, ks[i]? = some k → ks[i + 1]? = some l → Spec.Region e ks i k l t →
    ∃ u w z, f (xpre ++ .inl k :: xpost) = .ok u ∧ f (xpre ++ .inl l :: xpost) = .ok w ∧ f (xpre ++ .inl t :: xpost) = .ok z ∧
      Spec.OnLine (k, u) (l, w) t z := by
  induction pre with
  | nil =>
    intro f v hd xpre xpost hpre hpost i k l t hk hl hr
    cases hpre
    obtain ⟨hok, g, hg, hh⟩ := hd
    have hhead := hh xpost hpost
    have hy : ∃ y : Nat → K, ∀ j < ks.length, g j xpost = .ok (y j) := by
      have : ∀ j, ∃ u, j < ks.length → g j xpost = .ok u := by
        intro j
        by_cases hj : j < ks.length
        · obtain ⟨u, hu⟩ := Den.returns post (g j) _ (hg j hj) xpost hpost
          exact ⟨u, fun _ => hu⟩
        · exact ⟨0, fun h => absurd h hj⟩
      choose y hy using this
      exact ⟨y, hy⟩
    obtain ⟨y, hy⟩ := hy
    exact ⟨y i, y (i + 1), _, hhead.at_knot hok.2 hy hk, hhead.at_knot hok.2 hy hl, hhead.1 t y hy i k l hk hl hr,
      lam_line (strict_get hok.2 (Nat.lt_succ_self i) hk hl)⟩
  | cons ax pre ih =>
    intro f v hd xpre xpost hpre hpost i k l t hk hl hr
    cases hpre with
    | cons hx hrest =>
      obtain ⟨hok, g, hg, hh⟩ := hd
      rename_i x xs
      have fit : ∀ s : K, List.Forall₂ Spec.Fits (pre ++ .cont ks :: post) (xs ++ .inl s :: xpost) := fun s =>
        List.rel_append hrest (.cons trivial hpost)
      have hj : ∃ y : Nat → K × K × K, ∀ j < ax.size, g j (xs ++ .inl k :: xpost) = .ok (y j).1 ∧ g j (xs ++ .inl l :: xpost) = .ok (y j).2.1 ∧
          g j (xs ++ .inl t :: xpost) = .ok (y j).2.2 ∧ Spec.OnLine (k, (y j).1) (l, (y j).2.1) t (y j).2.2 := by
        have : ∀ j, ∃ y : K × K × K, j < ax.size → g j (xs ++ .inl k :: xpost) = .ok y.1 ∧ g j (xs ++ .inl l :: xpost) = .ok y.2.1 ∧
            g j (xs ++ .inl t :: xpost) = .ok y.2.2 ∧ Spec.OnLine (k, y.1) (l, y.2.1) t y.2.2 := by
          intro j
          by_cases hj : j < ax.size
          · obtain ⟨u, w, z, h⟩ := ih (g j) _ (hg j hj) xs xpost hrest hpost i k l t hk hl hr
            exact ⟨(u, w, z), fun _ => h⟩
          · exact ⟨0, fun h => absurd h hj⟩
        choose y hy using this
        exact ⟨y, hy⟩
      obtain ⟨y, hy⟩ := hj
      have hk' := hh _ (fit k)
      have hl' := hh _ (fit l)
      have ht' := hh _ (fit t)
      simp only [List.cons_append]
      match ax, x, hx with
      | .cont ks1, .inl x, _ =>
        rcases cont_cases e hok x with ⟨j, a, b, ha, hb, hab⟩ | ⟨a, rfl, ha⟩ | ⟨he, ho⟩
        · have jb := (List.getElem?_eq_some_iff.mp hb).1
          refine ⟨_, _, _, hk'.1 x (fun j => (y j).1) (fun j hj => (hy j hj).1) j a b ha hb hab,
            hl'.1 x (fun j => (y j).2.1) (fun j hj => (hy j hj).2.1) j a b ha hb hab,
            ht'.1 x (fun j => (y j).2.2) (fun j hj => (hy j hj).2.2.1) j a b ha hb hab, ?_⟩
          have e1 := (hy j (by simp only [Axis.size]; omega)).2.2.2
          have e2 := (hy (j + 1) jb).2.2.2
          simp only [Spec.OnLine, lam] at e1 e2 ⊢
          linear_combination (1 - (x - a) / (b - a)) * e1 + (x - a) / (b - a) * e2
        · have h0 := hy 0 (by simp [Axis.size])
          exact ⟨_, _, _, by rw [hk'.2.1 x a rfl ha]; exact h0.1, by rw [hl'.2.1 x a rfl ha]; exact h0.2.1, by rw [ht'.2.1 x a rfl ha]; exact h0.2.2.1, h0.2.2.2⟩
        · exact ⟨0, 0, 0, hk'.2.2 x he ho, hl'.2.2 x he ho, ht'.2.2 x he ho, by simp [Spec.OnLine]⟩
      | .disc ks1, .inr d, hx =>
        obtain ⟨j, hj, rfl⟩ := List.mem_iff_getElem.mp (show d ∈ ks1 from hx)
        have hg := List.getElem?_eq_getElem hj
        have h0 := hy j hj
        exact ⟨_, _, _, by rw [hk' j _ hg]; exact h0.1, by rw [hl' j _ hg]; exact h0.2.1, by rw [ht' j _ hg]; exact h0.2.2.1, h0.2.2.2⟩

/-! ### The objects that the constructor builds -/

theorem findIdx_get {ks : List D} (hn : ks.Nodup) {i : Nat} {d : D} (h : ks[i]? = some d) : (ks.findIdx fun k => decide (k = d)) = i := by
  obtain ⟨hi, rfl⟩ := List.getElem?_eq_some_iff.mp h
  rw [List.findIdx_eq hi]
  refine ⟨by simp, ?_⟩
  intro j hj
  simp only [decide_eq_false_iff_not]
  intro he
  have := (List.nodup_iff_injective_get.mp hn) (a₁ := ⟨j, by omega⟩) (a₂ := ⟨i, hi⟩) (by simpa using he)
  simp at this
  omega

/-- One axis. -/
theorem den_last (e : Bool) (ax : Axis K D) (hok : Spec.AxisOk ax) (vs : List K) (v : List Nat → K) (hlen : ax.size = vs.length)
    (hv : ∀ i < ax.size, vs[i]? = some (v [i])) : Den e [ax] (call e (.last ax vs)) v := by
  refine ⟨hok, fun j xs => .ok (v [j]), fun j _ => rfl, ?_⟩
  intro rest hrest
  cases hrest
  match ax, hok, hlen, hv with
  | .cont ks, hok, hlen, hv =>
    refine ⟨?_, ?_, ?_⟩
    · intro x y hy i k l hk hl hr
      have h1 := (List.getElem?_eq_some_iff.mp hl).1
      have hyi : v [i] = y i := by simpa using hy i (by omega)
      have hyj : v [i + 1] = y (i + 1) := by simpa using hy (i + 1) h1
      rw [call, simple_line hlen hok.2 hk hl (hv i (show i < ks.length by omega)) (hv (i + 1) h1) hr, hyi, hyj]
    · rintro x k rfl hx
      have h0 := hv 0 (by simp [Axis.size])
      obtain ⟨d, rfl⟩ := List.length_eq_one_iff.mp hlen.symm
      simp only [List.getElem?_cons_zero, Option.some.injEq] at h0
      rw [call]
      simp only [← h0]
      cases e with
      | true => exact (C36_single x k d).1
      | false =>
        rcases hx with rfl | h
        · exact (C36_single x x d).2.1
        · cases h
    · rintro x rfl ho
      rw [call]
      exact simple_out hlen hok.2 hok.1 ho
  | .disc ks, hok, hlen, hv =>
    intro i d hd
    have hi := (List.getElem?_eq_some_iff.mp hd).1
    rw [call]
    simp only
    rw [findIdx_get hok.2 hd, hd, hv i hi]
    simp

theorem lower_index {ks : List K} (hs : ks.Pairwise (· < ·)) {x : K} {i : Nat} (h1 : ∀ (j : Nat) c, j < i → ks[j]? = some c → c < x)
    (h2 : ∀ c, ks[i]? = some c → x ≤ c) (h3 : i ≤ ks.length) : (ks.takeWhile fun c => decide (c < x)).length = i := by
  apply takeWhile_length_eq
  · intro j c hj hc
    simpa using h1 j c hj hc
  · intro c hc
    simpa using h2 c hc
  · exact h3

theorem node_call (e : Bool) {ks : List K} (subs : List (Interp K D)) (rest : List (K ⊕ D)) (x : K) (hn : 2 ≤ ks.length) (m : Nat)
    (hin : ((∃ k ∈ ks, k ≤ x) ∧ ∃ k ∈ ks, x ≤ k) ∨ e = true) (hs : ks.Pairwise (· < ·))
    (hm : m = (if (ks.takeWhile (· < x)).length = 0 then 1 else if (ks.takeWhile (· < x)).length = ks.length then ks.length - 1 else (ks.takeWhile (· < x)).length))
    {a b y1 y2 : K} (ha : ks[m - 1]? = some a) (hb : ks[m]? = some b) (h1 : callNth e subs (m - 1) rest = .ok y1) (h2 : callNth e subs m rest = .ok y2) :
    call e (.node (.cont ks) subs) (.inl x :: rest) = simpleInterpolation x [a, b] [y1, y2] e := by
  have hf : ks.head? = some ks[0] := by rw [List.head?_eq_getElem?]; exact List.getElem?_eq_getElem (by omega)
  have hl : ks.getLast? = some ks[ks.length - 1] := by rw [List.getLast?_eq_getElem?]; exact List.getElem?_eq_getElem (by omega)
  rw [call, hf, hl]
  simp only
  rw [if_neg, if_neg (by omega), ← hm, h1, h2]
  · simp only [Outcome.bind_ok, ha, hb]
  · rintro ⟨ho, he⟩
    have he : e ≠ true := by simpa using he
    obtain ⟨⟨k, hk, hkx⟩, ⟨l, hl, hlx⟩⟩ := hin.resolve_right he
    obtain ⟨i, hi, rfl⟩ := List.mem_iff_getElem.mp hk
    obtain ⟨j, hj, rfl⟩ := List.mem_iff_getElem.mp hl
    rcases ho with ho | ho
    · have : ks[0] ≤ ks[i] := by
        rcases Nat.eq_zero_or_pos i with rfl | h
        · exact le_refl _
        · exact (List.pairwise_iff_getElem.mp hs 0 i (by omega) hi h).le
      exact absurd ho (not_lt.mpr (this.trans hkx))
    · have : ks[j] ≤ ks[ks.length - 1] := by
        rcases Nat.eq_or_lt_of_le (show j ≤ ks.length - 1 by omega) with h | h
        · subst h; exact le_refl _
        · exact (List.pairwise_iff_getElem.mp hs j (ks.length - 1) hj (by omega) h).le
      exact absurd ho (not_lt.mpr (hlx.trans this))

theorem simple_two {e : Bool} {x a b : K} (y z : K) (hab : a < b) (h1 : a ≤ x ∨ e = true) (h2 : x ≤ b ∨ e = true) :
    simpleInterpolation x [a, b] [y, z] e = .ok (lam x a b y z) :=
  simple_line (i := 0) (xp := [a, b]) (yp := [y, z]) rfl (by simpa using hab) rfl rfl rfl rfl ⟨h1.imp id fun h => ⟨h, rfl⟩, h2.imp id fun h => ⟨h, rfl⟩⟩

theorem node_line (e : Bool) {ks : List K} (subs : List (Interp K D)) (rest : List (K ⊕ D)) (x : K) (hs : ks.Pairwise (· < ·)) {y : Nat → K}
    (hy : ∀ j < ks.length, callNth e subs j rest = .ok (y j)) {i : Nat} {k l : K} (hk : ks[i]? = some k) (hl : ks[i + 1]? = some l)
    (hr : Spec.Region e ks i k l x) : call e (.node (.cont ks) subs) (.inl x :: rest) = .ok (lam x k l (y i) (y (i + 1))) := by
  have hi := (List.getElem?_eq_some_iff.mp hl).1
  have hkl := strict_get hs (Nat.lt_succ_self i) hk hl
  have hin : ((∃ k ∈ ks, k ≤ x) ∧ ∃ k ∈ ks, x ≤ k) ∨ e = true := by
    rcases hr with ⟨h1 | h1, h2 | h2⟩
    · exact Or.inl ⟨⟨k, List.mem_of_getElem? hk, h1⟩, l, List.mem_of_getElem? hl, h2⟩
    · exact Or.inr h2.1
    · exact Or.inr h1.1
    · exact Or.inr h1.1
  have r1 : k ≤ x ∨ e = true := hr.1.imp id And.left
  have r2 : x ≤ l ∨ e = true := hr.2.imp id And.left
  -- the index that the code takes
  by_cases hmid : (x ≤ k ∧ 0 < i)
  · -- the lower end of a segment, served by the one before
    obtain ⟨hxk, hi0⟩ := hmid
    have hx : x = k := le_antisymm hxk (hr.1.resolve_right fun h => by omega)
    subst hx
    have hc : (ks.takeWhile (· < x)).length = i := by
      apply lower_index hs
      · intro j c hj hc
        exact strict_get hs hj hc hk
      · intro c hc
        rw [hk] at hc
        cases hc
        exact le_refl _
      · omega
    have ha : ks[i - 1]? = some ks[i - 1] := List.getElem?_eq_getElem (by omega)
    have hlt := strict_get hs (show i - 1 < i by omega) ha hk
    rw [node_call e subs rest x (by omega) i hin hs (by rw [hc, if_neg (by omega), if_neg (by omega)]) ha hk (hy _ (by omega)) (hy _ (by omega)),
      simple_two _ _ hlt (Or.inl hlt.le) (Or.inl (le_refl _)), lam_right hlt, lam_left]
  · have hm : i + 1 = (if (ks.takeWhile (· < x)).length = 0 then 1 else
        if (ks.takeWhile (· < x)).length = ks.length then ks.length - 1 else (ks.takeWhile (· < x)).length) := by
      by_cases hxk : x ≤ k
      · have hi0 : i = 0 := by
          by_contra h
          exact hmid ⟨hxk, by omega⟩
        subst hi0
        have hc : (ks.takeWhile (· < x)).length = 0 := by
          apply lower_index hs
          · intro j c hj; omega
          · intro c hc
            rw [hk] at hc
            cases hc
            exact hxk
          · omega
        rw [hc, if_pos rfl]
      · have hkx := not_le.mp hxk
        by_cases hxl : x ≤ l
        · have hc : (ks.takeWhile (· < x)).length = i + 1 := by
            apply lower_index hs
            · intro j c hj hc
              rcases Nat.eq_or_lt_of_le (show j ≤ i by omega) with h | h
              · subst h
                rw [hk] at hc
                cases hc
                exact hkx
              · exact (strict_get hs h hc hk).trans hkx
            · intro c hc
              rw [hl] at hc
              cases hc
              exact hxl
            · omega
          rw [hc, if_neg (by omega), if_neg (by omega)]
        · have hlast := (hr.2.resolve_left hxl).2
          have hc : (ks.takeWhile (· < x)).length = ks.length := by
            apply lower_index hs
            · intro j c hj hc
              rcases Nat.eq_or_lt_of_le (show j ≤ i + 1 by omega) with h | h
              · subst h
                rw [hl] at hc
                cases hc
                exact not_le.mp hxl
              · exact (strict_get hs h hc hl).trans (not_le.mp hxl)
            · intro c hc
              rw [List.getElem?_eq_none (le_refl _)] at hc
              cases hc
            · exact le_refl _
          rw [hc, if_neg (by omega), if_pos rfl]
          omega
    rw [node_call e subs rest x (by omega) (i + 1) hin hs hm hk hl (hy i (by omega)) (hy (i + 1) hi), simple_two _ _ hkl r1 r2]

/-- Several axes. -/
theorem den_node (e : Bool) (ax : Axis K D) (hok : Spec.AxisOk ax) (axs : List (Axis K D)) (subs : List (Interp K D)) (v : List Nat → K)
    (hsub : ∀ i < ax.size, Den e axs (callNth e subs i) fun is => v (i :: is)) : Den e (ax :: axs) (call e (.node ax subs)) v := by
  refine ⟨hok, fun j xs => callNth e subs j xs, hsub, ?_⟩
  intro rest hrest
  match ax, hok with
  | .cont ks, hok =>
    refine ⟨?_, ?_, ?_⟩
    · intro x y hy i k l hk hl hr
      exact node_line e subs rest x hok.2 hy hk hl hr
    · rintro x k rfl hx
      rw [call]
      simp only [List.head?_cons, List.getLast?_singleton, List.length_cons, List.length_nil, if_true]
      rw [if_neg]
      rintro ⟨h1, h2⟩
      rcases hx with rfl | rfl
      · exact h1.elim (lt_irrefl _) (lt_irrefl _)
      · simp at h2
    · rintro x rfl ho
      have hn : 0 < ks.length := List.length_pos_iff.mpr hok.1
      have hf : ks.head? = some ks[0] := by rw [List.head?_eq_getElem?]; exact List.getElem?_eq_getElem (by omega)
      have hl : ks.getLast? = some ks[ks.length - 1] := by rw [List.getLast?_eq_getElem?]; exact List.getElem?_eq_getElem (by omega)
      rw [call, hf, hl]
      simp only
      rw [if_pos]
      exact ⟨ho.imp (fun h => h _ (List.getElem_mem _)) (fun h => h _ (List.getElem_mem _)), rfl⟩
  | .disc ks, hok =>
    intro i d hd
    rw [call]
    simp only
    rw [findIdx_get hok.2 hd, hd]
    simp

theorem buildLoop_ok {rest : Nd → Res (Interp K D)} {values : Nd} (P : Nat → Interp K D → Prop) (is : List Nat)
    (h : ∀ i ∈ is, ∃ sub I, NdArray.rslice values i = .ok sub ∧ rest sub = .ok I ∧ P i I) :
    ∃ Is, buildLoop rest values is = .ok Is ∧ List.Forall₂ P is Is := by
  induction is with
  | nil => exact ⟨[], rfl, .nil⟩
  | cons i is ih =>
    obtain ⟨sub, I, h1, h2, h3⟩ := h i List.mem_cons_self
    obtain ⟨Is, h4, h5⟩ := ih fun j hj => h j (List.mem_cons_of_mem _ hj)
    refine ⟨I :: Is, ?_, .cons h3 h5⟩
    rw [buildLoop, h1]
    simp only [fromNd, Outcome.bind_ok, h2, h4, Outcome.pure_eq]

theorem slices_snoc (a : Nd) (sts : List Step) (s : Step) (b : Nd) (h : NdArray.slices a sts = .ok b) :
    NdArray.slices a (sts ++ [s]) = s.apply b := by
  induction sts generalizing a with
  | nil =>
    cases h
    simp only [List.nil_append, NdArray.slices]
    cases s.apply b <;> rfl
  | cons t sts ih =>
    simp only [List.cons_append, NdArray.slices] at h ⊢
    cases ht : t.apply a with
    | ok c =>
      rw [ht] at h
      simp only [Outcome.bind_ok] at h ⊢
      exact ih c h
    | throw er => rw [ht] at h; cases h
    | ub => rw [ht] at h; cases h

theorem embed_snoc (sts : List Step) (s : Step) (c : List Nat) : embed (sts ++ [s]) c = embed sts (NdArray.Spec.embed1 s c) := by
  induction sts with
  | nil => rfl
  | cons t sts ih => simp only [List.cons_append, embed, ih]

theorem AxisOk.order {ax : Axis K D} (h : Spec.AxisOk ax) : checkOrder ax = true := by
  match ax, h with
  | .disc _, _ => rfl
  | .cont ks, h => exact (knotsOk_iff ks).mpr (h.2.imp fun h => le_of_lt h)

theorem allCoords_one (n : Nat) : allCoords [n] = (List.range n).map fun i => [i] := by
  simp only [allCoords, List.map_cons, List.map_nil]
  induction List.range n with
  | nil => rfl
  | cons a l ih => rw [List.flatMap_cons, ih]; rfl

theorem build_den (h h' : Heap K) (shape : List Nat) (data : List K) (a : Nd) (hm : NdArray.mkData h shape data = .ok (h', a))
    (hsmall : card shape < 2 ^ 31) (hne : shape ≠ []) (w : List Nat → K) (hw : ∀ c, Valid shape c → NdArray.at' h' a c = .ok (w c))
    (axes : List (Axis K D)) : axes ≠ [] → (∀ ax ∈ axes, Spec.AxisOk ax) → ∀ (sts : List Step) (b : Nd), NdArray.slices a sts = .ok b →
    b.shape = (axes.map Axis.size).reverse →
    ∃ I, build h' axes b = .ok I ∧ ∀ e, Den e axes (call e I) fun is => w (embed sts is.reverse) := by
  induction axes with
  | nil => exact fun h => absurd rfl h
  | cons ax axs ih =>
    intro _ hok sts b hb hshape
    obtain ⟨l, hl, hlen, hcard, hat⟩ := NdArray.C04_iteration_row_major h h' shape data a b hm hsmall hne sts hb
    match axs, ih, hok, hshape with
    | [], _, hok, hshape =>
      simp only [List.map_cons, List.map_nil, List.reverse_cons, List.reverse_nil, List.nil_append] at hshape
      have hsz : b.size = ax.size := by rw [hcard, hshape]; simp [card]
      refine ⟨.last ax l, ?_, ?_⟩
      · rw [build, hl]
        simp only [fromNd, Outcome.bind_ok]
        rw [if_neg (by simp [hshape]), if_neg (by simp [hsz])]
      · intro e
        refine den_last e ax (hok ax List.mem_cons_self) l _ (by rw [hlen, hsz]) ?_
        intro i hi
        have hc : (allCoords b.shape)[i]? = some [i] := by
          rw [hshape, allCoords_one, List.getElem?_map, List.getElem?_range hi]
          rfl
        have hv : Valid b.shape [i] := (NdArray.C02_enumeration_complete b.shape).2.2 _ |>.mp (List.mem_of_getElem? hc)
        have := congrArg (fun l => l[i]?) hat
        simp only [List.getElem?_map, hc, Option.map_some] at this
        rw [(NdArray.C03_slices_are_views h h' shape data a b hm sts hb h' [i]).1,
          hw _ ((NdArray.C03_slice_coordinates h h' shape data a b hm sts hb [i]).1 hv)] at this
        cases hli : l[i]? with
        | none => rw [hli] at this; cases this
        | some u =>
          rw [hli] at this
          simp only [Option.map_some, Option.some.injEq, Outcome.ok.injEq] at this
          simp [this]
    | ax2 :: rest, ih, hok, hshape =>
      have hlast : b.shape.getLast? = some ax.size := by rw [hshape]; simp
      have hsubs := buildLoop_ok (rest := build h' (ax2 :: rest)) (values := b)
        (fun i I => ∀ e, Den e (ax2 :: rest) (call e I) fun is => w (embed sts ((i :: is).reverse))) (List.range ax.size) (by
          intro i hi
          have hi : i < ax.size := by simpa using hi
          have hs := (NdArray.C03_slice_succeeds_iff h h' shape data a b hm sts hb i).2
          rcases hs with ⟨⟨w', hw', hws⟩, _⟩ | ⟨_, hno⟩
          · have hch : NdArray.slices a (sts ++ [.right i]) = .ok w' := by rw [slices_snoc a sts _ b hb]; exact hw'
            obtain ⟨I, hI, hden⟩ := ih (by simp) (fun ax h => hok ax (List.mem_cons_of_mem _ h)) _ w' hch (by rw [hws, hshape]; simp)
            refine ⟨w', I, hw', hI, fun e => ?_⟩
            have := hden e
            simp only [embed_snoc, NdArray.Spec.embed1] at this
            simpa using this
          · exact absurd ⟨by rw [hshape]; simp, _, hlast, hi⟩ hno)
      obtain ⟨subs, hsubs, hall⟩ := hsubs
      refine ⟨.node ax subs, ?_, ?_⟩
      · rw [build, if_neg (by rw [hshape]; simp), if_neg (by simp [AxisOk.order (hok ax List.mem_cons_self)]), if_neg, hsubs]
        · rfl
        · rw [List.getLastD_eq_getLast?, hlast]; simp
      · intro e
        refine den_node e ax (hok ax List.mem_cons_self) _ subs _ ?_
        intro i hi
        have hlen2 := hall.length_eq
        simp only [List.length_range] at hlen2
        have := (List.forall₂_iff_get.mp hall).2 i (by simpa using hi) (by omega)
        simp only [List.get_eq_getElem, List.getElem_range] at this
        have hfun : callNth e subs i = call e (subs[i]'(by omega)) := by
          funext xs
          rw [callNth_eq, List.getElem?_eq_getElem (by omega)]
        rw [hfun]
        exact this e

theorem Valid.append {s1 c1 s2 c2 : List Nat} (h1 : Valid s1 c1) (h2 : Valid s2 c2) : Valid (s1 ++ s2) (c1 ++ c2) := by
  induction s1 generalizing c1 with
  | nil =>
    cases c1 with
    | nil => exact h2
    | cons _ _ => exact h1.elim
  | cons d s1 ih =>
    cases c1 with
    | nil => exact h1.elim
    | cons c c1 => exact ⟨h1.1, ih h1.2⟩

theorem AtNode.valid {axs : List (Axis K D)} {is : List Nat} {xs : List (K ⊕ D)} (h : Spec.AtNode axs is xs) :
    Valid (axs.map Axis.size).reverse is.reverse := by
  induction h with
  | nil => trivial
  | cons hk _ ih =>
    rename_i ax i x axs is xs _
    rw [List.map_cons, List.reverse_cons, List.reverse_cons]
    refine Valid.append ih ⟨?_, trivial⟩
    match ax, hk with
    | .cont ks, hk' =>
      simp only [Spec.knot, Option.map_eq_some_iff] at hk'
      obtain ⟨k, hkk, _⟩ := hk'
      exact (List.getElem?_eq_some_iff.mp hkk).1
    | .disc ks, hk' =>
      simp only [Spec.knot, Option.map_eq_some_iff] at hk'
      obtain ⟨k, hkk, _⟩ := hk'
      exact (List.getElem?_eq_some_iff.mp hkk).1

/-! ## Theorems -/

/-- The situation of the claims: an array that was made from data and has, in the opposite order, the extents of the axes. -/
structure Spec.Setup (h h' : Heap K) (shape : List Nat) (data : List K) (a : Nd) (axes : List (Axis K D)) : Prop where
  made : NdArray.mkData h shape data = .ok (h', a)
  small : card shape < 2 ^ 31
  some : axes ≠ []
  axesOk : ∀ ax ∈ axes, Spec.AxisOk ax
  extents : shape = (axes.map Axis.size).reverse

theorem Setup.den {h h' : Heap K} {shape : List Nat} {data : List K} {a : Nd} {axes : List (Axis K D)} (S : Spec.Setup h h' shape data a axes) :
    ∃ w : List Nat → K, (∀ c, Valid shape c → NdArray.at' h' a c = .ok (w c)) ∧
      ∃ I, build h' axes a = .ok I ∧ ∀ e, Den e axes (call e I) fun is => w is.reverse := by
  have hne : shape ≠ [] := by
    rw [S.extents]
    simpa using S.some
  have ⟨w, hw⟩ : ∃ w : List Nat → K, ∀ c, Valid shape c → NdArray.at' h' a c = .ok (w c) := by
    have : ∀ c, ∃ u, Valid shape c → NdArray.at' h' a c = .ok u := by
      intro c
      by_cases hc : Valid shape c
      · obtain ⟨u, hu⟩ := NdArray.fresh_readable S.made (by have := S.small; omega) hc
        exact ⟨u, fun _ => hu⟩
      · exact ⟨0, fun h => absurd h hc⟩
    choose w hw using this
    exact ⟨w, hw⟩
  have hs : a.shape = shape := by
    obtain ⟨_, _, rfl⟩ := NdArray.mkData_spec S.made
    rfl
  exact ⟨w, hw, build_den h h' shape data a S.made S.small hne w hw axes S.some S.axesOk [] a rfl (by rw [hs]; exact S.extents)⟩

/-- **C37 (nodes).** The constructor succeeds, and the interpolator returns, at the knots with the indices `is`, the element of the array at these
indices in the opposite order. -/
theorem C37_node (h h' : Heap K) (shape : List Nat) (data : List K) (a : Nd) (axes : List (Axis K D)) (S : Spec.Setup h h' shape data a axes) :
    ∃ I, build h' axes a = .ok I ∧ ∀ e is xs, Spec.AtNode axes is xs → ∃ v, NdArray.at' h' a is.reverse = .ok v ∧ call e I xs = .ok v := by
  obtain ⟨w, hw, I, hI, hd⟩ := Setup.den S
  refine ⟨I, hI, fun e is xs hx => ⟨w is.reverse, hw _ ?_, Den.node axes _ _ (hd e) is xs hx⟩⟩
  rw [S.extents]
  exact AtNode.valid hx

/-- **C37 (total).** The interpolator returns for all arguments whose discrete ones are knots. -/
theorem C37_returns (h h' : Heap K) (shape : List Nat) (data : List K) (a : Nd) (axes : List (Axis K D)) (S : Spec.Setup h h' shape data a axes)
    (I : Interp K D) (hI : build h' axes a = .ok I) (e : Bool) (xs : List (K ⊕ D)) (hx : List.Forall₂ Spec.Fits axes xs) :
    ∃ v, call e I xs = .ok v := by
  obtain ⟨w, _, I', hI', hd⟩ := Setup.den S
  rw [hI] at hI'
  cases hI'
  exact Den.returns axes _ _ (hd e) xs hx

/-- **C37 (affine).** Along a continuous axis the interpolator is, for all values of the other arguments, affine between neighbouring knots (and beyond
the first and the last ones when it extrapolates). -/
theorem C37_affine (h h' : Heap K) (shape : List Nat) (data : List K) (a : Nd) (pre : List (Axis K D)) (ks : List K) (post : List (Axis K D))
    (S : Spec.Setup h h' shape data a (pre ++ .cont ks :: post)) (I : Interp K D) (hI : build h' (pre ++ .cont ks :: post) a = .ok I) (e : Bool)
    (xpre xpost : List (K ⊕ D)) (hpre : List.Forall₂ Spec.Fits pre xpre) (hpost : List.Forall₂ Spec.Fits post xpost) (i : Nat) (k l t : K)
    (hk : ks[i]? = some k) (hl : ks[i + 1]? = some l) (h1 : k ≤ t ∨ e = true ∧ i = 0) (h2 : t ≤ l ∨ e = true ∧ i + 2 = ks.length) :
    ∃ u w z, call e I (xpre ++ .inl k :: xpost) = .ok u ∧ call e I (xpre ++ .inl l :: xpost) = .ok w ∧
      call e I (xpre ++ .inl t :: xpost) = .ok z ∧ Spec.OnLine (k, u) (l, w) t z := by
  obtain ⟨w, _, I', hI', hd⟩ := Setup.den S
  rw [hI] at hI'
  cases hI'
  exact Den.affine pre ks post _ _ (hd e) xpre xpost hpre hpost i k l t hk hl ⟨h1, h2⟩

/-- **C37 (outside).** Without extrapolation the value is 0 as soon as one continuous argument is outside the knots of its axis. -/
theorem C37_outside (h h' : Heap K) (shape : List Nat) (data : List K) (a : Nd) (axes : List (Axis K D)) (S : Spec.Setup h h' shape data a axes)
    (I : Interp K D) (hI : build h' axes a = .ok I) (xs : List (K ⊕ D)) (hx : List.Forall₂ Spec.Fits axes xs) (j : Nat) (ks : List K) (x : K)
    (hj : axes[j]? = some (.cont ks)) (hxj : xs[j]? = some (.inl x)) (ho : (∀ k ∈ ks, x < k) ∨ ∀ k ∈ ks, k < x) : call false I xs = .ok 0 := by
  obtain ⟨w, _, I', hI', hd⟩ := Setup.den S
  rw [hI] at hI'
  cases hI'
  exact Den.outside axes _ _ (hd false) xs hx ⟨j, ks, x, hj, hxj, ho⟩

theorem build_throws (h h' : Heap K) (shape : List Nat) (data : List K) (a : Nd) (hm : NdArray.mkData h shape data = .ok (h', a))
    (hsmall : card shape < 2 ^ 31) (hne : shape ≠ []) (axes : List (Axis K D)) : axes ≠ [] → (∀ ax ∈ axes, Spec.AxisOk ax) →
    ∀ (sts : List Step) (b : Nd), NdArray.slices a sts = .ok b → b.shape ≠ (axes.map Axis.size).reverse → ∃ er, build h' axes b = .throw er := by
  induction axes with
  | nil => exact fun h => absurd rfl h
  | cons ax axs ih =>
    intro _ hok sts b hb hshape
    obtain ⟨l, hl, hlen, hcard, hat⟩ := NdArray.C04_iteration_row_major h h' shape data a b hm hsmall hne sts hb
    match axs, ih, hok, hshape with
    | [], _, hok, hshape =>
      rw [build, hl]
      simp only [fromNd, Outcome.bind_ok]
      by_cases h1 : b.shape.length ≠ 1
      · exact ⟨_, by rw [if_pos h1]⟩
      · push Not at h1
        obtain ⟨d, hd⟩ := List.length_eq_one_iff.mp h1
        have h3 : ax.size ≠ b.size := by
          rw [hcard, hd]
          rw [hd] at hshape
          simp at hshape
          simpa [card] using fun h => hshape h.symm
        exact ⟨_, by rw [if_neg (by simpa using h1), if_pos h3]⟩
    | ax2 :: rest, ih, hok, hshape =>
      rw [build]
      by_cases h1 : b.shape.length ≠ rest.length + 2
      · exact ⟨_, by rw [if_pos h1]⟩
      · push Not at h1
        rw [if_neg (by simpa using h1), if_neg (by simp [AxisOk.order (hok ax List.mem_cons_self)])]
        by_cases h2 : ax.size ≠ b.shape.getLastD 0
        · exact ⟨_, by rw [if_pos h2]⟩
        · rw [if_neg h2]
          push Not at h2
          have hbne : b.shape ≠ [] := by intro hc; rw [hc] at h1; simp at h1
          have hlast : b.shape.getLast? = some ax.size := by
            rw [List.getLastD_eq_getLast?, List.getLast?_eq_getLast_of_ne_nil hbne] at h2
            rw [List.getLast?_eq_getLast_of_ne_nil hbne, h2]
            rfl
          have hpos : 0 < ax.size := by
            have := hok ax List.mem_cons_self
            match ax, this with
            | .cont ks, h => exact List.length_pos_iff.mpr h.1
            | .disc ks, h => exact List.length_pos_iff.mpr h.1
          have hs := (NdArray.C03_slice_succeeds_iff h h' shape data a b hm sts hb 0).2
          rcases hs with ⟨⟨w', hw', hws⟩, _⟩ | ⟨_, hno⟩
          · have hch : NdArray.slices a (sts ++ [.right 0]) = .ok w' := by rw [slices_snoc a sts _ b hb]; exact hw'
            obtain ⟨er, her⟩ := ih (by simp) (fun ax h => hok ax (List.mem_cons_of_mem _ h)) _ w' hch (by
              rw [hws]
              intro hc
              apply hshape
              rw [List.map_cons, List.reverse_cons, ← hc]
              have := List.dropLast_append_getLast? _ hlast
              exact this.symm)
            refine ⟨er, ?_⟩
            obtain ⟨n, hn⟩ : ∃ n, ax.size = n + 1 := ⟨ax.size - 1, by omega⟩
            rw [hn, List.range_succ_eq_map, buildLoop, hw']
            simp only [fromNd, Outcome.bind_ok, her, Outcome.bind_throw]
          · exact absurd ⟨by omega, _, hlast, hpos⟩ hno

/-- **C37 (refused).** If the extents of the array are not those of the axes in the opposite order the constructor throws. -/
theorem C37_throws (h h' : Heap K) (shape : List Nat) (data : List K) (a : Nd) (hm : NdArray.mkData h shape data = .ok (h', a))
    (hsmall : card shape < 2 ^ 31) (hne : shape ≠ []) (axes : List (Axis K D)) (hax : axes ≠ []) (hok : ∀ ax ∈ axes, Spec.AxisOk ax)
    (hs : shape ≠ (axes.map Axis.size).reverse) : ∃ er, build h' axes a = .throw er := by
  have hsh : a.shape = shape := by
    obtain ⟨_, _, rfl⟩ := NdArray.mkData_spec hm
    rfl
  exact build_throws h h' shape data a hm hsmall hne axes hax hok [] a rfl (by rw [hsh]; exact hs)

/-- **C37 (order of the knots).** With two or more axes, an axis other than the last with a decreasing step is refused... -/
theorem C37_decreasing (h : Heap K) (ks : List K) (ax : Axis K D) (rest : List (Axis K D)) (a : Nd) (i : Nat) (k l : K) (hk : ks[i]? = some k)
    (hl : ks[i + 1]? = some l) (hd : l < k) : ∃ er, build h (.cont ks :: ax :: rest) a = .throw er := by
  have hno : knotsOk ks = false := by
    by_contra hc
    rw [Bool.not_eq_false] at hc
    exact absurd hd (not_lt.mpr (sorted_get ((knotsOk_iff ks).mp hc) (Nat.le_succ i) hk hl))
  rw [build]
  split_ifs
  · exact ⟨_, rfl⟩
  · exact ⟨_, rfl⟩
  · rename_i h2 _; exact absurd hno h2
  · rename_i h2 _; exact absurd hno h2

/-! ### `interpn` -/

theorem AtNode.append {a1 a2 : List (Axis K D)} {i1 i2 : List Nat} {x1 x2 : List (K ⊕ D)} (h1 : Spec.AtNode a1 i1 x1) (h2 : Spec.AtNode a2 i2 x2) :
    Spec.AtNode (a1 ++ a2) (i1 ++ i2) (x1 ++ x2) := by
  induction h1 with
  | nil => exact h2
  | cons hk _ ih => exact .cons hk ih

/-- The arguments are the knots with the given indices. -/
inductive Spec.GridNode : List (List K) → List Nat → List K → Prop
  | nil : Spec.GridNode [] [] []
  | cons {ks : List K} {i : Nat} {x : K} {grid : List (List K)} {is : List Nat} {xs : List K} : ks[i]? = some x → Spec.GridNode grid is xs →
    Spec.GridNode (ks :: grid) (i :: is) (x :: xs)

theorem GridNode.atNode {grid : List (List K)} {is : List Nat} {xs : List K} (h : Spec.GridNode grid is xs) :
    Spec.AtNode (D := D) (grid.reverse.map .cont) is.reverse (xs.reverse.map .inl) := by
  induction h with
  | nil => exact .nil
  | cons hk _ ih =>
    simp only [List.reverse_cons, List.map_append, List.map_cons, List.map_nil]
    exact AtNode.append ih (.cons (by simp [Spec.knot, hk]) .nil)

theorem interpn_setup {h h' : Heap K} {shape : List Nat} {data : List K} {a : Nd} {grid : List (List K)}
    (hm : NdArray.mkData h shape data = .ok (h', a)) (hsmall : card shape < 2 ^ 31) (hg : grid ≠ [])
    (hok : ∀ ks ∈ grid, ks ≠ [] ∧ ks.Pairwise (· < ·)) (hs : shape = grid.map List.length) :
    Spec.Setup (D := D) h h' shape data a (grid.reverse.map .cont) := by
  refine ⟨hm, hsmall, by simpa using hg, ?_, ?_⟩
  · intro ax hax
    obtain ⟨ks, hks, rfl⟩ := List.mem_map.mp hax
    exact hok ks (by simpa using hks)
  · rw [hs, List.map_map, ← List.map_reverse, List.reverse_reverse]
    rfl

/-- **C37 (`interpn`).** With the linear type, strictly increasing axes and an array with their extents, the function that `interpn` returns has, at the knots with
the indices `is`, the value of the array at `is` (now in the same order); without extrapolation it is 0 when an argument is outside its axis; and
along each axis it is affine between neighbouring knots. -/
theorem C37_interpn (h h' : Heap K) (shape : List Nat) (data : List K) (a : Nd) (grid : List (List K))
    (hm : NdArray.mkData h shape data = .ok (h', a)) (hsmall : card shape < 2 ^ 31) (hg : grid ≠ [])
    (hok : ∀ ks ∈ grid, ks ≠ [] ∧ ks.Pairwise (· < ·)) (hs : shape = grid.map List.length) :
    ∃ I : Interp K D, interpn h' grid a .linear = .ok I ∧
      (∀ e is xs, Spec.GridNode grid is xs → ∃ v, NdArray.at' h' a is = .ok v ∧ interpnCall e I xs = .ok v) ∧
      (∀ xs : List K, xs.length = grid.length → ∀ (j : Nat) ks x, grid[j]? = some ks → xs[j]? = some x → ((∀ k ∈ ks, x < k) ∨ ∀ k ∈ ks, k < x) →
        interpnCall false I xs = .ok 0) ∧
      (∀ e (xpre xpost : List K) (ks : List K), xpre.length + 1 + xpost.length = grid.length → grid[xpre.length]? = some ks → ∀ (i : Nat) k l t,
        ks[i]? = some k → ks[i + 1]? = some l → (k ≤ t ∨ e = true ∧ i = 0) → (t ≤ l ∨ e = true ∧ i + 2 = ks.length) →
        ∃ u w z, interpnCall e I (xpre ++ k :: xpost) = .ok u ∧ interpnCall e I (xpre ++ l :: xpost) = .ok w ∧
          interpnCall e I (xpre ++ t :: xpost) = .ok z ∧ Spec.OnLine (k, u) (l, w) t z) := by
  have S := interpn_setup (D := D) hm hsmall hg hok hs
  obtain ⟨I, hI, hnode⟩ := C37_node _ _ _ _ _ _ S
  have fits : ∀ (grid : List (List K)) (xs : List K), xs.length = grid.length → List.Forall₂ (Spec.Fits (D := D)) (grid.map .cont) (xs.map .inl) := by
    intro grid xs hl
    induction grid generalizing xs with
    | nil =>
      obtain rfl := List.length_eq_zero_iff.mp hl
      exact .nil
    | cons ks grid ih =>
      cases xs with
      | nil => cases hl
      | cons x xs => exact .cons trivial (ih xs (by simpa using hl))
  refine ⟨I, ?_, ?_, ?_, ?_⟩
  · rw [interpn, hI]
    rfl
  · intro e is xs hx
    obtain ⟨v, h1, h2⟩ := hnode e _ _ (GridNode.atNode hx)
    rw [List.reverse_reverse] at h1
    exact ⟨v, h1, h2⟩
  · intro xs hl j ks x hj hx ho
    have hjl := (List.getElem?_eq_some_iff.mp hj).1
    refine C37_outside _ _ _ _ _ _ S I hI _ (fits _ _ (by simpa using hl)) (grid.length - 1 - j) ks x ?_ ?_ ho
    · rw [List.getElem?_map, List.getElem?_reverse (by omega), show grid.length - 1 - (grid.length - 1 - j) = j by omega, hj]
      rfl
    · rw [List.getElem?_map, List.getElem?_reverse (by omega), hl, show grid.length - 1 - (grid.length - 1 - j) = j by omega, hx]
      rfl
  · intro e xpre xpost ks hl hj i k l t hk hl' h1 h2
    have hjl := (List.getElem?_eq_some_iff.mp hj)
    obtain ⟨hjl, hgj⟩ := hjl
    have hsplit : grid = grid.take xpre.length ++ ks :: grid.drop (xpre.length + 1) := by
      rw [← hgj, List.cons_getElem_drop_succ, List.take_append_drop]
    have hax : grid.reverse.map (Axis.cont (D := D)) = (grid.drop (xpre.length + 1)).reverse.map .cont ++ .cont ks :: (grid.take xpre.length).reverse.map .cont := by
      conv_lhs => rw [hsplit]
      simp
    rw [hax] at S hI
    obtain ⟨u, w, z, q1, q2, q3, q4⟩ := C37_affine _ _ _ _ _ _ _ _ S I hI e (xpost.reverse.map .inl) (xpre.reverse.map .inl)
      (fits _ _ (by simp; omega)) (fits _ _ (by simp; omega)) i k l t hk hl' h1 h2
    refine ⟨u, w, z, ?_, ?_, ?_, q4⟩ <;> simp [interpnCall, ← List.map_reverse, *]

/-- **C37 (spline).** Only the linear type is accepted. -/
theorem C37_interpn_type (h : Heap K) (grid : List (List K)) (a : Nd) (I : Interp K D) : interpn h grid a .cubicSpline ≠ .ok I := by
  rw [interpn]
  cases build h (grid.reverse.map (Axis.cont (D := D))) a <;> simp

/-! ### What the documentation promises beyond this -/

/-- The full statement for discrete axes: an argument that is not a knot gives 0 (`GridInterpolation.h` 46-47). -/
def C37_unknown_full (K D : Type) [Field K] [LinearOrder K] [DecidableEq D] : Prop :=
  ∀ (e : Bool) (ks : List D) (vs : List K) (d : D), ks ≠ [] → ks.Nodup → ks.length = vs.length → d ∉ ks → call e (.last (.disc ks) vs) [.inr d] = .ok 0

/-- **C37 (violated).** For every such argument the code reads the knot behind the last one. -/
theorem C37_unknown (e : Bool) (ks : List D) (vs : List K) (subs : List (Interp K D)) (rest : List (K ⊕ D)) (d : D) (hd : d ∉ ks) :
    call e (.last (.disc ks) vs) [.inr d] = .ub ∧ call e (.node (.disc ks) subs) (.inr d :: rest) = .ub := by
  have hi : (ks.findIdx fun k => decide (k = d)) = ks.length := by
    rw [List.findIdx_eq_length]
    intro k hk
    have : k ≠ d := fun h => hd (h ▸ hk)
    simpa using this
  constructor
  · rw [call]
    simp [hi]
  · rw [call]
    simp [hi]

theorem C37_unknown_violated : ¬ C37_unknown_full ℚ Nat := by
  intro hc
  have := hc true [1, 2] [10, 20] 3 (by decide) (by decide) rfl (by decide)
  rw [(C37_unknown true [1, 2] ([10, 20] : List ℚ) [] [] 3 (by decide)).1] at this
  cases this

end

/-- **C37 (violated: order of the last axis).** ...but with one axis (so for the last axis of every grid) decreasing knots are accepted, and the value at
a knot need not be the stored one. -/
theorem C37_unsorted_violated : ∃ (h' : Heap ℚ) (a : Nd) (I : Interp ℚ Nat), NdArray.mkData [] [3] [10, 20, 40] = .ok (h', a) ∧
    build h' [.cont [3, 2, 1]] a = .ok I ∧ call true I [.inl 3] = .ok 0 := by
  refine ⟨_, _, .last (.cont [3, 2, 1]) [10, 20, 40], rfl, rfl, ?_⟩
  decide +kernel

/-- A 2 × 3 grid: the first axis has three continuous knots, the second two names. -/
example : ∃ (h' : Heap ℚ) (a : Nd), Spec.Setup [] h' [2, 3] [1, 2, 3, 4, 5, 6] a [Axis.cont [0, 1, 3], Axis.disc ["a", "b"]] ∧
    ∃ I, build h' [Axis.cont [0, 1, 3], Axis.disc ["a", "b"]] a = .ok I ∧ call false I [.inl 1, .inr "b"] = .ok 5 ∧
      call false I [.inl 2, .inr "a"] = .ok (5 / 2) ∧ call false I [.inl 4, .inr "a"] = .ok 0 ∧ call true I [.inl 4, .inr "a"] = .ok (7 / 2) := by
  have S : Spec.Setup (D := String) ([] : Heap ℚ) [[1, 2, 3, 4, 5, 6]] [2, 3] [1, 2, 3, 4, 5, 6] ⟨0, 0, [2, 3], [3, 1], [], 6⟩
      [Axis.cont [0, 1, 3], Axis.disc ["a", "b"]] := by
    refine ⟨rfl, by decide, by simp, ?_, rfl⟩
    intro ax hax
    simp only [List.mem_cons, List.not_mem_nil, or_false] at hax
    rcases hax with rfl | rfl
    · exact ⟨by simp, by decide +kernel⟩
    · exact ⟨by simp, by decide⟩
  refine ⟨_, _, S, _, rfl, ?_, ?_, ?_, ?_⟩ <;> decide +kernel

/-- `interpn` on the same values. -/
example : ∃ I : Interp ℚ Empty, interpn [[1, 2, 3, 4, 5, 6]] [[0, 1], [0, 1, 3]] ⟨0, 0, [2, 3], [3, 1], [], 6⟩ .linear = .ok I ∧
    interpnCall false I [1, 0] = .ok 4 ∧ interpnCall false I [1 / 2, 2] = .ok 4 := by
  refine ⟨_, rfl, ?_, ?_⟩ <;> decide +kernel

end Alexandria.MathUtils
