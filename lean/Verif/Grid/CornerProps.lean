import Verif.Grid.Props

/-!
# C170: the corner below a point, and equality of axes
-/

namespace Alexandria.Grid

open Alexandria.Grid.Spec

variable {V T : Type}

namespace Spec

/-- The knot that belongs to a coordinate: the greatest one that is not greater, or the first one if all are greater. -/
def Below [LinearOrder V] (knots : List V) (c : V) (i : Nat) : Prop :=
  ∃ v, knots[i]? = some v ∧ ((v ≤ c ∧ ∀ w ∈ knots, w ≤ c → w ≤ v) ∨ (i = 0 ∧ ∀ w ∈ knots, c < w))

end Spec

theorem infimum_below [LinearOrder V] (a : Axis V) (hs : a.values.Pairwise (· < ·)) (hne : a.values ≠ []) (c : V) : Below a.values c (a.infimum c) := by
  obtain ⟨h1, h2⟩ := C65_axis_infimum a hs c
  by_cases h : ∀ v ∈ a.values, c < v
  · rw [h1 h]
    obtain ⟨v, l, e⟩ := List.exists_cons_of_ne_nil hne
    exact ⟨v, by rw [e]; rfl, .inr ⟨rfl, h⟩⟩
  · push Not at h
    obtain ⟨v, hv, hle, hm⟩ := h2 h
    exact ⟨v, hv, .inl ⟨hle, hm⟩⟩

theorem below_lt [LinearOrder V] {knots : List V} {c : V} {i : Nat} (h : Below knots c i) : i < knots.length := by
  obtain ⟨v, hv, _⟩ := h
  exact (List.getElem?_eq_some_iff.1 hv).1

/-- The knot is the only one. -/
theorem below_unique [LinearOrder V] {knots : List V} (hs : knots.Pairwise (· < ·)) {c : V} {i j : Nat} (hi : Below knots c i) (hj : Below knots c j) : i = j := by
  obtain ⟨v, hv, h1⟩ := hi
  obtain ⟨w, hw, h2⟩ := hj
  obtain ⟨li, ei⟩ := List.getElem?_eq_some_iff.1 hv
  obtain ⟨lj, ej⟩ := List.getElem?_eq_some_iff.1 hw
  have hmv : v ∈ knots := ei ▸ List.getElem_mem li
  have hmw : w ∈ knots := ej ▸ List.getElem_mem lj
  rcases h1 with ⟨a1, a2⟩ | ⟨a1, a2⟩
  · rcases h2 with ⟨b1, b2⟩ | ⟨b1, b2⟩
    · have e : v = w := le_antisymm (b2 v hmv a1) (a2 w hmw b1)
      rcases Nat.lt_trichotomy i j with h | h | h
      · have := List.pairwise_iff_getElem.1 hs i j li lj h
        rw [ei, ej, e] at this
        exact absurd this (lt_irrefl _)
      · exact h
      · have := List.pairwise_iff_getElem.1 hs j i lj li h
        rw [ei, ej, e] at this
        exact absurd this (lt_irrefl _)
    · exact absurd (b2 v hmv) (not_lt.2 a1)
  · rcases h2 with ⟨b1, b2⟩ | ⟨b1, b2⟩
    · exact absurd (a2 w hmw) (not_lt.2 b1)
    · rw [a1, b1]

theorem infimum_get [LinearOrder V] {axes : List (Axis V)} {g : GridC V} (hg : Reach axes g) (coords : List V) (k : Nat) (a : Axis V) (c : V) (ha : axes[k]? = some a) (hc : coords[k]? = some c) :
    (g.infimum coords)[k]? = some (a.infimum c) := by
  rw [GridC.infimum, hg.inv.1, List.getElem?_zipWith, ha, hc]

theorem infimum_length [LinearOrder V] {axes : List (Axis V)} {g : GridC V} (hg : Reach axes g) (coords : List V) (hl : coords.length = axes.length) : (g.infimum coords).length = axes.length := by
  rw [GridC.infimum, hg.inv.1, List.length_zipWith, hl, Nat.min_self]

theorem inRange_infimum [LinearOrder V] : ∀ (axes : List (Axis V)), (∀ a ∈ axes, a.values.Pairwise (· < ·) ∧ a.values ≠ []) → ∀ coords : List V, coords.length = axes.length →
    InRange (List.zipWith (fun (a : Axis V) c => a.infimum c) axes coords) (sizes axes)
  | [], _, [], _ => trivial
  | [], _, _ :: _, hl => by simp at hl
  | _ :: _, _, [], hl => by simp at hl
  | a :: axes, hs, c :: coords, hl => by
    obtain ⟨h1, h2⟩ := hs a List.mem_cons_self
    exact ⟨below_lt (infimum_below a h1 h2 c), inRange_infimum axes (fun b hb => hs b (List.mem_cons_of_mem _ hb)) coords (by simpa using hl)⟩

theorem zeroAtFixed_none : ∀ (axes : List (Axis V)) (cs : List Nat), ZeroAtFixed (axes.map fun _ => none) cs
  | [], _ => by simp [ZeroAtFixed]
  | _ :: _, [] => by simp [ZeroAtFixed]
  | _ :: axes, _ :: cs => zeroAtFixed_none axes cs

theorem place_none : ∀ (axes : List (Axis V)) (cs : List Nat), cs.length = axes.length → place (axes.map fun _ => none) cs = cs
  | [], [], _ => rfl
  | [], _ :: _, hl => by simp at hl
  | _ :: _, [], hl => by simp at hl
  | _ :: axes, c :: cs, hl => by
    rw [List.map_cons, place, place_none axes cs (by simpa using hl)]

/-- **C170 (the corner).** `infimum` of a grid or slice gives for every axis the position of the greatest knot that is not greater than the coordinate, or 0 if all knots are greater; nothing else has this property. -/
theorem C170_corner [LinearOrder V] (axes : List (Axis V)) (hs : ∀ a ∈ axes, a.values.Pairwise (· < ·) ∧ a.values ≠ []) (g : GridC V) (hg : Reach axes g) (coords : List V)
    (hl : coords.length = axes.length) (is : List Nat) :
    g.infimum coords = is ↔ is.length = axes.length ∧ ∀ (k : Nat) (a : Axis V) (c : V) (i : Nat), axes[k]? = some a → coords[k]? = some c → is[k]? = some i → Below a.values c i := by
  constructor
  · rintro rfl
    refine ⟨infimum_length hg coords hl, fun k a c i ha hc hi => ?_⟩
    rw [infimum_get hg coords k a c ha hc, Option.some.injEq] at hi
    subst hi
    obtain ⟨h1, h2⟩ := hs a (List.mem_of_getElem? ha)
    exact infimum_below a h1 h2 c
  · rintro ⟨h1, h2⟩
    apply List.ext_getElem?
    intro k
    by_cases hk : k < axes.length
    · have ha := List.getElem?_eq_getElem hk
      have hc : coords[k]? = some (coords[k]'(by omega)) := List.getElem?_eq_getElem _
      have hi : is[k]? = some (is[k]'(by omega)) := List.getElem?_eq_getElem _
      obtain ⟨s1, s2⟩ := hs _ (List.getElem_mem hk)
      rw [infimum_get hg coords k _ _ ha hc, hi]
      congr 1
      exact below_unique s1 (infimum_below _ s1 s2 _) (h2 k _ _ _ ha hc hi)
    · rw [List.getElem?_eq_none (by rw [infimum_length hg coords hl]; omega), List.getElem?_eq_none (by omega)]

/-- The full statement: every grid and slice has a cell at the corner that its `infimum` gives. -/
def C170_full : Prop :=
  ∀ (axes : List (Axis Nat)), (∀ a ∈ axes, a.values.Pairwise (· < ·) ∧ a.values ≠ []) → ∀ g : GridC Nat, Reach axes g → ∀ cells : List Nat, cells.length = cellCount axes →
    ∀ coords : List Nat, coords.length = axes.length → ∃ x, g.at' cells (g.infimum coords) = .ok x

/-- **C170 (the cell at the corner, grids that are no slices).** `at` of what `infimum` gives always finds the cell of that corner. Slices are missing: see `C170_slices` and `C170_slices_violated`. -/
theorem C170_cell_partial [LinearOrder V] (axes : List (Axis V)) (hs : ∀ a ∈ axes, a.values.Pairwise (· < ·) ∧ a.values ≠ []) (cells : List T) (hc : cells.length = cellCount axes)
    (coords : List V) (hl : coords.length = axes.length) :
    ∃ x, cells[cellNo (sizes axes) ((mk axes).infimum coords)]? = some x ∧ (mk axes).at' cells ((mk axes).infimum coords) = .ok x := by
  have hi := infimum_length (.new : Reach axes (mk axes)) coords hl
  have := (C18_at_exact axes (mk axes) .new cells hc _ hi).1 ⟨inRange_infimum axes hs coords hl, zeroAtFixed_none axes _⟩
  rwa [show (mk axes).fixed = axes.map fun _ => none from rfl, place_none axes _ hi] at this

/-- **C170 (slices).** `at` of what `infimum` gives finds a cell exactly if the corner is at the first knot of every fixed axis; otherwise it throws. -/
theorem C170_slices [LinearOrder V] (axes : List (Axis V)) (hs : ∀ a ∈ axes, a.values.Pairwise (· < ·) ∧ a.values ≠ []) (g : GridC V) (hg : Reach axes g) (cells : List T) (hc : cells.length = cellCount axes)
    (coords : List V) (hl : coords.length = axes.length) :
    (ZeroAtFixed g.fixed (g.infimum coords) → ∃ x, cells[cellNo (sizes axes) (place g.fixed (g.infimum coords))]? = some x ∧ g.at' cells (g.infimum coords) = .ok x) ∧
    (¬ ZeroAtFixed g.fixed (g.infimum coords) → ∃ e, g.at' cells (g.infimum coords) = .throw e) := by
  have hi := infimum_length hg coords hl
  have hr : InRange (g.infimum coords) (sizes axes) := by
    rw [GridC.infimum, hg.inv.1]
    exact inRange_infimum axes hs coords hl
  obtain ⟨h1, h2⟩ := C18_at_exact axes g hg cells hc _ hi
  exact ⟨fun h => h1 ⟨hr, h⟩, fun h => h2 fun h' => h h'.2⟩

/-- Two axes with the knots 1, 2 and 4, 5, 6. -/
def cornerAxes : List (Axis Nat) := [⟨"x", [1, 2]⟩, ⟨"y", [4, 5, 6]⟩]

/-- **C170 is violated by slices**: with the second axis fixed at 5, the corner below (2, 5) has the indices (1, 1), which `at` refuses. -/
theorem C170_slices_violated : ¬ C170_full := by
  intro h
  have hs : ∀ a ∈ cornerAxes, a.values.Pairwise (· < ·) ∧ a.values ≠ [] := by
    simp [cornerAxes]
  obtain ⟨x, hx⟩ := h cornerAxes hs _ (.byIndex (mk cornerAxes) _ 1 1 .new rfl) [10, 11, 12, 13, 14, 15] (by decide) [2, 5] rfl
  revert hx
  exact fun hx => by cases hx

theorem stdEqual_ok [BEq V] [LawfulBEq V] : ∀ (l m : List V), l.length = m.length → ∃ b, stdEqual l m = .ok b ∧ (b = true ↔ l = m)
  | [], [], _ => ⟨true, rfl, by simp⟩
  | [], _ :: _, hl => by simp at hl
  | _ :: _, [], hl => by simp at hl
  | x :: l, y :: m, hl => by
    obtain ⟨b, h1, h2⟩ := stdEqual_ok l m (by simpa using hl)
    by_cases e : x = y
    · exact ⟨b, by rw [stdEqual, if_pos (by simp [e]), h1], by rw [h2, e]; simp⟩
    · exact ⟨false, by rw [stdEqual, if_neg (by simp [e])], by simp [e]⟩

/-- **C170 (equality).** Two axes are equal exactly if they have the same knots in the same order, whatever their names and sizes; the comparison never reads beyond a knot list. `!=` is the opposite. -/
theorem C170_equal [BEq V] [LawfulBEq V] (a b : Axis V) :
    ∃ r, a.equal b = .ok r ∧ a.differ b = .ok (!r) ∧ (r = true ↔ a.values = b.values) := by
  by_cases h : a.values.length = b.values.length
  · obtain ⟨r, h1, h2⟩ := stdEqual_ok a.values b.values h
    have he : a.equal b = .ok r := by
      unfold Axis.equal Axis.size
      rw [if_pos h, h1]
    refine ⟨r, he, ?_, h2⟩
    unfold Axis.differ
    rw [he]
    rfl
  · have he : a.equal b = .ok false := by
      unfold Axis.equal Axis.size
      rw [if_neg h]
    refine ⟨false, he, ?_, by simpa using fun e : a.values = b.values => h (by rw [e])⟩
    unfold Axis.differ
    rw [he]
    rfl

/-- **C170 (equality, any comparison).** With a comparison of knots that need not be lawful (NaN knots, say) two axes are equal exactly if they have equally many knots and all pairs at equal positions compare equal. -/
theorem C170_equal_any [BEq V] (a b : Axis V) :
    a.equal b = .ok true ↔ a.values.length = b.values.length ∧ ∀ (k : Nat) (v w : V), a.values[k]? = some v → b.values[k]? = some w → (v == w) = true := by
  have key : ∀ (l m : List V), l.length = m.length → (stdEqual l m = .ok true ↔ ∀ (k : Nat) (v w : V), l[k]? = some v → m[k]? = some w → (v == w) = true) := by
    intro l
    induction l with
    | nil =>
      intro m _
      exact ⟨fun _ k v w hv => by simp at hv, fun _ => rfl⟩
    | cons x l ih =>
      intro m hl
      cases m with
      | nil => simp at hl
      | cons y m =>
        rw [stdEqual]
        by_cases e : (x == y) = true
        · rw [if_pos e, ih m (by simpa using hl)]
          constructor
          · intro h k v w hv hw
            cases k with
            | zero =>
              simp only [List.getElem?_cons_zero, Option.some.injEq] at hv hw
              rw [← hv, ← hw]; exact e
            | succ k => exact h k v w (by simpa using hv) (by simpa using hw)
          · intro h k v w hv hw
            exact h (k + 1) v w (by simpa using hv) (by simpa using hw)
        · rw [if_neg e]
          constructor
          · intro h; cases h
          · intro h; exact absurd (h 0 x y rfl rfl) e
  unfold Axis.equal Axis.size
  by_cases h : a.values.length = b.values.length
  · rw [if_pos h, key _ _ h]; simp [h]
  · rw [if_neg h]
    constructor
    · intro h'; cases h'
    · rintro ⟨h', _⟩; exact absurd h' h

example : (mk cornerAxes).infimum [2, 5] = [1, 1] := by decide +kernel
example : (mk cornerAxes).infimum [0, 9] = [0, 2] := by decide +kernel
example : (mk cornerAxes).at' [10, 11, 12, 13, 14, 15] [1, 1] = .ok 13 := by rfl
example : (∀ a ∈ cornerAxes, a.values.Pairwise (· < ·) ∧ a.values ≠ []) ∧ [10, 11, 12, 13, 14, 15].length = cellCount cornerAxes := ⟨by simp [cornerAxes], by decide⟩
example : (⟨"x", [1, 2]⟩ : Axis Nat).equal ⟨"y", [1, 2]⟩ = .ok true := by rfl
example : (⟨"x", [1, 2]⟩ : Axis Nat).differ ⟨"x", [1, 2, 3]⟩ = .ok true := by rfl

end Alexandria.Grid
