import Verif.Grid.Lemmas
import Mathlib.Order.Lattice
import Mathlib.Data.List.Nodup

/-!
# Properties C17-C20, C65, C66 of grids
-/

namespace Alexandria.Grid

open Spec

variable {V T : Type}

/-- The grids a user can get: a new grid and slices of grids. -/
inductive Reach (axes : List (Axis V)) : GridC V → Prop
  | new : Reach axes (mk axes)
  | byIndex (g g' : GridC V) (axis index : Nat) : Reach axes g → g.fixAxisByIndex axis index = .ok g' → Reach axes g'
  | byValue [DecidableEq V] (g g' : GridC V) (axis : Nat) (value : V) : Reach axes g →
      g.fixAxisByValue axis value = .ok g' → Reach axes g'

theorem fixedOk_none (ss : List Nat) : FixedOk ss (ss.map fun _ => none) := by
  induction ss with
  | nil => trivial
  | cons s ss ih => exact ih

theorem fixedOk_set {ss : List Nat} {fs : List (Option Nat)} (h : FixedOk ss fs) (a i : Nat) (ha : i < ss.getD a 0) :
    FixedOk ss (fs.set a (some i)) := by
  induction ss generalizing fs a with
  | nil => simp at ha
  | cons s ss ih =>
    cases fs with
    | nil => simp [FixedOk] at h
    | cons f fs =>
      cases a with
      | zero =>
        simp only [List.getD_cons_zero] at ha
        simp only [List.set_cons_zero, FixedOk]
        refine ⟨ha, ?_⟩
        cases f with
        | none => exact h
        | some j => exact h.2
      | succ a =>
        simp only [List.getD_cons_succ] at ha
        simp only [List.set_cons_succ]
        cases f with
        | none => exact ih h a ha
        | some j => exact ⟨h.1, ih h.2 a ha⟩

theorem sizes_getD (axes : List (Axis V)) (a : Nat) (x : Axis V) (h : axes[a]? = some x) :
    (sizes axes).getD a 0 = x.size := by
  simp [sizes, List.getD, h]

theorem Reach.inv {axes : List (Axis V)} {g : GridC V} (h : Reach axes g) :
    g.axes = axes ∧ FixedOk (sizes axes) g.fixed := by
  induction h with
  | new =>
    refine ⟨rfl, ?_⟩
    have := fixedOk_none (sizes axes)
    simpa [mk, sizes, Function.comp_def] using this
  | byIndex g g' a i _ h ih =>
    unfold GridC.fixAxisByIndex at h
    cases hx : g.axes[a]? with
    | none => simp [hx] at h
    | some x =>
      simp only [hx] at h
      split at h
      · simp at h
      · split at h
        · simp at h
        · simp only [Outcome.ok.injEq] at h
          subst h
          refine ⟨ih.1, fixedOk_set ih.2 _ _ ?_⟩
          rw [ih.1] at hx
          rw [sizes_getD _ _ _ hx]; omega
  | byValue g g' a v _ h ih =>
    unfold GridC.fixAxisByValue at h
    cases hx : g.axes[a]? with
    | none => simp [hx] at h
    | some x =>
      simp only [hx] at h
      split at h
      · simp at h
      · rename_i i hi
        split at h
        · simp at h
        · simp only [Outcome.ok.injEq] at h
          subst h
          refine ⟨ih.1, fixedOk_set ih.2 _ _ ?_⟩
          rw [ih.1] at hx
          rw [sizes_getD _ _ _ hx]
          have := List.findIdx?_eq_some_iff_findIdx_eq.1 hi
          exact this.1

theorem place_inRange {ss : List Nat} {fs : List (Option Nat)} {cs : List Nat} (h2 : FixedOk ss fs)
    (hr : InRange cs ss) : InRange (place fs cs) ss := by
  induction ss generalizing cs fs with
  | nil => cases cs <;> cases fs <;> simp_all [place, InRange]
  | cons s ss ih =>
    cases cs with
    | nil => simp [InRange] at hr
    | cons c cs =>
      cases fs with
      | nil => simp [FixedOk] at h2
      | cons f fs =>
        cases f with
        | none => exact ⟨hr.1, ih h2 hr.2⟩
        | some i => exact ⟨h2.1, ih h2.2 hr.2⟩

/-- **C17** (coordinates to cell). The cell index of in-range coordinates is the mixed-radix number with the first axis
fastest, lies below the number of cells, and `axisIndex` gives each coordinate back. -/
theorem C17_cell_of_coords (axes : List (Axis V)) (cs : List Nat) (h : InRange cs (sizes axes)) :
    (mk axes).callIndex cs = cellNo (sizes axes) cs ∧ (mk axes).callIndex cs < cellCount axes ∧
      ∀ a, a < axes.length → ∃ c, cs[a]? = some c ∧ axisIndex (sizes axes) a ((mk axes).callIndex cs) = .ok c := by
  have hl := inRange_length h
  have h1 : (mk axes).callIndex cs = cellNo (sizes axes) cs := by
    unfold GridC.callIndex
    have hz : ∀ (l : List Nat) (n : Nat), cellNo l (List.replicate n 0) = 0 := by
      intro l
      induction l with
      | nil => intro n; simp [cellNo]
      | cons s l ih => intro n; cases n <;> simp [cellNo, List.replicate_succ, ih]
    simp only [mk]
    rw [calculateTotalIndex_eq _ _ hl, addFixed_eq _ _ (by simp [sizes])]
    have e : (List.map (fun (x : Option Nat) => x.getD 0) (axes.map fun _ => none)) = List.replicate axes.length 0 := by
      simp [List.map_map, Function.comp_def]
    rw [e, hz]; rfl
  refine ⟨h1, by rw [h1, cellCount_eq]; exact cellNo_lt h, fun a ha => ?_⟩
  have hpos : ∀ s ∈ sizes axes, 0 < s := total_pos.1 (Nat.lt_of_le_of_lt (Nat.zero_le _) (cellNo_lt h))
  obtain ⟨d, hd, hx⟩ := axisIndex_digits [] (sizes axes) (cellNo (sizes axes) cs) a hpos (by rwa [sizes_length])
  refine ⟨d, ?_, ?_⟩
  · simpa [total, digits_cellNo _ _ h] using hd
  · rw [h1]; simpa using hx

/-- **C17** (cell to coordinates). Every cell has in-range coordinates, given by `axisIndex`, that address it, and
these are the only ones. -/
theorem C17_coords_of_cell (axes : List (Axis V)) (k : Nat) (h : k < cellCount axes) :
    ∃ cs, InRange cs (sizes axes) ∧ (mk axes).callIndex cs = k ∧
      (∀ a, a < axes.length → ∃ c, cs[a]? = some c ∧ axisIndex (sizes axes) a k = .ok c) ∧
      ∀ cs', InRange cs' (sizes axes) → (mk axes).callIndex cs' = k → cs' = cs := by
  rw [cellCount_eq] at h
  have hpos : ∀ s ∈ sizes axes, 0 < s := total_pos.1 (Nat.lt_of_le_of_lt (Nat.zero_le _) h)
  have hr := digits_inRange (sizes axes) k hpos
  have hk : (mk axes).callIndex (digits (sizes axes) k) = k := by
    rw [(C17_cell_of_coords axes _ hr).1, cellNo_digits _ _ h]
  refine ⟨digits (sizes axes) k, hr, hk, fun a ha => ?_, fun cs' hr' hk' => ?_⟩
  · obtain ⟨c, h1, h2⟩ := (C17_cell_of_coords axes _ hr).2.2 a ha
    exact ⟨c, h1, by rwa [hk] at h2⟩
  · rw [(C17_cell_of_coords axes _ hr').1] at hk'
    rw [← hk', digits_cellNo _ _ hr']

/-- Test: a 3x2 grid, coordinates (2,1) are cell 5. -/
example : InRange [2, 1] (sizes [⟨"x", [10, 20, 30]⟩, (⟨"y", [1, 2]⟩ : Axis Nat)]) ∧
    (mk [⟨"x", [10, 20, 30]⟩, (⟨"y", [1, 2]⟩ : Axis Nat)]).callIndex [2, 1] = 5 := by
  decide

/-- **C18.** For every grid or slice, cell store and coordinate tuple: `at` returns the addressed cell if the coordinates are
in range and zero on the fixed axes, throws otherwise, and never reads outside the cell store. -/
theorem C18_at_exact (axes : List (Axis V)) (g : GridC V) (hg : Reach axes g) (cells : List T)
    (hc : cells.length = cellCount axes) (cs : List Nat) (hl : cs.length = axes.length) :
    (InRange cs (sizes axes) ∧ ZeroAtFixed g.fixed cs →
      ∃ x, cells[cellNo (sizes axes) (place g.fixed cs)]? = some x ∧ g.at' cells cs = .ok x) ∧
    (¬ (InRange cs (sizes axes) ∧ ZeroAtFixed g.fixed cs) → ∃ e, g.at' cells cs = .throw e) := by
  obtain ⟨h1, h2⟩ := hg.inv
  have hfl := h2.length
  have hsl : cs.length = (sizes axes).length := by rw [sizes_length, hl]
  haveI := Classical.dec (ZeroAtFixed g.fixed cs)
  have hz := checkAllFixedAreZero_pre [] g.fixed cs g.axes.length (by simp [hfl, h1, sizes_length]) (by omega)
  rw [List.nil_append] at hz
  have hb := checkBounds_pre [] (sizes axes) cs hsl
  rw [List.nil_append] at hb
  constructor
  · rintro ⟨hr, hzero⟩
    have hi : g.atIndex cs = .ok (cellNo (sizes axes) (place g.fixed cs)) := by
      unfold GridC.atIndex
      rw [hz, if_pos hzero, h1, hb, if_pos hr]
      simp only [Outcome.bind_ok, Outcome.pure_eq, GridC.callIndex]
      rw [h1, calculateTotalIndex_eq _ _ hsl, addFixed_eq _ _ hfl, cellNo_place _ _ _ hfl hsl hzero]
    have hlt : cellNo (sizes axes) (place g.fixed cs) < cells.length := by
      rw [hc, cellCount_eq]
      exact cellNo_lt (place_inRange h2 hr)
    refine ⟨cells[cellNo (sizes axes) (place g.fixed cs)], List.getElem?_eq_getElem hlt, ?_⟩
    unfold GridC.at' cellAt
    rw [hi, Outcome.bind_ok, List.getElem?_eq_getElem hlt]
  · intro hn
    refine ⟨.elements "out of bound", ?_⟩
    unfold GridC.at' GridC.atIndex
    by_cases hzero : ZeroAtFixed g.fixed cs
    · have hr : ¬ InRange cs (sizes axes) := fun hr => hn ⟨hr, hzero⟩
      rw [hz, if_pos hzero, h1, hb, if_neg hr]; simp
    · rw [hz, if_neg hzero]; simp

/-- The slice coordinates are exactly the in-range coordinates that agree with the fixed ones. -/
theorem mem_sliceCoords {ss : List Nat} {fs : List (Option Nat)} (hf : FixedOk ss fs) (cs : List Nat) :
    cs ∈ sliceCoords ss fs ↔ InRange cs ss ∧ Agrees fs cs := by
  induction ss generalizing fs cs with
  | nil =>
    cases fs with
    | nil => cases cs <;> simp [sliceCoords, InRange, Agrees]
    | cons => simp [FixedOk] at hf
  | cons s ss ih =>
    cases fs with
    | nil => simp [FixedOk] at hf
    | cons f fs =>
      cases f with
      | none =>
        cases cs with
        | nil => simp [sliceCoords, InRange]
        | cons c cs =>
          simp only [sliceCoords, List.mem_flatMap, List.mem_map, List.mem_range, InRange, Agrees, List.cons.injEq]
          constructor
          · rintro ⟨a, ha, b, hb, rfl, rfl⟩
            exact ⟨⟨hb, ((ih hf _).1 ha).1⟩, ((ih hf _).1 ha).2⟩
          · rintro ⟨⟨h1, h2⟩, h3⟩
            exact ⟨cs, (ih hf _).2 ⟨h2, h3⟩, c, h1, rfl, rfl⟩
      | some i =>
        cases cs with
        | nil => simp [sliceCoords, InRange]
        | cons c cs =>
          simp only [sliceCoords, List.mem_map, InRange, Agrees, List.cons.injEq]
          constructor
          · rintro ⟨a, ha, rfl, rfl⟩
            exact ⟨⟨hf.1, ((ih hf.2 _).1 ha).1⟩, rfl, ((ih hf.2 _).1 ha).2⟩
          · rintro ⟨⟨h1, h2⟩, rfl, h3⟩
            exact ⟨cs, (ih hf.2 _).2 ⟨h2, h3⟩, rfl, rfl⟩

/-- **C19.** For every grid without empty axes and every (chain of) slices of it, the loop from `begin()` to `end()`
terminates and visits a strictly increasing list of cell numbers, which are exactly those of the coordinates that are in
range and agree with the fixed indices. -/
theorem C19_slice_iteration (axes : List (Axis V)) (hne : ∀ a ∈ axes, a.values ≠ []) (g : GridC V) (hg : Reach axes g) :
    ∃ it l, g.begin' = .ok it ∧ Loop (sizes g.axes) (cellCount axes) it l ∧ l.Pairwise (· < ·) ∧
      ∀ k, k ∈ l ↔ ∃ cs, InRange cs (sizes axes) ∧ Agrees g.fixed cs ∧ cellNo (sizes axes) cs = k := by
  obtain ⟨h1, h2⟩ := hg.inv
  have hp : ∀ s ∈ sizes axes, 0 < s := by
    intro s hs
    simp only [sizes, List.mem_map] at hs
    obtain ⟨a, ha, rfl⟩ := hs
    exact List.length_pos_iff.2 (hne a ha)
  obtain ⟨l, hl⟩ := @cells_head (sizes axes) g.fixed hp
  have hb : g.begin' = .ok ⟨first (sizes axes) g.fixed, g.fixed⟩ := by
    have := begin_eq hp h2 g.axesFixed
    rw [← h1] at this
    rw [h1] at this
    rw [← this, ← h1]
  refine ⟨_, cells (sizes axes) g.fixed, hb, ?_, cells_sorted h2, ?_⟩
  · have hw := cells_walk hp h2
    have hlt := cells_lt h2
    rw [hl] at hw hlt ⊢
    rw [h1, cellCount_eq]
    exact loop_of_walk hp h2.length _ _ (by omega) _ _ hw hlt
  · intro k
    rw [cells_eq, List.mem_map]
    constructor
    · rintro ⟨cs, hcs, rfl⟩
      have := (mem_sliceCoords h2 cs).1 hcs
      exact ⟨cs, this.1, this.2, rfl⟩
    · rintro ⟨cs, h3, h4, rfl⟩
      exact ⟨cs, (mem_sliceCoords h2 cs).2 ⟨h3, h4⟩, rfl⟩

/-- An unsliced grid may also have empty axes: the loop then visits nothing. -/
theorem C19_empty_grid (axes : List (Axis V)) (h : ∃ a ∈ axes, a.values = []) :
    ∃ it, (mk axes).begin' = .ok it ∧ Loop (sizes axes) (cellCount axes) it [] := by
  refine ⟨⟨0, axes.map fun _ => none⟩, ?_, Loop.stop _ ?_⟩
  · unfold GridC.begin'
    simp only [mk]
    have : ∀ (l : List (Axis V)) (n : Nat) (it : Iter),
        fixIteratorAxes (sizes axes) (l.map fun _ => none) n it = .ok it := by
      intro l
      induction l with
      | nil => intro n it; rfl
      | cons a l ih => intro n it; simpa [fixIteratorAxes] using ih (n + 1) it
    exact this axes 0 _
  · rw [cellCount_eq]
    obtain ⟨a, ha, hv⟩ := h
    symm
    rcases Nat.eq_zero_or_pos (total (sizes axes)) with h0 | h0
    · exact h0
    · have := total_pos.1 h0 a.size (by simp only [sizes, List.mem_map]; exact ⟨a, ha, rfl⟩)
      simp [Axis.size, hv] at this

/-- The hypothesis that no axis is empty is needed for slices: with a non-empty axis fixed at 1 and an empty second axis the
iterator starts behind the end (position 1 of 0 cells) and the loop is not a terminating one: the code violates C19 there. -/
theorem C19_empty_axis_violated :
    ∃ (g : GridC Nat) (it : Iter), Reach [⟨"x", [5, 6]⟩, ⟨"y", []⟩] g ∧ g.begin' = .ok it ∧
      it.pos = 1 ∧ cellCount g.axes = 0 ∧ ∀ l, ¬ Loop (sizes g.axes) (cellCount g.axes) it l := by
  refine ⟨⟨[⟨"x", [5, 6]⟩, ⟨"y", []⟩], [⟨"x", [6]⟩, ⟨"y", []⟩], [some 1, none]⟩, ⟨1, [some 1, none]⟩,
    Reach.byIndex (mk _) _ 0 1 Reach.new (by decide), by decide, rfl, by decide, ?_⟩
  intro l h
  have e : cellCount [(⟨"x", [5, 6]⟩ : Axis Nat), ⟨"y", []⟩] = 0 := by decide
  rw [e] at h
  cases h with
  | stop _ h => simp at h
  | step _ _ _ _ h => simp at h

/-- Test: fixing the middle axis of a 2x3x2 grid at 1 visits 2, 3, 8, 9. -/
example : ∃ g : GridC Nat, Reach [⟨"x", [1, 2]⟩, ⟨"y", [1, 2, 3]⟩, ⟨"z", [1, 2]⟩] g ∧ g.fixed = [none, some 1, none] ∧
    (sliceCoords [2, 3, 2] g.fixed).map (cellNo [2, 3, 2]) = [2, 3, 8, 9] :=
  ⟨_, Reach.byIndex (mk _) _ 1 1 Reach.new rfl, by decide, by decide⟩

/-! ## C19 for iterators fixed by the user -/

theorem first_set {ss : List Nat} {fs : List (Option Nat)} (hl : fs.length = ss.length) (a i : Nat)
    (ha : a < ss.length) (h0 : fs.getD a none = none) :
    first ss (fs.set a (some i)) = first ss fs + i * axisIndexFactor ss a := by
  induction ss generalizing fs a with
  | nil => simp at ha
  | cons s ss ih =>
    cases fs with
    | nil => simp at hl
    | cons f fs =>
      cases a with
      | zero =>
        simp only [List.getD_cons_zero] at h0
        subst h0
        simp [first, axisIndexFactor]; ring
      | succ a =>
        simp only [List.getD_cons_succ] at h0
        have := ih (fs := fs) (by simpa using hl) a (by simpa using ha) h0
        rw [axisIndexFactor_cons]
        cases f with
        | none => simp only [List.set_cons_succ, first, this]; ring
        | some j => simp only [List.set_cons_succ, first, this]; ring

theorem first_digit {ss : List Nat} {fs : List (Option Nat)} (hf : FixedOk ss fs) (hp : ∀ s ∈ ss, 0 < s) (a : Nat)
    (ha : a < ss.length) : (digits ss (first ss fs))[a]? = some ((fs.getD a none).getD 0) := by
  induction ss generalizing fs a with
  | nil => simp at ha
  | cons s ss ih =>
    have hs := hp s (by simp)
    cases fs with
    | nil => simp [FixedOk] at hf
    | cons f fs =>
      cases f with
      | none =>
        simp only [first, digits]
        cases a with
        | zero => simp
        | succ a =>
          have := ih hf (fun x hx => hp x (by simp [hx])) a (by simpa using ha)
          rw [Nat.mul_div_cancel_left _ hs]
          simpa using this
      | some j =>
        simp only [first, digits]
        cases a with
        | zero => simp [Nat.mod_eq_of_lt hf.1]
        | succ a =>
          have := ih hf.2 (fun x hx => hp x (by simp [hx])) a (by simpa using ha)
          rw [Nat.add_mul_div_left _ _ hs, Nat.div_eq_of_lt hf.1, Nat.zero_add]
          simpa using this

/-- Fixing an axis of an iterator that stands at the first cell of a slice leads to the first cell of the smaller
slice, whatever the order of the fixings; fixing an axis again at the same index changes nothing. -/
theorem iter_fix_first {ss : List Nat} {fs : List (Option Nat)} (hf : FixedOk ss fs) (hp : ∀ s ∈ ss, 0 < s) (a i : Nat)
    (ha : i < ss.getD a 0) (h0 : fs.getD a none = none ∨ fs.getD a none = some i) :
    Iter.fixAxisByIndex ss ⟨first ss fs, fs⟩ a i = .ok ⟨first ss (fs.set a (some i)), fs.set a (some i)⟩ := by
  have hal : a < ss.length := by
    by_contra hc
    have : ss.getD a 0 = 0 := by
      rw [List.getD_eq_default]; omega
    omega
  have hgo : Iter.fixAxisByIndex.go ss ⟨first ss fs, fs⟩ a i =
      .ok ⟨first ss (fs.set a (some i)), fs.set a (some i)⟩ := by
    unfold Iter.fixAxisByIndex.go
    rw [if_neg (by omega)]
    unfold forwardToIndex
    obtain ⟨d, hd, hx⟩ := axisIndex_digits [] ss (first ss fs) a hp hal
    simp only [List.nil_append, List.length_nil, Nat.zero_add, total, Nat.div_one] at hd hx
    rw [first_digit hf hp a hal, Option.some.injEq] at hd
    rw [hx, Outcome.bind_ok, factors_getD _ _ (by omega)]
    rcases h0 with h0 | h0
    · rw [first_set hf.length a i hal h0]
      rw [h0] at hd
      simp only [Option.getD_none] at hd
      subst hd
      by_cases hi : i = 0
      · subst hi; simp
      · rw [if_pos (by simpa using hi), if_pos (by omega)]; simp
    · rw [h0] at hd
      simp only [Option.getD_some] at hd
      subst hd
      have : fs.set a (some i) = fs := by
        apply List.ext_getElem?
        intro n
        by_cases hn : a = n
        · subst hn
          have hla : a < fs.length := by rw [hf.length]; exact hal
          rw [List.getElem?_set_self hla]
          rw [List.getD_eq_getElem _ _ hla] at h0
          rw [List.getElem?_eq_getElem hla, h0]
        · rw [List.getElem?_set_ne hn]
      simp [this]
  unfold Iter.fixAxisByIndex
  rcases h0 with h0 | h0
  · simp only [h0]; exact hgo
  · simp only [h0]; rw [if_neg (by simp)]; exact hgo

/-- A chain of `iter.fixAxisByIndex<axis>(index)` calls. -/
def fixMany (ss : List Nat) : List (Nat × Nat) → Iter → Res Iter
  | [], it => .ok it
  | (a, i) :: rest, it => do
    let it' ← it.fixAxisByIndex ss a i
    fixMany ss rest it'

/-- **C19** for iterators: fixing axes of a `begin()` iterator of a grid or slice, in any order, and looping to `end()` visits
exactly the cells that agree with all the fixed indices, in increasing order.  The hypothesis says that the calls are legal:
each index is in range and no axis is given two different indices. -/
theorem C19_iterator_fixings (axes : List (Axis V)) (hne : ∀ a ∈ axes, a.values ≠ []) (g : GridC V) (hg : Reach axes g)
    (fix : List (Nat × Nat)) (hr : ∀ p ∈ fix, p.2 < (sizes axes).getD p.1 0)
    (hcons : ∀ p ∈ fix, g.fixed.getD p.1 none = none ∨ g.fixed.getD p.1 none = some p.2)
    (hpair : ∀ p ∈ fix, ∀ q ∈ fix, p.1 = q.1 → p.2 = q.2) :
    ∃ it it' l, g.begin' = .ok it ∧ fixMany (sizes axes) fix it = .ok it' ∧
      Loop (sizes g.axes) (cellCount axes) it' l ∧ l.Pairwise (· < ·) ∧
      ∀ k, k ∈ l ↔ ∃ cs, InRange cs (sizes axes) ∧ Agrees g.fixed cs ∧ (∀ p ∈ fix, cs[p.1]? = some p.2) ∧
        cellNo (sizes axes) cs = k := by
  obtain ⟨h1, h2⟩ := hg.inv
  have hp : ∀ s ∈ sizes axes, 0 < s := by
    intro s hs
    simp only [sizes, List.mem_map] at hs
    obtain ⟨a, ha, rfl⟩ := hs
    exact List.length_pos_iff.2 (hne a ha)
  have hb : g.begin' = .ok ⟨first (sizes axes) g.fixed, g.fixed⟩ := by
    have := begin_eq hp h2 g.axesFixed
    rw [← h1] at this
    rw [h1] at this
    rw [← this, ← h1]
  have agrees_set : ∀ (fs : List (Option Nat)) (a i : Nat) (cs : List Nat), a < fs.length →
      (fs.getD a none = none ∨ fs.getD a none = some i) →
      (Agrees (fs.set a (some i)) cs ↔ Agrees fs cs ∧ cs[a]? = some i) := by
    intro fs
    induction fs with
    | nil => intro a i cs ha; simp at ha
    | cons f fs ih =>
      intro a i cs ha h0
      cases cs with
      | nil => cases a <;> cases f <;> simp [Agrees]
      | cons c cs =>
        cases a with
        | zero =>
          simp only [List.getD_cons_zero] at h0
          cases f with
          | none => simp [Agrees, and_comm]
          | some j =>
            rcases h0 with h0 | h0
            · simp at h0
            · simp only [Option.some.injEq] at h0
              subst h0
              simp only [List.set_cons_zero, Agrees, List.getElem?_cons_zero, Option.some.injEq]
              tauto
        | succ a =>
          simp only [List.getD_cons_succ] at h0
          have := ih a i cs (by simpa using ha) h0
          cases f with
          | none => simpa [Agrees] using this
          | some j => simp only [List.set_cons_succ, Agrees, this, List.getElem?_cons_succ]; tauto
  have key : ∀ (fix : List (Nat × Nat)) (fs : List (Option Nat)), FixedOk (sizes axes) fs →
      (∀ p ∈ fix, p.2 < (sizes axes).getD p.1 0) →
      (∀ p ∈ fix, fs.getD p.1 none = none ∨ fs.getD p.1 none = some p.2) →
      (∀ p ∈ fix, ∀ q ∈ fix, p.1 = q.1 → p.2 = q.2) →
      ∃ fs', FixedOk (sizes axes) fs' ∧
        fixMany (sizes axes) fix ⟨first (sizes axes) fs, fs⟩ = .ok ⟨first (sizes axes) fs', fs'⟩ ∧
        ∀ cs, Agrees fs' cs ↔ Agrees fs cs ∧ ∀ p ∈ fix, cs[p.1]? = some p.2 := by
    intro fix
    induction fix with
    | nil => intro fs hf _ _ _; exact ⟨fs, hf, rfl, by simp⟩
    | cons p fix ih =>
      intro fs hf hr hc hq
      obtain ⟨a, i⟩ := p
      have hi := hr (a, i) (by simp)
      have h0 := hc (a, i) (by simp)
      have hal : a < (sizes axes).length := by
        by_contra hcon
        have : (sizes axes).getD a 0 = 0 := by rw [List.getD_eq_default]; omega
        simp only at hi; omega
      have half : a < fs.length := by rw [hf.length]; exact hal
      have hfix := iter_fix_first hf hp a i hi h0
      obtain ⟨fs', hf', he, hag⟩ := ih (fs.set a (some i)) (fixedOk_set hf a i hi) (fun p hp => hr p (by simp [hp]))
        (by
          intro q hq'
          by_cases hqa : a = q.1
          · right
            have := hq (a, i) (by simp) q (by simp [hq']) hqa
            simp only at this
            rw [← hqa, ← this]
            rw [List.getD_eq_getElem _ _ (by simpa using half)]; simp
          · have := hc q (by simp [hq'])
            simp only [List.getD] at this ⊢
            rwa [List.getElem?_set_ne hqa])
        (fun p hp q hq' => hq p (by simp [hp]) q (by simp [hq']))
      refine ⟨fs', hf', ?_, ?_⟩
      · rw [fixMany, hfix, Outcome.bind_ok, he]
      · intro cs
        rw [hag, agrees_set fs a i cs half h0]
        simp only [List.forall_mem_cons]
        tauto
  obtain ⟨fs', hf', he, hag⟩ := key fix g.fixed h2 hr hcons hpair
  obtain ⟨l, hl⟩ := @cells_head (sizes axes) fs' hp
  refine ⟨_, _, cells (sizes axes) fs', hb, he, ?_, cells_sorted hf', ?_⟩
  · have hw := cells_walk hp hf'
    have hlt := cells_lt hf'
    rw [hl] at hw hlt ⊢
    rw [h1, cellCount_eq]
    exact loop_of_walk hp hf'.length _ _ (by omega) _ _ hw hlt
  · intro k
    rw [cells_eq, List.mem_map]
    constructor
    · rintro ⟨cs, hcs, rfl⟩
      have := (mem_sliceCoords hf' cs).1 hcs
      have h3 := (hag cs).1 this.2
      exact ⟨cs, this.1, h3.1, h3.2, rfl⟩
    · rintro ⟨cs, h3, h4, h5, rfl⟩
      exact ⟨cs, (mem_sliceCoords hf' cs).2 ⟨h3, (hag cs).2 ⟨h4, h5⟩⟩, rfl⟩

/-- Test: on a 2x3x2 grid sliced at y=1, fixing the iterator at z=1 then x=0 is legal. -/
example : ∃ g : GridC Nat, Reach [⟨"x", [1, 2]⟩, ⟨"y", [1, 2, 3]⟩, ⟨"z", [1, 2]⟩] g ∧
    (∀ p ∈ [(2, 1), (0, 0)], p.2 < (sizes g.axes).getD p.1 0) ∧
    (∀ p ∈ [(2, 1), (0, 0)], g.fixed.getD p.1 none = none ∨ g.fixed.getD p.1 none = some p.2) :=
  ⟨_, Reach.byIndex (mk _) _ 1 1 Reach.new rfl, by decide, by decide⟩

/-! ## C20 -/

/-- **C20**, full statement: every slice reports the number of cells that it iterates over, and one knot for each fixed axis. -/
def C20_full : Prop := ∀ (axes : List (Axis Nat)) (g : GridC Nat), (∀ a ∈ axes, a.values ≠ []) → Reach axes g →
  g.size = (sliceCoords (sizes axes) g.fixed).length ∧
    ∀ (a i : Nat) (ax : Axis Nat), g.fixed[a]? = some (some i) → g.axesFixed[a]? = some ax → ax.size = 1

/-- The code violates C20: after fixing both axes of a 2x2 grid one after the other `size()` is 2 (the iteration visits one
cell) and the axis fixed first again has two knots. -/
theorem C20_chained_slices_violated : ¬ C20_full := by
  intro h
  have h1 := h [⟨"x", [1, 2]⟩, ⟨"y", [1, 2]⟩]
    ⟨[⟨"x", [1, 2]⟩, ⟨"y", [1, 2]⟩], [⟨"x", [1, 2]⟩, ⟨"y", [1]⟩], [some 0, some 0]⟩ (by decide)
    (Reach.byIndex ⟨[⟨"x", [1, 2]⟩, ⟨"y", [1, 2]⟩], [⟨"x", [1]⟩, ⟨"y", [1, 2]⟩], [some 0, none]⟩ _ 1 0
      (Reach.byIndex (mk _) _ 0 0 Reach.new (by decide)) (by decide))
  exact absurd h1.1 (by decide)

theorem sliceCoords_length_none (ss : List Nat) : (sliceCoords ss (ss.map fun _ => none)).length = total ss := by
  induction ss with
  | nil => rfl
  | cons s ss ih =>
    simp only [List.map_cons, sliceCoords, List.length_flatMap, List.length_map, List.length_range, total]
    rw [List.map_const', List.sum_replicate_nat, ih, Nat.mul_comm]

/-- **C20**, proved part: an unsliced grid and a grid with one fixed axis report the right size and axes. Missing: chains of
two or more fixings, for which the code is wrong (`C20_chained_slices_violated`). -/
theorem C20_single_slice_partial (axes : List (Axis V)) :
    ((mk axes).size = (sliceCoords (sizes axes) (mk axes).fixed).length) ∧
    ∀ (axis index : Nat) (g : GridC V), (mk axes).fixAxisByIndex axis index = .ok g →
      g.size = (sliceCoords (sizes axes) g.fixed).length ∧
        ∃ ax v, axes[axis]? = some ax ∧ ax.values[index]? = some v ∧ g.fixed[axis]? = some (some index) ∧
          g.axesFixed[axis]? = some ⟨ax.name, [v]⟩ ∧ ∀ b, b ≠ axis → g.axesFixed[b]? = axes[b]? := by
  have e0 : (axes.map fun _ => (none : Option Nat)) = (sizes axes).map fun _ => none := by
    simp [sizes, Function.comp_def]
  constructor
  · rw [size_eq]
    simp only [mk]
    rw [e0, sliceCoords_length_none]
  · intro axis index g h
    unfold GridC.fixAxisByIndex at h
    cases hx : (mk axes).axes[axis]? with
    | none => simp [hx] at h
    | some x =>
      simp only [hx] at h
      split at h
      · simp at h
      · rename_i hlt
        split at h
        · simp at h
        · simp only [Outcome.ok.injEq] at h
          have hx' : axes[axis]? = some x := hx
          have hal : axis < axes.length := by
            by_contra hc
            rw [List.getElem?_eq_none (by omega)] at hx'; simp at hx'
          have hi : index < x.values.length := by simp only [Axis.size] at hlt; omega
          have hfa : fixAxis axes axis index = axes.set axis ⟨x.name, [x.values[index]]⟩ := by
            simp [fixAxis, hx', List.getElem?_eq_getElem hi]
          subst h
          have len : ∀ (ss : List Nat) (a i : Nat), a < ss.length →
              (sliceCoords ss ((ss.map fun _ => none).set a (some i))).length = total (ss.set a 1) := by
            intro ss
            induction ss with
            | nil => intro a i ha; simp at ha
            | cons s ss ih =>
              intro a i ha
              cases a with
              | zero =>
                simp only [List.map_cons, List.set_cons_zero, sliceCoords, List.length_map, total, Nat.one_mul]
                exact sliceCoords_length_none ss
              | succ a =>
                have := ih a i (by simpa using ha)
                simp only [List.map_cons, List.set_cons_succ, sliceCoords, List.length_flatMap, List.length_map,
                  List.length_range, total]
                rw [List.map_const', List.sum_replicate_nat, this, Nat.mul_comm]
          refine ⟨?_, x, x.values[index], hx', List.getElem?_eq_getElem hi, ?_, ?_, ?_⟩
          · rw [size_eq]
            simp only [mk]
            rw [e0, len _ _ _ (by rwa [sizes_length]), hfa]
            congr 1
            simp [sizes, List.map_set, Axis.size]
          · simp [mk, hal]
          · simp only [mk]
            rw [hfa, List.getElem?_set_self hal]
          · intro b hb
            simp only [mk]
            rw [hfa, List.getElem?_set_ne (Ne.symm hb)]

/-- Test: a single slice of a 2x3 grid has size 2. -/
example : ∃ g : GridC Nat, (mk [⟨"x", [1, 2]⟩, ⟨"y", [1, 2, 3]⟩]).fixAxisByIndex 1 2 = .ok g ∧ g.size = 2 :=
  ⟨_, rfl, by decide⟩

/-! ## C65: infimum -/

/-- **C65.** On an axis with strictly increasing knots `infimum(value)` is the position of the greatest knot that is not greater
than the value, and 0 if the value is below all knots. -/
theorem C65_axis_infimum [LinearOrder V] (a : Axis V) (hs : a.values.Pairwise (· < ·)) (value : V) :
    ((∀ v ∈ a.values, value < v) → a.infimum value = 0) ∧
    ((∃ v ∈ a.values, v ≤ value) → ∃ v, a.values[a.infimum value]? = some v ∧ v ≤ value ∧
      ∀ w ∈ a.values, w ≤ value → w ≤ v) := by
  unfold Axis.infimum
  constructor
  · intro h
    have : a.values.findIdx (fun v => decide (value < v)) = 0 := by
      cases hv : a.values with
      | nil => rfl
      | cons v l => rw [List.findIdx_cons]; simp [h v (by simp [hv])]
    simp [this]
  · rintro ⟨v, hv, hvle⟩
    simp only
    generalize hu : a.values.findIdx (fun v => decide (value < v)) = u
    have hbefore : ∀ i (hi : i < a.values.length), i < u → a.values[i] ≤ value := by
      intro i hi hiu
      have := List.not_of_lt_findIdx (p := fun v => decide (value < v)) (by rw [hu]; exact hiu)
      simpa using this
    have hat : ∀ (h : u < a.values.length), value < a.values[u] := by
      intro h
      have h' : a.values.findIdx (fun v => decide (value < v)) < a.values.length := by rw [hu]; exact h
      have := List.findIdx_getElem (p := fun v => decide (value < v)) (w := h')
      simp only [hu] at this
      simpa using this
    have hule : u ≤ a.values.length := by rw [← hu]; exact List.findIdx_le_length
    have hu0 : u ≠ 0 := by
      rintro rfl
      obtain ⟨i, hi, rfl⟩ := List.getElem_of_mem hv
      have h0 := hat (by omega)
      rcases Nat.eq_zero_or_pos i with h | h
      · subst h; exact absurd h0 (not_lt.2 hvle)
      · have := List.pairwise_iff_getElem.1 hs 0 i (by omega) hi h
        exact absurd (lt_trans h0 this) (not_lt.2 hvle)
    have hcond : ¬ (u = 0 ∨ (u ≠ a.values.length ∧ a.values[u]? = some value)) := by
      rintro (h | ⟨h, h'⟩)
      · exact hu0 h
      · have hlt : u < a.values.length := by omega
        rw [List.getElem?_eq_getElem hlt, Option.some.injEq] at h'
        exact absurd (hat hlt) (by rw [h']; exact lt_irrefl _)
    rw [if_neg hcond]
    refine ⟨a.values[u - 1]'(by omega), List.getElem?_eq_getElem _, hbefore _ _ (by omega), ?_⟩
    intro w hw hwle
    obtain ⟨i, hi, rfl⟩ := List.getElem_of_mem hw
    have hiu : i < u := by
      by_contra hc
      have hul : u < a.values.length := by omega
      rcases Nat.eq_or_lt_of_le (Nat.le_of_not_lt hc) with h | h
      · subst h; exact absurd (hat hul) (not_lt.2 hwle)
      · have := List.pairwise_iff_getElem.1 hs u i hul hi h
        exact absurd (lt_trans (hat hul) this) (not_lt.2 hwle)
    rcases Nat.eq_or_lt_of_le (Nat.le_sub_one_of_lt hiu) with h | h
    · subst h; exact le_refl _
    · exact le_of_lt (List.pairwise_iff_getElem.1 hs i (u - 1) hi (by omega) h)

/-- Test: on knots 1, 4, 9 the infimum of 5 is position 1. -/
example : (⟨"x", [1, 4, 9]⟩ : Axis Nat).infimum 5 = 1 ∧ (⟨"x", [1, 4, 9]⟩ : Axis Nat).values.Pairwise (· < ·) := by
  decide

/-! ## C66: slices share the cells -/

theorem atIndex_ok {axes : List (Axis V)} {g : GridC V} (hg : Reach axes g) {cs : List Nat}
    (hl : cs.length = axes.length) {k : Nat} (h : g.atIndex cs = .ok k) :
    InRange cs (sizes axes) ∧ ZeroAtFixed g.fixed cs ∧ k = cellNo (sizes axes) (place g.fixed cs) ∧
      k < cellCount axes := by
  have hz := C18_at_exact axes g hg (List.range (cellCount axes)) (by simp) cs hl
  by_cases hc : InRange cs (sizes axes) ∧ ZeroAtFixed g.fixed cs
  · obtain ⟨x, hx, hxx⟩ := hz.1 hc
    unfold GridC.at' at hxx
    rw [h, Outcome.bind_ok] at hxx
    unfold cellAt at hxx
    have hx' := hx
    rw [List.getElem?_range] at hx
    · simp only [Option.some.injEq] at hx
      split at hxx
      · rename_i c hcc
        simp only [Outcome.ok.injEq] at hxx
        have hk : k < cellCount axes := by
          have := (List.getElem?_eq_some_iff.1 hcc).1
          simpa using this
        rw [List.getElem?_range hk] at hcc
        simp only [Option.some.injEq] at hcc
        exact ⟨hc.1, hc.2, by omega, hk⟩
      · simp at hxx
    · have := (List.getElem?_eq_some_iff.1 hx').1
      simpa using this
  · obtain ⟨e, he⟩ := hz.2 hc
    unfold GridC.at' at he
    rw [h, Outcome.bind_ok] at he
    unfold cellAt at he
    split at he <;> simp at he

/-- **C66.** A grid and its slices are views of the same cells: writing through one view at legal coordinates succeeds, and
reading through any view afterwards gives the new value exactly if the coordinates denote the same cell of the full grid,
and the old value otherwise. -/
theorem C66_views_share_cells (axes : List (Axis V)) (g g' : GridC V) (hg : Reach axes g) (hg' : Reach axes g')
    (cells : List T) (hc : cells.length = cellCount axes) (cs cs' : List Nat) (hl : cs.length = axes.length)
    (hl' : cs'.length = axes.length) (hr : InRange cs (sizes axes)) (hz : ZeroAtFixed g.fixed cs)
    (hr' : InRange cs' (sizes axes)) (hz' : ZeroAtFixed g'.fixed cs') (x : T) :
    ∃ cells', g.set' cells cs x = .ok cells' ∧ cells'.length = cells.length ∧
      (place g.fixed cs = place g'.fixed cs' → g'.at' cells' cs' = .ok x) ∧
      (place g.fixed cs ≠ place g'.fixed cs' → g'.at' cells' cs' = g'.at' cells cs') := by
  obtain ⟨v, hv, hat⟩ := (C18_at_exact axes g hg cells hc cs hl).1 ⟨hr, hz⟩
  have hidx : ∃ k, g.atIndex cs = .ok k := by
    unfold GridC.at' at hat
    cases h : g.atIndex cs with
    | ok k => exact ⟨k, rfl⟩
    | throw e => rw [h] at hat; simp at hat
    | ub => rw [h] at hat; simp at hat
  obtain ⟨k, hk⟩ := hidx
  obtain ⟨_, _, hkeq, hklt⟩ := atIndex_ok hg hl hk
  have hidx' : ∃ k, g'.atIndex cs' = .ok k := by
    obtain ⟨v', _, hat'⟩ := (C18_at_exact axes g' hg' cells hc cs' hl').1 ⟨hr', hz'⟩
    unfold GridC.at' at hat'
    cases h : g'.atIndex cs' with
    | ok k => exact ⟨k, rfl⟩
    | throw e => rw [h] at hat'; simp at hat'
    | ub => rw [h] at hat'; simp at hat'
  obtain ⟨k', hk'⟩ := hidx'
  obtain ⟨_, _, hkeq', hklt'⟩ := atIndex_ok hg' hl' hk'
  refine ⟨cells.set k x, ?_, by simp, ?_, ?_⟩
  · unfold GridC.set'
    rw [hk, Outcome.bind_ok, if_pos (by omega)]
  · intro he
    have : k = k' := by rw [hkeq, hkeq', he]
    unfold GridC.at' cellAt
    rw [hk', Outcome.bind_ok, ← this, List.getElem?_set_self (by omega)]
  · intro he
    have : k ≠ k' := by
      intro h
      apply he
      rw [hkeq, hkeq'] at h
      have := congrArg (digits (sizes axes)) h
      rwa [digits_cellNo _ _ (place_inRange hg.inv.2 hr), digits_cellNo _ _ (place_inRange hg'.inv.2 hr')] at this
    unfold GridC.at' cellAt
    rw [hk', Outcome.bind_ok, List.getElem?_set_ne this, Outcome.bind_ok]

/-- Test: writing through the slice y=1 of a 2x3 grid at (1,0) is seen at (1,1) of the grid. -/
example : ∃ g : GridC Nat, Reach [⟨"x", [1, 2]⟩, ⟨"y", [1, 2, 3]⟩] g ∧ InRange [1, 0] [2, 3] ∧
    ZeroAtFixed g.fixed [1, 0] ∧ place g.fixed [1, 0] = [1, 1] :=
  ⟨_, Reach.byIndex (mk _) _ 1 1 Reach.new rfl, by decide, ⟨rfl, trivial⟩, by decide⟩

end Alexandria.Grid
