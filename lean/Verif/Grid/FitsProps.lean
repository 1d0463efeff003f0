import Verif.Grid.FitsLemmas
import Verif.Table.FitsFileProps

/-!
# Properties of grids in FITS files (C107)
-/

namespace Alexandria.Grid.FitsIO

open Alexandria.Str Alexandria.Table Alexandria.Table.Fits Alexandria.XYDataset Alexandria.Grid Alexandria.Grid.Spec

variable {F D T V : Type}

open FitsIO.Spec

namespace Spec

/-- The names that the library keeps as they are: those of the columns, of the grid and of the tables of the axes. -/
def KeptNames (lib : Lib F D) (hdu : Bytes) (axes : List (Axis V)) : Prop :=
  lib.text "Index".toList = "Index".toList ∧ lib.text "Value".toList = "Value".toList ∧ lib.text hdu = hdu ∧
    ∀ a ∈ axes, lib.text (a.name.toList ++ '_' :: hdu) = a.name.toList ++ '_' :: hdu

/-- No extension of the file has a name that the grid needs. -/
def NewNames (f : File F D T) (hdu : Bytes) (axes : List (Axis V)) : Prop :=
  ∀ e ∈ f, e.name ≠ hdu ∧ ∀ a ∈ axes, e.name ≠ a.name.toList ++ '_' :: hdu

end Spec

/-- **C107**: a grid or slice that was exported to a FITS file, at any place of the file and with anything added later, comes back with the axes that it shows and with the same cells.
Partial: the axes have different names, no extension of the file has a name that is needed, knots are texts that come back, no axis is empty and every fixed axis is shown with one knot. -/
theorem C107_round_partial (lib : ImgLib F D T) (fmt : Fmt F D) (kinds : List Kind) (f : File F D T) (hdu : Bytes) (axes : List (Axis (Knot F D))) (hne : ∀ a ∈ axes, a.values ≠ [])
    (g : GridC (Knot F D)) (hg : Reach axes g) (hs : Shows g) (hk : GoodAxes kinds g.axesFixed) (hd : (g.axesFixed.map Axis.name).Nodup) (hkeep : KeptNames lib.toLib hdu g.axesFixed)
    (hnew : NewNames f hdu g.axesFixed) (cs : List T) (hc : cs.length = cellCount axes) :
    ∃ new, gridExport lib fmt kinds f hdu g cs = (f ++ new, .ok ()) ∧ new.length = 1 + axes.length ∧ ∀ later, ∃ cs',
      gridImport lib kinds (f ++ new ++ later) (f.length + 1) = .ok (Grid.mk g.axesFixed, cs') ∧ cs'.length = cellCount g.axesFixed ∧
        ∀ x, InRange x (sizes g.axesFixed) → ∃ c, g.at' cs x = .ok c ∧ (Grid.mk g.axesFixed).at' cs' x = .ok c := by
  obtain ⟨h1, h2⟩ := hg.inv
  have hsz := sizes_shown hg hs
  have hpos := positions_ok axes hne g hg
  have hlen : (cells (sizes axes) g.fixed).length = g.size := by rw [size_eq, hsz, cells_length h2]
  have hcc : g.size = cellCount g.axesFixed := by rw [size_eq, cellCount_eq]
  have hlt : ∀ p ∈ cells (sizes axes) g.fixed, p < cs.length := by
    intro p hp
    rw [hc, cellCount_eq]
    exact cells_lt h2 p hp
  have hp0 : ∀ s ∈ sizes g.axesFixed, 0 < s := by
    intro s hs'
    simp only [sizes, List.mem_map] at hs'
    obtain ⟨a, ha, rfl⟩ := hs'
    obtain ⟨k, _, hka⟩ := forall₂_right hk a ha
    exact List.length_pos_iff.2 hka.1
  have hnef : ∀ a ∈ g.axesFixed, a.values ≠ [] := by
    intro a ha
    obtain ⟨k, _, hka⟩ := forall₂_right hk a ha
    exact hka.1
  obtain ⟨px, e1, e2, e3⟩ := fillPixels_ok cs lib.pixel0 (cells (sizes axes) g.fixed) [] g.size hlt (by omega)
  rw [hlen, Nat.sub_self, List.replicate_zero, List.append_nil, List.nil_append, List.nil_append, List.length_nil] at e1
  have hpxne : px ≠ [] := by
    intro e
    have hp : ∀ s ∈ sizes axes, 0 < s := by
      intro s hs'
      simp only [sizes, List.mem_map] at hs'
      obtain ⟨a, ha, rfl⟩ := hs'
      exact List.length_pos_iff.2 (hne a ha)
    obtain ⟨l, hl⟩ := @cells_head (sizes axes) g.fixed hp
    rw [hl, e] at e2
    simp at e2
  let img : Ext F D T := .image hdu 1 (sizes g.axesFixed) px
  obtain ⟨es, a1, a2, a3⟩ := exportAxes_ok lib fmt hdu ⟨hkeep.1, hkeep.2.1⟩ kinds g.axesFixed hk (f ++ [img]) hkeep.2.2.2 (by
    intro a ha e he
    rcases List.mem_append.1 he with he | he
    · exact (hnew e he).2 a ha
    · rw [List.mem_singleton.1 he]
      intro h
      have := congrArg List.length h
      simp [img, Ext.name, tableName] at this
      omega) hd
  have hfl : g.axesFixed.length = axes.length := (reach_shows hg).1
  have hel : es.length = axes.length := by
    have := congrArg List.length a2
    simpa [hfl] using this
  refine ⟨img :: es, ?_, by simp [hel]; omega, ?_⟩
  · rw [gridExport, hpos]
    simp only [liftGrid, Outcome.bind_ok]
    rw [e1]
    simp only
    rw [addImage, hkeep.2.2.1, if_neg (by
      rw [List.any_eq_true]
      rintro ⟨e, he, h⟩
      exact (hnew e he).1 (by simpa using h)), if_neg hpxne]
    simp only
    rw [a1]
    simp
  · intro later
    refine ⟨px, ?_, by rw [e2, hlen, hcc], ?_⟩
    · have hext : extension (f ++ img :: es ++ later) (f.length + 1) = .ok img := by
        rw [extension, if_neg (by omega), Nat.add_sub_cancel, List.append_assoc, List.getElem?_append_right (Nat.le_refl _), Nat.sub_self]
        rfl
      have hax := readAxes_ok lib.toLib (f ++ img :: es ++ later) hdu (f.length + 1) kinds.length kinds g.axesFixed rfl (by rw [hk.length_eq]) (by
        intro j k a hj hj'
        obtain ⟨e, b1, b2⟩ := a3 j k a hj hj'
        refine ⟨e, ?_, b2⟩
        have hjl := (List.getElem?_eq_some_iff.1 b1).1
        rw [List.append_assoc, List.getElem?_append_right (by omega), show f.length + 1 + j - f.length = j + 1 by omega, List.cons_append, List.getElem?_cons_succ,
          List.getElem?_append_left hjl, b1])
      have hposn := positions_ok g.axesFixed hnef (Grid.mk g.axesFixed) Reach.new
      have hnone : (Grid.mk g.axesFixed).fixed = (sizes g.axesFixed).map fun _ => none := by simp [Grid.mk, sizes, Function.comp_def]
      rw [hnone, cells_new _ hp0] at hposn
      have hfill := fillCells_ok px (total (sizes g.axesFixed)) 0 [] (List.replicate (cellCount g.axesFixed) lib.pixel0) rfl (by simp [cellCount_eq]) (by
        rw [e2, hlen, hcc, cellCount_eq, Nat.zero_add])
      rw [gridImport, hext]
      simp only [Outcome.bind_ok]
      rw [show img.name = hdu from rfl, hax]
      simp only [Outcome.bind_ok, img]
      rw [hposn]
      simp only [liftGrid, Outcome.bind_ok]
      rw [List.range_eq_range', show List.replicate (cellCount g.axesFixed) lib.pixel0 = [] ++ List.replicate (cellCount g.axesFixed) lib.pixel0 from rfl, hfill, List.drop_zero,
        List.nil_append, List.take_of_length_le (by rw [e2, hlen, hcc, cellCount_eq])]
      rfl
    · intro x hx
      have hx' := hx
      rw [hsz] at hx'
      obtain ⟨b1, b2, b3⟩ := cells_at h2 x hx'
      obtain ⟨c, c1, c2⟩ := (C18_at_exact axes g hg cs hc x (by rw [inRange_length b2, sizes_length])).1 ⟨b2, b3⟩
      have hnone : (Grid.mk g.axesFixed).fixed = (sizes g.axesFixed).map fun _ => none := by simp [Grid.mk, sizes, Function.comp_def]
      obtain ⟨c', c3, c4⟩ := (C18_at_exact g.axesFixed (Grid.mk g.axesFixed) Reach.new px (by rw [e2, hlen, hcc]) x (by rw [inRange_length hx, sizes_length])).1
        ⟨hx, by rw [hnone]; exact zero_none _ _ (inRange_length hx)⟩
      rw [hnone, place_none _ _ (inRange_length hx)] at c3
      have hcc' : px[cellNo (shown (sizes axes) g.fixed) x]? = cs[cellNo (sizes axes) (place g.fixed x)]? := e3 _ _ b1
      rw [← hsz, c3, c1] at hcc'
      cases hcc'
      exact ⟨c, c2, c4⟩

/-- **C107**: a grid that is not a slice comes back as it was. -/
theorem C107_whole_partial (lib : ImgLib F D T) (fmt : Fmt F D) (kinds : List Kind) (f : File F D T) (hdu : Bytes) (axes : List (Axis (Knot F D)))
    (hk : GoodAxes kinds axes) (hd : (axes.map Axis.name).Nodup) (hkeep : KeptNames lib.toLib hdu axes) (hnew : NewNames f hdu axes) (cs : List T) (hc : cs.length = cellCount axes) :
    ∃ new, gridExport lib fmt kinds f hdu (Grid.mk axes) cs = (f ++ new, .ok ()) ∧ ∀ later, gridImport lib kinds (f ++ new ++ later) (f.length + 1) = .ok (Grid.mk axes, cs) := by
  have hne : ∀ a ∈ axes, a.values ≠ [] := by
    intro a ha
    obtain ⟨k, _, hka⟩ := forall₂_right hk a ha
    exact hka.1
  have hp : ∀ s ∈ sizes axes, 0 < s := by
    intro s hs'
    simp only [sizes, List.mem_map] at hs'
    obtain ⟨a, ha, rfl⟩ := hs'
    exact List.length_pos_iff.2 (hne a ha)
  obtain ⟨new, h1, _, h2⟩ := C107_round_partial lib fmt kinds f hdu axes hne (Grid.mk axes) Reach.new (by
    intro a i h
    obtain ⟨x, _, hx⟩ := List.mem_map.1 (List.mem_of_getElem? h)
    cases hx) hk hd hkeep hnew cs hc
  refine ⟨new, h1, fun later => ?_⟩
  obtain ⟨cs', h3, h4, h5⟩ := h2 later
  rw [h3]
  have : cs' = cs := by
    apply List.ext_getElem?
    intro k
    by_cases hk : k < cellCount axes
    · rw [cellCount_eq] at hk
      have hr := digits_inRange (sizes axes) k hp
      obtain ⟨c, c1, c2⟩ := h5 _ hr
      have hl := inRange_length hr
      have hz := zero_none (sizes axes) _ hl
      have hnone : (Grid.mk axes).fixed = (sizes axes).map fun _ => none := by simp [Grid.mk, sizes, Function.comp_def]
      have key : ∀ (l : List T), l.length = cellCount axes → (Grid.mk axes).at' l (digits (sizes axes) k) = .ok c → l[k]? = some c := by
        intro l hl' h
        obtain ⟨x, x1, x2⟩ := (C18_at_exact axes (Grid.mk axes) Reach.new l hl' _ (by rw [hl, sizes_length])).1 ⟨hr, by rw [hnone]; exact hz⟩
        rw [hnone, place_none _ _ hl, cellNo_digits _ _ hk] at x1
        rw [x2] at h
        cases h
        exact x1
      rw [key cs hc c1, key cs' h4 c2]
    · rw [List.getElem?_eq_none (by rw [show cs'.length = cellCount axes from h4]; omega), List.getElem?_eq_none (by omega)]
  rw [this]
  rfl

/-! ## Examples -/

def plainImg : ImgLib Unit Unit Int := { plainLib with sameName := fun f _ _ _ => (f, .throw .library), noPixels := .ok (), pixel0 := 0 }

/-- A name made by the constructor. -/
def exName : QName := ⟨["mer".toList], "vis".toList, "mer/vis".toList, 0⟩

def exAxes : List (Axis (Knot Unit Unit)) := [⟨"z", [.scalar .i32 1, .scalar .i32 2]⟩, ⟨"sed", [.qname exName, .qname ⟨[], ['x'], ['x'], 0⟩, .qname ⟨[], ['y'], ['y'], 0⟩]⟩]

theorem exAxes_good : GoodAxes [.scalar .i32, .qname] exAxes := by
  refine .cons ⟨by simp, ?_⟩ (.cons ⟨by simp, ?_⟩ .nil)
  · intro v hv
    simp only [List.mem_cons, List.not_mem_nil, or_false] at hv
    rcases hv with rfl | rfl <;> exact ⟨rfl, trivial⟩
  · intro v hv
    simp only [List.mem_cons, List.not_mem_nil, or_false] at hv
    rcases hv with rfl | rfl | rfl
    · exact ⟨rfl, ⟨["mer".toList], "vis".toList, by decide⟩, (hasVertical_iff _).1 (by decide), by decide⟩
    · exact ⟨rfl, ⟨[], ['x'], by decide⟩, (hasVertical_iff _).1 (by decide), by decide⟩
    · exact ⟨rfl, ⟨[], ['y'], by decide⟩, (hasVertical_iff _).1 (by decide), by decide⟩

/-- A grid behind an image. -/
example (fmt : Fmt Unit Unit) (later : File Unit Unit Int) : ∃ new,
    gridExport plainImg fmt [.scalar .i32, .qname] [Ext.image "img".toList 1 [1] [7]] "g".toList (Grid.mk exAxes) [0, 1, 2, 3, 4, 5] = (Ext.image "img".toList 1 [1] [7] :: new, .ok ()) ∧
      gridImport plainImg [.scalar .i32, .qname] (Ext.image "img".toList 1 [1] [7] :: (new ++ later)) 2 = .ok (Grid.mk exAxes, [0, 1, 2, 3, 4, 5]) := by
  obtain ⟨new, h1, h2⟩ := C107_whole_partial plainImg fmt [.scalar .i32, .qname] [Ext.image "img".toList 1 [1] [7]] "g".toList exAxes exAxes_good (by decide)
    ⟨rfl, rfl, rfl, fun _ _ => rfl⟩ (by
      intro e he
      rw [List.mem_singleton.1 he]
      decide) [0, 1, 2, 3, 4, 5] rfl
  exact ⟨new, h1, h2 later⟩

/-- The slice of the second name. -/
def exSlice : GridC (Knot Unit Unit) := ⟨exAxes, [⟨"z", [.scalar .i32 1, .scalar .i32 2]⟩, ⟨"sed", [.qname ⟨[], ['x'], ['x'], 0⟩]⟩], [none, some 1]⟩

example (fmt : Fmt Unit Unit) : ∃ new cs', gridExport plainImg fmt [.scalar .i32, .qname] [] "g".toList exSlice [0, 1, 2, 3, 4, 5] = (new, .ok ()) ∧
    gridImport plainImg [.scalar .i32, .qname] new 1 = .ok (Grid.mk exSlice.axesFixed, cs') ∧ (Grid.mk exSlice.axesFixed).at' cs' [1, 0] = .ok 3 := by
  obtain ⟨new, h1, _, h2⟩ := C107_round_partial plainImg fmt [.scalar .i32, .qname] [] "g".toList exAxes (by simp [exAxes]) exSlice (Reach.byIndex (Grid.mk exAxes) _ 1 1 Reach.new rfl) (by
      intro a i h
      match a, h with
      | 0, h => cases h
      | 1, h => exact ⟨_, _, rfl⟩
      | a + 2, h => simp [exSlice] at h) (by
      cases exAxes_good with
      | cons a b =>
        cases b with
        | cons b _ =>
          refine .cons a (.cons ⟨by simp, ?_⟩ .nil)
          intro v hv
          rw [List.mem_singleton.1 hv]
          exact b.2 _ (by simp)) (by decide) ⟨rfl, rfl, rfl, fun _ _ => rfl⟩ (by intro e he; cases he) [0, 1, 2, 3, 4, 5] rfl
  obtain ⟨cs', h3, _, h4⟩ := h2 []
  obtain ⟨c, c1, c2⟩ := h4 [1, 0] (by decide)
  have : exSlice.at' [0, 1, 2, 3, 4, 5] [1, 0] = .ok (3 : Int) := rfl
  rw [this] at c1
  cases c1
  simp only [List.nil_append, List.append_nil, List.length_nil, Nat.zero_add] at h1 h3
  exact ⟨new, cs', h1, h3, c2⟩

/-! ## Where the code does not do what is expected -/

/-- The statement without restrictions on the names of the axes and the slices: what was exported comes back. -/
def C107_full : Prop :=
  ∀ (kinds : List Kind) (f f' : File Unit Unit Int) (hdu : Bytes) (axes : List (Axis (Knot Unit Unit))) (g : GridC (Knot Unit Unit)) (cs : List Int),
    GoodAxes kinds axes → Reach axes g → (∀ e ∈ f, e.name ≠ hdu) → cs.length = cellCount axes → gridExport plainImg plainFmt kinds f hdu g cs = (f', .ok ()) →
    ∃ g' cs', gridImport plainImg kinds f' (f.length + 1) = .ok (g', cs') ∧
      ∀ x, x.length = axes.length → ∀ c, g'.at' cs' x = .ok c ↔ g.at' cs x = .ok c

def ints (l : List Int32) : List (Knot Unit Unit) := l.map fun n => .scalar .i32 n

theorem ints_good (l : List Int32) : ∀ v ∈ ints l, GoodKnot (.scalar .i32) v := by
  intro v hv
  obtain ⟨n, _, rfl⟩ := List.mem_map.1 hv
  exact ⟨rfl, trivial⟩

/-- Two axes of one name: the knots of the second are added to the table of the first, so that the table of the second is missing. -/
theorem C107_names_violated : ¬ C107_full := by
  intro h
  let axes : List (Axis (Knot Unit Unit)) := [⟨"x", ints [1, 2]⟩, ⟨"x", ints [3]⟩]
  let r := gridExport plainImg plainFmt [.scalar .i32, .scalar .i32] [] ['g'] (Grid.mk axes) [5, 6]
  have hr : r.2 = .ok () := rfl
  obtain ⟨g', cs', h1, _⟩ := h [.scalar .i32, .scalar .i32] [] r.1 ['g'] axes (Grid.mk axes) [5, 6]
    (.cons ⟨by simp [ints], ints_good _⟩ (.cons ⟨by simp [ints], ints_good _⟩ .nil)) Reach.new (by intro e he; cases he) rfl (by
      show r = _
      rw [← hr])
  have h2 : gridImport plainImg [.scalar .i32, .scalar .i32] r.1 1 = .throw .library := rfl
  rw [show ([] : File Unit Unit Int).length + 1 = 1 from rfl, h2] at h1
  cases h1

/-- A cell of an imported grid. -/
def cellOf (r : Table.Res (GridC (Knot Unit Unit) × List Int)) (x : List Nat) : Option Int :=
  match r with
  | .ok (g, cs) => match g.at' cs x with
    | .ok c => some c
    | _ => none
  | _ => none

/-- The slice of a slice: the grid has one cell, but what comes back has two. -/
theorem C107_slices_violated : ¬ C107_full := by
  intro h
  let axes : List (Axis (Knot Unit Unit)) := [⟨"x", ints [1, 2]⟩, ⟨"y", ints [1, 2]⟩]
  let g : GridC (Knot Unit Unit) := ⟨axes, [⟨"x", ints [1, 2]⟩, ⟨"y", ints [1]⟩], [some 0, some 0]⟩
  have hg : Reach axes g := Reach.byIndex ⟨axes, [⟨"x", ints [1]⟩, ⟨"y", ints [1, 2]⟩], [some 0, none]⟩ _ 1 0 (Reach.byIndex (Grid.mk axes) _ 0 0 Reach.new rfl) rfl
  let r := gridExport plainImg plainFmt [.scalar .i32, .scalar .i32] [] ['g'] g [5, 6, 7, 8]
  have hr : r.2 = .ok () := by decide +kernel
  obtain ⟨g', cs', h1, h2⟩ := h [.scalar .i32, .scalar .i32] [] r.1 ['g'] axes g [5, 6, 7, 8]
    (.cons ⟨by simp [ints], ints_good _⟩ (.cons ⟨by simp [ints], ints_good _⟩ .nil)) hg (by intro e he; cases he) rfl (by
      show r = _
      rw [← hr])
  have h3 : cellOf (gridImport plainImg [.scalar .i32, .scalar .i32] r.1 1) [1, 0] = some 0 := by decide +kernel
  rw [show ([] : File Unit Unit Int).length + 1 = 1 from rfl] at h1
  rw [h1] at h3
  have h4 := (h2 [1, 0] rfl 0).1 (by
    simp only [cellOf] at h3
    revert h3
    cases g'.at' cs' [1, 0] with
    | ok c => intro h3; cases h3; rfl
    | throw e => intro h3; cases h3
    | ub => intro h3; cases h3)
  have h5 : g.at' ([5, 6, 7, 8] : List Int) [1, 0] = .throw (.elements "out of bound") := rfl
  rw [h5] at h4
  cases h4

def undefined (r : Table.Res (GridC (Knot Unit Unit) × List Int)) : Bool :=
  match r with
  | .ub => true
  | _ => false

/-- Grids with different names in one file: the export of the second keeps the first. -/
def C107_later_full : Prop :=
  ∀ (kinds kinds2 : List Kind) (f f' : File Unit Unit Int) (hdu hdu2 : Bytes) (axes axes2 : List (Axis (Knot Unit Unit))) (cs cs2 : List Int), hdu ≠ hdu2 →
    GoodAxes kinds axes → GoodAxes kinds2 axes2 → cs.length = cellCount axes → cs2.length = cellCount axes2 →
    gridExport plainImg plainFmt kinds [] hdu (Grid.mk axes) cs = (f, .ok ()) → gridExport plainImg plainFmt kinds2 f hdu2 (Grid.mk axes2) cs2 = (f', .ok ()) →
    ∃ r, gridImport plainImg kinds f' 1 = .ok r

/-- The axis "a_b" of the grid "g" and the axis "a" of the grid "b_g" have one table: the first grid then has more cells than its image has pixels. -/
theorem C107_later_violated : ¬ C107_later_full := by
  intro h
  let a1 : List (Axis (Knot Unit Unit)) := [⟨"a_b", ints [1, 2]⟩]
  let a2 : List (Axis (Knot Unit Unit)) := [⟨"a", ints [3]⟩]
  let r := gridExport plainImg plainFmt [.scalar .i32] [] ['g'] (Grid.mk a1) [5, 6]
  let r2 := gridExport plainImg plainFmt [.scalar .i32] r.1 "b_g".toList (Grid.mk a2) [7]
  have hr : r.2 = .ok () := by decide +kernel
  have hr2 : r2.2 = .ok () := by decide +kernel
  obtain ⟨x, h1⟩ := h [.scalar .i32] [.scalar .i32] r.1 r2.1 ['g'] "b_g".toList a1 a2 [5, 6] [7] (by decide) (.cons ⟨by simp [ints], ints_good _⟩ .nil)
    (.cons ⟨by simp [ints], ints_good _⟩ .nil) rfl rfl (by
      show r = _
      rw [← hr]) (by
      show r2 = _
      rw [← hr2])
  have h2 : undefined (gridImport plainImg [.scalar .i32] r2.1 1) = true := by decide +kernel
  rw [h1] at h2
  cases h2

/-- An image with the name of the table of an axis: a null pointer is dereferenced. -/
theorem C107_image_violated : (gridExport plainImg plainFmt [.scalar .i32] [Ext.image "y_g".toList 1 [1] [7]] ['g'] (Grid.mk [⟨"y", ints [1, 2]⟩]) [5, 6]).2 = .ub := rfl

/-- An axis without knots: the export throws and leaves an image in the file. -/
theorem C107_empty_axis_violated : let r := gridExport plainImg plainFmt [.scalar .i32] [] ['g'] (Grid.mk [⟨"y", []⟩]) []
    r.2 = .throw .elements ∧ r.1 = [.image ['g'] 1 [0] []] := ⟨rfl, rfl⟩

/-- The knots "a " and "a" both come back as "a". -/
theorem C107_blank_violated : let r := gridExport plainImg plainFmt [.str] [] ['g'] (Grid.mk [⟨"y", [.str ['a', ' '], .str ['a']]⟩]) [5, 6]
    r.2 = .ok () ∧ gridImport plainImg [.str] r.1 1 = .ok (Grid.mk [⟨"y", [.str ['a'], .str ['a']]⟩], [5, 6]) := ⟨rfl, rfl⟩

end Alexandria.Grid.FitsIO
