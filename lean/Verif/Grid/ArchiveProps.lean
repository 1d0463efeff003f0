import Verif.Grid.ArchiveLemmas

/-!
# Properties of grids in boost archives (C108)
-/

namespace Alexandria.Grid.Archive

open Alexandria.Str Alexandria.XYDataset Alexandria.Grid Alexandria.Grid.Spec Alexandria.Grid.FitsIO

variable {A V T : Type}

open Archive.Spec FitsIO.Spec

/-- **C108**: qualified names (as knots or cells) come back from an archive as they were, and so do values of plain types. -/
theorem C108_names (gs : List Bytes) (n : Bytes) (q : QName) (h : mkName gs n = .ok q) : Comes (nameCodec : Codec A QName) q ∧ ∀ a : A, Comes plain a := by
  refine ⟨fun rest => ?_, fun a rest => rfl⟩
  obtain ⟨h1, h2, _⟩ := (C28_accepts gs n).2 q h
  have hg := getMany_ok (A := A) textCodec q.groups (fun v _ rest => rfl) (.text q.name :: rest)
  have hm : q.groups.flatMap (textCodec (A := A)).put = q.groups.map .text := by
    generalize q.groups = l
    induction l with
    | nil => rfl
    | cons a l ih => rw [List.flatMap_cons, ih]; rfl
  rw [hm] at hg
  simp only [nameCodec, List.cons_append, List.append_assoc, List.nil_append]
  rw [getMark_ptr, Outcome.bind_ok, getNum, Outcome.bind_ok]
  simp only
  rw [hg, Outcome.bind_ok]
  simp only
  rw [getText, Outcome.bind_ok, h1, h2]
  simp only
  rw [h]

/-- **C108**: a grid that was exported to a stream comes back as it was, with what follows in the stream left. -/
theorem C108_whole (ac : List (Codec A V)) (cc : Codec A T) (cell0 : T) (axes : List (Axis V)) (cs : List T) (hc : cs.length = cellCount axes) (ha : AxesCome ac axes)
    (hx : ∀ x ∈ cs, Comes cc x) :
    ∃ ts, gridExport ac cc (Grid.mk axes) cs = .ok ts ∧ ∀ rest, gridImport ac cc cell0 (ts ++ rest) = .ok ((Grid.mk axes, cs), rest) := by
  obtain ⟨ts, xs, h1, h2, h3, h4⟩ := gridExport_ok ac cc (Grid.mk axes) cs _ (positions_new axes) (by simp [hc]) (by rw [List.length_range, size_eq, cellCount_eq]; rfl) ha hx cell0
  refine ⟨ts, h1, fun rest => ?_⟩
  rw [h4 rest]
  have : xs = cs := by
    apply List.ext_getElem?
    intro k
    by_cases hk : k < cellCount axes
    · exact h3 k k (List.getElem?_range hk)
    · rw [List.getElem?_eq_none (by rw [h2]; exact Nat.le_of_not_lt hk), List.getElem?_eq_none (by omega)]
  rw [this]
  rfl

/-- **C108**: several grids in one stream come back in their order. -/
theorem C108_several (ac : List (Codec A V)) (cc : Codec A T) (cell0 : T) (axes axes2 : List (Axis V)) (cs cs2 : List T) (hc : cs.length = cellCount axes) (hc2 : cs2.length = cellCount axes2)
    (ha : AxesCome ac axes) (ha2 : AxesCome ac axes2) (hx : ∀ x ∈ cs, Comes cc x) (hx2 : ∀ x ∈ cs2, Comes cc x) :
    ∃ ts ts2, gridExport ac cc (Grid.mk axes) cs = .ok ts ∧ gridExport ac cc (Grid.mk axes2) cs2 = .ok ts2 ∧ ∀ rest, ∃ r,
      gridImport ac cc cell0 (ts ++ ts2 ++ rest) = .ok ((Grid.mk axes, cs), r) ∧ gridImport ac cc cell0 r = .ok ((Grid.mk axes2, cs2), rest) := by
  obtain ⟨ts, h1, h2⟩ := C108_whole ac cc cell0 axes cs hc ha hx
  obtain ⟨ts2, h3, h4⟩ := C108_whole ac cc cell0 axes2 cs2 hc2 ha2 hx2
  exact ⟨ts, ts2, h1, h3, fun rest => ⟨ts2 ++ rest, by rw [List.append_assoc]; exact h2 _, h4 rest⟩⟩

/-- **C108**: a slice comes back as a grid with the axes that it shows and its cells. Partial: no axis is empty and every fixed axis is shown with one knot. -/
theorem C108_slice_partial (ac : List (Codec A V)) (cc : Codec A T) (cell0 : T) (axes : List (Axis V)) (hne : ∀ a ∈ axes, a.values ≠ []) (g : GridC V) (hg : Reach axes g) (hs : Shows g)
    (cs : List T) (hc : cs.length = cellCount axes) (ha : AxesCome ac g.axesFixed) (hx : ∀ x ∈ cs, Comes cc x) :
    ∃ ts cs', gridExport ac cc g cs = .ok ts ∧ (∀ rest, gridImport ac cc cell0 (ts ++ rest) = .ok ((Grid.mk g.axesFixed, cs'), rest)) ∧ cs'.length = cellCount g.axesFixed ∧
      ∀ x, InRange x (sizes g.axesFixed) → ∃ c, g.at' cs x = .ok c ∧ (Grid.mk g.axesFixed).at' cs' x = .ok c := by
  obtain ⟨i1, i2⟩ := hg.inv
  have hsz := sizes_shown hg hs
  obtain ⟨ts, xs, h1, h2, h3, h4⟩ := gridExport_ok ac cc g cs _ (positions_ok axes hne g hg) (by
    intro p hp
    rw [hc, cellCount_eq]
    exact cells_lt i2 p hp) (by rw [size_eq, hsz, cells_length i2]) ha hx cell0
  refine ⟨ts, xs, h1, h4, h2, ?_⟩
  intro x hx
  have hx' := hx
  rw [hsz] at hx'
  obtain ⟨b1, b2, b3⟩ := cells_at i2 x hx'
  obtain ⟨c, c1, c2⟩ := (C18_at_exact axes g hg cs hc x (by rw [inRange_length b2, sizes_length])).1 ⟨b2, b3⟩
  have hnone : (Grid.mk g.axesFixed).fixed = (sizes g.axesFixed).map fun _ => none := by simp [Grid.mk, sizes, Function.comp_def]
  obtain ⟨c', c3, c4⟩ := (C18_at_exact g.axesFixed (Grid.mk g.axesFixed) Reach.new xs h2 x (by rw [inRange_length hx, sizes_length])).1
    ⟨hx, by rw [hnone]; exact zero_none _ _ (inRange_length hx)⟩
  rw [hnone, place_none _ _ (inRange_length hx)] at c3
  have hcc' : xs[cellNo (shown (sizes axes) g.fixed) x]? = cs[cellNo (sizes axes) (place g.fixed x)]? := h3 _ _ b1
  rw [← hsz, c3, c1] at hcc'
  cases hcc'
  exact ⟨c, c2, c4⟩

/-! ## Examples -/

/-- An axis of numbers, one of them twice, and one without knots. -/
example (rest : List (Tok Int)) : ∃ ts, gridExport [plain, plain] plain (Grid.mk [⟨"x", [(1 : Int), 1, 2]⟩, ⟨"y", [4, 3]⟩]) [(1 : Int), 2, 3, 4, 5, 6] = .ok ts ∧
    gridImport [plain, plain] plain 0 (ts ++ rest) = .ok ((Grid.mk [⟨"x", [(1 : Int), 1, 2]⟩, ⟨"y", [4, 3]⟩], [(1 : Int), 2, 3, 4, 5, 6]), rest) := by
  have hp : ∀ a : Int, Comes plain a := fun a rest => rfl
  obtain ⟨ts, h1, h2⟩ := C108_whole [plain, plain] plain 0 [⟨"x", [(1 : Int), 1, 2]⟩, ⟨"y", [4, 3]⟩] [(1 : Int), 2, 3, 4, 5, 6] rfl
    (.cons (fun v _ => hp v) (.cons (fun v _ => hp v) .nil)) fun v _ => hp v
  exact ⟨ts, h1, h2 rest⟩

/-- An axis of names and one without knots. -/
example : ∃ ts, gridExport [(nameCodec : Codec Int QName), nameCodec] plain (Grid.mk [⟨"sed", [⟨["mer".toList], "vis".toList, "mer/vis".toList, 0⟩]⟩, ⟨"e", []⟩]) [] = .ok ts ∧
    gridImport [(nameCodec : Codec Int QName), nameCodec] plain 0 ts = .ok ((Grid.mk [⟨"sed", [⟨["mer".toList], "vis".toList, "mer/vis".toList, 0⟩]⟩, ⟨"e", []⟩], []), []) := by
  obtain ⟨ts, h1, h2⟩ := C108_whole [(nameCodec : Codec Int QName), nameCodec] plain 0 [⟨"sed", [⟨["mer".toList], "vis".toList, "mer/vis".toList, 0⟩]⟩, ⟨"e", []⟩] [] rfl
    (.cons (by
      intro v hv
      rw [List.mem_singleton.1 hv]
      exact (C108_names ["mer".toList] "vis".toList _ (by decide)).1) (.cons (by intro v hv; cases hv) .nil)) (by intro x hx; cases hx)
  have := h2 []
  rw [List.append_nil] at this
  exact ⟨ts, h1, this⟩

example : ∃ ts ts2, gridExport [plain] plain (Grid.mk [⟨"x", [(1 : Int), 2]⟩]) [(5 : Int), 6] = .ok ts ∧ gridExport [plain] plain (Grid.mk [⟨"y", [(7 : Int)]⟩]) [(8 : Int)] = .ok ts2 ∧ ∃ r,
    gridImport [plain] plain (0 : Int) (ts ++ ts2 ++ []) = .ok ((Grid.mk [⟨"x", [(1 : Int), 2]⟩], [5, 6]), r) ∧
      gridImport [plain] plain (0 : Int) r = .ok ((Grid.mk [⟨"y", [(7 : Int)]⟩], [8]), []) := by
  have hp : ∀ a : Int, Comes plain a := fun a rest => rfl
  obtain ⟨ts, ts2, h1, h2, h3⟩ := C108_several [plain] plain (0 : Int) [⟨"x", [(1 : Int), 2]⟩] [⟨"y", [(7 : Int)]⟩] [5, 6] [8] rfl rfl (.cons (fun v _ => hp v) .nil)
    (.cons (fun v _ => hp v) .nil) (fun v _ => hp v) (fun v _ => hp v)
  exact ⟨ts, ts2, h1, h2, h3 []⟩

/-- The slice of the knot 3 of the second axis. -/
example : ∃ ts cs', gridExport [plain, plain] plain ⟨[⟨"x", [(1 : Int), 2]⟩, ⟨"y", [4, 3]⟩], [⟨"x", [1, 2]⟩, ⟨"y", [3]⟩], [none, some 1]⟩ [(5 : Int), 6, 7, 8] = .ok ts ∧
    gridImport [plain, plain] plain 0 (ts ++ [.num 3]) = .ok ((Grid.mk [⟨"x", [(1 : Int), 2]⟩, ⟨"y", [3]⟩], cs'), [.num 3]) ∧
      (Grid.mk [⟨"x", [(1 : Int), 2]⟩, ⟨"y", [3]⟩]).at' cs' [1, 0] = .ok (8 : Int) := by
  have hp : ∀ a : Int, Comes plain a := fun a rest => rfl
  obtain ⟨ts, cs', h1, h2, _, h3⟩ := C108_slice_partial [plain, plain] plain (0 : Int) [⟨"x", [(1 : Int), 2]⟩, ⟨"y", [4, 3]⟩] (by simp)
    ⟨[⟨"x", [(1 : Int), 2]⟩, ⟨"y", [4, 3]⟩], [⟨"x", [1, 2]⟩, ⟨"y", [3]⟩], [none, some 1]⟩ (Reach.byIndex (Grid.mk _) _ 1 1 Reach.new rfl) (by
      intro a i h
      match a, h with
      | 0, h => cases h
      | 1, h => exact ⟨_, _, rfl⟩
      | a + 2, h => simp at h) [5, 6, 7, 8] rfl (.cons (fun v _ => hp v) (.cons (fun v _ => hp v) .nil)) fun v _ => hp v
  obtain ⟨c, c1, c2⟩ := h3 [1, 0] (by decide)
  have : GridC.at' (⟨[⟨"x", [(1 : Int), 2]⟩, ⟨"y", [4, 3]⟩], [⟨"x", [1, 2]⟩, ⟨"y", [3]⟩], [none, some 1]⟩ : GridC Int) ([5, 6, 7, 8] : List Int) [1, 0] = .ok (8 : Int) := rfl
  rw [this] at c1
  cases c1
  exact ⟨ts, cs', h1, h2 _, c2⟩

/-! ## Where the code does not do what is expected -/

/-- The statement for all slices. -/
def C108_full : Prop :=
  ∀ (axes : List (Axis Int)) (g : GridC Int) (cs : List Int) (ts : List (Tok Int)), (∀ a ∈ axes, a.values ≠ []) → Reach axes g → cs.length = cellCount axes →
    gridExport (axes.map fun _ => plain) plain g cs = .ok ts → ∃ r, gridImport (axes.map fun _ => plain) plain 0 ts = .ok r

/-- The slice of a slice: fewer cells are stored than are loaded. -/
theorem C108_slices_violated : ¬ C108_full := by
  intro h
  obtain ⟨r, hr⟩ := h [⟨"x", [1, 2]⟩, ⟨"y", [1, 2]⟩] ⟨[⟨"x", [1, 2]⟩, ⟨"y", [1, 2]⟩], [⟨"x", [1, 2]⟩, ⟨"y", [1]⟩], [some 0, some 0]⟩ [5, 6, 7, 8]
    [.header, .ptr, .ptr, .text ['y'], .num 1, .atom 1, .ptr, .text ['x'], .num 2, .atom 1, .atom 2, .atom 5] (by simp)
    (Reach.byIndex ⟨[⟨"x", [1, 2]⟩, ⟨"y", [1, 2]⟩], [⟨"x", [1]⟩, ⟨"y", [1, 2]⟩], [some 0, none]⟩ _ 1 0 (Reach.byIndex (Grid.mk _) _ 0 0 Reach.new (by decide)) (by decide)) rfl (by decide +kernel)
  have : gridImport (A := Int) [plain, plain] plain (0 : Int) [.header, .ptr, .ptr, .text ['y'], .num 1, .atom 1, .ptr, .text ['x'], .num 2, .atom 1, .atom 2, .atom 5] = .throw .stream := by
    decide +kernel
  rw [show ([⟨"x", [1, 2]⟩, ⟨"y", [1, 2]⟩] : List (Axis Int)).map (fun _ => (plain : Codec Int Int)) = [plain, plain] from rfl, this] at hr
  cases hr

end Alexandria.Grid.Archive
