import Verif.Grid.FitsProps
import Verif.Grid.ArchiveLemmas

/-!
# Import of grids from any FITS file (C145)
-/

namespace Alexandria.Grid.FitsIO

open Alexandria.Str Alexandria.Table Alexandria.Table.Fits Alexandria.XYDataset Alexandria.Grid Alexandria.Grid.Spec

variable {F D T V : Type}

open FitsIO.Spec

namespace Spec

/-- The conversions of the library give a value or an exception. -/
def Defined (lib : Lib F D) : Prop := ∀ t r, lib.readAs t r ≠ .ub

end Spec

/-- A result is a value with a property, or an exception. -/
def Gives (r : Table.Res α) (P : α → Prop) : Prop := (∃ a, r = .ok a ∧ P a) ∨ ∃ e, r = .throw e

theorem Gives.bind {r : Table.Res α} {P : α → Prop} {f : α → Table.Res β} {Q : β → Prop} (h : Gives r P) (hf : ∀ a, P a → Gives (f a) Q) : Gives (r >>= f) Q := by
  rcases h with ⟨a, rfl, ha⟩ | ⟨e, rfl⟩
  · exact hf a ha
  · exact Or.inr ⟨e, rfl⟩

theorem decode_gives {lib : Lib F D} (hl : Defined lib) (h : Head) (kind : Kind) (raw : Raw F D) : Gives (decode lib h kind.fitsType raw) fun _ => True := by
  have hr : ∀ t r, Gives (lib.readAs t r) fun _ => True := by
    intro t r
    have := hl t r
    revert this
    cases lib.readAs t r with
    | ok c => exact fun _ => Or.inl ⟨c, rfl, trivial⟩
    | throw e => exact fun _ => Or.inr ⟨e, rfl⟩
    | ub => exact fun h => absurd rfl h
  cases kind with
  | scalar s =>
    rw [Kind.fitsType]
    unfold decode
    split
    · split_ifs
      · exact Or.inl ⟨_, rfl, trivial⟩
      · exact hr _ _
    · exact Or.inl ⟨_, rfl, trivial⟩
    all_goals first | exact Or.inr ⟨_, rfl⟩ | exact hr _ _ | skip
    all_goals first | contradiction | skip
  | str | qname =>
    rw [Kind.fitsType]
    unfold decode
    split
    all_goals first | contradiction | exact Or.inl ⟨_, rfl, trivial⟩ | exact hr _ _ | exact Or.inr ⟨_, rfl⟩

theorem decodeAll_gives {lib : Lib F D} (hl : Defined lib) (h : Head) (kind : Kind) (rs : List (Raw F D)) : Gives (decodeAll lib h kind.fitsType rs) fun cs => cs.length = rs.length := by
  induction rs with
  | nil => exact Or.inl ⟨[], rfl, rfl⟩
  | cons r rs ih =>
    rw [decodeAll]
    refine (decode_gives hl h kind r).bind fun c _ => ih.bind fun cs hcs => Or.inl ⟨_, rfl, by simp [hcs]⟩

theorem toKnot_gives (kind : Kind) (c : Cell F D) : Gives (toKnot kind c) fun _ => True := by
  unfold toKnot
  split
  · split_ifs
    · exact Or.inl ⟨_, rfl, trivial⟩
    · exact Or.inr ⟨_, rfl⟩
  · exact Or.inl ⟨_, rfl, trivial⟩
  · rename_i s
    cases hm : parseName s with
    | ok q => exact Or.inl ⟨_, rfl, trivial⟩
    | throw e => exact Or.inr ⟨_, rfl⟩
    | ub =>
      rw [parseName] at hm
      by_cases hp : (∀ g ∈ getGroups s, XYDataset.Spec.Part g) ∧ XYDataset.Spec.Part (getName s)
      · rw [mkName_ok hp.1 hp.2] at hm
        cases hm
      · rw [mkName_bad hp] at hm
        cases hm
  · exact Or.inr ⟨_, rfl⟩

theorem toKnots_gives (kind : Kind) (cs : List (Cell F D)) : Gives (toKnots kind cs) fun ks => ks.length = cs.length := by
  induction cs with
  | nil => exact Or.inl ⟨[], rfl, rfl⟩
  | cons c cs ih =>
    rw [toKnots]
    exact (toKnot_gives kind c).bind fun k _ => ih.bind fun ks hks => Or.inl ⟨_, rfl, by simp [hks]⟩

theorem caught_gives {r : Table.Res α} {P : α → Prop} (h : Gives r P) : Gives (caught r) P := by
  rcases h with ⟨a, rfl, ha⟩ | ⟨e, rfl⟩
  · exact Or.inl ⟨a, rfl, ha⟩
  · cases e <;> exact Or.inr ⟨_, rfl⟩

theorem le_rows {t : Tab F D} {c : Col F D} (h : c ∈ t.cols) : c.data.length ≤ t.rows := by
  unfold Tab.rows
  generalize t.cols = l at h
  induction l with
  | nil => cases h
  | cons d l ih =>
    rw [List.map_cons, List.foldr_cons]
    rcases List.mem_cons.mp h with rfl | h
    · exact le_max_left _ _
    · exact (ih h).trans (le_max_right _ _)

theorem readAxis_gives {lib : Lib F D} (hl : Defined lib) (grid : Bytes) (kind : Kind) (e : Ext F D T) :
    Gives (readAxis lib grid kind e) fun a => ∃ t, e = .table t ∧ a.size = t.rows := by
  cases e with
  | image n v x p => exact Or.inr ⟨_, rfl⟩
  | table t =>
    unfold readAxis
    simp only
    cases hf : t.cols.find? fun c => c.head.name == "Value".toList with
    | none => exact Or.inr ⟨_, rfl⟩
    | some c =>
      simp only
      refine (caught_gives (decodeAll_gives hl c.head kind _)).bind fun data hd => (toKnots_gives kind data).bind fun knots hk => Or.inl ⟨_, rfl, t, rfl, ?_⟩
      rw [Axis.size, hk, hd, List.length_append, List.length_replicate]
      have := le_rows (List.mem_of_find?_eq_some hf)
      omega

theorem extension_gives (f : File F D T) (i : Nat) : Gives (extension f i) fun e => 0 < i ∧ f[i - 1]? = some e := by
  rw [extension]
  split_ifs with h
  · exact Or.inr ⟨_, rfl⟩
  · cases hf : f[i - 1]? with
    | none => exact Or.inr ⟨_, rfl⟩
    | some e => exact Or.inl ⟨e, rfl, by omega, rfl⟩

theorem readAxes_gives {lib : Lib F D} (hl : Defined lib) (f : File F D T) (grid : Bytes) (kinds : List Kind) : ∀ n, kinds.length ≤ n →
    Gives (readAxes lib f grid kinds n) fun axes => ∃ tabs : List (Tab F D), sizes axes = tabs.map Tab.rows ∧ tabs.length = kinds.length ∧
      ∀ (j : Nat) (t : Tab F D), tabs[j]? = some t → f[n - kinds.length + j]? = some (.table t) := by
  induction kinds with
  | nil => intro n _; exact Or.inl ⟨[], rfl, [], rfl, rfl, by simp⟩
  | cons k ks ih =>
    intro n hn
    rw [List.length_cons] at hn
    rw [readAxes]
    refine (extension_gives f n).bind fun e he => (readAxis_gives hl grid k e).bind fun a ha => (ih (n - 1) (by omega)).bind fun as has => Or.inl ⟨_, rfl, ?_⟩
    obtain ⟨t, rfl, hsz⟩ := ha
    obtain ⟨tabs, h1, h2, h3⟩ := has
    refine ⟨tabs ++ [t], ?_, by simp [h2], ?_⟩
    · rw [sizes] at h1 ⊢
      rw [List.map_append, h1, List.map_append, List.map_singleton, List.map_singleton, hsz]
    · intro j t' ht
      rw [List.length_cons]
      by_cases hj : j < tabs.length
      · rw [List.getElem?_append_left hj] at ht
        have := h3 j t' ht
        rwa [show n - (ks.length + 1) + j = n - 1 - ks.length + j by omega]
      · have hj' : j = tabs.length := by
          have := (List.getElem?_eq_some_iff.mp ht).1
          simp at this
          omega
        subst hj'
        rw [List.getElem?_append_right (Nat.le_refl _), Nat.sub_self] at ht
        cases ht
        rw [h2, show n - (ks.length + 1) + ks.length = n - 1 by omega]
        exact he.2

theorem fillCells_short (data : List T) : ∀ (n i : Nat) (done rest : List T), done.length = i → rest.length = n → data.length < i + n → i ≤ data.length →
    fillCells data (List.range' i n) i (done ++ rest) = .ub := by
  intro n
  induction n with
  | zero => intro i done rest _ _ h3 h4; omega
  | succ n ih =>
    intro i done rest h1 h2 h3 h4
    obtain ⟨r, rest, rfl⟩ : ∃ r rs, rest = r :: rs := List.exists_cons_of_length_eq_add_one h2
    rw [List.range'_succ, fillCells]
    by_cases hlt : i < data.length
    · rw [List.getElem?_eq_getElem hlt]
      simp only
      rw [if_pos (by simp [h1]), List.set_append_right _ _ (by omega), h1, Nat.sub_self, List.set_cons_zero]
      have := ih (i + 1) (done ++ [data[i]]) rest (by simp [h1]) (by simpa using h2) (by omega) hlt
      rw [List.append_assoc, List.singleton_append] at this
      exact this
    · rw [List.getElem?_eq_none (by omega)]

/-- **C145**: what the import does with any file. It throws an exception, or the extension is an image and tables with a column of knots follow it: then the axes have as many knots as the tables
have rows, and the cells are the first pixels of the image; but if the image has not enough pixels, memory behind them is read. -/
theorem C145_import (lib : ImgLib F D T) (hl : Defined lib.toLib) (kinds : List Kind) (f : File F D T) (index : Nat) :
    (∃ e, gridImport lib kinds f index = .throw e) ∨
    ∃ (name : Bytes) (version : Nat) (naxes : List Nat) (pixels : List T) (tabs : List (Tab F D)), 0 < index ∧ f[index - 1]? = some (.image name version naxes pixels) ∧
      tabs.length = kinds.length ∧ (∀ (j : Nat) (t : Tab F D), tabs[j]? = some t → f[index + j]? = some (.table t)) ∧
      (pixels.length < total (tabs.map Tab.rows) → gridImport lib kinds f index = .ub) ∧
      (total (tabs.map Tab.rows) ≤ pixels.length → ∃ axes, gridImport lib kinds f index = .ok (Grid.mk axes, pixels.take (total (tabs.map Tab.rows))) ∧ sizes axes = tabs.map Tab.rows) := by
  rw [gridImport]
  rcases extension_gives f index with ⟨e, h1, h0, h2⟩ | ⟨e, h1⟩
  · rw [h1, Outcome.bind_ok]
    rcases readAxes_gives hl f e.name kinds.reverse (index + kinds.length) (by simp) with ⟨axes, h3, tabs, h4, h5, h6⟩ | ⟨e', h3⟩
    · rw [h3, Outcome.bind_ok]
      cases e with
      | table t => exact Or.inl ⟨_, rfl⟩
      | image name version naxes pixels =>
        simp only
        rw [Outcome.bind_ok, Archive.positions_new]
        simp only [liftGrid, Outcome.bind_ok]
        have hc : cellCount axes = total (tabs.map Tab.rows) := by rw [cellCount_eq, h4]
        rw [hc, List.range_eq_range']
        refine Or.inr ⟨name, version, naxes, pixels, tabs, h0, h2, by simpa using h5, ?_, fun h => ?_, fun h => ⟨axes, ?_, h4⟩⟩
        · intro j t ht
          have := h6 j t ht
          rwa [List.length_reverse, Nat.add_sub_cancel] at this
        · have := fillCells_short pixels (total (tabs.map Tab.rows)) 0 [] (List.replicate (total (tabs.map Tab.rows)) lib.pixel0) rfl (by simp) (by omega) (by omega)
          rw [List.nil_append] at this
          rw [this]
          rfl
        · have := fillCells_ok pixels (total (tabs.map Tab.rows)) 0 [] (List.replicate (total (tabs.map Tab.rows)) lib.pixel0) rfl (by simp) (by omega)
          rw [List.nil_append, List.nil_append, List.drop_zero] at this
          rw [this]
          rfl
    · rw [h3]; exact Or.inl ⟨e', rfl⟩
  · rw [h1]; exact Or.inl ⟨e, rfl⟩

/-- **C145**: files whose image has a pixel for every cell can be read without harm. Partial: the import of other files is not excluded by the code. -/
theorem C145_safe_partial (lib : ImgLib F D T) (hl : Defined lib.toLib) (kinds : List Kind) (f : File F D T) (index : Nat)
    (h : ∀ name version naxes pixels (tabs : List (Tab F D)), 0 < index → f[index - 1]? = some (.image name version naxes pixels) → tabs.length = kinds.length →
      (∀ (j : Nat) (t : Tab F D), tabs[j]? = some t → f[index + j]? = some (.table t)) → total (tabs.map Tab.rows) ≤ pixels.length) :
    gridImport lib kinds f index ≠ .ub := by
  rcases C145_import lib hl kinds f index with ⟨e, h1⟩ | ⟨name, version, naxes, pixels, tabs, h0, h1, h2, h3, -, h5⟩
  · rw [h1]; exact fun h => by cases h
  · obtain ⟨axes, h6, -⟩ := h5 (h name version naxes pixels tabs h0 h1 h2 h3)
    rw [h6]; exact fun h => by cases h

/-! ## Examples -/

/-- The table of an axis with the knots `l`. -/
def axisTab (name : Bytes) (l : List Int32) : Tab Unit Unit := ⟨name, 1, [⟨⟨"Value".toList, "1J".toList, [], [], []⟩, l.map fun v => .elems .i32 [v]⟩], []⟩

theorem plainImg_defined : Defined plainImg.toLib := by
  intro t r h
  cases h

/-- A file that was not written by the export: the shape of the image is ignored and the last pixel is not used. -/
example : gridImport plainImg [.scalar .i32, .scalar .i32] [.image ['g'] 1 [7] [1, 2, 3, 4, 5, 6, 7], .table (axisTab "x_g".toList [1, 2, 3]), .table (axisTab "y_g".toList [5, 6])] 1 =
    .ok (Grid.mk [⟨"x", ints [1, 2, 3]⟩, ⟨"y", ints [5, 6]⟩], [1, 2, 3, 4, 5, 6]) := rfl

/-- The hypothesis of the partial statement for that file. -/
example : gridImport plainImg [.scalar .i32] [.image ['g'] 1 [2] [1, 2], .table (axisTab "x_g".toList [1, 2])] 1 ≠ .ub := by
  refine C145_safe_partial plainImg plainImg_defined _ _ _ ?_
  intro name version naxes pixels tabs _ h1 h2 h3
  match tabs, h2 with
  | [t], _ =>
    have := h3 0 t rfl
    cases h1
    cases this
    decide

/-! ## Where the code does not do what is expected -/

/-- No file makes the import read outside of its data. -/
def C145_full : Prop := ∀ (kinds : List Kind) (f : File Unit Unit Int) (index : Nat), gridImport plainImg kinds f index ≠ .ub

/-- An image of two pixels with an axis of three knots. -/
theorem C145_safe_violated : ¬ C145_full := by
  intro h
  exact h [.scalar .i32] [.image ['g'] 1 [2] [1, 2], .table (axisTab "x_g".toList [1, 2, 3])] 1 rfl

/-- The image that is read has the shape of the grid. -/
def C145_shape_full : Prop :=
  ∀ (kinds : List Kind) (f : File Unit Unit Int) (name : Bytes) (version : Nat) (naxes : List Nat) (pixels : List Int) (g : GridC (Knot Unit Unit)) (cells : List Int),
    gridImport plainImg kinds (.image name version naxes pixels :: f) 1 = .ok (g, cells) → sizes g.axes = naxes

/-- An image of 2 by 3 pixels is read into a grid of 3 by 2 cells. -/
theorem C145_shape_violated : ¬ C145_shape_full := by
  intro h
  have := h [.scalar .i32, .scalar .i32] [.table (axisTab "x_g".toList [1, 2, 3]), .table (axisTab "y_g".toList [5, 6])] ['g'] 1 [2, 3] [1, 2, 3, 4, 5, 6]
    (Grid.mk [⟨"x", ints [1, 2, 3]⟩, ⟨"y", ints [5, 6]⟩]) [1, 2, 3, 4, 5, 6] rfl
  revert this
  decide

end Alexandria.Grid.FitsIO
