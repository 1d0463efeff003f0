import Verif.Table.FitsFileProps
import Verif.Table.FitsReaderProps

/-!
# Tables written to FITS files in parts and read in other parts (C106 with C47)
-/

namespace Alexandria.Table.Fits

open Alexandria.Str Spec

variable {F D T : Type}

/-- A reader of an extension, opened by number or by name, gives for any calls what the list of the rows gives (`fspecRun`), as long as the number of rows left is not asked for past the end. -/
def ReadsParts (lib : Lib F D) (f : File F D T) (index : Nat) (name : Bytes) (info : Info) (rows : List (List (Cell F D))) : Prop :=
  ∃ h, openIndex lib f index = .ok h ∧ openName lib f name = .ok h ∧ h.info = info ∧
    ∀ (throws : Int → Bool) (ops : List FOp), Forwards ops → skipped ops < 2 ^ 62 →
      (List.Forall₂ (Matches info) (FitsReader.run h throws ops {}) (fspecRun ops rows) ↔ ¬ AsksPast ops rows 0)

theorem reads_parts (lib : Lib F D) (f : File F D T) (index : Nat) (name : Bytes) (info : Info) (rows : List (List (Cell F D))) (hb : rows.length < 2 ^ 62)
    (h : Reads lib f index name info rows) : ReadsParts lib f index name info rows := by
  obtain ⟨h, h1, h2, rfl, h3, _⟩ := h
  exact ⟨h, h1, h2, rfl, fun throws ops hf hs => C47_iff h throws rows h3 hb ops hf hs⟩

/-- **C106** (partial as `C106_append_partial`): the parts in which tables were written, by one writer or by a second one, cannot be told from what readers give, in whatever parts they read. -/
theorem C106_parts_partial (lib : Lib F D) (fmt : Fmt F D) (w : Writer) (hw : Fresh w) (f : File F D T) (t0 : TableT F D) (ts : List (TableT F D))
    (h0 : Proper t0) (hst : StorableT t0) (hk : Kept lib t0.info) (hkn : lib.text w.hduName = w.hduName)
    (hts : ∀ t ∈ ts, Proper t ∧ Agree t0.info t.info ∧ FitsInT t0 t) (hnew : ∀ e ∈ base w f, e.name ≠ w.hduName)
    (w2 : Writer) (hw2 : Fresh w2) (ho : w2.override = false) (hn2 : w2.hduName = w.hduName) (us : List (TableT F D))
    (hus : ∀ t ∈ us, Proper t ∧ Agree t0.info t.info ∧ FitsInT t0 t) (hb : (allRows (t0 :: ts) ++ allRows us).length < 2 ^ 62) :
    ∃ w' tab, w.addAll lib fmt (t0 :: ts) f = (w', base w f ++ [.table tab], .ok ()) ∧
      ∀ later : File F D T, ∃ w2' tab', w2.addAll lib fmt us (base w f ++ .table tab :: later) = (w2', base w f ++ .table tab' :: later, .ok ()) ∧
        ReadsParts lib (base w f ++ .table tab' :: later) ((base w f).length + 1) w.hduName t0.info (allRows (t0 :: ts) ++ allRows us) := by
  obtain ⟨w', tab, h1, h2⟩ := C106_append_partial lib fmt w hw f t0 ts h0 hst hk hkn hts hnew w2 hw2 ho hn2 us hus
  refine ⟨w', tab, h1, fun later => ?_⟩
  obtain ⟨w2', tab', h3, _, _, h4⟩ := h2 later
  exact ⟨w2', tab', h3, reads_parts lib _ _ _ _ _ hb h4⟩

/-- Parts of two, one and one rows; read one row, then two, then all the others. -/
example (fmt : Fmt Unit Unit) : ∃ w' tab, Writer.addAll plainLib fmt [exA, exB] { override := true, hduName := "cat".toList } ([] : File Unit Unit Int) = (w', [.table tab], .ok ()) ∧
    ∃ w2' tab', Writer.addAll plainLib fmt [exB] { override := false, hduName := "cat".toList } [.table tab] = (w2', ([.table tab'] : File Unit Unit Int), .ok ()) ∧
    ∃ h, openName plainLib ([.table tab'] : File Unit Unit Int) "cat".toList = .ok h ∧ ∀ throws, List.Forall₂ (Matches exInfo) (FitsReader.run h throws [.read 1, .read 2, .rowsLeft, .read (-1), .hasMoreRows] {})
      [.rows [[.scalar .i32 1, .str "abc".toList, .vec .i64 [1, 2]]], .rows [[.scalar .i32 2, .str ['x'], .vec .i64 [3, 4]], [.scalar .i32 3, .str "yz".toList, .vec .i64 [5, 6]]],
        .nat 1, .rows [[.scalar .i32 3, .str "yz".toList, .vec .i64 [5, 6]]], .bool false] := by
  have hB : ∀ t ∈ [exB], Proper t ∧ Agree exA.info t.info ∧ FitsInT exA t := by
    intro t ht
    rw [List.mem_singleton.1 ht]
    exact ⟨exB_proper, rfl, exB_fits⟩
  obtain ⟨w', tab, h1, h2⟩ := C106_parts_partial plainLib fmt { override := true, hduName := "cat".toList } ⟨rfl, rfl⟩ ([] : File Unit Unit Int) exA [exB] exA_proper exA_storable
    (fun d _ => ⟨rfl, rfl, rfl⟩) rfl hB (by intro e he; cases he) { override := false, hduName := "cat".toList } ⟨rfl, rfl⟩ rfl rfl [exB] hB (by decide)
  obtain ⟨w2', tab', h3, h, _, h4, _, h5⟩ := h2 []
  refine ⟨w', tab, h1, w2', tab', h3, h, h4, fun throws => ?_⟩
  exact (h5 throws [.read 1, .read 2, .rowsLeft, .read (-1), .hasMoreRows] (by constructor <;> intro n hn <;> simp at hn <;> omega) (by decide)).2 (by simp [AsksPast, passStep])

end Alexandria.Table.Fits
