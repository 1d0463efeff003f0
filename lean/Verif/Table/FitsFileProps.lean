import Verif.Table.FitsFileSteps

/-!
# Tables in FITS files come back as they were written (C106)
-/

namespace Alexandria.Table.Fits

open Alexandria.Str Spec

variable {F D T : Type}

/-- An extension of a file can be opened by its number and by its name, and holds the given rows: read at once they are the table `info`, `rows`. -/
def Reads (lib : Lib F D) (f : File F D T) (index : Nat) (name : Bytes) (info : Info) (rows : List (List (Cell F D))) : Prop :=
  ∃ h, openIndex lib f index = .ok h ∧ openName lib f name = .ok h ∧ h.info = info ∧ Holds h rows ∧
    readTable h = .ok ⟨rows.map fun r => ⟨r, info⟩, info⟩

theorem reads_ok (lib : Lib F D) (info : Info) (first : TableT F D) (hs : List Head) (hm : Made info first hs) (hf : first.info = info) (hp : Proper first) (ts : List (TableT F D))
    (hne : ts ≠ []) (ht : ∀ t ∈ ts, Proper t ∧ Agree info t.info ∧ FitsInT first t) (name : Bytes) (com : List Bytes) (pre post : File F D T) (hnew : ∀ e ∈ pre, e.name ≠ name) :
    Reads lib (pre ++ .table (tabOf name com hs (allRows ts)) :: post) (pre.length + 1) name info (allRows ts) := by
  have hg : ∀ r ∈ allRows ts, GoodCells info r := allRows_good info ts fun t h => ⟨(ht t h).1, (ht t h).2.1⟩
  obtain ⟨h, h1, h2, h3⟩ := openTab_ok lib info (hf ▸ hp.info) (hf ▸ hp.names) hs hm.heads name com (allRows ts) (fun r hr => (hg r hr).1.length_eq)
    (accept_all info first hs hm hf ts ht)
  have hrne : allRows ts ≠ [] := by
    obtain ⟨t, ts', rfl⟩ := List.exists_cons_of_ne_nil hne
    have := (ht t (by simp)).1.rows
    rw [allRows, List.flatMap_cons]
    intro e
    exact this (List.map_eq_nil_iff.1 (List.append_eq_nil_iff.1 e).1)
  refine ⟨h, ?_, ?_, h2, h3, ?_⟩
  · have : (pre ++ Ext.table (tabOf name com hs (allRows ts)) :: post)[pre.length + 1 - 1]? = some (.table (tabOf name com hs (allRows ts))) := by simp
    rw [openIndex, if_neg (by omega), this]
    exact h1
  · have : (pre ++ Ext.table (tabOf name com hs (allRows ts)) :: post).find? (fun e => e.name == name && e.version == 1) = some (.table (tabOf name com hs (allRows ts))) := by
      rw [List.find?_append, List.find?_eq_none.2 (by intro x hx; simp [hnew x hx])]
      simp [tabOf, Ext.name, Ext.version]
    rw [openName, this]
    exact h1
  · rw [readTable_ok h _ h3 hrne (h2 ▸ hg), h2]

/-- **C106** (partial: columns of strings of one character, of vectors or arrays with less than two elements and of vectors of `bool` do not come back; later tables must fit in the columns made
for the first one). Tables written by one writer come back as one table with the rows of all, in their order, whatever is added to the file afterwards; the extensions that were there before
come first and are not changed (there are none if the file is replaced), and the name and the comments are those of the writer. -/
theorem C106_chunks_partial (lib : Lib F D) (fmt : Fmt F D) (w : Writer) (hw : Fresh w) (f : File F D T) (t0 : TableT F D) (ts : List (TableT F D))
    (h0 : Proper t0) (hst : StorableT t0) (hk : Kept lib t0.info) (hkn : lib.text w.hduName = w.hduName)
    (hts : ∀ t ∈ ts, Proper t ∧ Agree t0.info t.info ∧ FitsInT t0 t) (hnew : ∀ e ∈ base w f, e.name ≠ w.hduName) :
    ∃ w' tab, w.addAll lib fmt (t0 :: ts) f = (w', base w f ++ [.table tab], .ok ()) ∧ tab.name = w.hduName ∧ tab.comments = w.comments ∧ w'.initialized = true ∧
      ∀ later : File F D T, Reads lib (base w f ++ .table tab :: later) ((base w f).length + 1) w.hduName t0.info (allRows (t0 :: ts)) := by
  obtain ⟨w', hs, h1, h2, h3, _⟩ := addAll_fresh lib fmt w hw f t0 ts h0 hst hk hkn hts hnew
  refine ⟨w', _, h2, rfl, rfl, h3, fun later => ?_⟩
  refine reads_ok lib t0.info t0 hs h1 rfl h0 (t0 :: ts) (by simp) ?_ w.hduName w.comments (base w f) later hnew
  intro t ht
  rcases List.mem_cons.1 ht with rfl | ht
  · exact ⟨h0, rfl, fun j d hd => storable_self d.type _ (hst j d hd)⟩
  · exact hts t ht

theorem uniform_of_fits (t0 t : TableT F D) (h0 : Proper t0) (hst : StorableT t0) (ha : Agree t0.info t.info) (hfit : FitsInT t0 t) (j : Nat) (d : Desc)
    (hd : t.info[j]? = some d) : Uniform d.type (column t j) := by
  have hj : j < t0.info.length := by rw [agree_length ha]; exact (List.getElem?_eq_some_iff.1 hd).1
  have hd0 : t0.info[j]? = some t0.info[j] := List.getElem?_eq_getElem hj
  have hty := agree_type ha j _ _ hd0 hd
  have h1 := hst j _ hd0
  have h2 := hfit j _ hd0
  obtain ⟨c, cs, hc⟩ := List.exists_cons_of_ne_nil (column_ne_nil t0 h0 j hj)
  have h3 := column_types t0 h0.cells j _ hd0 c (by rw [hc]; simp)
  rw [hty] at h1 h2 h3
  rw [hc] at h1 h2
  cases e : d.type with
  | scalar s => trivial
  | str => trivial
  | vec s =>
    rw [e] at h1 h2 h3
    obtain ⟨v, rfl⟩ := type_vec h3
    exact ⟨v.length, fun s' v' hv => h2 s' v' s v hv (by simp)⟩
  | nd s =>
    rw [e] at h1 h2 h3
    obtain ⟨sh, v, rfl⟩ := type_nd h3
    exact ⟨h1.1, sh, fun s' sh' v' hv => (h2 s' sh' v' s sh v hv (by simp)).1⟩
  | other n => rw [e] at h1; exact h1

/-- **C106** (partial as above). A second writer that does not replace the file and has the name of the table appends the rows of its tables to it; the other extensions, also those added in the
meantime, are not changed. -/
theorem C106_append_partial (lib : Lib F D) (fmt : Fmt F D) (w : Writer) (hw : Fresh w) (f : File F D T) (t0 : TableT F D) (ts : List (TableT F D))
    (h0 : Proper t0) (hst : StorableT t0) (hk : Kept lib t0.info) (hkn : lib.text w.hduName = w.hduName)
    (hts : ∀ t ∈ ts, Proper t ∧ Agree t0.info t.info ∧ FitsInT t0 t) (hnew : ∀ e ∈ base w f, e.name ≠ w.hduName)
    (w2 : Writer) (hw2 : Fresh w2) (ho : w2.override = false) (hn2 : w2.hduName = w.hduName) (us : List (TableT F D))
    (hus : ∀ t ∈ us, Proper t ∧ Agree t0.info t.info ∧ FitsInT t0 t) :
    ∃ w' tab, w.addAll lib fmt (t0 :: ts) f = (w', base w f ++ [.table tab], .ok ()) ∧
      ∀ later : File F D T, ∃ w2' tab', w2.addAll lib fmt us (base w f ++ .table tab :: later) = (w2', base w f ++ .table tab' :: later, .ok ()) ∧
        tab'.name = tab.name ∧ tab'.comments = tab.comments ∧
        Reads lib (base w f ++ .table tab' :: later) ((base w f).length + 1) w.hduName t0.info (allRows (t0 :: ts) ++ allRows us) := by
  obtain ⟨w', hs, h1, h2, h3, _⟩ := addAll_fresh lib fmt w hw f t0 ts h0 hst hk hkn hts hnew
  have hall : ∀ t ∈ (t0 :: ts) ++ us, Proper t ∧ Agree t0.info t.info ∧ FitsInT t0 t := by
    intro t ht
    rcases List.mem_append.1 ht with ht | ht
    · rcases List.mem_cons.1 ht with rfl | ht
      · exact ⟨h0, rfl, fun j d hd => storable_self d.type _ (hst j d hd)⟩
      · exact hts t ht
    · exact hus t ht
  refine ⟨w', _, h2, fun later => ?_⟩
  have hfinal := reads_ok lib t0.info t0 hs h1 rfl h0 ((t0 :: ts) ++ us) (by simp) hall w.hduName w.comments (base w f) later hnew
  have happ : allRows ((t0 :: ts) ++ us) = allRows (t0 :: ts) ++ allRows us := by rw [allRows, List.flatMap_append]; rfl
  rw [happ] at hfinal
  have hR : ∀ r ∈ allRows (t0 :: ts), r.length = t0.info.length := fun r hr =>
    (allRows_good t0.info (t0 :: ts) (fun t h => ⟨(hall t (List.mem_append_left _ h)).1, (hall t (List.mem_append_left _ h)).2.1⟩) r hr).1.length_eq
  have key : ∃ w2', w2.addAll lib fmt us (base w f ++ .table (tabOf w.hduName w.comments hs (allRows (t0 :: ts))) :: later) =
      (w2', base w f ++ .table (tabOf w.hduName w.comments hs (allRows (t0 :: ts) ++ allRows us)) :: later, .ok ()) := by
    cases us with
    | nil => exact ⟨w2, by rw [Writer.addAll, allRows, allRows, List.flatMap_nil, List.append_nil]⟩
    | cons u us =>
      obtain ⟨hu1, hu2, hu3⟩ := hus u (by simp)
      obtain ⟨hs', hh⟩ := heads_some lib fmt u hu1 fun j d hd => uniform_of_fits t0 u h0 hst hu2 hu3 j d hd
      let F0 : File F D T := base w f ++ .table (tabOf w.hduName w.comments hs (allRows (t0 :: ts))) :: later
      have hfind : findExt F0 (w2.withInfo u.info).hduName = some (base w f).length := by
        rw [show (w2.withInfo u.info).hduName = w.hduName from hn2]
        exact findExt_some (base w f) later (.table (tabOf w.hduName w.comments hs (allRows (t0 :: ts)))) hnew rfl
      have hget : F0[(base w f).length]? = some (.table (tabOf w.hduName w.comments hs (allRows (t0 :: ts)))) := by simp [F0]
      have hrows : (tabOf w.hduName w.comments hs (allRows (t0 :: ts))).rows = (allRows (t0 :: ts)).length := by
        have hl : t0.info.length = hs.length := h1.heads.length_eq
        have hne : hs ≠ [] := by
          intro e; rw [e] at hl; exact h0.info.1 (List.length_eq_zero_iff.1 hl)
        have := rows_colsFrom (allRows (t0 :: ts)) t0.info.length hR hs 0 (by omega)
        simpa [Tab.rows, tabOf, hne] using this
      have hinit : Writer.init lib fmt (w2.withInfo u.info) F0 u =
          ((w2.withInfo u.info).started ((base w f).length + 1) ((allRows (t0 :: ts)).length + 1), F0, .ok ()) := by
        have hb : (if (w2.withInfo u.info).override = true then ([] : File F D T) else F0) = F0 := by
          rw [show (w2.withInfo u.info).override = false from ho]; rfl
        rw [Writer.init, hh, hb]
        simp only [hfind, hget]
        rw [hrows]
      let w3 : Writer := (w2.withInfo u.info).started ((base w f).length + 1) ((allRows (t0 :: ts)).length + 1)
      have hadd : w2.addData lib fmt F0 u = w3.append lib F0 u := by
        rw [Writer.addData, hw2.1]
        simp only [hinit]
        rfl
      have hap := append_ok lib t0.info t0 hs h1 rfl u hu1 hu2 hu3 w.hduName w.comments (allRows (t0 :: ts)) hR w3 (base w f) later rfl rfl
      have hrest := addAll_ok lib fmt t0.info t0 hs h1 rfl w.hduName w.comments (base w f) later u.info hu2.symm us
        (w3.atLine ((allRows (t0 :: ts) ++ u.rows.map fun r => r.values).length + 1)) (allRows (t0 :: ts) ++ u.rows.map fun r => r.values)
        (fun t ht => hus t (List.mem_cons_of_mem _ ht)) (by
          intro r hr
          rcases List.mem_append.1 hr with hr | hr
          · exact hR r hr
          · rw [agree_length hu2]; exact row_lengths u hu1.cells r hr) rfl rfl rfl
      rw [List.append_assoc] at hrest
      refine ⟨_, Eq.trans ?_ hrest⟩
      rw [Writer.addAll, hadd, hap]
  obtain ⟨w2', hk2⟩ := key
  exact ⟨w2', _, hk2, rfl, rfl, hfinal⟩

/-- **C106**: once a table was written, the name and the comments cannot be changed any more. -/
theorem C106_started (lib : Lib F D) (fmt : Fmt F D) (w : Writer) (hw : Fresh w) (f : File F D T) (t : TableT F D) (w' : Writer) (f' : File F D T)
    (h : w.addData lib fmt f t = (w', f', .ok ())) (ts : List (TableT F D)) (f2 : File F D T) (s : Bytes) :
    (w'.addAll lib fmt ts f2).1.setHduName s = .throw .elements ∧ (w'.addAll lib fmt ts f2).1.addComment s = .throw .elements := by
  have hap : ∀ (v : Writer) (g : File F D T) (u : TableT F D), (v.append lib g u).1.initialized = v.initialized := by
    intro v g u
    unfold Writer.append
    repeat' split
    all_goals rfl
  have hin : ∀ (v : Writer) (g : File F D T) (u : TableT F D), v.initialized = true → (Writer.init lib fmt v g u).1.initialized = true := by
    intro v g u hv
    unfold Writer.init
    simp only
    repeat' split
    all_goals first | rfl | exact hv
  have hok : ∀ (v : Writer) (g : File F D T) (u : TableT F D), (Writer.init lib fmt v g u).2.2 = .ok () → (Writer.init lib fmt v g u).1.initialized = true := by
    intro v g u
    unfold Writer.init
    simp only
    repeat' split
    all_goals first | (intro _; rfl) | (intro hv; cases hv)
  have hst : ∀ (v : Writer) (g : File F D T) (u : TableT F D), v.initialized = true → (v.addData lib fmt g u).1.initialized = true := by
    intro v g u hv
    unfold Writer.addData
    split
    · have h1 := hin (v.withInfo u.info) g u hv
      split
      · rename_i w1 f1 e
        rw [e] at h1
        rw [hap]; exact h1
      · exact h1
    · split
      · rw [hap]; exact hv
      · exact hv
  have hall : ∀ (ts : List (TableT F D)) (v : Writer) (g : File F D T), v.initialized = true → (v.addAll lib fmt ts g).1.initialized = true := by
    intro ts
    induction ts with
    | nil => intro v g hv; exact hv
    | cons u us ih =>
      intro v g hv
      rw [Writer.addAll]
      have h1 := hst v g u hv
      split
      · rename_i w1 f1 e
        rw [e] at h1
        exact ih w1 f1 h1
      · exact h1
  have hw' : w'.initialized = true := by
    rw [Writer.addData, hw.1] at h
    simp only at h
    have h1 := hok (w.withInfo t.info) f t
    split at h
    · rename_i w1 f1 e
      rw [e] at h1
      have := hap w1 f1 t
      rw [h] at this
      rw [this]
      exact h1 rfl
    · rw [h] at h1
      exact h1 rfl
  have := hall ts w' f2 hw'
  exact ⟨by rw [Writer.setHduName, if_pos this], by rw [Writer.addComment, if_pos this]⟩

/-- **C106**: a table with other columns than the first one is refused; neither the file nor the writer is changed. -/
theorem C106_other_columns (lib : Lib F D) (fmt : Fmt F D) (w : Writer) (info : Info) (hw : w.columnInfo = some info) (f : File F D T) (t : TableT F D) (h : ¬ Agree info t.info) :
    w.addData lib fmt f t = (w, f, .throw .elements) := by
  have : ¬ sameInfo info t.info = true := fun e => h ((C45_equal _ _).1 e)
  rw [Writer.addData, hw]
  simp only
  rw [if_neg this]

/-! ## Examples -/

/-- Libraries that convert nothing. -/
def plainLib : Lib Unit Unit :=
  ⟨id, fun _ => .text [], fun _ _ => .throw .library, fun _ _ => .throw .library, fun s => match s with | .bool => false | .i32 => 0 | .i64 => 0 | .f32 => () | .f64 => ()⟩

def plainFmt : Fmt Unit Unit := ⟨⟨fun _ => [], fun _ => none⟩, ⟨fun _ => [], fun _ => none⟩⟩

/-- A table with the columns `info`. -/
def tableOf (info : Info) (rows : List (List (Cell Unit Unit))) : TableT Unit Unit := ⟨rows.map fun r => ⟨r, info⟩, info⟩

def exInfo : Info := [⟨['n'], .scalar .i32, [], []⟩, ⟨['s'], .str, ['m'], "text".toList⟩, ⟨['v'], .vec .i64, [], []⟩]

def exA : TableT Unit Unit := tableOf exInfo [[.scalar .i32 1, .str "abc".toList, .vec .i64 [1, 2]], [.scalar .i32 2, .str ['x'], .vec .i64 [3, 4]]]
def exB : TableT Unit Unit := tableOf exInfo [[.scalar .i32 3, .str "yz".toList, .vec .i64 [5, 6]]]

theorem exInfo_good : GoodInfo exInfo := ⟨by decide, by decide⟩

theorem exInfo_names : ∀ d ∈ exInfo, d.name ≠ [] ∧ OneLine d.name := by
  intro d hd
  simp only [exInfo, List.mem_cons, List.not_mem_nil, or_false] at hd
  rcases hd with rfl | rfl | rfl <;> exact ⟨by decide, (hasVertical_iff _).1 (by decide +kernel)⟩

theorem exA_proper : Proper exA := by
  refine ⟨by simp [exA, tableOf], exInfo_good, exInfo_names, ?_⟩
  intro r hr
  simp only [exA, tableOf, List.map_cons, List.map_nil, List.mem_cons, List.not_mem_nil, or_false] at hr
  rcases hr with rfl | rfl
  · refine ⟨.cons rfl (.cons rfl (.cons rfl .nil)), ?_⟩
    intro s hs
    simp only [List.mem_cons, Cell.str.injEq, reduceCtorEq, List.not_mem_nil, or_false, false_or] at hs
    subst hs
    exact ⟨by decide, (hasVertical_iff _).1 (by decide +kernel)⟩
  · refine ⟨.cons rfl (.cons rfl (.cons rfl .nil)), ?_⟩
    intro s hs
    simp only [List.mem_cons, Cell.str.injEq, reduceCtorEq, List.not_mem_nil, or_false, false_or] at hs
    subst hs
    exact ⟨by decide, (hasVertical_iff _).1 (by decide +kernel)⟩

theorem exB_proper : Proper exB := by
  refine ⟨by simp [exB, tableOf], exInfo_good, exInfo_names, ?_⟩
  intro r hr
  simp only [exB, tableOf, List.map_cons, List.map_nil, List.mem_cons, List.not_mem_nil, or_false] at hr
  subst hr
  refine ⟨.cons rfl (.cons rfl (.cons rfl .nil)), ?_⟩
  intro s hs
  simp only [List.mem_cons, Cell.str.injEq, reduceCtorEq, List.not_mem_nil, or_false, false_or] at hs
  subst hs
  exact ⟨by decide, (hasVertical_iff _).1 (by decide +kernel)⟩

theorem exA_storable : StorableT exA := by
  intro j d hd
  match j, hd with
  | 0, hd => cases hd; trivial
  | 1, hd =>
    cases hd
    have e : column exA 1 = [.str "abc".toList, .str ['x']] := rfl
    rw [e]
    refine ⟨?_, "abc".toList, by simp, by decide⟩
    intro s hs
    simp only [List.mem_cons, Cell.str.injEq, List.not_mem_nil, or_false] at hs
    rcases hs with rfl | rfl <;> decide
  | 2, hd =>
    cases hd
    have e : column exA 2 = [.vec .i64 [1, 2], .vec .i64 [3, 4]] := rfl
    rw [e]
    refine ⟨by decide, 2, by decide, by decide, ?_⟩
    intro s v hv
    simp only [List.mem_cons, Cell.vec.injEq, List.not_mem_nil, or_false] at hv
    rcases hv with ⟨rfl, h⟩ | ⟨rfl, h⟩ <;> cases h <;> rfl
  | j + 3, hd => simp [exA, tableOf, exInfo] at hd

theorem exB_fits : FitsInT exA exB := by
  intro j d hd
  match j, hd with
  | 0, hd => cases hd; trivial
  | 1, hd =>
    cases hd
    have e : column exA 1 = [.str "abc".toList, .str ['x']] := rfl
    have e' : column exB 1 = [.str "yz".toList] := rfl
    rw [e, e']
    intro s hs
    simp only [List.mem_cons, Cell.str.injEq, List.not_mem_nil, or_false] at hs
    subst hs
    exact ⟨by decide, "abc".toList, by simp, by decide⟩
  | 2, hd =>
    cases hd
    have e : column exA 2 = [.vec .i64 [1, 2], .vec .i64 [3, 4]] := rfl
    have e' : column exB 2 = [.vec .i64 [5, 6]] := rfl
    rw [e, e']
    intro s v s0 v0 hv hv0
    simp only [List.mem_cons, Cell.vec.injEq, List.not_mem_nil, or_false] at hv hv0
    obtain ⟨rfl, h⟩ := hv
    cases h
    rcases hv0 with ⟨rfl, h⟩ | ⟨rfl, h⟩ <;> cases h <;> rfl
  | j + 3, hd => simp [exA, tableOf, exInfo] at hd

/-- Two chunks in a file with an image, and a third by another writer after a table was added. -/
example (fmt : Fmt Unit Unit) (later : File Unit Unit Int) :
    ∃ w' tab, Writer.addAll plainLib fmt [exA, exB] { override := false, hduName := "cat".toList, comments := ["made".toList] } [Ext.image "img".toList 1 [2] [(7 : Int), 8]] =
        (w', [.image "img".toList 1 [2] [7, 8], .table tab], .ok ()) ∧
      ∃ w2' tab', Writer.addAll plainLib fmt [exB] { override := false, hduName := "cat".toList } (.image "img".toList 1 [2] [7, 8] :: .table tab :: later) =
        (w2', .image "img".toList 1 [2] [7, 8] :: .table tab' :: later, .ok ()) ∧
      Reads plainLib (.image "img".toList 1 [2] [7, 8] :: .table tab' :: later) 2 "cat".toList exInfo
        ([[.scalar .i32 1, .str "abc".toList, .vec .i64 [1, 2]], [.scalar .i32 2, .str ['x'], .vec .i64 [3, 4]]] ++
          [[.scalar .i32 3, .str "yz".toList, .vec .i64 [5, 6]]] ++ [[.scalar .i32 3, .str "yz".toList, .vec .i64 [5, 6]]]) := by
  have hB : ∀ t ∈ [exB], Proper t ∧ Agree exA.info t.info ∧ FitsInT exA t := by
    intro t ht
    rw [List.mem_singleton.1 ht]
    exact ⟨exB_proper, rfl, exB_fits⟩
  obtain ⟨w', tab, h1, h2⟩ := C106_append_partial plainLib fmt { override := false, hduName := "cat".toList, comments := ["made".toList] } ⟨rfl, rfl⟩
    [Ext.image "img".toList 1 [2] [(7 : Int), 8]] exA [exB] exA_proper exA_storable (fun d _ => ⟨rfl, rfl, rfl⟩) rfl hB (by
      intro e he
      rw [base, if_neg (by decide), List.mem_singleton] at he
      subst he
      decide) { override := false, hduName := "cat".toList } ⟨rfl, rfl⟩ rfl rfl [exB] hB
  obtain ⟨w2', tab', h3, _, _, h4⟩ := h2 later
  exact ⟨w', tab, h1, w2', tab', h3, h4⟩

example : let r := Writer.addData (T := Unit) plainLib plainFmt { override := true, hduName := ['t'] } [] exA
    r.2.2 = .ok () ∧ (r.1.setHduName ['u'] = .throw .elements) ∧ (Writer.setHduName { override := true } ['u']) = .ok { override := true, hduName := ['u'] } := ⟨rfl, rfl, rfl⟩

example : let r := Writer.addData (T := Unit) plainLib plainFmt { override := true, hduName := ['t'] } [] exA
    r.1.addData plainLib plainFmt r.2.1 (tableOf [⟨['n'], .scalar .i32, [], []⟩] [[.scalar .i32 1]]) = (r.1, r.2.1, .throw .elements) :=
  C106_other_columns plainLib plainFmt _ exInfo rfl _ _ (by unfold Agree; decide)

/-! ## Where the code does not do what is expected -/

/-- The statement without the restrictions on the cells: tables that the writer accepts come back. -/
def C106_full : Prop :=
  ∀ (lib : Lib Unit Unit) (fmt : Fmt Unit Unit) (w : Writer) (f : File Unit Unit Unit) (t0 : TableT Unit Unit) (ts : List (TableT Unit Unit)) (w' : Writer) (f' : File Unit Unit Unit),
    Fresh w → Proper t0 → Kept lib t0.info → lib.text w.hduName = w.hduName → (∀ t ∈ ts, Proper t ∧ Agree t0.info t.info) → (∀ e ∈ base w f, e.name ≠ w.hduName) →
    w.addAll lib fmt (t0 :: ts) f = (w', f', .ok ()) →
    Reads lib f' ((base w f).length + 1) w.hduName t0.info (allRows (t0 :: ts))

def strInfo : Info := [⟨['s'], .str, [], []⟩]

theorem str_proper (s : Bytes) (h : s ≠ []) (ho : hasVertical s = false) : Proper (tableOf strInfo [[.str s]]) := by
  refine ⟨by simp [tableOf], (⟨by decide, by decide⟩ : GoodInfo strInfo), ?_, ?_⟩
  · intro d hd
    simp only [tableOf, strInfo, List.mem_cons, List.not_mem_nil, or_false] at hd
    subst hd
    exact ⟨by decide, (hasVertical_iff _).1 (by decide)⟩
  · intro r hr
    simp only [tableOf, List.map_cons, List.map_nil, List.mem_cons, List.not_mem_nil, or_false] at hr
    subst hr
    refine ⟨.cons rfl .nil, ?_⟩
    intro s' hs
    simp only [List.mem_cons, Cell.str.injEq, List.not_mem_nil, or_false] at hs
    subst hs
    exact ⟨h, (hasVertical_iff _).1 ho⟩

def cellText : Cell Unit Unit → Bytes
  | .str s => s
  | _ => []

/-- The texts in the first extension. -/
def texts (f : File Unit Unit Unit) : List (List Bytes) :=
  match openIndex plainLib f 1 with
  | .ok h => match readTable h with
    | .ok t => t.rows.map fun r => r.values.map cellText
    | _ => []
  | _ => []

/-- The width of a column of strings is that of the first table: "abcd" in the second table comes back as "ab". -/
theorem C106_cut_violated : ¬ C106_full := by
  intro h
  let r := Writer.addAll (T := Unit) plainLib plainFmt [tableOf strInfo [[.str "ab".toList]], tableOf strInfo [[.str "abcd".toList]]] { override := true } []
  have hr : r.2.2 = .ok () := rfl
  have ht : texts r.2.1 = [["ab".toList], ["ab".toList]] := by decide +kernel
  obtain ⟨hd, h1, _, _, _, h4⟩ := h plainLib plainFmt { override := true } [] (tableOf strInfo [[.str "ab".toList]]) [tableOf strInfo [[.str "abcd".toList]]] r.1 r.2.1 ⟨rfl, rfl⟩
    (str_proper _ (by decide) (by decide)) (fun d _ => ⟨rfl, rfl, rfl⟩) rfl (by
      intro t ht
      rw [List.mem_singleton.1 ht]
      exact ⟨str_proper _ (by decide) (by decide), rfl⟩) (by intro e he; cases he) (by
      show r = _
      rw [← hr])
  have h1' : openIndex plainLib r.2.1 1 = .ok hd := h1
  rw [texts, h1'] at ht
  simp only at ht
  rw [h4] at ht
  revert ht
  decide +kernel

/-- An image with the name that the table shall have: a null pointer is dereferenced. -/
theorem C106_image_violated : (Writer.addData plainLib plainFmt { override := false, hduName := "cat".toList } [Ext.image "cat".toList 1 [2] [7, 8]] exA).2.2 = Outcome.ub := by
  rfl

/-- A first table that is refused (vectors of several sizes) leaves the writer unusable: the next one is refused too, though a new writer takes it. -/
theorem C106_retry_violated : let bad := tableOf [⟨['v'], .vec .i32, [], []⟩] [[.vec .i32 [1, 2]], [.vec .i32 [3]]]
    let good := tableOf [⟨['v'], .vec .i32, [], []⟩] [[.vec .i32 [1, 2]]]
    let w : Writer := { override := true }
    let r := w.addData (T := Unit) plainLib plainFmt [] bad
    r.2.2 = .throw .elements ∧ (r.1.addData plainLib plainFmt r.2.1 good).2.2 = .throw .library ∧ (w.addData (T := Unit) plainLib plainFmt [] good).2.2 = .ok () := by
  exact ⟨rfl, rfl, rfl⟩

/-- A column of empty vectors: `front` of an empty vector. -/
theorem C106_empty_vectors_violated :
    (Writer.addData (T := Unit) plainLib plainFmt { override := true } [] (tableOf [⟨['v'], .vec .i32, [], []⟩] [[.vec .i32 []]])).2.2 = .ub := by
  rfl

/-- A column of vectors of `bool` is refused, but only after the extension was made: a table without rows stays in the file. -/
theorem C106_bool_vectors_violated :
    let r := Writer.addData (T := Unit) plainLib plainFmt { override := true, hduName := ['t'] } [] (tableOf [⟨['v'], .vec .bool, [], []⟩] [[.vec .bool [true, false]]])
    r.2.2 = .throw .elements ∧ r.2.1.map Ext.name = [['t']] := by
  exact ⟨rfl, rfl⟩

end Alexandria.Table.Fits
