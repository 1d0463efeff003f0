import Verif.Table.FitsFileLemmas

/-!
# Lemmas about the steps of `FitsWriter` (C106)
-/

namespace Alexandria.Table.Fits

open Alexandria.Str Spec

variable {F D T : Type}

theorem agree_length {a b : Info} (h : Agree a b) : a.length = b.length := by
  have := congrArg List.length h
  simpa using this

theorem agree_type {a b : Info} (h : Agree a b) (j : Nat) (d d' : Desc) (h1 : a[j]? = some d) (h2 : b[j]? = some d') : d.type = d'.type := by
  have := congrArg (fun l => l[j]?) h
  simp only [List.getElem?_map, h1, h2, Option.map_some, Option.some.injEq, Prod.mk.injEq] at this
  exact this.2.1

/-- The state of a file with a table that a writer has started, and the headers that were made for the first table. -/
structure Made (info : Info) (first : TableT F D) (hs : List Head) : Prop where
  heads : HeadsFor info hs
  takes : ∀ (j : Nat) (d : Desc) (h : Head), info[j]? = some d → hs[j]? = some h → ∀ xs, FitsIn d.type (column first j) xs → ∀ x ∈ xs, x.type = d.type → Takes h x

theorem accept_of (info : Info) (first : TableT F D) (hs : List Head) (hm : Made info first hs) (hf : first.info = info) (t : TableT F D) (hp : Proper t) (ha : Agree info t.info)
    (hfit : FitsInT first t) : Accept info hs (t.rows.map fun r => r.values) := by
  intro j d h hd hh c hc
  rw [← column_eq] at hc
  have hlen := agree_length ha
  have hj : j < t.info.length := by rw [← hlen]; exact (List.getElem?_eq_some_iff.1 hd).1
  have hd' : t.info[j]? = some t.info[j] := List.getElem?_eq_getElem hj
  have ht := column_types t hp.cells j _ hd' c hc
  rw [← agree_type ha j d _ hd hd'] at ht
  exact ⟨hm.takes j d h hd hh (column t j) (hfit j d (by rw [hf]; exact hd)) c hc ht, ht⟩

theorem append_ok (lib : Lib F D) (info : Info) (first : TableT F D) (hs : List Head) (hm : Made info first hs) (hf : first.info = info) (t : TableT F D) (hp : Proper t)
    (ha : Agree info t.info) (hfit : FitsInT first t) (name : Bytes) (com : List Bytes) (R : List (List (Cell F D))) (hR : ∀ r ∈ R, r.length = info.length)
    (w : Writer) (pre post : File F D T) (hi : w.hduIndex = some (pre.length + 1)) (hc : w.currentLine = R.length + 1) :
    w.append lib (pre ++ .table (tabOf name com hs R) :: post) t =
      (w.atLine ((R ++ t.rows.map fun r => r.values).length + 1), pre ++ .table (tabOf name com hs (R ++ t.rows.map fun r => r.values)) :: post, .ok ()) := by
  have hlen := agree_length ha
  have hl : info.length = hs.length := hm.heads.length_eq
  have hN : ∀ r ∈ t.rows.map (fun r => r.values), r.length = info.length := by rw [hlen]; exact row_lengths t hp.cells
  have hacc := accept_of info first hs hm hf t hp ha hfit
  have hpop := populateAll_ok lib t R (t.rows.map fun r => r.values) rfl info.length hR hN (by simpa using hp.rows) name 1 com hs 0 [] rfl (by omega) (by
    intro j h hj
    rw [Nat.zero_add]
    have hjl : j < info.length := by rw [hl]; exact (List.getElem?_eq_some_iff.1 hj).1
    have hd' : t.info[j]? = some (t.info[j]'(by omega)) := List.getElem?_eq_getElem _
    have hd : info[j]? = some info[j] := List.getElem?_eq_getElem _
    refine ⟨_, hd', fun c hcm => ?_⟩
    have := hacc j _ h hd hj c hcm
    rw [← agree_type ha j _ _ hd hd']
    exact this)
  rw [List.nil_append, List.nil_append] at hpop
  have hget : (pre ++ Ext.table (tabOf name com hs R) :: post)[pre.length + 1 - 1]? = some (Ext.table (tabOf name com hs R)) := by simp
  have hset : ∀ x : Ext F D T, (pre ++ Ext.table (tabOf name com hs R) :: post).set (pre.length + 1 - 1) x = pre ++ x :: post := by
    intro x; simp
  have hp' : populateAll lib t w.currentLine t.info.length 0 (tabOf name com hs R) = (tabOf name com hs (R ++ t.rows.map fun r => r.values), .ok ()) := by
    rw [hc, ← hlen, hl]; exact hpop
  rw [Writer.append, hi]
  simp only
  rw [hget]
  simp only
  rw [hp']
  simp only
  rw [hset, hc]
  congr 2
  simp; omega

theorem addAll_ok (lib : Lib F D) (fmt : Fmt F D) (info : Info) (first : TableT F D) (hs : List Head) (hm : Made info first hs) (hf : first.info = info) (name : Bytes)
    (com : List Bytes) (pre post : File F D T) (info' : Info) (ha' : Agree info' info) :
    ∀ (ts : List (TableT F D)) (w : Writer) (R : List (List (Cell F D))), (∀ t ∈ ts, Proper t ∧ Agree info t.info ∧ FitsInT first t) → (∀ r ∈ R, r.length = info.length) →
      w.hduIndex = some (pre.length + 1) → w.currentLine = R.length + 1 → w.columnInfo = some info' →
      w.addAll lib fmt ts (pre ++ .table (tabOf name com hs R) :: post) =
        (w.atLine ((R ++ allRows ts).length + 1), pre ++ .table (tabOf name com hs (R ++ allRows ts)) :: post, .ok ()) := by
  intro ts
  induction ts with
  | nil =>
    intro w R _ _ _ hc _
    rw [Writer.addAll, allRows, List.flatMap_nil, List.append_nil, ← hc]
    rfl
  | cons t ts ih =>
    intro w R ht hR hi hc hcol
    obtain ⟨h1, h2, h3⟩ := ht t (by simp)
    have hsame : sameInfo info' t.info = true := (C45_equal _ _).2 (by rw [Agree, ha', h2])
    have hstep : w.addData lib fmt (pre ++ .table (tabOf name com hs R) :: post) t =
        (w.atLine ((R ++ t.rows.map fun r => r.values).length + 1), pre ++ .table (tabOf name com hs (R ++ t.rows.map fun r => r.values)) :: post, .ok ()) := by
      rw [Writer.addData, hcol]
      simp only
      rw [hsame, if_pos rfl]
      exact append_ok lib info first hs hm hf t h1 h2 h3 name com R hR w pre post hi hc
    rw [Writer.addAll, hstep]
    simp only
    rw [ih (w.atLine ((R ++ t.rows.map fun r => r.values).length + 1)) (R ++ t.rows.map fun r => r.values) (fun x hx => ht x (List.mem_cons_of_mem _ hx)) ?_ hi rfl hcol]
    · rw [allRows, allRows, List.flatMap_cons, List.append_assoc]
      rfl
    · intro r hr
      rcases List.mem_append.1 hr with hr | hr
      · exact hR r hr
      · rw [agree_length h2]; exact row_lengths t h1.cells r hr

theorem accept_append (info : Info) (hs : List Head) (R S : List (List (Cell F D))) (h1 : Accept info hs R) (h2 : Accept info hs S) : Accept info hs (R ++ S) := by
  intro j d h hd hh c hc
  rw [colOf_append] at hc
  rcases List.mem_append.1 hc with hc | hc
  · exact h1 j d h hd hh c hc
  · exact h2 j d h hd hh c hc

theorem accept_all (info : Info) (first : TableT F D) (hs : List Head) (hm : Made info first hs) (hf : first.info = info) (ts : List (TableT F D))
    (ht : ∀ t ∈ ts, Proper t ∧ Agree info t.info ∧ FitsInT first t) : Accept info hs (allRows ts) := by
  induction ts with
  | nil => intro j d h _ _ c hc; simp [allRows, colOf] at hc
  | cons t ts ih =>
    obtain ⟨h1, h2, h3⟩ := ht t (by simp)
    rw [allRows, List.flatMap_cons]
    exact accept_append info hs _ _ (accept_of info first hs hm hf t h1 h2 h3) (ih fun x hx => ht x (List.mem_cons_of_mem _ hx))

theorem allRows_good (info : Info) (ts : List (TableT F D)) (ht : ∀ t ∈ ts, Proper t ∧ Agree info t.info) : ∀ r ∈ allRows ts, GoodCells info r := by
  intro r hr
  simp only [allRows, List.mem_flatMap, List.mem_map] at hr
  obtain ⟨t, htm, x, hx, rfl⟩ := hr
  obtain ⟨h1, h2⟩ := ht t htm
  obtain ⟨h3, h4⟩ := h1.cells x hx
  refine ⟨?_, h4⟩
  rw [List.forall₂_iff_get] at h3 ⊢
  obtain ⟨hl, h5⟩ := h3
  have hlen := agree_length h2
  refine ⟨by omega, fun i hi1 hi2 => ?_⟩
  have h6 := h5 i hi1 (by omega)
  simp only [List.get_eq_getElem] at h6 ⊢
  rw [h6]
  exact (agree_type h2 i _ _ (List.getElem?_eq_getElem hi2) (List.getElem?_eq_getElem (by omega))).symm

/-- All the rows are read. -/
theorem readTable_ok (h : Hdu F D) (R : List (List (Cell F D))) (hh : Holds h R) (hne : R ≠ []) (hg : ∀ r ∈ R, GoodCells h.info r) :
    readTable h = .ok ⟨R.map fun r => ⟨r, h.info⟩, h.info⟩ := by
  have h0 : Left R ({} : FitsReader) R := ⟨by decide, by simp⟩
  have := (read_ok h (fun _ => true) R hh {} R h0 (-1) (by omega)).2
  rw [wanted, if_pos rfl, List.take_length] at this
  exact this.1 ⟨hne, hg⟩

theorem findExt_none (f : File F D T) (name : Bytes) (h : ∀ e ∈ f, e.name ≠ name) : findExt f name = none := by
  have : f.findIdx? (fun e => e.name == name) = none := by
    rw [List.findIdx?_eq_none_iff]
    intro e he
    simpa using h e he
  rw [findExt, this]

theorem findExt_some (pre post : File F D T) (e : Ext F D T) (h : ∀ x ∈ pre, x.name ≠ e.name) (hv : e.version = 1) :
    findExt (pre ++ e :: post) e.name = some pre.length := by
  have : (pre ++ e :: post).findIdx? (fun x => x.name == e.name) = some pre.length := by
    rw [List.findIdx?_append, List.findIdx?_eq_none_iff.2 (by intro x hx; simpa using h x hx)]
    simp [List.findIdx?_cons]
  rw [findExt, this]
  simp [hv]

/-- A writer that has not started. -/
def Fresh (w : Writer) : Prop := w.columnInfo = none ∧ w.initialized = false

/-- What is in a file before the table: nothing if the file is replaced. -/
def base (w : Writer) (f : File F D T) : File F D T := if w.override then [] else f

/-- The tables were accepted: the writer is in the state after them. -/
theorem addAll_fresh (lib : Lib F D) (fmt : Fmt F D) (w : Writer) (hw : Fresh w) (f : File F D T) (t0 : TableT F D) (ts : List (TableT F D))
    (h0 : Proper t0) (hst : StorableT t0) (hk : Kept lib t0.info) (hkn : lib.text w.hduName = w.hduName)
    (hts : ∀ t ∈ ts, Proper t ∧ Agree t0.info t.info ∧ FitsInT t0 t) (hnew : ∀ e ∈ base w f, e.name ≠ w.hduName) :
    ∃ w' hs, Made t0.info t0 hs ∧ w.addAll lib fmt (t0 :: ts) f = (w', base w f ++ [.table (tabOf w.hduName w.comments hs (allRows (t0 :: ts)))], .ok ()) ∧
      w'.initialized = true ∧ Accept t0.info hs (allRows (t0 :: ts)) := by
  obtain ⟨hs, h1, h2, h3⟩ := heads_ok lib fmt t0 h0 hst hk
  have hm : Made t0.info t0 hs := ⟨h2, h3⟩
  have hall : ∀ t ∈ t0 :: ts, Proper t ∧ Agree t0.info t.info ∧ FitsInT t0 t := by
    intro t ht
    rcases List.mem_cons.1 ht with rfl | ht
    · exact ⟨h0, rfl, fun j d hd => storable_self d.type _ (hst j d hd)⟩
    · exact hts t ht
  have hinit : Writer.init lib fmt (w.withInfo t0.info) f t0 =
      (Writer.started (w.withInfo t0.info) ((base w f).length + 1) 1, base w f ++ [.table (tabOf w.hduName w.comments hs [])], .ok ()) := by
    have hb : (if (w.withInfo t0.info).override = true then ([] : File F D T) else f) = base w f := rfl
    have hn : findExt (base w f) (w.withInfo t0.info).hduName = none := findExt_none _ _ hnew
    rw [Writer.init, h1, hb]
    simp only [hn]
    rw [show (w.withInfo t0.info).hduName = w.hduName from rfl, show (w.withInfo t0.info).comments = w.comments from rfl, hkn, tabOf, colsFrom_nil]
  have happ := append_ok lib t0.info t0 hs hm rfl t0 h0 rfl (hall t0 (by simp)).2.2 w.hduName w.comments [] (by simp)
    (Writer.started (w.withInfo t0.info) ((base w f).length + 1) 1) (base w f) [] rfl rfl
  rw [List.nil_append] at happ
  have hadd : w.addData lib fmt f t0 = Writer.append lib (Writer.started (w.withInfo t0.info) ((base w f).length + 1) 1)
      (base w f ++ [.table (tabOf w.hduName w.comments hs [])]) t0 := by
    rw [Writer.addData, hw.1]
    simp only [hinit]
  rw [happ] at hadd
  have hrest := addAll_ok lib fmt t0.info t0 hs hm rfl w.hduName w.comments (base w f) [] t0.info rfl ts
    ((Writer.started (w.withInfo t0.info) ((base w f).length + 1) 1).atLine ((t0.rows.map fun r => r.values).length + 1))
    (t0.rows.map fun r => r.values) (fun t ht => hall t (List.mem_cons_of_mem _ ht)) (row_lengths t0 h0.cells) rfl rfl rfl
  refine ⟨((Writer.started (w.withInfo t0.info) ((base w f).length + 1) 1).atLine ((t0.rows.map fun r => r.values).length + 1)).atLine
    ((t0.rows.map fun r => r.values).length + (allRows ts).length + 1), hs, hm, ?_, rfl, accept_all t0.info t0 hs hm rfl (t0 :: ts) hall⟩
  rw [Writer.addAll, hadd]
  simp only
  rw [hrest, List.length_append]
  rfl

end Alexandria.Table.Fits
