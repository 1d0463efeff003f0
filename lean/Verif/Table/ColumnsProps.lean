import Verif.Table.SharedProps

/-!
# The columns that a reader finds, for every text (C150), and readers that continue (C158)
-/

namespace Alexandria.Table

open Alexandria.Str

variable {F D : Type}

/-! ## Specification -/

namespace Spec

/-- The descriptions of columns in the comments of a header, in order; those without a text after `Column:` do not count. A name may be described once. -/
def described : List Bytes → List Desc → Res (List Desc)
  | [], found => .ok found
  | c :: rest, found =>
    if "Column:".toList <+: c ∧ trim (c.drop 7) ≠ [] then do
      let d ← parseDescription (found.map Desc.name) (trim (c.drop 7))
      described rest (found ++ [d])
    else described rest found

/-- A column: what the header says about the name in the header, with the name and the type that were set. -/
def column (found : List Desc) (headerName name : Bytes) (type : Option CType) : Desc :=
  match found.find? fun d => d.name == headerName with
  | some d => ⟨name, type.getD d.type, d.unit, d.description⟩
  | none => ⟨name, type.getD .str, [], []⟩

open Classical in
/-- The columns of a text with the comments of its header and the data lines, if `names` and `types` were set (empty if not). -/
noncomputable def columns (names : List Bytes) (types : List CType) (comments : List Bytes) : List Bytes → Res Info
  | [] => .throw .elements
  | line :: _ =>
    let n := (tokens line).length
    let header := columnNames comments n
    if n = 0 ∨ (names ≠ [] ∧ names.length ≠ n) ∨ (types ≠ [] ∧ types.length ≠ n) ∨ ¬ header.Nodup then .throw .elements
    else do
      let found ← described comments []
      let info := (List.range n).map fun i => column found (header.getD i []) ((if names = [] then header else names).getD i []) types[i]?
      if (∀ d ∈ info, GoodDesc d) ∧ (info.map Desc.name).Nodup then .ok info else .throw .elements

end Spec

/-! ## Lemmas -/

theorem described_loop (comment : Bytes) : ∀ (lines : List Bytes) (found : List Desc),
    (match (loop (fun (a : List Desc × Bool) => !a.2) (descriptionsBody comment) lines (found, false)).2 with
      | .ok a => .ok a.1
      | .throw e => .throw e
      | .ub => .ub) =
    Spec.described ((((lines.map trim).filter fun l => l ≠ []).takeWhile fun l => comment.isPrefixOf l).map fun l => trim (removeAll comment 0 l)) found := by
  intro lines
  induction lines with
  | nil => intro found; rfl
  | cons l lines ih =>
    intro found
    rw [loop, if_pos (by rfl), descriptionsBody]
    by_cases h1 : trim l = []
    · simp only [h1, if_true]
      have hl : (((l :: lines).map trim).filter fun l => l ≠ []) = ((lines.map trim).filter fun l => l ≠ []) := by simp [h1]
      rw [hl]
      exact ih found
    · simp only [h1, if_false]
      by_cases h2 : comment <+: trim l
      · have h2' : comment.isPrefixOf (trim l) = true := List.isPrefixOf_iff_prefix.2 h2
        simp only [h2, if_true]
        have hl : ((((l :: lines).map trim).filter fun l => l ≠ []).takeWhile fun l => comment.isPrefixOf l).map (fun l => trim (removeAll comment 0 l)) =
            trim (removeAll comment 0 (trim l)) :: ((((lines.map trim).filter fun l => l ≠ []).takeWhile fun l => comment.isPrefixOf l).map fun l => trim (removeAll comment 0 l)) := by
          simp [h1, h2']
        rw [hl, Spec.described]
        by_cases h3 : "Column:".toList <+: trim (removeAll comment 0 (trim l))
        · rw [if_pos h3]
          by_cases h4 : trim ((trim (removeAll comment 0 (trim l))).drop 7) = []
          · rw [if_pos h4, if_neg (fun h => h.2 h4)]
            exact ih found
          · rw [if_neg h4, if_pos ⟨h3, h4⟩]
            cases parseDescription (found.map Desc.name) (trim ((trim (removeAll comment 0 (trim l))).drop 7)) with
            | throw e => rfl
            | ub => rfl
            | ok d => exact ih (found ++ [d])
        · rw [if_neg h3, if_neg (fun h => h3 h.1)]
          exact ih found
      · have h2' : comment.isPrefixOf (trim l) = false := by
          rw [Bool.eq_false_iff]; exact fun h => h2 (List.isPrefixOf_iff_prefix.1 h)
        simp only [h2, if_false]
        have hl : ((((l :: lines).map trim).filter fun l => l ≠ []).takeWhile fun l => comment.isPrefixOf l) = [] := by
          simp [h1, h2']
        rw [hl, loop_stop _ _ _ _ (by rfl)]
        rfl

theorem detectDescriptions_eq (text comment : Bytes) : detectDescriptions text comment {} = Spec.described (headerComments comment text) [] := by
  have hw := whileLines_eq text (fun (a : List Desc × Bool) => !a.2) (descriptionsBody comment) (fun a => rfl) (lineFuel text) (afterTell {}) ([], false) (fuel_ok _ _)
  have hat : afterTell ({} : Stream) = {} := by decide
  have hleft : linesLeft text {} = splitChar '\n' text := by rw [linesLeft, if_neg (by simp)]; rfl
  rw [detectDescriptions, hw.1, hat, hleft]
  exact described_loop comment (splitChar '\n' text) []

theorem mkDesc_cases (n : Bytes) (t : CType) (u d : Bytes) : (GoodDesc ⟨n, t, u, d⟩ → mkDesc n t u d = .ok ⟨n, t, u, d⟩) ∧ (¬ GoodDesc ⟨n, t, u, d⟩ → mkDesc n t u d = .throw .elements) := by
  refine ⟨fun h => (mkDesc_iff n t u d).2 h, fun h => ?_⟩
  rw [mkDesc]
  by_cases h1 : n = []
  · rw [if_pos h1]
  rw [if_neg h1]
  by_cases h2 : hasVertical n = true
  · rw [if_pos h2]
  · exfalso
    refine h ⟨h1, (hasVertical_iff n).1 (by simpa using h2)⟩

theorem infoLoop_exact (names autoNames : List Bytes) (types : List CType) (found : List Desc) : ∀ (k i : Nat), i + k ≤ autoNames.length →
    (names ≠ [] → i + k ≤ names.length) → (types ≠ [] → i + k ≤ types.length) →
    ((∀ d ∈ (List.range' i k).map fun j => Spec.column found (autoNames.getD j []) ((if names = [] then autoNames else names).getD j []) types[j]?, GoodDesc d) →
      infoLoop names autoNames types found k i =
        .ok ((List.range' i k).map fun j => Spec.column found (autoNames.getD j []) ((if names = [] then autoNames else names).getD j []) types[j]?)) ∧
    (¬ (∀ d ∈ (List.range' i k).map fun j => Spec.column found (autoNames.getD j []) ((if names = [] then autoNames else names).getD j []) types[j]?, GoodDesc d) →
      infoLoop names autoNames types found k i = .throw .elements) := by
  intro k
  induction k with
  | zero => intro i _ _ _; exact ⟨fun _ => rfl, fun h => absurd (by simp) h⟩
  | succ k ih =>
    intro i h1 h2 h3
    have ih := ih (i + 1) (by omega) (fun h => by have := h2 h; omega) (fun h => by have := h3 h; omega)
    rw [List.range'_succ, List.map_cons]
    have e1 : autoNames[i]? = some (autoNames.getD i []) := by
      rw [List.getD_eq_getElem?_getD, List.getElem?_eq_getElem (by omega)]; rfl
    have e2 : (if names = [] then autoNames else names)[i]? = some ((if names = [] then autoNames else names).getD i []) := by
      by_cases hn : names = []
      · rw [if_pos hn]; exact e1
      · have := h2 hn
        rw [if_neg hn, List.getD_eq_getElem?_getD, List.getElem?_eq_getElem (by omega)]; rfl
    have hstep : infoLoop names autoNames types found (k + 1) i =
        (mkDesc (Spec.column found (autoNames.getD i []) ((if names = [] then autoNames else names).getD i []) types[i]?).name
          (Spec.column found (autoNames.getD i []) ((if names = [] then autoNames else names).getD i []) types[i]?).type
          (Spec.column found (autoNames.getD i []) ((if names = [] then autoNames else names).getD i []) types[i]?).unit
          (Spec.column found (autoNames.getD i []) ((if names = [] then autoNames else names).getD i []) types[i]?).description >>= fun d =>
            infoLoop names autoNames types found k (i + 1) >>= fun rest => pure (d :: rest)) := by
      rw [infoLoop, e1, e2]
      simp only
      generalize autoNames.getD i [] = auto
      generalize (if names = [] then autoNames else names).getD i [] = name
      rw [Spec.column]
      by_cases ht : types = []
      · subst ht
        cases found.find? (fun d => d.name == auto) <;> simp
      · have := h3 ht
        have e4 : types[i]? = some types[i] := List.getElem?_eq_getElem (by omega)
        rw [if_neg ht, e4]
        cases found.find? (fun d => d.name == auto) <;> simp
    rw [hstep]
    generalize Spec.column found (autoNames.getD i []) ((if names = [] then autoNames else names).getD i []) types[i]? = d
    have hmk := mkDesc_cases d.name d.type d.unit d.description
    by_cases hd : GoodDesc d
    · rw [hmk.1 hd, Outcome.bind_ok]
      refine ⟨fun h => ?_, fun h => ?_⟩
      · rw [ih.1 (fun x hx => h x (List.mem_cons_of_mem _ hx))]; rfl
      · rw [ih.2 (fun hx => h fun x hm => (List.mem_cons.1 hm).elim (fun e => e ▸ hd) (hx x))]; rfl
    · rw [hmk.2 hd]
      exact ⟨fun h => absurd (h d List.mem_cons_self) hd, fun _ => rfl⟩

/-! ## C150 -/

/-- The columns that a reader finds, for every text, every comment indicator and whatever names and types were set, and when it throws instead. -/
theorem C150_exact (text : Bytes) (r : Reader) (hs : r.stream = {}) (hi : r.info = none) :
    (r.readColumnInfo text).2 = Spec.columns r.names r.types (headerComments r.comment text) (dataLines r.comment text) := by
  have hrw : rewind ({} : Stream) = {} := by decide
  have hcc := XYDataset.AsciiIO.countColumns_eq text r.comment
  rw [Reader.readColumnInfo, hi]
  simp only [hs, hrw]
  cases hl : dataLines r.comment text with
  | nil =>
    rw [hl] at hcc
    rw [hcc]
    rfl
  | cons line rest =>
    rw [hl] at hcc
    simp only at hcc
    rw [Spec.columns]
    by_cases h0 : (tokens line).length = 0
    · rw [if_pos h0] at hcc
      simp only [if_pos (show (tokens line).length = 0 ∨ _ from Or.inl h0)]
      rw [hcc]
    rw [if_neg h0] at hcc
    rw [hcc]
    generalize (tokens line).length = n at h0
    simp only
    by_cases h1 : r.names ≠ [] ∧ r.names.length ≠ n
    · rw [if_pos h1, if_pos (Or.inr (Or.inl h1))]
    rw [if_neg h1]
    by_cases h2 : r.types ≠ [] ∧ r.types.length ≠ n
    · rw [if_pos h2, if_pos (Or.inr (Or.inr (Or.inl h2)))]
    rw [if_neg h2]
    have hnames := C98_names text r.comment n
    by_cases h3 : (columnNames (headerComments r.comment text) n).Nodup
    swap
    · rw [hnames.2 h3, if_pos (Or.inr (Or.inr (Or.inr h3)))]
    rw [hnames.1 h3, if_neg (by rintro (h | h | h | h); exacts [h0 h, h1 h, h2 h, h h3])]
    simp only
    rw [detectDescriptions_eq]
    cases Spec.described (headerComments r.comment text) [] with
    | throw e => rfl
    | ub => rfl
    | ok found =>
      simp only [Outcome.bind_ok]
      have hlen : n ≤ (columnNames (headerComments r.comment text) n).length := by
        simp only [columnNames, List.length_append, List.length_map, List.length_drop, List.length_range]
        omega
      have hloop := infoLoop_exact r.names (columnNames (headerComments r.comment text) n) r.types found n 0 (by omega)
        (fun h => by have : r.names.length = n := by by_contra hx; exact h1 ⟨h, hx⟩
                     omega)
        (fun h => by have : r.types.length = n := by by_contra hx; exact h2 ⟨h, hx⟩
                     omega)
      rw [← List.range_eq_range'] at hloop
      have hlne : ((List.range n).map fun j => Spec.column found ((columnNames (headerComments r.comment text) n).getD j [])
          ((if r.names = [] then columnNames (headerComments r.comment text) n else r.names).getD j []) r.types[j]?) ≠ [] := by
        rw [ne_eq, List.map_eq_nil_iff, List.range_eq_nil]; exact h0
      generalize ((List.range n).map fun j => Spec.column found ((columnNames (headerComments r.comment text) n).getD j [])
          ((if r.names = [] then columnNames (headerComments r.comment text) n else r.names).getD j []) r.types[j]?) = l at hloop hlne
      by_cases h4 : ∀ d ∈ l, GoodDesc d
      · rw [hloop.1 h4, Outcome.bind_ok]
        by_cases h5 : (l.map Desc.name).Nodup
        · rw [(C45_info l).1 ⟨hlne, h5⟩, if_pos ⟨h4, h5⟩]
        · rw [(C45_info l).2 (fun h => h5 h.2), if_neg (fun h => h5 h.2)]
      · rw [hloop.2 h4, if_neg (fun h => h4 h.1)]
        rfl

/-! ## C158 -/

/-- A new reader that is given the names and types of the columns never reads anything else than the first one would have read: if its columns are found, the tables have the same cells;
they are found exactly if the next line has as many words as there are columns, the comments before it give no name twice, and the descriptions in them can be read. -/
theorem C158_continue (fmt : Fmt F D) (text : Bytes) (ht : text.length < 2 ^ 31) (r : Reader) (info : Info) (hi : r.info = some info) (hne : info ≠ [])
    (hn : Spec.Names (info.map Desc.name)) (hcm : r.comment ≠ []) (he : r.stream.eof = false) (hf : r.stream.fail = false) (hp : r.stream.pos ≤ text.length) (n : Int) :
    ∃ t, Reader.asks fmt text [.comment r.comment, .names (info.map Desc.name), .types (info.map Desc.type), .read n] { stream := r.stream } =
        [.done (.ok ()), .done (.ok ()), .done (.ok ()), .table t] ∧
      (((∃ line rest, left text r.comment r.stream = line :: rest ∧ (tokens line).length = info.length) ∧
          (columnNames (headerComments r.comment (text.drop r.stream.pos)) info.length).Nodup ∧
          ∃ found, Spec.described (headerComments r.comment (text.drop r.stream.pos)) [] = .ok found) ∧
        Spec.cells t = Spec.cells (r.read fmt text n).2 ∨
       ¬ ((∃ line rest, left text r.comment r.stream = line :: rest ∧ (tokens line).length = info.length) ∧
          (columnNames (headerComments r.comment (text.drop r.stream.pos)) info.length).Nodup ∧
          ∃ found, Spec.described (headerComments r.comment (text.drop r.stream.pos)) [] = .ok found) ∧
        ∀ table, t ≠ .ok table) := by
  obtain ⟨st, cm, sd, nm, ty, inf⟩ := r
  obtain ⟨p, e, f⟩ := st
  simp only at hi he hf hp hcm ⊢
  subst hi he hf
  have hleft : left text cm { pos := p } = dataLines cm (text.drop p) := by simp [left]
  rw [hleft]
  let r0 : Reader := { comment := cm, names := info.map Desc.name, types := info.map Desc.type }
  have h0 := C150_exact (text.drop p) r0 rfl rfl
  let r2 : Reader := { r0 with stream := { pos := p } }
  have h2 := (readColumnInfo_shift text ht p hp r0 hp).1
  have h2s : r0.shift p = r2 := rfl
  rw [h2s] at h2
  have h2o : (r2.readColumnInfo text).2 = Spec.columns (info.map Desc.name) (info.map Desc.type) (headerComments cm (text.drop p)) (dataLines cm (text.drop p)) := by
    rw [h2]; exact h0
  refine ⟨(r2.read fmt text n).2, ?_, ?_⟩
  · have a1 : ({ stream := { pos := p } } : Reader).setComment cm = .ok { stream := { pos := p }, comment := cm } := by
      rw [Reader.setComment, if_neg (by simp), if_neg hcm]
    have a2 : ({ stream := { pos := p }, comment := cm } : Reader).fixNames (info.map Desc.name) =
        ({ stream := { pos := p }, comment := cm, names := info.map Desc.name }, .ok ()) := by
      rw [Reader.fixNames, if_neg (by simp)]
      simp only [(fixLoop_names _).1 hn]
      rw [if_neg (by simp)]
    have a3 : ({ stream := { pos := p }, comment := cm, names := info.map Desc.name } : Reader).fixTypes (info.map Desc.type) = (r2, .ok ()) := by
      rw [Reader.fixTypes, if_neg (by simp)]
      simp only
      rw [if_neg (by simp)]
    simp only [Reader.asks, Reader.ask, a1, a2, a3]
  · by_cases hok : (∃ line rest, dataLines cm (text.drop p) = line :: rest ∧ (tokens line).length = info.length) ∧
        (columnNames (headerComments cm (text.drop p)) info.length).Nodup ∧ ∃ found, Spec.described (headerComments cm (text.drop p)) [] = .ok found
    · refine Or.inl ⟨hok, ?_⟩
      obtain ⟨⟨line, rest, hl, hw⟩, hd, found, hfd⟩ := hok
      have hlen0 : info.length ≠ 0 := fun h => hne (List.length_eq_zero_iff.1 h)
      -- the columns
      have hcols : ∃ info2, (r2.readColumnInfo text).2 = .ok info2 ∧ info2.map Desc.type = info.map Desc.type := by
        rw [h2o, hl, Spec.columns]
        generalize (tokens line).length = m at hw ⊢
        subst hw
        simp only
        rw [if_neg (by simp only [List.length_map]; rintro (h | h | h | h); exacts [hlen0 h, h.2 rfl, h.2 rfl, h hd]), hfd, Outcome.bind_ok]
        have hnn : info.map Desc.name ≠ [] := by simpa using hne
        have hcolname : ∀ (a b : Bytes) (t : Option CType), (Spec.column found a b t).name = b := by
          intro a b t
          rw [Spec.column]
          cases found.find? (fun d => d.name == a) <;> rfl
        have hcoltype : ∀ (a b : Bytes) (t : CType), (Spec.column found a b (some t)).type = t := by
          intro a b t
          rw [Spec.column]
          cases found.find? (fun d => d.name == a) <;> rfl
        have hnames : ((List.range info.length).map fun i => Spec.column found ((columnNames (headerComments cm (text.drop p)) info.length).getD i [])
            ((info.map Desc.name).getD i []) (info.map Desc.type)[i]?).map Desc.name = info.map Desc.name := by
          apply List.ext_getElem
          · simp
          · intro i h1 h2
            simp only [List.getElem_map, List.getElem_range, hcolname]
            rw [List.getD_eq_getElem?_getD, List.getElem?_eq_getElem (by simpa using h2)]
            simp
        have htypes : ((List.range info.length).map fun i => Spec.column found ((columnNames (headerComments cm (text.drop p)) info.length).getD i [])
            ((info.map Desc.name).getD i []) (info.map Desc.type)[i]?).map Desc.type = info.map Desc.type := by
          apply List.ext_getElem
          · simp
          · intro i h1 h2
            simp only [List.getElem_map, List.getElem_range]
            rw [List.getElem?_eq_getElem (by simpa using h2), hcoltype]
            simp
        have hin : ((List.range info.length).map fun i => Spec.column found ((columnNames (headerComments cm (text.drop p)) info.length).getD i [])
            ((if info.map Desc.name = [] then columnNames (headerComments cm (text.drop p)) info.length else info.map Desc.name).getD i []) (info.map Desc.type)[i]?) =
            (List.range info.length).map fun i => Spec.column found ((columnNames (headerComments cm (text.drop p)) info.length).getD i [])
              ((info.map Desc.name).getD i []) (info.map Desc.type)[i]? := by rw [if_neg hnn]
        rw [← hin] at hnames htypes
        refine ⟨_, if_pos ⟨fun d hd => ?_, by rw [hnames]; exact hn.2⟩, htypes⟩
        have : d.name ∈ info.map Desc.name := by rw [← hnames]; exact List.mem_map_of_mem hd
        exact hn.1 _ this
      obtain ⟨info2, h2k, hty⟩ := hcols
      have hc2 := C42_columns_partial text ht r2 hp
      have hinf := hc2.2.2.2 info2 h2k
      have hr2 : r2.read fmt text n = (r2.readColumnInfo text).1.read fmt text n := by
        have hpair : r2.readColumnInfo text = ((r2.readColumnInfo text).1, .ok info2) := by rw [← h2k]
        have hidem : (r2.readColumnInfo text).1.readColumnInfo text = ((r2.readColumnInfo text).1, .ok info2) := by rw [Reader.readColumnInfo, hinf]
        simp only [Reader.read]
        rw [hidem, hpair]
      have hs2 := (step_refines fmt text ht (r2.readColumnInfo text).1 info2 hinf hc2.2.1 (.read n)).1
      have hs1 := (step_refines fmt text ht (⟨{ pos := p }, cm, sd, nm, ty, some info⟩ : Reader) info rfl hp (.read n)).1
      simp only [Reader.step, specStep, Out.table.injEq] at hs1 hs2
      rw [hr2, hs2, hs1, hc2.2.2.1, hc2.1]
      exact specStep_types fmt info2 info hty n _
    · refine Or.inr ⟨hok, fun table htab => hok ?_⟩
      -- the columns were found
      have hcols : ∃ info2, (r2.readColumnInfo text).2 = .ok info2 := by
        rw [Reader.read] at htab
        cases hc : r2.readColumnInfo text with
        | mk a b =>
          cases b with
          | ok info2 => exact ⟨info2, rfl⟩
          | throw e => rw [hc] at htab; cases htab
          | ub => rw [hc] at htab; cases htab
      obtain ⟨info2, h2k⟩ := hcols
      rw [h2o] at h2k
      cases hl : dataLines cm (text.drop p) with
      | nil => rw [hl] at h2k; cases h2k
      | cons line rest =>
        rw [hl, Spec.columns] at h2k
        simp only at h2k
        by_cases hb : (tokens line).length = 0 ∨ (info.map Desc.name ≠ [] ∧ (info.map Desc.name).length ≠ (tokens line).length) ∨
            (info.map Desc.type ≠ [] ∧ (info.map Desc.type).length ≠ (tokens line).length) ∨ ¬ (columnNames (headerComments cm (text.drop p)) (tokens line).length).Nodup
        · rw [if_pos hb] at h2k; cases h2k
        rw [if_neg hb] at h2k
        have hw : (tokens line).length = info.length := by
          by_contra hx
          exact hb (Or.inr (Or.inl ⟨by simpa using hne, by rw [List.length_map]; exact fun h => hx h.symm⟩))
        refine ⟨⟨line, rest, rfl, hw⟩, ?_, ?_⟩
        · rw [← hw]
          by_contra hx
          exact hb (Or.inr (Or.inr (Or.inr hx)))
        · cases hd : Spec.described (headerComments cm (text.drop p)) [] with
          | ok found => exact ⟨found, rfl⟩
          | throw e => rw [hd] at h2k; cases h2k
          | ub => rw [hd] at h2k; cases h2k

/-! ## Examples -/

example : Spec.described ["Column: a int".toList, "x".toList, "Column: ".toList, "Column: b (m) - a length".toList] [] =
    .ok [⟨['a'], .scalar .i32, [], []⟩, ⟨['b'], .str, ['m'], "a length".toList⟩] := by decide +kernel
example : Spec.described ["Column: a int".toList, "Column: a string".toList] [] = .throw .elements := by decide +kernel
/-- A parenthesis alone: the last character of an empty unit is removed. -/
example : Spec.described ["Column: a (".toList] [] = .ub ∧ Spec.described ["Column: a ()".toList] [] = .ok [⟨['a'], .str, [], []⟩] := by decide +kernel
/-- The hypotheses of `C158_continue`, behind the first row; the comment before the second row describes a column. -/
example : headerComments ['#'] ("# Column: a int\n1\n# Column: b long (m)\n2\n".toList.drop 18) = ["Column: b long (m)".toList] ∧ columnNames ["Column: b long (m)".toList] 1 = [['b']] ∧
    Spec.described ["Column: b long (m)".toList] [] = .ok [⟨['b'], .scalar .i64, ['m'], []⟩] ∧
    left "# Column: a int\n1\n# Column: b long (m)\n2\n".toList ['#'] { pos := 18 } = [['2']] := by decide +kernel

end Alexandria.Table
