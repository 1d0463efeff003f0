import Verif.XYDataset.AsciiParserModel
import Verif.XYDataset.FitsParserProps
import Verif.Table.NamesProps
import Verif.Table.RowProps

/-!
# Properties of the ASCII parser of datasets (C112)
-/

namespace Alexandria.XYDataset.AsciiIO

open Alexandria.Str Alexandria.Table

variable {F D : Type}

namespace Spec

/-- A line with two numbers. -/
def Point (fmt : Fmt F D) (line : Bytes) (p : D × D) : Prop :=
  ∃ a b, lineTokens line = [a, b] ∧ fmt.f64.parse a = some p.1 ∧ fmt.f64.parse b = some p.2

/-- The points of a text: one for each line that is neither empty nor a comment, at least one. -/
def Points (fmt : Fmt F D) (text : Bytes) (l : List (D × D)) : Prop :=
  l ≠ [] ∧ List.Forall₂ (Point fmt) (dataLines ['#'] text) l

/-- A header that cannot be taken for a wrong description of the columns: no comment describes a column, and if the last comment before the data
has two words, these are different and can be names of columns. -/
structure PlainHeader (text : Bytes) : Prop where
  described : ∀ c ∈ headerComments ['#'] text, ¬ "Column:".toList <+: c
  names : ∀ a b, lastWords (headerComments ['#'] text) = [a, b] → a ≠ b ∧ (a ≠ [] ∧ OneLine a) ∧ b ≠ [] ∧ OneLine b

/-- Numbers do not begin with a quote. -/
def NoQuotes (fmt : Fmt F D) : Prop := ∀ s x, fmt.f64.parse s = some x → s.head? ≠ some '"'

end Spec

open AsciiIO.Spec

/-! ## The columns -/

theorem descriptions_none (comment : Bytes) : ∀ (lines : List Bytes) (b : Bool),
    (∀ c ∈ ((((lines.map trim).filter fun l => l ≠ []).takeWhile fun l => comment.isPrefixOf l).map fun l => trim (removeAll comment 0 l)), ¬ "Column:".toList <+: c) →
    ∃ b', (loop (fun (a : List Desc × Bool) => !a.2) (descriptionsBody comment) lines ([], b)).2 = .ok ([], b') := by
  intro lines
  induction lines with
  | nil => intro b _; exact ⟨b, rfl⟩
  | cons l lines ih =>
    intro b h
    cases b with
    | true => exact ⟨true, loop_stop _ _ _ _ rfl⟩
    | false =>
      rw [loop, if_pos (by rfl), descriptionsBody]
      by_cases h1 : trim l = []
      · simp only [h1, if_true]
        exact ih false (by simpa [h1] using h)
      · simp only [h1, if_false]
        by_cases h2 : comment <+: trim l
        · have h2' : comment.isPrefixOf (trim l) = true := List.isPrefixOf_iff_prefix.2 h2
          simp only [h2, if_true]
          have hl : ((((l :: lines).map trim).filter fun l => l ≠ []).takeWhile fun l => comment.isPrefixOf l).map (fun l => trim (removeAll comment 0 l)) =
              trim (removeAll comment 0 (trim l)) :: ((((lines.map trim).filter fun l => l ≠ []).takeWhile fun l => comment.isPrefixOf l).map fun l => trim (removeAll comment 0 l)) := by
            simp [h1, h2']
          rw [hl] at h
          rw [if_neg (h _ (by simp))]
          exact ih false fun c hc => h c (List.mem_cons_of_mem _ hc)
        · simp only [h2, if_false]
          exact ⟨true, loop_stop _ _ _ _ rfl⟩

theorem detectDescriptions_none (text comment : Bytes) (h : ∀ c ∈ headerComments comment text, ¬ "Column:".toList <+: c) :
    detectDescriptions text comment {} = .ok [] := by
  have hw := whileLines_eq text (fun (a : List Desc × Bool) => !a.2) (descriptionsBody comment) (fun a => rfl) (lineFuel text) (afterTell {}) ([], false) (fuel_ok _ _)
  have hat : afterTell ({} : Stream) = {} := by decide
  have hleft : linesLeft text {} = splitChar '\n' text := by rw [linesLeft, if_neg (by simp)]; rfl
  obtain ⟨b, hb⟩ := descriptions_none comment (splitChar '\n' text) false h
  rw [detectDescriptions, hw.1, hat, hleft, hb]

theorem countColumns_eq (text comment : Bytes) : countColumns text comment {} =
    match dataLines comment text with
    | [] => .throw .elements
    | l :: _ => if (tokens l).length = 0 then .throw .elements else .ok (tokens l).length := by
  have hat : afterTell ({} : Stream) = {} := by decide
  have hleft : left text comment {} = dataLines comment text := by rw [left, if_neg (by simp)]; rfl
  have hw := whileData text comment (fun (a : Nat × Bool) => !a.2) (fun _ l => .ok ((tokens l).length, true)) (afterTell {}) (0, false)
  simp only at hw
  rw [countColumns, hw.1, hat, hleft]
  cases dataLines comment text with
  | nil => rfl
  | cons l ls =>
    rw [loop, if_pos (by rfl)]
    simp only
    rw [loop_stop _ _ _ _ (by rfl)]

/-- The columns of a dataset, without units and descriptions. -/
def columns (a b : Bytes) : Info := [⟨a, .scalar .f64, [], []⟩, ⟨b, .scalar .f64, [], []⟩]

theorem infoLoop_two (a b : Bytes) (ha : a ≠ [] ∧ OneLine a) (hb : b ≠ [] ∧ OneLine b) :
    infoLoop [] [a, b] [.scalar .f64, .scalar .f64] [] 2 0 = .ok (columns a b) := by
  have hm : ∀ n, n ≠ [] ∧ OneLine n → mkDesc n (.scalar .f64) [] [] = .ok ⟨n, .scalar .f64, [], []⟩ := fun n hn => (mkDesc_iff _ _ _ _).2 hn
  simp [infoLoop, hm a ha, hm b hb, columns]

/-- The reader that is used. -/
def reader : Reader := { types := [.scalar .f64, .scalar .f64] }

theorem fixTypes_eq : ({} : Reader).fixTypes [.scalar .f64, .scalar .f64] = (reader, .ok ()) := by rfl

theorem readColumnInfo_eq (text : Bytes) : (reader.readColumnInfo text).2 = (do
      let n ← countColumns text ['#'] {}
      if n ≠ 2 then .throw .elements
      else do
        let names ← detectNames text ['#'] n {}
        let descs ← detectDescriptions text ['#'] {}
        let l ← infoLoop [] names [.scalar .f64, .scalar .f64] descs n 0
        mkInfo l) ∧
    ∀ info, (reader.readColumnInfo text).2 = .ok info → (reader.readColumnInfo text).1.stream = {} ∧ (reader.readColumnInfo text).1.comment = ['#'] := by
  have hrw : rewind ({} : Stream) = {} := by decide
  have e1 : reader.info = none := rfl
  have e2 : reader.stream = {} := rfl
  have e3 : reader.comment = ['#'] := rfl
  have e4 : reader.names = [] := rfl
  have e5 : reader.types = [.scalar .f64, .scalar .f64] := rfl
  rw [Reader.readColumnInfo, e1]
  simp only [e2, e3, e4, e5, hrw]
  cases countColumns text ['#'] {} with
  | throw e => exact ⟨rfl, fun _ h => by cases h⟩
  | ub => exact ⟨rfl, fun _ h => by cases h⟩
  | ok n =>
    simp only [Outcome.bind_ok]
    rw [if_neg (by simp)]
    by_cases hn : n = 2
    · subst hn
      rw [if_neg (by simp), if_neg (by simp)]
      cases detectNames text ['#'] 2 {} with
      | throw e => exact ⟨rfl, fun _ h => by cases h⟩
      | ub => exact ⟨rfl, fun _ h => by cases h⟩
      | ok names =>
        simp only [Outcome.bind_ok]
        cases (do let descs ← detectDescriptions text ['#'] {}
                  let l ← infoLoop [] names [.scalar .f64, .scalar .f64] descs 2 0
                  mkInfo l) with
        | throw e => exact ⟨rfl, fun _ h => by cases h⟩
        | ub => exact ⟨rfl, fun _ h => by cases h⟩
        | ok info => exact ⟨rfl, fun _ h => ⟨rfl, rfl⟩⟩
    · rw [if_pos ⟨by simp, fun e => hn (by simpa using e.symm)⟩, if_pos hn]
      exact ⟨rfl, fun _ h => by cases h⟩

theorem read_eq (fmt : Fmt F D) (text : Bytes) : (reader.read fmt text (-1)).2 = (do
    let info ← (reader.readColumnInfo text).2
    let rows ← (specRead fmt info (dataLines ['#'] text).length (dataLines ['#'] text)).2
    if rows = [] then .throw .elements else .ok ⟨rows, info⟩) := by
  have hk := (readColumnInfo_eq text).2
  rw [Reader.read]
  generalize reader.readColumnInfo text = x at hk
  obtain ⟨r, o⟩ := x
  cases o with
  | throw e => rfl
  | ub => rfl
  | ok info =>
    obtain ⟨h1, h2⟩ := hk info rfl
    simp only at h1 h2
    simp only [h1, h2, Outcome.bind_ok]
    have hw := whileData text ['#'] (fun (a : Int × List (RowT F D)) => decide (a.1 ≠ 0))
      (fun a l => do let row ← parseRow fmt info l; return (a.1 - 1, a.2 ++ [row])) {} (-1, [])
    simp only at hw
    rw [loop_read] at hw
    have hbody : readBody fmt ['#'] info = fun (a : Int × List (RowT F D)) l => if dataLine ['#'] l = [] then .ok a
        else do let row ← parseRow fmt info (dataLine ['#'] l); return (a.1 - 1, a.2 ++ [row]) := rfl
    have hleft : left text ['#'] {} = dataLines ['#'] text := by rw [left, if_neg (by simp)]; rfl
    have hcnt : count (-1) (dataLines ['#'] text) = (dataLines ['#'] text).length := by rw [count, if_pos (by decide)]
    rw [hbody, hw.1, hleft, hcnt]
    cases hs : (specRead fmt info (dataLines ['#'] text).length (dataLines ['#'] text)).2 with
    | ok rows =>
      simp only [Outcome.bind_ok, Outcome.pure_eq, List.nil_append]
      rw [mkTable_same info rows (specRead_info fmt info _ _ rows hs)]
    | throw e => rfl
    | ub => rfl

theorem getDataset_eq (fmt : Fmt F D) (text : Bytes) : getDataset fmt (some text) = (do
    let t ← (reader.read fmt text (-1)).2
    let l ← FitsIO.pairs t.rows
    return some l) := by
  rw [getDataset, fixTypes_eq]

theorem specRead_all (fmt : Fmt F D) (info : Info) : ∀ (ls : List Bytes) (rows : List (RowT F D)),
    (specRead fmt info ls.length ls).2 = .ok rows → List.Forall₂ (fun l r => parseRow fmt info l = .ok r) ls rows := by
  intro ls
  induction ls with
  | nil => intro rows h; cases h; exact .nil
  | cons l ls ih =>
    intro rows h
    rw [List.length_cons, specRead] at h
    cases hp : parseRow fmt info l with
    | throw e => rw [hp] at h; cases h
    | ub => rw [hp] at h; cases h
    | ok r =>
      rw [hp] at h
      simp only at h
      obtain ⟨rs, h1, h2⟩ := FitsIO.bind_some h
      cases h2
      exact .cons hp (ih rs h1)

/-! ## The lines -/

theorem convert_double (fmt : Fmt F D) (t : Bytes) (v : Cell F D) :
    convertToCellType fmt t (.scalar .f64) = .ok v ↔ ∃ x, fmt.f64.parse t = some x ∧ v = .scalar .f64 x := by
  rw [convertToCellType, convertVal]
  cases h : fmt.f64.parse t with
  | none => simp
  | some x => simp [eq_comm]

theorem row_point (fmt : Fmt F D) (d e : Desc) (hd : d.type = .scalar .f64) (he : e.type = .scalar .f64) (line : Bytes) (r : RowT F D) :
    parseRow fmt [d, e] line = .ok r ↔ ∃ p, r = ⟨[.scalar .f64 p.1, .scalar .f64 p.2], [d, e]⟩ ∧ Point fmt line p := by
  constructor
  · intro h
    obtain ⟨vs, i⟩ := r
    have hi := parseRow_info fmt [d, e] line _ h
    simp only at hi
    subst hi
    obtain ⟨h1, _⟩ := (C97_row fmt [d, e] line vs).1 h
    rw [converts_iff] at h1
    obtain ⟨hl, hf⟩ := h1
    match hts : lineTokens line, hl, hf with
    | [a, b], _, hf =>
      simp only [List.zip_cons_cons, List.zip_nil_right] at hf
      cases hf with
      | cons g1 g2 =>
        cases g2 with
        | cons g2 g3 =>
          cases g3
          simp only [hd, he, convert_double] at g1 g2
          obtain ⟨x, hx, rfl⟩ := g1
          obtain ⟨y, hy, rfl⟩ := g2
          exact ⟨(x, y), rfl, a, b, hts, hx, hy⟩
  · rintro ⟨p, rfl, a, b, ht, ha, hb⟩
    rw [C97_row, converts_iff, ht]
    refine ⟨⟨rfl, .cons ?_ (.cons ?_ .nil)⟩, fun s hs => ?_⟩
    · simp only [hd]; exact (convert_double _ _ _).2 ⟨_, ha, rfl⟩
    · simp only [he]; exact (convert_double _ _ _).2 ⟨_, hb, rfl⟩
    · simp at hs

theorem rows_points (fmt : Fmt F D) (d e : Desc) (hd : d.type = .scalar .f64) (he : e.type = .scalar .f64) : ∀ (ls : List Bytes) (rows : List (RowT F D)),
    List.Forall₂ (fun l r => parseRow fmt [d, e] l = .ok r) ls rows ↔
      ∃ l, rows = ((l.map fun p : D × D => ([.scalar .f64 p.1, .scalar .f64 p.2] : List (Cell F D))).map fun r => (⟨r, [d, e]⟩ : RowT F D)) ∧ List.Forall₂ (Point fmt) ls l := by
  intro ls
  induction ls with
  | nil =>
    intro rows
    constructor
    · intro h; cases h; exact ⟨[], rfl, .nil⟩
    · rintro ⟨l, rfl, h⟩; cases h; exact .nil
  | cons x ls ih =>
    intro rows
    constructor
    · intro h
      cases h with
      | cons h1 h2 =>
        obtain ⟨p, rfl, hp⟩ := (row_point fmt d e hd he x _).1 h1
        obtain ⟨l, rfl, hl⟩ := (ih _).1 h2
        exact ⟨p :: l, rfl, .cons hp hl⟩
    · rintro ⟨l, rfl, h⟩
      cases h with
      | cons h1 h2 => exact .cons ((row_point fmt d e hd he x _).2 ⟨_, rfl, h1⟩) ((ih _).2 ⟨_, rfl, h2⟩)

theorem dataset_iff (fmt : Fmt F D) (text : Bytes) (d e : Desc) (hd : d.type = .scalar .f64) (he : e.type = .scalar .f64)
    (hi : (reader.readColumnInfo text).2 = .ok [d, e]) (l : List (D × D)) : getDataset fmt (some text) = .ok (some l) ↔ Points fmt text l := by
  rw [getDataset_eq, read_eq, hi]
  simp only [Outcome.bind_ok]
  constructor
  · intro h
    obtain ⟨t, h1, h2⟩ := FitsIO.bind_some h
    obtain ⟨rows, h3, h4⟩ := FitsIO.bind_some h1
    by_cases hr : rows = []
    · rw [if_pos hr] at h4; cases h4
    · rw [if_neg hr] at h4
      cases h4
      obtain ⟨l', rfl, hl⟩ := (rows_points fmt d e hd he _ _).1 (specRead_all fmt _ _ _ h3)
      rw [FitsIO.pairs_ok] at h2
      cases h2
      exact ⟨fun e => hr (by rw [e]; rfl), hl⟩
  · rintro ⟨hne, hl⟩
    have hf := (rows_points fmt d e hd he _ _).2 ⟨l, rfl, hl⟩
    rw [specRead_ok fmt _ _ _ _ hf]
    simp only [Outcome.bind_ok]
    rw [List.take_of_length_le (by rw [hf.length_eq]), if_neg (by simpa using hne)]
    simp only [Outcome.bind_ok]
    rw [FitsIO.pairs_ok]
    rfl

theorem rest_unique {x : Bytes × Option Bytes} {ts ts' : List Bytes} (h : Rest x ts) (h' : Rest x ts') : ts = ts' := by
  induction h generalizing ts' with
  | stop t => cases h'; rfl
  | more t rest ts _ ih =>
    cases h' with
    | more _ _ ts' h' => rw [ih h']

/-- The first token of a line that does not begin with a quote is the same with and without quoting. -/
theorem tokens_lineTokens (line : Bytes) (h : ∀ a, (lineTokens line).head? = some a → a.head? ≠ some '"') : tokens line = lineTokens line := by
  have hq : readQ line = readWord line := by
    rw [readQ, readWord]
    rw [lineTokens, readWord] at h
    cases hd : line.dropWhile isSpace with
    | nil => rfl
    | cons c t =>
      have hc : isSpace c = false := by
        have := List.head?_dropWhile_not isSpace line
        rw [hd] at this
        simpa using this
      simp only
      rw [if_neg, readWord, List.dropWhile_cons_of_neg (by simp [hc])]
      rintro rfl
      rw [hd] at h
      simp only [List.head?_cons, Option.some.injEq, forall_eq'] at h
      rw [List.takeWhile_cons_of_pos (by decide)] at h
      exact h rfl
  have h1 := rest_line line
  rw [← hq] at h1
  exact rest_unique (rest_tokensQ _ _ (Nat.lt_succ_self _)) h1

theorem infoLoop_types (names : List Bytes) (descs : List Desc) (l : List Desc) (h : infoLoop [] names [.scalar .f64, .scalar .f64] descs 2 0 = .ok l) :
    ∃ d e : Desc, l = [d, e] ∧ d.type = .scalar .f64 ∧ e.type = .scalar .f64 := by
  have hm : ∀ (n : Bytes) (t : CType) (u x : Bytes) (d : Desc), mkDesc n t u x = .ok d → d.type = t := fun n t u x d h => by
    rw [mkDesc] at h
    split at h
    · cases h
    · split at h
      · cases h
      · cases h; rfl
  have hstep : ∀ k i l, i < 2 → infoLoop [] names [.scalar .f64, .scalar .f64] descs (k + 1) i = .ok l →
      ∃ d rest, d.type = .scalar .f64 ∧ infoLoop [] names [.scalar .f64, .scalar .f64] descs k (i + 1) = .ok rest ∧ l = d :: rest := by
    intro k i l hi h
    rw [infoLoop] at h
    have ht : ([.scalar .f64, .scalar .f64] : List CType)[i]? = some (.scalar .f64) := by
      match i, hi with
      | 0, _ => rfl
      | 1, _ => rfl
    rw [if_pos rfl] at h
    cases hn : names[i]? with
    | none => rw [hn] at h; cases h
    | some name =>
      rw [hn] at h
      simp only [ht, reduceCtorEq, if_false] at h
      cases hf : descs.find? fun d => d.name == name with
      | none =>
        rw [hf] at h
        obtain ⟨d, h1, h2⟩ := FitsIO.bind_some h
        obtain ⟨rest, h3, h4⟩ := FitsIO.bind_some h2
        cases h4
        exact ⟨d, rest, hm _ _ _ _ _ h1, h3, rfl⟩
      | some x =>
        rw [hf] at h
        obtain ⟨d, h1, h2⟩ := FitsIO.bind_some h
        obtain ⟨rest, h3, h4⟩ := FitsIO.bind_some h2
        cases h4
        exact ⟨d, rest, hm _ _ _ _ _ h1, h3, rfl⟩
  obtain ⟨d, r1, hd, h1, rfl⟩ := hstep 1 0 l (by omega) h
  obtain ⟨e, r2, he, h2, rfl⟩ := hstep 0 1 r1 (by omega) h1
  rw [infoLoop] at h2
  cases h2
  exact ⟨d, e, rfl, hd, he⟩

/-- The columns that are found. -/
theorem columns_two (text : Bytes) (info : Info) (h : (reader.readColumnInfo text).2 = .ok info) :
    ∃ d e : Desc, info = [d, e] ∧ d.type = .scalar .f64 ∧ e.type = .scalar .f64 := by
  rw [(readColumnInfo_eq text).1] at h
  obtain ⟨n, _, h⟩ := FitsIO.bind_some h
  by_cases hn : n = 2
  · subst hn
    rw [if_neg (by simp)] at h
    obtain ⟨names, _, h⟩ := FitsIO.bind_some h
    obtain ⟨descs, _, h⟩ := FitsIO.bind_some h
    obtain ⟨l, hl, h⟩ := FitsIO.bind_some h
    have hil : info = l := by
      rw [mkInfo] at h
      split at h
      · cases h
      · obtain ⟨_, _, h⟩ := FitsIO.bind_some h
        cases h; rfl
    rw [hil]
    exact infoLoop_types names descs l hl
  · rw [if_pos hn] at h; cases h

/-- The columns of a text with a plain header. -/
theorem columns_plain (text : Bytes) (hh : PlainHeader text) (l : Bytes) (ls : List Bytes) (hl : dataLines ['#'] text = l :: ls) (ht : (tokens l).length = 2) :
    ∃ a b, (reader.readColumnInfo text).2 = .ok (columns a b) := by
  have hdn : describedNames (headerComments ['#'] text) = [] := by
    rw [describedNames, List.map_eq_nil_iff, List.filter_eq_nil_iff]
    intro c hc
    rw [List.isPrefixOf_iff_prefix]
    exact hh.described c hc
  have hnames : ∃ a b, columnNames (headerComments ['#'] text) 2 = [a, b] ∧ a ≠ b ∧ (a ≠ [] ∧ OneLine a) ∧ b ≠ [] ∧ OneLine b := by
    rw [columnNames]
    by_cases hw : (lastWords (headerComments ['#'] text)).length = 2
    · match hws : lastWords (headerComments ['#'] text), hw with
      | [a, b], _ =>
        obtain ⟨h1, h2, h3⟩ := hh.names a b hws
        exact ⟨a, b, rfl, h1, h2, h3⟩
    · rw [if_neg fun h => hw h.1, hdn]
      exact ⟨"col1".toList, "col2".toList, by decide +kernel, by decide, ⟨by decide, by unfold OneLine; decide⟩, by decide, by unfold OneLine; decide⟩
  obtain ⟨a, b, hn, hab, ha, hb⟩ := hnames
  refine ⟨a, b, ?_⟩
  rw [(readColumnInfo_eq text).1, countColumns_eq, hl]
  simp only [ht]
  rw [if_neg (by omega)]
  simp only [Outcome.bind_ok]
  rw [if_neg (by simp), (C98_names text ['#'] 2).1 (by rw [hn]; simp [hab]), hn, Outcome.bind_ok, detectDescriptions_none text ['#'] hh.described]
  simp only [Outcome.bind_ok]
  rw [infoLoop_two a b ha hb, Outcome.bind_ok]
  exact (mkInfo_iff _).2 ⟨by simp [columns], by simp [columns, hab]⟩

/-! ## The points -/

/-- A dataset that is returned has the points of the text, whatever the header. -/
theorem C112_points (fmt : Fmt F D) (text : Bytes) (l : List (D × D)) (h : getDataset fmt (some text) = .ok (some l)) : Points fmt text l := by
  have h0 := h
  rw [getDataset_eq, read_eq] at h0
  obtain ⟨t, h1, _⟩ := FitsIO.bind_some h0
  obtain ⟨info, h2, _⟩ := FitsIO.bind_some h1
  obtain ⟨d, e, rfl, hd, he⟩ := columns_two text info h2
  exact (dataset_iff fmt text d e hd he h2 l).1 h

/-- With a plain header it is returned exactly if every data line is a point, and otherwise there is an exception. -/
theorem C112_dataset_partial (fmt : Fmt F D) (hq : NoQuotes fmt) (text : Bytes) (hh : PlainHeader text) (l : List (D × D)) :
    getDataset fmt (some text) = .ok (some l) ↔ Points fmt text l := by
  refine ⟨C112_points fmt text l, fun h => ?_⟩
  obtain ⟨hne, hf⟩ := h
  cases hls : dataLines ['#'] text with
  | nil => rw [hls] at hf; cases hf; exact absurd rfl hne
  | cons x xs =>
    have hx : (tokens x).length = 2 := by
      rw [hls] at hf
      cases hf with
      | cons h1 _ =>
        obtain ⟨a, b, ht, ha, _⟩ := h1
        rw [tokens_lineTokens x, ht]
        · rfl
        · intro a' ha'
          rw [ht] at ha'
          cases ha'
          exact hq a _ ha
    obtain ⟨a, b, hi⟩ := columns_plain text hh x xs hls hx
    exact (dataset_iff fmt text _ _ rfl rfl hi l).2 ⟨hne, hf⟩

/-- No file: no dataset, but an exception when asked for its name. -/
theorem C112_missing (fmt : Fmt F D) (file : Bytes) : getDataset fmt none = .ok none ∧ getName file none = .throw .elements := ⟨rfl, rfl⟩

/-! ## Files that are accepted, but cannot be read -/

/-- Natural numbers instead of floating point numbers. -/
def natFmt : Fmt Unit Nat := ⟨⟨fun _ => [], fun _ => none⟩, ⟨showNat, digits?⟩⟩

/-- The claim without conditions: a file that is accepted as a dataset can be read. -/
def C112_full : Prop := ∀ text : Bytes, isDatasetFile (fun s => (natFmt.f64.parse s).isSome) text = true → ∃ l, getDataset natFmt (some text) = .ok (some l)

/-- A line of two equal words above the data: they are taken for the names of the columns. -/
theorem C112_header_violated : ¬ C112_full := fun h => by
  obtain ⟨l, hl⟩ := h "# -- --\n1 2\n3 4\n".toList (by decide +kernel)
  have : getDataset natFmt (some "# -- --\n1 2\n3 4\n".toList) = .throw .elements := by decide +kernel
  rw [this] at hl
  cases hl

/-- Only the first data line is examined. -/
theorem C112_line_violated : ¬ C112_full := fun h => by
  obtain ⟨l, hl⟩ := h "1 2\n3\n".toList (by decide +kernel)
  have : getDataset natFmt (some "1 2\n3\n".toList) = .throw .elements := by decide +kernel
  rw [this] at hl
  cases hl

/-- The converse: a file that can be read is accepted. -/
def C112_converse : Prop := ∀ (text : Bytes) (l : List (Nat × Nat)), getDataset natFmt (some text) = .ok (some l) →
  isDatasetFile (fun s => (natFmt.f64.parse s).isSome) text = true

/-- A comment behind the numbers, a blank line before them, or no newline behind them. -/
theorem C112_converse_violated : ¬ C112_converse ∧
    (∀ text ∈ ["1 2 # end\n".toList, " \n1 2\n".toList, "1 2".toList],
      getDataset natFmt (some text) = .ok (some [(1, 2)]) ∧ isDatasetFile (fun s => (natFmt.f64.parse s).isSome) text = false) := by
  have hall : ∀ text ∈ ["1 2 # end\n".toList, " \n1 2\n".toList, "1 2".toList],
      getDataset natFmt (some text) = .ok (some [(1, 2)]) ∧ isDatasetFile (fun s => (natFmt.f64.parse s).isSome) text = false := by decide +kernel
  refine ⟨fun h => ?_, hall⟩
  have h1 := hall "1 2".toList (by simp)
  rw [h _ _ h1.1] at h1
  cases h1.2

/-! ## The name -/

theorem firstLine_eq (pre : List Bytes) (l : Bytes) (post : List Bytes) (h : ∀ x ∈ pre, x = []) (hl : l ≠ []) : firstLine (pre ++ l :: post) = l := by
  induction pre with
  | nil => rw [List.nil_append, firstLine, if_neg hl]
  | cons x pre ih => rw [List.cons_append, firstLine, if_pos (h x (by simp)), ih fun y hy => h y (by simp [hy])]

/-- The line is a comment that is a single word. -/
def WordLine (line w : Bytes) : Prop :=
  ∃ s1 s2 s3, line = s1 ++ '#' :: (s2 ++ (w ++ s3)) ∧ XYDataset.Spec.Blank s1 ∧ XYDataset.Spec.Blank s2 ∧ XYDataset.Spec.Blank s3 ∧ w ≠ [] ∧ ∀ c ∈ w, c.isAlphanum = true ∨ c = '_'

theorem word_not_space (c : Char) (h : isWord c = true) : isSpace c = false := by
  by_contra hc
  rw [Bool.not_eq_false, isSpace, Bool.or_eq_true, Bool.and_eq_true, decide_eq_true_iff, decide_eq_true_iff, beq_iff_eq] at hc
  have hn : c.toNat = 32 ∨ 9 ≤ c.toNat ∧ c.toNat ≤ 13 := hc.imp (fun e => by rw [e]; rfl) id
  have hv : c.toNat = c.val.toNat := rfl
  simp only [isWord, Char.isAlphanum, Char.isAlpha, Char.isUpper, Char.isLower, Char.isDigit, Bool.or_eq_true, Bool.and_eq_true, decide_eq_true_iff, beq_iff_eq,
    ge_iff_le, UInt32.le_iff_toNat_le] at h
  rcases h with h | h
  · simp at h
    omega
  · rw [h] at hn
    exact absurd hn (by decide)

theorem isWord_iff (c : Char) : isWord c = true ↔ c.isAlphanum = true ∨ c = '_' := by simp [isWord]

theorem matchName_iff (line w : Bytes) : matchName line = some w ↔ WordLine line w := by
  constructor
  · intro h
    rw [matchName] at h
    obtain ⟨s1, b1, e1, _⟩ := blank_split line
    split at h
    · rename_i r hr
      obtain ⟨s2, b2, e2, _⟩ := blank_split r
      simp only at h
      split at h
      · rename_i hw
        cases h
        refine ⟨s1, s2, (r.dropWhile isSpace).dropWhile isWord, ?_, b1, b2, ?_, hw.1, ?_⟩
        · rw [List.takeWhile_append_dropWhile, ← e2, ← hr, ← e1]
        · intro c hc; exact List.all_eq_true.1 hw.2 c hc
        · intro c hc; exact (isWord_iff c).1 (List.mem_takeWhile_imp hc)
      · cases h
    · cases h
  · rintro ⟨s1, s2, s3, rfl, b1, b2, b3, hne, hw⟩
    have hw' : ∀ c ∈ w, isWord c = true := fun c hc => (isWord_iff c).2 (hw c hc)
    rw [matchName, dropWhile_blank b1 (by intro c hc; cases hc; decide)]
    simp only
    have hhead : ∀ c, (w ++ s3).head? = some c → isSpace c = false := by
      intro c hc
      cases w with
      | nil => exact absurd rfl hne
      | cons d w => cases hc; exact word_not_space _ (hw' _ (by simp))
    rw [dropWhile_blank b2 hhead]
    have htail : ∀ c, s3.head? = some c → isWord c = false := by
      intro c hc
      cases s3 with
      | nil => cases hc
      | cons d s3 =>
        cases hc
        by_contra hx
        rw [Bool.not_eq_false] at hx
        have := word_not_space _ hx
        rw [b3 _ (by simp)] at this
        cases this
    have e1 : (w ++ s3).takeWhile isWord = w := by
      rw [List.takeWhile_append_of_pos hw']
      cases s3 with
      | nil => simp
      | cons d s3 => rw [List.takeWhile_cons_of_neg (by simp [htail d rfl]), List.append_nil]
    have e2 : (w ++ s3).dropWhile isWord = s3 := by
      rw [List.dropWhile_append_of_pos hw']
      cases s3 with
      | nil => rfl
      | cons d s3 => rw [List.dropWhile_cons_of_neg (by simp [htail d rfl])]
    rw [e1, e2, if_pos ⟨hne, List.all_eq_true.2 b3⟩]

/-- The keyword `NAME` comes first; then the first line that is not empty, if it is a comment of one word; then the name of the file without directory and extension. -/
theorem C112_name (file text : Bytes) :
    (getParameter "NAME".toList text ≠ [] → getName file (some text) = .ok (getParameter "NAME".toList text)) ∧
    (getParameter "NAME".toList text = [] → ∀ pre l post, splitChar '\n' text = pre ++ l :: post → (∀ x ∈ pre, x = []) → l ≠ [] →
      (∀ w, WordLine l w → getName file (some text) = .ok w) ∧
      ((∀ w, ¬ WordLine l w) → ∀ dir name ext, file = dir ++ '/' :: (name ++ '.' :: ext) → '/' ∉ name → '/' ∉ ext → '.' ∉ ext → getName file (some text) = .ok name)) := by
  refine ⟨fun h => ?_, fun h pre l post hs hpre hl => ?_⟩
  · simp only [getName]; rw [if_neg h]
  · have hg : getName file (some text) = match matchName l with
        | some w => .ok w
        | none => .ok (removeExtension (removeAllBeforeLastSlash file)) := by
      simp only [getName]
      rw [if_pos h, hs, firstLine_eq pre l post hpre hl]
      cases matchName l <;> rfl
    refine ⟨fun w hw => ?_, fun hw dir name ext hf h1 h2 h3 => ?_⟩
    · rw [hg, (matchName_iff l w).2 hw]
    · have hn : matchName l = none := by
        cases hm : matchName l with
        | none => rfl
        | some w => exact absurd ((matchName_iff l w).1 hm) (hw w)
      rw [hg, hn]
      simp only
      rw [hf, C86_file_name dir name ext h1 h2 h3]

/-- The name is empty only if the name of the file is nothing but an extension. -/
theorem C112_named (dir name ext text : Bytes) (h0 : name ≠ []) (h1 : '/' ∉ name) (h2 : '/' ∉ ext) (h3 : '.' ∉ ext) :
    ∃ n, getName (dir ++ '/' :: (name ++ '.' :: ext)) (some text) = .ok n ∧ n ≠ [] := by
  simp only [getName]
  by_cases h : getParameter "NAME".toList text = []
  · rw [if_pos h]
    cases hm : matchName (firstLine (splitChar '\n' text)) with
    | none => exact ⟨_, rfl, by rw [C86_file_name dir name ext h1 h2 h3]; exact h0⟩
    | some w =>
      obtain ⟨_, _, _, _, _, _, _, hw, _⟩ := (matchName_iff _ w).1 hm
      exact ⟨w, rfl, hw⟩
  · rw [if_neg h]; exact ⟨_, rfl, h⟩

/-! ## Examples -/

example : NoQuotes natFmt := by
  intro s x h hs
  cases s with
  | nil => cases hs
  | cons c s =>
    cases hs
    have : digits? ('"' :: s) = some x := h
    simp [digits?] at this

example : getDataset natFmt (some "# A\n# x y\n\n1 2 # first\n 3\t4\n".toList) = .ok (some [(1, 2), (3, 4)]) := by decide +kernel
/-- A text that meets the conditions of `C112_dataset_partial`. -/
example : PlainHeader "# A\n# x y\n\n1 2 # first\n 3\t4\n".toList := by
  have hc : headerComments ['#'] "# A\n# x y\n\n1 2 # first\n 3\t4\n".toList = [['A'], "x y".toList] := by decide +kernel
  have hl : lastWords [['A'], "x y".toList] = [['x'], ['y']] := by decide +kernel
  refine ⟨by rw [hc]; decide, fun a b h => ?_⟩
  rw [hc, hl] at h
  cases h
  exact ⟨by decide, ⟨by decide, by unfold OneLine; decide⟩, by decide, by unfold OneLine; decide⟩
example : getName "/a/b.txt".toList (some "\n# Vega \n# x y\n1 2\n".toList) = .ok "Vega".toList := by decide +kernel
example : getName "/a/b.txt".toList (some "# x y\n# NAME : Vega 2\n1 2\n".toList) = .ok "Vega 2".toList := by decide +kernel
example : getName "/a/b.txt".toList (some "# x y\n1 2\n".toList) = .ok ['b'] := by decide +kernel
example : WordLine "  # Vega ".toList "Vega".toList := ⟨[' ', ' '], [' '], [' '], by decide, by unfold XYDataset.Spec.Blank; decide, by unfold XYDataset.Spec.Blank; decide, by unfold XYDataset.Spec.Blank; decide, by decide, by decide⟩

end Alexandria.XYDataset.AsciiIO
