import Verif.Table.SharedProps
import Verif.Table.WriterProps

/-!
# Several tables in one stream (C158)
-/

namespace Alexandria.Table

open Alexandria.Str

variable {F D : Type}

/-! ## Specification -/

/-- Comments and a table, given in one or more parts. -/
structure Section (F D : Type) where
  messages : List Bytes := []
  first : TableT F D
  more : List (TableT F D) := []

/-- All the rows. -/
def Section.rows (s : Section F D) : List (RowT F D) := (s.first :: s.more).flatMap TableT.rows

/-- Tables that an `AsciiWriter` writes so that they can be read again (the hypotheses of `C43_roundtrip_partial`). -/
structure Section.Ok (fmt : Fmt F D) (cm : Bytes) (s : Section F D) : Prop where
  messages : ∀ m ∈ s.messages, MessageOk cm m
  info : GoodInfo s.first.info
  columns : ∀ d ∈ s.first.info, ColumnOk cm d
  name : ∀ d, s.first.info.head? = some d → ¬ "Column:".toList <+: d.name
  some : s.first.rows ≠ []
  rows : ∀ x ∈ s.first :: s.more, Agree s.first.info x.info ∧ ∀ r ∈ x.rows, RowOk fmt cm x.info r.values

/-- Writers that use one stream one after the other, each for its own table: what they write is appended to what is in the stream.
Models a program with several writers constructed for one stream: Table/src/lib/AsciiWriter.cpp 35-40 and AlexandriaKernel/_impl/InstOrRefHolder.icpp 31-70 (references to the stream). -/
def writeSections (fmt : Fmt F D) (cm : Bytes) : Bytes → List (Section F D) → Res Bytes
  | out, [] => .ok out
  | out, s :: ss => do
    let w ← ({ comment := cm, out := out } : Writer).addComments s.messages
    let w ← w.addAll fmt (s.first :: s.more)
    writeSections fmt cm w.out ss

/-! ## Writers append -/

/-- The writer with something in the stream before. -/
abbrev Writer.after (pre : Bytes) (w : Writer) : Writer := { w with out := pre ++ w.out }

/-- The outcome with something in the stream before. -/
def afterR (pre : Bytes) : Res Writer → Res Writer
  | .ok w => .ok (w.after pre)
  | .throw e => .throw e
  | .ub => .ub

theorem addComments_after (pre : Bytes) (ms : List Bytes) : ∀ w : Writer, (w.after pre).addComments ms = afterR pre (w.addComments ms) := by
  induction ms with
  | nil => intro w; rfl
  | cons m ms ih =>
    intro w
    rw [Writer.addComments, Writer.addComments, Writer.addComment, Writer.addComment]
    by_cases h : w.initialized = true
    · rw [if_pos h, if_pos (show (w.after pre).initialized = true from h)]; rfl
    rw [if_neg h, if_neg (show ¬ (w.after pre).initialized = true from h)]
    simp only [Outcome.bind_ok]
    rw [← ih]
    simp only [Writer.after, List.append_assoc]

theorem init_after (fmt : Fmt F D) (pre : Bytes) (t : TableT F D) (w : Writer) : (w.after pre).init fmt t = afterR pre (w.init fmt t) := by
  simp only [Writer.init, Writer.after]
  by_cases h : w.showInfo = true
  · simp only [if_pos h]
    cases describeAll w.comment t.info with
    | throw e => rfl
    | ub => rfl
    | ok d =>
      simp only [Outcome.bind_ok, Outcome.pure_eq]
      cases columnLengths fmt t with
      | throw e => rfl
      | ub => rfl
      | ok l => simp only [Outcome.bind_ok, afterR, List.append_assoc]
  · simp only [if_neg h]
    simp only [Outcome.bind_ok, Outcome.pure_eq]
    cases columnLengths fmt t with
    | throw e => rfl
    | ub => rfl
    | ok l => simp only [Outcome.bind_ok, afterR, List.append_assoc]

theorem append_after (fmt : Fmt F D) (pre : Bytes) (t : TableT F D) (w : Writer) : (w.after pre).append fmt t = afterR pre (w.append fmt t) := by
  simp only [Writer.append, Writer.after]
  cases columnLengths fmt t with
  | throw e => rfl
  | ub => rfl
  | ok l =>
    simp only [Outcome.bind_ok]
    cases l with
    | nil => rfl
    | cons n ns =>
      simp only
      cases rowLines fmt ((n + w.comment.length) :: ns) t.rows with
      | throw e => rfl
      | ub => rfl
      | ok text => simp only [Outcome.bind_ok, Outcome.pure_eq, afterR, List.append_assoc]

theorem addData_after (fmt : Fmt F D) (pre : Bytes) (t : TableT F D) (w : Writer) : (w.after pre).addData fmt t = afterR pre (w.addData fmt t) := by
  simp only [Writer.addData]
  cases hi : w.info with
  | none =>
    have h := init_after fmt pre t { w with info := some t.info }
    simp only [Writer.after, hi]
    simp only [Writer.after] at h
    rw [h]
    cases Writer.init fmt { w with info := some t.info } t with
    | throw e => rfl
    | ub => rfl
    | ok w' => exact append_after fmt pre t w'
  | some info =>
    simp only [Writer.after, hi]
    by_cases h : sameInfo info t.info
    · rw [if_pos h, if_pos h]
      have := append_after fmt pre t w
      simp only [Writer.after, hi] at this
      exact this
    · rw [if_neg h, if_neg h]; rfl

theorem addAll_after (fmt : Fmt F D) (pre : Bytes) (ts : List (TableT F D)) : ∀ w : Writer, (w.after pre).addAll fmt ts = afterR pre (w.addAll fmt ts) := by
  induction ts with
  | nil => intro w; rfl
  | cons t ts ih =>
    intro w
    rw [Writer.addAll, Writer.addAll, addData_after]
    cases w.addData fmt t with
    | throw e => rfl
    | ub => rfl
    | ok w' => exact ih w'

/-! ## What follows does not matter -/

theorem getline_prefix (b c : Bytes) (s : Stream) (hp : s.pos ≤ b.length) (he : (getline b s).2.eof = false) (hf : (getline b s).2.fail = false) :
    getline (b ++ c) s = getline b s := by
  simp only [getline] at he hf ⊢
  by_cases h : s.eof = true ∨ s.fail = true
  · rw [if_pos h] at hf; cases hf
  rw [if_neg h] at he hf ⊢
  by_cases h1 : b.drop s.pos = []
  · rw [if_pos h1] at hf; cases hf
  rw [if_neg h1] at he hf ⊢
  by_cases h2 : ((b.drop s.pos).takeWhile fun c => c ≠ '\n').length = (b.drop s.pos).length
  · rw [if_pos h2] at he; cases he
  rw [if_neg h2, List.drop_append_of_le_length hp]
  have hd := takeWhile_decomp _ h2
  generalize b.drop s.pos = rest at *
  have htw : ((rest ++ c).takeWhile fun c => c ≠ '\n') = rest.takeWhile fun c => c ≠ '\n' := by
    conv_lhs => rw [hd]
    rw [List.append_assoc, List.takeWhile_append_of_pos]
    · simp
    · intro x hx
      have := List.all_takeWhile (p := fun c => decide (c ≠ '\n')) (l := rest)
      rw [List.all_eq_true] at this
      exact this x hx
  have h3 : ¬ (rest.takeWhile fun c => decide (c ≠ '\n')).length = (rest ++ c).length := by
    rw [List.length_append]
    have := (List.takeWhile_prefix (fun c => decide (c ≠ '\n')) (l := rest)).length_le
    omega
  rw [htw, if_neg (by simp [h1]), if_neg h3, if_neg h]

theorem whileLines_flag {σ : Type} (text : Bytes) (go : σ → Bool) (body : σ → Bytes → Res σ) : ∀ (f : Nat) (s : Stream) (a : σ),
    s.eof = true ∨ s.fail = true → (whileLines text go body f s a).1.eof = true ∨ (whileLines text go body f s a).1.fail = true := by
  intro f
  induction f with
  | zero => intro s a h; exact h
  | succ f ih =>
    intro s a h
    have hg : (getline text s).2.eof = true ∨ (getline text s).2.fail = true := by rw [getline, if_pos h]; exact Or.inr rfl
    rw [whileLines]
    by_cases hs : s.fail = true
    · rw [if_pos hs]; exact h
    rw [if_neg hs]
    by_cases hgo : go a = true
    · rw [if_pos hgo]
      cases body a (getline text s).1 with
      | ok a' => exact ih _ a' hg
      | throw e => exact hg
      | ub => exact hg
    · rw [if_neg hgo]; exact h

/-- A loop that ends within a text does the same if something follows the text. -/
theorem whileLines_prefix {σ : Type} (b c : Bytes) (go : σ → Bool) (body : σ → Bytes → Res σ) : ∀ (f : Nat) (s : Stream) (a : σ), s.pos ≤ b.length →
    (whileLines b go body f s a).1.eof = false → (whileLines b go body f s a).1.fail = false →
    whileLines (b ++ c) go body f s a = whileLines b go body f s a := by
  intro f
  induction f with
  | zero => intro s a _ _ _; rfl
  | succ f ih =>
    intro s a hp he hf
    rw [whileLines] at he hf
    rw [whileLines, whileLines]
    by_cases hs : s.fail = true
    · rw [if_pos hs, if_pos hs]
    rw [if_neg hs] at he hf
    rw [if_neg hs, if_neg hs]
    by_cases hgo : go a = true
    · rw [if_pos hgo] at he hf
      rw [if_pos hgo, if_pos hgo]
      have hu : (getline b s).2.eof = false ∧ (getline b s).2.fail = false := by
        by_contra hx
        have hx : (getline b s).2.eof = true ∨ (getline b s).2.fail = true := by
          by_cases h1 : (getline b s).2.eof = true
          · exact Or.inl h1
          · by_cases h2 : (getline b s).2.fail = true
            · exact Or.inr h2
            · exact absurd ⟨by simpa using h1, by simpa using h2⟩ hx
        cases hb : body a (getline b s).1 with
        | ok a' =>
          rw [hb] at he hf
          rcases whileLines_flag b go body f _ a' hx with h | h
          · rw [h] at he; cases he
          · rw [h] at hf; cases hf
        | throw e =>
          rw [hb] at he hf
          rcases hx with h | h
          · rw [h] at he; cases he
          · rw [h] at hf; cases hf
        | ub =>
          rw [hb] at he hf
          rcases hx with h | h
          · rw [h] at he; cases he
          · rw [h] at hf; cases hf
      rw [getline_prefix b c s hp hu.1 hu.2]
      cases hb : body a (getline b s).1 with
      | ok a' =>
        rw [hb] at he hf
        exact ih _ a' (getline_inside b s hp) he hf
      | throw e => rfl
      | ub => rfl
    · rw [if_neg hgo, if_neg hgo]

/-- The same with the fuel of the longer text. -/
theorem whileLines_block {σ : Type} (b c : Bytes) (go : σ → Bool) (body : σ → Bytes → Res σ) (hb : ∀ a, body a [] = .ok a) (a : σ)
    (hne : (loop go body (splitChar '\n' b) a).1 ≠ []) :
    whileLines (b ++ c) go body (lineFuel (b ++ c)) {} a = whileLines b go body (lineFuel b) {} a := by
  have hw := whileLines_eq b go body hb (lineFuel b) {} a (fuel_ok _ _)
  have hll : linesLeft b {} = splitChar '\n' b := by rw [linesLeft, if_neg (by simp)]; rfl
  rw [hll] at hw
  have hfuel : whileLines b go body (lineFuel b) {} a = whileLines b go body (lineFuel (b ++ c)) {} a :=
    whileLines_fuel b go body _ _ {} a (fuel_ok _ _) (le_trans (fuel_ok _ _) (by rw [lineFuel, lineFuel, List.length_append]; omega))
  have hflag : (whileLines b go body (lineFuel b) {} a).1.eof = false ∧ (whileLines b go body (lineFuel b) {} a).1.fail = false := by
    by_contra hx
    refine hne ?_
    rw [← hw.2.1, linesLeft, if_pos]
    by_cases h1 : (whileLines b go body (lineFuel b) {} a).1.eof = true
    · exact Or.inl h1
    · by_cases h2 : (whileLines b go body (lineFuel b) {} a).1.fail = true
      · exact Or.inr h2
      · exact absurd ⟨by simpa using h1, by simpa using h2⟩ hx
  rw [hfuel] at hflag ⊢
  exact whileLines_prefix b c go body _ {} a (Nat.zero_le _) hflag.1 hflag.2

/-- A loop that stops at a line has not come to the empty line behind it. -/
theorem loop_rest {σ : Type} (go : σ → Bool) (body : σ → Bytes → Res σ) (last : Bytes) (h : ∀ a a', body a last = .ok a' → go a' = false) :
    ∀ (init : List Bytes) (a : σ), (loop go body (init ++ [last, []]) a).1 ≠ [] := by
  intro init
  induction init with
  | nil =>
    intro a
    rw [List.nil_append, loop]
    by_cases hg : go a = true
    · rw [if_pos hg]
      cases hb : body a last with
      | ok a' => simp only; rw [loop, if_neg (by simp [h a a' hb])]; simp
      | throw e => simp
      | ub => simp
    · rw [if_neg hg]; simp
  | cons l init ih =>
    intro a
    rw [List.cons_append, loop]
    by_cases hg : go a = true
    · rw [if_pos hg]
      cases hb : body a l with
      | ok a' => exact ih a'
      | throw e => simp
      | ub => simp
    · rw [if_neg hg]; simp

/-! ## A table in the stream -/

/-- A text with a table that a reader reads. -/
structure Block (fmt : Fmt F D) (cm b : Bytes) (info : Info) (rows : List (RowT F D)) : Prop where
  comment : cm ≠ []
  columns : (({ comment := cm } : Reader).readColumnInfo b).2 = .ok info
  rows : List.Forall₂ (fun l r => parseRow fmt info l = .ok r) (dataLines cm b) rows
  last : ∃ init last, splitChar '\n' b = init ++ [last, []] ∧ trim last ≠ [] ∧ ∀ c, cm.head? = some c → c ∉ last

theorem columns_reader (cm b : Bytes) (info : Info) (h : (({ comment := cm } : Reader).readColumnInfo b).2 = .ok info) :
    ({ comment := cm } : Reader).readColumnInfo b = ({ comment := cm, started := true, info := some info }, .ok info) := by
  have hrw : rewind ({} : Stream) = {} := by decide
  rw [Reader.readColumnInfo] at h ⊢
  simp only [hrw] at h ⊢
  cases hc : countColumns b cm {} with
  | throw e => rw [hc] at h; cases h
  | ub => rw [hc] at h; cases h
  | ok n =>
    rw [hc] at h
    simp only [ne_eq, not_true_eq_false, false_and, if_false] at h ⊢
    cases hn : detectNames b cm n {} with
    | throw e => rw [hn] at h; cases h
    | ub => rw [hn] at h; cases h
    | ok names =>
      rw [hn] at h
      simp only at h ⊢
      cases hx : (do let descs ← detectDescriptions b cm {}
                     let l ← infoLoop [] names [] descs n 0
                     mkInfo l) with
      | throw e => rw [hx] at h; cases h
      | ub => rw [hx] at h; cases h
      | ok info' => rw [hx] at h; cases h; rfl

theorem last_data (cm last : Bytes) (hcm : cm ≠ []) (ht : trim last ≠ []) (hf : ∀ c, cm.head? = some c → c ∉ last) :
    dataLine cm last = trim last ∧ ¬ cm <+: trim last := by
  obtain ⟨c0, pat, rfl⟩ := List.exists_cons_of_ne_nil hcm
  have h0 := hf c0 rfl
  refine ⟨dataLine_free c0 pat last h0, ?_⟩
  rintro ⟨u, hu⟩
  have hm : c0 ∈ trim last := by rw [← hu]; simp
  refine h0 ?_
  rw [trim] at hm
  exact (List.dropWhile_sublist _).subset (List.mem_reverse.1 ((List.dropWhile_sublist _).subset (List.mem_reverse.1 hm)))

/-- The columns of a table, with something behind it. -/
theorem columns_block (fmt : Fmt F D) (cm b c : Bytes) (info : Info) (rows : List (RowT F D)) (h : Block fmt cm b info rows) :
    ({ comment := cm } : Reader).readColumnInfo (b ++ c) = ({ comment := cm, started := true, info := some info }, .ok info) := by
  obtain ⟨init, last, h1, h2, h3⟩ := h.last
  have hl := last_data cm last h.comment h2 h3
  have hat : afterTell ({} : Stream) = {} := by decide
  have hcnt : countColumns (b ++ c) cm {} = countColumns b cm {} := by
    simp only [countColumns, hat]
    rw [whileLines_block b c _ _ (fun a => by rw [if_pos (dataLine_nil cm)])]
    rw [h1]
    refine loop_rest _ _ last (fun a a' hb => ?_) init _
    rw [if_neg (by rw [hl.1]; exact h2)] at hb
    cases hb
    rfl
  have hnam : ∀ n, detectNames (b ++ c) cm n {} = detectNames b cm n {} := fun n => by
    simp only [detectNames, hat]
    rw [whileLines_block b c _ _ (fun a => rfl)]
    rw [h1]
    refine loop_rest _ _ last (fun a a' hb => ?_) init _
    rw [namesBody] at hb
    simp only [if_neg h2, if_neg hl.2] at hb
    cases hb
    rfl
  have hdes : detectDescriptions (b ++ c) cm {} = detectDescriptions b cm {} := by
    simp only [detectDescriptions, hat]
    rw [whileLines_block b c _ _ (fun a => rfl)]
    rw [h1]
    refine loop_rest _ _ last (fun a a' hb => ?_) init _
    rw [descriptionsBody] at hb
    simp only [if_neg h2, if_neg hl.2] at hb
    cases hb
    rfl
  have hrw : rewind ({} : Stream) = {} := by decide
  rw [← columns_reader cm b info h.columns]
  rw [Reader.readColumnInfo, Reader.readColumnInfo]
  simp only [hrw, hcnt, hnam, hdes]

theorem loop_block (fmt : Fmt F D) (cm : Bytes) (info : Info) (last : Bytes) (hl : dataLine cm last ≠ []) : ∀ (init : List Bytes) (rows acc : List (RowT F D)),
    List.Forall₂ (fun l r => parseRow fmt info l = .ok r) (((init ++ [last]).map (dataLine cm)).filter fun l => l ≠ []) rows →
    loop (fun (a : Int × List (RowT F D)) => decide (a.1 ≠ 0)) (readBody fmt cm info) (init ++ [last, []]) ((rows.length : Int), acc) = ([[]], .ok (0, acc ++ rows)) := by
  intro init
  induction init with
  | nil =>
    intro rows acc h
    simp only [List.nil_append, List.map_cons, List.map_nil] at h
    rw [List.filter_cons_of_pos (by simpa using hl), List.filter_nil] at h
    cases h with
    | cons h1 h2 =>
      cases h2
      rw [List.nil_append, loop, if_pos (by simp)]
      simp only [readBody, if_neg hl, h1, Outcome.bind_ok, Outcome.pure_eq]
      rw [loop, if_neg (by simp)]
      simp
  | cons l init ih =>
    intro rows acc h
    have hne : rows ≠ [] := by
      rintro rfl
      cases hx : ((l :: init ++ [last]).map (dataLine cm)).filter fun l => l ≠ [] with
      | nil =>
        rw [List.filter_eq_nil_iff] at hx
        have := hx (dataLine cm last) (by simp)
        simp only [ne_eq, decide_not, Bool.not_eq_true', decide_eq_false_iff_not, not_not] at this
        exact hl this
      | cons _ _ => rw [hx] at h; cases h
    rw [List.cons_append, loop, if_pos (by simpa using hne)]
    rw [List.cons_append, List.map_cons] at h
    by_cases h0 : dataLine cm l = []
    · rw [List.filter_cons_of_neg (by simp [h0])] at h
      simp only [readBody, if_pos h0]
      exact ih rows acc h
    · rw [List.filter_cons_of_pos (by simpa using h0)] at h
      cases h with
      | @cons _ r _ rs h1 h2 =>
        simp only [readBody, if_neg h0, h1, Outcome.bind_ok, Outcome.pure_eq]
        have := ih rs (acc ++ [r]) h2
        simp only [List.length_cons, Nat.cast_add, Nat.cast_one, add_sub_cancel_right]
        rw [List.append_assoc] at this
        exact this

/-- A reader that is asked for the rows of a table gets them, and leaves the stream behind the table. -/
theorem read_block (fmt : Fmt F D) (cm b c : Bytes) (info : Info) (rows : List (RowT F D)) (h : Block fmt cm b info rows) :
    ({ comment := cm } : Reader).read fmt (b ++ c) rows.length =
      ({ comment := cm, started := true, info := some info, stream := { pos := b.length } }, .ok ⟨rows, info⟩) := by
  obtain ⟨init, last, h1, h2, h3⟩ := h.last
  have hl := last_data cm last h.comment h2 h3
  have hd : dataLine cm last ≠ [] := by rw [hl.1]; exact h2
  have hrows := h.rows
  have hfil : dataLines cm b = ((init ++ [last]).map (dataLine cm)).filter fun l => l ≠ [] := by
    rw [dataLines, h1]
    have h5 : dataLine cm [] = [] := dataLine_nil cm
    simp [List.filter_append, List.filter_cons, h5]
  rw [hfil] at hrows
  have hlb := loop_block fmt cm info last hd init rows [] hrows
  have hinfo : ∀ r ∈ rows, r.info = info := by
    have h4 := h.rows
    revert h4
    generalize dataLines cm b = ls
    clear hlb hrows hfil h
    intro h4
    induction h4 with
    | nil => simp
    | cons h5 _ ih =>
      intro r hr
      rcases List.mem_cons.1 hr with rfl | hr
      · exact parseRow_info fmt info _ _ h5
      · exact ih r hr
  have hne : rows ≠ [] := by
    rintro rfl
    cases hx : ((init ++ [last]).map (dataLine cm)).filter fun l => l ≠ [] with
    | nil =>
      rw [List.filter_eq_nil_iff] at hx
      have := hx (dataLine cm last) (by simp)
      simp only [ne_eq, decide_not, Bool.not_eq_true', decide_eq_false_iff_not, not_not] at this
      exact hd this
    | cons _ _ => rw [hx] at hrows; cases hrows
  have hbody : ∀ a : Int × List (RowT F D), readBody fmt cm info a [] = .ok a := fun a => by rw [readBody, if_pos (dataLine_nil cm)]
  have hw := whileLines_eq b (fun (a : Int × List (RowT F D)) => decide (a.1 ≠ 0)) (readBody fmt cm info) hbody (lineFuel b) {} ((rows.length : Int), []) (fuel_ok _ _)
  have hll : linesLeft b {} = splitChar '\n' b := by rw [linesLeft, if_neg (by simp)]; rfl
  rw [hll, h1, hlb] at hw
  rw [Reader.read, columns_block fmt cm b c info rows h]
  simp only
  rw [whileLines_block b c _ _ hbody _ (by rw [h1, hlb]; simp), hw.1]
  simp only [List.nil_append, Outcome.bind_ok]
  rw [mkTable_same info rows hinfo, if_neg hne]
  -- the place
  have hp := hw.2.2 (Nat.zero_le _)
  have hq := hw.2.1
  generalize (whileLines b (fun (a : Int × List (RowT F D)) => decide (a.1 ≠ 0)) (readBody fmt cm info) (lineFuel b) {} ((rows.length : Int), [])).1 = st at hp hq
  obtain ⟨p, e, f⟩ := st
  rw [linesLeft] at hq
  by_cases hx : e = true ∨ f = true
  · rw [if_pos hx] at hq; cases hq
  rw [if_neg hx] at hq
  have he : e = false := by cases e with | false => rfl | true => exact absurd (Or.inl rfl) hx
  have hf : f = false := by cases f with | false => rfl | true => exact absurd (Or.inr rfl) hx
  subst he hf
  simp only at hp hq
  have hnil : b.drop p = [] := by
    cases hbd : b.drop p with
    | nil => rfl
    | cons x xs =>
      rw [hbd] at hq
      rw [splitChar] at hq
      by_cases hxx : x = '\n'
      · rw [if_pos hxx] at hq
        have := congrArg List.length hq
        simp only [List.length_cons, List.length_nil] at this
        have hs : 0 < (splitChar '\n' xs).length := List.length_pos_iff.2 (splitChar_ne_nil '\n' xs)
        omega
      · rw [if_neg hxx] at hq
        cases hsx : splitChar '\n' xs with
        | nil => exact absurd hsx (splitChar_ne_nil '\n' xs)
        | cons y ys => rw [hsx] at hq; simp at hq
  have hpl : p = b.length := by
    have := List.drop_eq_nil_iff.1 hnil
    omega
  rw [hpl]

/-- Readers of the tables of a stream, each for one table, in order. -/
theorem blocks_read (fmt : Fmt F D) (cm : Bytes) : ∀ (blocks : List (Nat × Bytes × Info × List (RowT F D))) (pre : Bytes) (sh : Shared),
    (∀ x ∈ blocks, Block fmt cm x.2.1 x.2.2.1 x.2.2.2) → (blocks.map Prod.fst).Nodup → (∀ x ∈ blocks, ({ sh.readers x.1 with stream := {} } : Reader) = { comment := cm }) →
    sh.stream = { pos := pre.length } → (pre ++ blocks.flatMap fun x => x.2.1).length < 2 ^ 31 →
    sh.asks fmt (pre ++ blocks.flatMap fun x => x.2.1) (blocks.map fun x => (x.1, .read (x.2.2.2.length : Int))) = blocks.map fun x => .table (.ok ⟨x.2.2.2, x.2.2.1⟩) := by
  intro blocks
  induction blocks with
  | nil => intro pre sh _ _ _ _ _; rfl
  | cons x blocks ih =>
    obtain ⟨i, b, info, rows⟩ := x
    intro pre sh hb hn hfresh hst hlen
    have hB := hb _ (List.mem_cons_self)
    simp only at hB
    simp only [List.flatMap_cons] at hlen ⊢
    simp only [List.map_cons, Shared.asks]
    have hr : ({ sh.readers i with stream := sh.stream } : Reader) = ({ comment := cm } : Reader).shift pre.length := by
      have hf := hfresh (i, b, info, rows) List.mem_cons_self
      simp only at hf
      generalize sh.readers i = rr at hf
      obtain ⟨a1, a2, a3, a4, a5, a6⟩ := rr
      simp only [Reader.mk.injEq, true_and] at hf
      obtain ⟨rfl, rfl, rfl, rfl, rfl⟩ := hf
      rw [hst]
      simp [Reader.shift, Stream.shift]
    have hask := ask_shift fmt (pre ++ (b ++ blocks.flatMap fun x => x.2.1)) hlen pre.length (by rw [List.length_append]; omega) ({ comment := cm } : Reader)
      (by rw [List.length_append]; exact Nat.le_add_right _ _) (.read (rows.length : Int))
    rw [List.drop_left] at hask
    have hrb := read_block fmt cm b (blocks.flatMap fun x => x.2.1) info rows hB
    have hdo : sh.ask fmt (pre ++ (b ++ blocks.flatMap fun x => x.2.1)) i (.read (rows.length : Int)) =
        (⟨{ pos := pre.length + b.length }, fun j => if j = i then { comment := cm, started := true, info := some info, stream := { pos := pre.length + b.length } } else sh.readers j⟩,
          .table (.ok ⟨rows, info⟩)) := by
      rw [Shared.ask, hr, hask.1]
      simp only [Reader.ask, hrb]
    rw [hdo]
    simp only [List.map_cons, List.nodup_cons] at hn
    have hgo := ih (pre ++ b) ⟨{ pos := pre.length + b.length }, fun j => if j = i then
        { comment := cm, started := true, info := some info, stream := { pos := pre.length + b.length } } else sh.readers j⟩
      (fun y hy => hb y (List.mem_cons_of_mem _ hy)) hn.2 (fun y hy => by
        have hyi : y.1 ≠ i := fun e => hn.1 (by rw [← e]; exact List.mem_map_of_mem hy)
        simp only [if_neg hyi]
        exact hfresh y (List.mem_cons_of_mem _ hy)) (by rw [List.length_append]) (by rw [List.append_assoc]; exact hlen)
    rw [List.append_assoc] at hgo
    rw [hgo]

/-! ## C158 -/

/-- Tables written to one stream by writers one after the other are read again by readers one after the other: each reader that is asked for as many rows as its table has gets exactly that table,
with the columns of its own header, although what is left of the stream begins with the tables of others. -/
theorem C158_tables (fmt : Fmt F D) (cm : Bytes) (hcm : CommentOk cm) (sections : List (Nat × Section F D)) (hn : (sections.map Prod.fst).Nodup)
    (hok : ∀ s ∈ sections, s.2.Ok fmt cm) :
    ∃ (out : Bytes) (infos : List Info), writeSections fmt cm [] (sections.map Prod.snd) = .ok out ∧
      List.Forall₂ (fun info (s : Nat × Section F D) => List.Forall₂ SameColumn info s.2.first.info) infos sections ∧
      (out.length < 2 ^ 31 → ({ readers := fun _ => { comment := cm } } : Shared).asks fmt out (sections.map fun s => (s.1, .read (s.2.rows.length : Int))) =
        List.zipWith (fun info (s : Nat × Section F D) => .table (.ok ⟨s.2.rows.map (fun r => ⟨r.values, info⟩), info⟩)) infos sections) := by
  have key : ∀ (sections : List (Nat × Section F D)), (∀ s ∈ sections, s.2.Ok fmt cm) → ∀ pre : Bytes,
      ∃ blocks : List (Nat × Bytes × Info × List (RowT F D)), writeSections fmt cm pre (sections.map Prod.snd) = .ok (pre ++ blocks.flatMap fun x => x.2.1) ∧
        (∀ x ∈ blocks, Block fmt cm x.2.1 x.2.2.1 x.2.2.2) ∧
        List.Forall₂ (fun (x : Nat × Bytes × Info × List (RowT F D)) (s : Nat × Section F D) => x.1 = s.1 ∧ List.Forall₂ SameColumn x.2.2.1 s.2.first.info ∧
          x.2.2.2 = s.2.rows.map fun r => ⟨r.values, x.2.2.1⟩) blocks sections := by
    intro sections
    induction sections with
    | nil => intro _ pre; exact ⟨[], by simp [writeSections], by simp, .nil⟩
    | cons s sections ih =>
      intro hok pre
      obtain ⟨i, s⟩ := s
      have hs := hok (i, s) List.mem_cons_self
      simp only at hs
      obtain ⟨w, info, w1, w2, w3, w4, w5, w6⟩ := roundtrip_lines fmt cm hcm s.messages hs.messages s.first s.more hs.info hs.columns hs.name hs.some hs.rows
      obtain ⟨blocks, b1, b2, b3⟩ := ih (fun x hx => hok x (List.mem_cons_of_mem _ hx)) (pre ++ w.out)
      refine ⟨(i, w.out, info, s.rows.map fun r => ⟨r.values, info⟩) :: blocks, ?_, ?_, .cons ⟨rfl, w2, rfl⟩ b3⟩
      · rw [List.map_cons, writeSections]
        have hpre : ({ comment := cm, out := pre } : Writer) = ({ comment := cm } : Writer).after pre := by simp
        rw [hpre, addComments_after]
        cases hc : ({ comment := cm } : Writer).addComments s.messages with
        | throw e => rw [hc] at w1; cases w1
        | ub => rw [hc] at w1; cases w1
        | ok w' =>
          rw [hc, Outcome.bind_ok] at w1
          simp only [afterR, Outcome.bind_ok]
          rw [addAll_after, w1]
          simp only [afterR, Outcome.bind_ok]
          rw [b1]
          simp
      · intro x hx
        rcases List.mem_cons.1 hx with rfl | hx
        · exact ⟨hcm.1, w3, by rw [List.forall₂_map_right_iff]; exact w5, w6⟩
        · exact b2 x hx
  obtain ⟨blocks, b1, b2, b3⟩ := key sections hok []
  refine ⟨blocks.flatMap fun x => x.2.1, blocks.map fun x => x.2.2.1, by simpa using b1, ?_, fun hlen => ?_⟩
  · rw [List.forall₂_map_left_iff]
    exact b3.imp fun x s h => h.2.1
  · have hfst : blocks.map Prod.fst = sections.map Prod.fst := by
      clear b1 b2 hn hok hlen
      induction b3 with
      | nil => rfl
      | cons h _ ih => simp only [List.map_cons, h.1, ih]
    have hb := blocks_read fmt cm blocks [] { readers := fun _ => { comment := cm } } b2 (by rw [hfst]; exact hn) (fun _ _ => rfl) rfl (by simpa using hlen)
    rw [List.nil_append] at hb
    have h1 : (blocks.map fun x => (x.1, Call.read (x.2.2.2.length : Int))) = sections.map fun s => (s.1, Call.read (s.2.rows.length : Int)) := by
      clear b1 b2 hn hok hlen hb hfst
      induction b3 with
      | nil => rfl
      | cons h _ ih => simp only [List.map_cons, h.1, h.2.2, List.length_map, ih]
    rw [← h1, hb]
    clear b1 b2 hn hok hlen hb hfst h1
    induction b3 with
    | nil => rfl
    | cons h _ ih => simp only [List.map_cons, List.zipWith_cons_cons, h.2.2, ih]

/-! ## Example -/

/-- Two tables of different columns. -/
def twoSections : List (Nat × Section Unit Unit) :=
  [(0, { messages := ["hello".toList], first := ⟨[⟨[.scalar .i32 7], [⟨['a'], .scalar .i32, [], []⟩]⟩, ⟨[.scalar .i32 8], [⟨['a'], .scalar .i32, [], []⟩]⟩], [⟨['a'], .scalar .i32, [], []⟩]⟩ }),
   (1, { first := ⟨[⟨[.str ['z'], .scalar .i64 (-1)], [⟨['s'], .str, [], []⟩, ⟨['b'], .scalar .i64, ['m'], []⟩]⟩], [⟨['s'], .str, [], []⟩, ⟨['b'], .scalar .i64, ['m'], []⟩]⟩ })]

example : writeSections noFmt ['#'] [] (twoSections.map Prod.snd) =
    .ok "# hello\n\n# Column: a int\n\n# a\n\n  7\n  8\n# Column: s string\n# Column: b long (m)\n\n# s  b\n\n  z -1\n".toList := by decide +kernel

example : (({ readers := fun _ => { comment := ['#'] } } : Shared).asks noFmt
      "# hello\n\n# Column: a int\n\n# a\n\n  7\n  8\n# Column: s string\n# Column: b long (m)\n\n# s  b\n\n  z -1\n".toList [(0, .read 2), (1, .read 1)]).map Answer.shown =
    [[[(.scalar .i32, .ok ['7'])], [(.scalar .i32, .ok ['8'])]], [[(.str, .ok ['z']), (.scalar .i64, .ok ['-', '1'])]]] := by decide +kernel

/-- They meet the hypotheses. -/
example : CommentOk ['#'] ∧ (twoSections.map Prod.fst).Nodup ∧ ∀ s ∈ twoSections, s.2.Ok noFmt ['#'] := by
  refine ⟨⟨by decide, by decide⟩, by decide, fun s hs => ?_⟩
  simp only [twoSections, List.mem_cons, List.not_mem_nil, or_false] at hs
  rcases hs with rfl | rfl
  · refine ⟨?_, ⟨by decide, by decide +kernel⟩, ?_, ?_, by simp, ?_⟩
    · intro m hm
      simp only [List.mem_cons, List.not_mem_nil, or_false] at hm
      subst hm
      refine ⟨fun c hc => ?_, by decide +kernel⟩
      cases hc
      decide +kernel
    · intro d hd
      simp only [List.mem_cons, List.not_mem_nil, or_false] at hd
      subst hd
      exact ⟨⟨by decide, by simp [OneLine]⟩, by simp, by decide, by decide,
        free_of_ok (x := "# Column: a int\n".toList.drop 1) (by decide +kernel) (fun c hc => by cases hc; decide +kernel)⟩
    · intro d hd
      simp only [List.head?_cons, Option.some.injEq] at hd
      subst hd
      decide +kernel
    · intro x hx
      simp only [List.mem_cons, List.not_mem_nil, or_false] at hx
      subst hx
      refine ⟨rfl, fun r hr => ?_⟩
      simp only [List.mem_cons, List.not_mem_nil, or_false] at hr
      have row : ∀ (v : Val Unit Unit .i32) (t : Bytes), printCell noFmt (.scalar .i32 v) = .ok t → '#' ∉ t → RowOk noFmt ['#'] [⟨['a'], .scalar .i32, [], []⟩] [.scalar .i32 v] := by
        intro v t hv ht
        refine ⟨⟨.cons rfl .nil, fun s hs => by simp at hs⟩, fun c hc => ?_, fun c hc => ?_, fun c hc => ?_⟩
        · simp only [List.mem_cons, List.not_mem_nil, or_false] at hc
          subst hc
          trivial
        · simp only [List.mem_cons, List.not_mem_nil, or_false] at hc
          subst hc
          exact free_of_ok (x := t) hv (fun c hc => by cases hc; exact ht)
        · simp only [List.head?_cons, Option.some.injEq] at hc
          subst hc
          trivial
      rcases hr with rfl | rfl
      · exact row 7 ['7'] (by decide +kernel) (by decide)
      · exact row 8 ['8'] (by decide +kernel) (by decide)
  · refine ⟨by simp, ⟨by decide, by decide +kernel⟩, ?_, ?_, by simp, ?_⟩
    · intro d hd
      simp only [List.mem_cons, List.not_mem_nil, or_false] at hd
      rcases hd with rfl | rfl
      · exact ⟨⟨by decide, by simp [OneLine]⟩, by simp, by decide, by decide,
          free_of_ok (x := "# Column: s string\n".toList.drop 1) (by decide +kernel) (fun c hc => by cases hc; decide +kernel)⟩
      · exact ⟨⟨by decide, by simp [OneLine]⟩, by simp; decide, by decide, by decide,
          free_of_ok (x := "# Column: b long (m)\n".toList.drop 1) (by decide +kernel) (fun c hc => by cases hc; decide +kernel)⟩
    · intro d hd
      simp only [List.head?_cons, Option.some.injEq] at hd
      subst hd
      decide +kernel
    · intro x hx
      simp only [List.mem_cons, List.not_mem_nil, or_false] at hx
      subst hx
      refine ⟨rfl, fun r hr => ?_⟩
      simp only [List.mem_cons, List.not_mem_nil, or_false] at hr
      subst hr
      refine ⟨⟨.cons rfl (.cons rfl .nil), fun s hs => ?_⟩, fun c hc => ?_, fun c hc => ?_, fun c hc => ?_⟩
      · simp only [List.mem_cons, Cell.str.injEq, List.not_mem_nil, or_false, reduceCtorEq] at hs
        rw [hs]
        exact ⟨by decide, by simp [OneLine]⟩
      · simp only [List.mem_cons, List.not_mem_nil, or_false] at hc
        rcases hc with rfl | rfl
        · simp [CellOk]
        · trivial
      · simp only [List.mem_cons, List.not_mem_nil, or_false] at hc
        rcases hc with rfl | rfl
        · exact free_of_ok (x := ['z']) (by decide +kernel) (fun c hc => by cases hc; decide)
        · exact free_of_ok (x := ['-', '1']) (by decide +kernel) (fun c hc => by cases hc; decide)
      · simp only [List.head?_cons, Option.some.injEq] at hc
        subst hc
        simp [FirstOk]
        decide

end Alexandria.Table
