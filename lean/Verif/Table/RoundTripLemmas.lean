import Verif.Table.HeaderLemmas

/-!
# What it means that a table can be written and read back, and lemmas about the written text
-/

namespace Alexandria.Table

open Alexandria.Str

variable {F D : Type}

/-! ## Specification -/

/-- Comment indicators without whitespace. -/
def CommentOk (cm : Bytes) : Prop := cm ≠ [] ∧ ∀ c ∈ cm, isSpace c = false ∧ c ≠ '\x00'

/-- The text does not contain the first character of the comment indicator. -/
def NoComment (cm s : Bytes) : Prop := ∀ c, cm.head? = some c → c ∉ s

/-- Columns that survive: no line breaks, no whitespace at the beginning of the unit, and nothing that looks like a comment. -/
structure ColumnOk (cm : Bytes) (d : Desc) : Prop where
  good : GoodDesc d
  unitHead : ∀ c, d.unit.head? = some c → isSpace c = false
  unitLine : '\n' ∉ d.unit
  descLine : '\n' ∉ d.description
  free : ∀ line, describe [] d = .ok line → NoComment cm line

/-- Rows that survive: cells that can be written, nothing that looks like a comment, and no quotes in the first column. -/
structure RowOk (fmt : Fmt F D) (cm : Bytes) (info : Info) (values : List (Cell F D)) : Prop where
  good : GoodCells info values
  cells : ∀ c ∈ values, CellOk fmt c
  free : ∀ c ∈ values, ∀ s, printCell fmt c = .ok s → NoComment cm s
  first : ∀ c, values.head? = some c → FirstOk c

/-- Comments that do not look like the description of a column. -/
def MessageOk (cm m : Bytes) : Prop := NoComment cm m ∧ ∀ line ∈ splitChar '\n' m, ¬ "Column:".toList <+: trim line

/-- The calls of `addComment`. -/
def Writer.addComments (w : Writer) : List Bytes → Res Writer
  | [] => .ok w
  | m :: ms => do
    let w ← w.addComment m
    w.addComments ms

/-- The calls of `addData`. -/
def Writer.addAll (fmt : Fmt F D) (w : Writer) : List (TableT F D) → Res Writer
  | [] => .ok w
  | t :: ts => do
    let w ← w.addData fmt t
    w.addAll fmt ts

/-- A column as it is read back. -/
def SameColumn (d' d : Desc) : Prop :=
  d'.name = d.name ∧ d'.type = d.type ∧
    ((∀ c ∈ d.unit, isSpace c = false) → d'.unit = d.unit ∧ (CleanText d.description → d'.description = d.description))

/-! ## Data lines -/

theorem findAux_none (c0 : Char) (pat : Bytes) : ∀ (s : Bytes) (i : Nat), c0 ∉ s → findAux (c0 :: pat) s i = none := by
  intro s
  induction s with
  | nil => intro i _; rw [findAux]; simp [List.isPrefixOf]
  | cons c s ih =>
    intro i h
    simp only [List.mem_cons, not_or] at h
    rw [findAux, if_neg (by simp [List.isPrefixOf, h.1]), ih (i + 1) h.2]

theorem dataLine_free (c0 : Char) (pat s : Bytes) (h : c0 ∉ s) : dataLine (c0 :: pat) s = trim s := by
  rw [dataLine, find, if_pos (Nat.zero_le _), List.drop_zero, findAux_none c0 pat s 0 h]

theorem spaced_free (c0 : Char) (hc : isSpace c0 = false) (ps : List (Nat × Bytes)) (h : ∀ p ∈ ps, c0 ∉ p.2) : c0 ∉ spaced ps := by
  induction ps with
  | nil => simp [spaced]
  | cons p ps ih =>
    obtain ⟨k, raw⟩ := p
    rw [spaced, List.mem_append, List.mem_append]
    rintro ((h1 | h1) | h1)
    · have := List.eq_of_mem_replicate h1
      rw [this] at hc; exact absurd hc (by decide)
    · exact h (k, raw) (by simp) h1
    · exact ih (fun q hq => h q (List.mem_cons_of_mem _ hq)) h1

theorem forall₂_pair {α β : Type} {R : α → β → Prop} {P : α → Prop} {Q : β → Prop} {l : List α} {m : List β} (h : List.Forall₂ R l m) (hq : ∀ b ∈ m, Q b)
    (hp : ∀ a b, R a b → Q b → P a) : ∀ a ∈ l, P a := by
  induction h with
  | nil => simp
  | cons h1 _ ih =>
    intro a ha
    rcases List.mem_cons.1 ha with rfl | ha
    · exact hp _ _ h1 (hq _ (by simp))
    · exact ih (fun b hb => hq b (List.mem_cons_of_mem _ hb)) a ha

theorem forall₂_imp_mem {α β : Type} {R S : α → β → Prop} {l : List α} {m : List β} (h : List.Forall₂ R l m) (hi : ∀ a b, b ∈ m → R a b → S a b) : List.Forall₂ S l m := by
  induction h with
  | nil => exact .nil
  | cons h1 _ ih => exact .cons (hi _ _ (by simp) h1) (ih fun a b hb => hi a b (List.mem_cons_of_mem _ hb))

/-- A line written for cells, without the whitespace at its beginning. -/
theorem rowLine_trim (fmt : Fmt F D) (line : Bytes) (c : Cell F D) (cs : List (Cell F D)) (h : RowLine fmt line (c :: cs)) (hok : ∀ x ∈ c :: cs, CellOk fmt x) :
    ∃ ps : List (Nat × Bytes), trim line = cellText fmt c ++ spaced ps ∧ List.Forall₂ (fun p c => 1 ≤ p.1 ∧ p.2 = cellText fmt c) ps cs ∧
      tokens (trim line) = (c :: cs).map (cellToken fmt) := by
  obtain ⟨ps, h1, h2⟩ := h
  cases h2 with
  | @cons p _ ps _ h3 h4 =>
    obtain ⟨k, raw⟩ := p
    obtain ⟨hk, hr⟩ := h3
    simp only at hk hr
    subst hr
    have hall : List.Forall₂ (fun (p : Nat × Bytes) x => 1 ≤ p.1 ∧ p.2 = cellText fmt x) ((k, cellText fmt c) :: ps) (c :: cs) := .cons ⟨hk, rfl⟩ h4
    have ht : trim line = cellText fmt c ++ spaced ps := by
      rw [h1]
      refine trim_spaced k _ ps (forall₂_pair hall hok fun p x hp hx => ?_)
      have := (cell_reads fmt x hx).2.1
      rw [hp.2]
      exact ⟨this.ne, this.head, this.last⟩
    refine ⟨ps, ht, h4, ?_⟩
    rw [ht]
    apply tokens_trimmed k
    rw [List.forall₂_map_right_iff]
    exact forall₂_imp_mem hall fun p x hx hp => ⟨hp.1, by rw [hp.2]; exact (cell_reads fmt x (hok x hx)).2.1⟩

theorem rowLine_free (fmt : Fmt F D) (cm : Bytes) (c0 : Char) (hc : isSpace c0 = false) (hcm : cm.head? = some c0) (line : Bytes) (cs : List (Cell F D))
    (h : RowLine fmt line cs) (hok : ∀ x ∈ cs, CellOk fmt x) (hf : ∀ c ∈ cs, ∀ s, printCell fmt c = .ok s → NoComment cm s) : c0 ∉ line := by
  obtain ⟨ps, rfl, h2⟩ := h
  refine spaced_free c0 hc ps (forall₂_pair h2 (fun x hx => (⟨hok x hx, hf x hx⟩ : CellOk fmt x ∧ ∀ s, printCell fmt x = .ok s → NoComment cm s)) fun p x hp hx => ?_)
  rw [hp.2]
  exact hx.2 _ (cell_reads fmt x hx.1).1 c0 hcm

theorem quotedW_line (s : Bytes) (hns : '\n' ∉ s) : '\n' ∉ quotedW s := by
  rw [quotedW]
  split
  · simp only [quotedOut, List.mem_append, List.mem_cons, List.mem_flatMap, not_or, not_exists, not_and, List.not_mem_nil, or_false]
    refine ⟨⟨by decide, fun c hc => ?_⟩, by decide⟩
    split
    · intro hm
      rcases List.mem_cons.1 hm with hm | hm
      · exact absurd hm (by decide)
      · rw [List.mem_singleton] at hm; exact hns (hm ▸ hc)
    · intro hm; rw [List.mem_singleton] at hm; exact hns (hm ▸ hc)
  · exact hns

theorem spaced_line (ps : List (Nat × Bytes)) (key : ∀ p ∈ ps, '\n' ∉ p.2) : '\n' ∉ spaced ps := by
  induction ps with
  | nil => simp [spaced]
  | cons p ps ih =>
    obtain ⟨k, raw⟩ := p
    rw [spaced, List.mem_append, List.mem_append]
    rintro ((h1 | h1) | h1)
    · exact absurd (List.eq_of_mem_replicate h1) (by decide)
    · exact key (k, raw) (by simp) h1
    · exact ih (fun q hq => key q (List.mem_cons_of_mem _ hq)) h1

/-- No line breaks in the text of a cell. -/
theorem rowLine_line (fmt : Fmt F D) (line : Bytes) (cs : List (Cell F D)) (h : RowLine fmt line cs) (hok : ∀ x ∈ cs, CellOk fmt x)
    (hs : ∀ s, Cell.str s ∈ cs → s ≠ [] ∧ OneLine s) : '\n' ∉ line := by
  obtain ⟨ps, rfl, h2⟩ := h
  have key : ∀ p ∈ ps, '\n' ∉ p.2 := by
    refine forall₂_pair h2 (Q := fun x => CellOk fmt x ∧ ∀ s, x = .str s → OneLine s) (fun x hx => ⟨hok x hx, fun s e => (hs s (e ▸ hx)).2⟩) fun p x hp hx => ?_
    rw [hp.2]
    by_cases hstr : ∃ s, x = .str s
    · obtain ⟨s, rfl⟩ := hstr
      have hl := hx.2 s rfl
      exact quotedW_line s fun hm => hl _ hm (by decide)
    · obtain ⟨raw, h1, _, h3, _⟩ := cell_plain fmt x hx.1 fun s e => hstr ⟨s, e⟩
      have ht : cellText fmt x = raw := by rw [cellText, h1]
      rw [ht]
      exact fun hm => absurd (h3 _ hm).1 (by decide)
  exact spaced_line ps key

theorem cellsLoop_ok (fmt : Fmt F D) (cs : List (Cell F D)) : ∀ (ps : List (Nat × Bytes)) (ds : List Desc), (∀ x ∈ cs, CellOk fmt x) →
    List.Forall₂ (fun p c => 1 ≤ p.1 ∧ p.2 = cellText fmt c) ps cs → List.Forall₂ (fun (v : Cell F D) (d : Desc) => v.type = d.type) cs ds →
    cellsLoop fmt ds (readQ (spaced ps)).1 (readQ (spaced ps)).2 = .ok cs := by
  induction cs with
  | nil =>
    intro ps ds _ h1 h2
    cases h1; cases h2
    rfl
  | cons c cs ih =>
    intro ps ds hok h1 h2
    cases h1 with
    | @cons p _ ps _ h3 h4 =>
      cases h2 with
      | @cons _ d _ ds h5 h6 =>
        obtain ⟨k, raw⟩ := p
        obtain ⟨hk, hr⟩ := h3
        simp only at hk hr
        subst hr
        have hr := cell_reads fmt c (hok c (by simp))
        have hread : readQ (spaced ((k, cellText fmt c) :: ps)) = (cellToken fmt c, some (spaced ps)) := by
          rw [spaced, List.append_assoc, readQ_spaces]
          exact hr.2.1.read _ (spaced_sep ps (forall₂_left h4 fun _ _ h => h.1))
        rw [hread, cellsLoop, ← h5, hr.2.2, Outcome.bind_ok, ih ps ds (fun x hx => hok x (List.mem_cons_of_mem _ hx)) h4 h6]
        rfl

/-- A written line is read as the row. -/
theorem parseRow_ok (fmt : Fmt F D) (info : Info) (line : Bytes) (cs : List (Cell F D)) (hne : cs ≠ []) (h : RowLine fmt line cs)
    (hok : ∀ x ∈ cs, CellOk fmt x) (hf : ∀ c, cs.head? = some c → FirstOk c) (hg : GoodCells info cs) : parseRow fmt info (trim line) = .ok ⟨cs, info⟩ := by
  cases cs with
  | nil => exact absurd rfl hne
  | cons c cs =>
    obtain ⟨ps, h1, h2, _⟩ := rowLine_trim fmt line c cs h hok
    have hsep := spaced_sep ps (forall₂_left h2 fun _ _ h => h.1)
    have hw := first_reads fmt c (hok c (by simp)) (hf c rfl) (spaced ps) hsep
    rw [parseRow, h1, hw]
    simp only
    have hg1 := hg.1
    cases hi : info with
    | nil => rw [hi] at hg1; cases hg1
    | cons d ds =>
      rw [hi] at hg1
      cases hg1 with
      | cons h5 h6 =>
        rw [cellsLoop, ← h5, (cell_reads fmt c (hok c (by simp))).2.2, Outcome.bind_ok,
          cellsLoop_ok fmt cs ps ds (fun x hx => hok x (List.mem_cons_of_mem _ hx)) h2 h6]
        simp only [Outcome.bind_ok, Outcome.pure_eq]
        rw [← hi]
        exact (mkRow_iff _ _).2 hg

/-! ## The header -/

/-- A blank line, or a line that begins with the comment indicator. -/
def HeaderLine (c0 : Char) (pat l : Bytes) : Prop := l = [] ∨ ∃ s, l = c0 :: pat ++ s ∧ c0 ∉ s

theorem names_ok (c0 : Char) (pat : Bytes) (hc : ∀ c ∈ c0 :: pat, isSpace c = false) (pre : List Bytes) (hpre : ∀ l ∈ pre, HeaderLine c0 pat l)
    (s : Bytes) (hs : c0 ∉ s) (hne : trim s ≠ []) (row : Bytes) (hrow : c0 ∉ row) (hrne : trim row ≠ []) (rest : List Bytes) :
    ∃ a, (loop (fun (a : NamesSt) => !a.done) (namesBody (c0 :: pat)) (pre ++ (c0 :: pat ++ s) :: [] :: row :: rest) {}).2 = .ok a ∧ a.last = trim s := by
  obtain ⟨a1, h1, h2⟩ := loop_through (fun (a : NamesSt) => !a.done) (namesBody (c0 :: pat)) pre ((c0 :: pat ++ s) :: [] :: row :: rest) (fun l hl a ha => by
    rcases hpre l hl with rfl | ⟨s, rfl, hs⟩
    · exact ⟨a, rfl, ha⟩
    · obtain ⟨a', e1, e2, _⟩ := namesBody_header c0 pat s hc hs a
      exact ⟨a', e1, by simpa [e2] using ha⟩) {} rfl
  obtain ⟨a2, e1, e2, e3⟩ := namesBody_header c0 pat s hc hs a1
  have hg2 : (!a2.done) = true := by rw [e2]; exact h1
  have e4 : namesBody (c0 :: pat) a2 [] = .ok a2 := rfl
  have e5 : namesBody (c0 :: pat) a2 row = .ok { a2 with done := true } := by
    rw [namesBody]
    simp only
    rw [if_neg hrne, if_neg]
    intro hp
    have : c0 ∈ trim row := hp.subset (by simp)
    rw [trim_rtrim] at this
    exact hrow ((List.dropWhile_sublist _).subset (rtrim_mem this))
  refine ⟨{ a2 with done := true }, ?_, e3 hne⟩
  rw [h2, loop, if_pos h1, e1]
  simp only
  rw [loop, if_pos hg2, e4]
  simp only
  rw [loop, if_pos hg2, e5]
  exact loop_stop _ _ _ _ rfl

theorem column_text (d : Desc) (k : Bytes) (hd : GoodDesc d) (hk : k ≠ []) (hks : ∀ c ∈ k, isSpace c = false) :
    trim (descText d k) = "Column:".toList ++ rtrim (' ' :: (quotedW d.name ++ ' ' :: k ++ (unitPart d ++ tailPart d))) ∧
      trim (rtrim (' ' :: (quotedW d.name ++ ' ' :: k ++ (unitPart d ++ tailPart d)))) = quotedW d.name ++ ' ' :: k ++ rtrim (unitPart d ++ tailPart d) := by
  have hq := reads_quotedW d.name hd.1
  refine ⟨?_, ?_⟩
  · have h1 : descText d k = ' ' :: ("Column:".toList ++ ' ' :: (quotedW d.name ++ ' ' :: k ++ (unitPart d ++ tailPart d))) := by
      unfold descText unitPart tailPart
      have : " Column: ".toList = ' ' :: ("Column:".toList ++ [' ']) := by decide
      rw [this]
      simp only [List.append_assoc, List.cons_append, List.nil_append]
    have h2 : trim (descText d k) = rtrim ("Column:".toList ++ ' ' :: (quotedW d.name ++ ' ' :: k ++ (unitPart d ++ tailPart d))) := by
      rw [h1, trim_rtrim, List.dropWhile_cons_of_pos (by decide), dropWhile_none]
      intro c hc
      have hC : "Column:".toList = 'C' :: "olumn:".toList := by decide
      rw [hC, List.cons_append, List.head?_cons] at hc
      cases hc; decide
    rw [h2, rtrim_append]
    decide
  · rw [trim_rtrim_eq]
    have h1 : trim (' ' :: (quotedW d.name ++ ' ' :: k ++ (unitPart d ++ tailPart d))) = trim (quotedW d.name ++ ' ' :: k ++ (unitPart d ++ tailPart d)) :=
      trim_spaces 1 _
    rw [h1, trim_rtrim, dropWhile_none, rtrim_append]
    · intro c hc
      rw [List.getLast?_append, List.getLast?_cons] at hc
      cases hl : k.getLast? with
      | none => exact absurd (List.getLast?_eq_none_iff.1 hl) hk
      | some e =>
        rw [hl] at hc
        simp only [Option.getD_some, Option.some_or, Option.some.injEq] at hc
        subst hc
        exact hks _ (List.mem_of_getLast? hl)
    · intro c hc
      obtain ⟨e, t, he⟩ := List.exists_cons_of_ne_nil hq.ne
      rw [he] at hc
      exact hq.head c (by rw [he]; simpa using hc)

theorem columns_ok (c0 : Char) (pat : Bytes) (hc : ∀ c ∈ c0 :: pat, isSpace c = false) (ds : List Desc) (rest : List Bytes) : ∀ acc : List Desc,
    (∀ d ∈ ds, GoodDesc d ∧ typeToKeyword d.type = .ok (keyword d.type) ∧ (∀ c, d.unit.head? = some c → isSpace c = false) ∧ c0 ∉ descText d (keyword d.type)) →
    (ds.map Desc.name).Nodup → (∀ d ∈ ds, d.name ∉ acc.map Desc.name) →
    ∃ ds', loop (fun (a : List Desc × Bool) => !a.2) (descriptionsBody (c0 :: pat)) ((ds.map fun d => c0 :: pat ++ descText d (keyword d.type)) ++ rest) (acc, false) =
      loop (fun (a : List Desc × Bool) => !a.2) (descriptionsBody (c0 :: pat)) rest (acc ++ ds', false) ∧ List.Forall₂ SameColumn ds' ds := by
  induction ds with
  | nil => intro acc _ _ _; exact ⟨[], by simp, .nil⟩
  | cons d ds ih =>
    intro acc h hnd hacc
    obtain ⟨h1, h2, h3, h4⟩ := h d (by simp)
    have hk := keyword_cases d.type h2
    obtain ⟨u', t', hp, hclean⟩ := parse_ok (acc.map Desc.name) d h1 (hacc d (by simp)) h2 h3
    have hl := header_line c0 pat (descText d (keyword d.type)) hc h4
    have hct := column_text d (keyword d.type) h1 hk.2.1 hk.2.2.1
    have hbody : descriptionsBody (c0 :: pat) (acc, false) (c0 :: pat ++ descText d (keyword d.type)) = .ok (acc ++ [⟨d.name, d.type, u', t'⟩], false) := by
      rw [descriptionsBody]
      simp only [hl.1]
      rw [if_neg (by simp), if_pos (List.prefix_append _ _)]
      simp only [hl.2]
      have hdrop : ("Column:".toList ++ rtrim (' ' :: (quotedW d.name ++ ' ' :: keyword d.type ++ (unitPart d ++ tailPart d)))).drop 7 =
          rtrim (' ' :: (quotedW d.name ++ ' ' :: keyword d.type ++ (unitPart d ++ tailPart d))) := List.drop_left' (by decide)
      rw [hct.1, if_pos (List.prefix_append _ _), hdrop, hct.2, if_neg (by simp), hp]
      rfl
    simp only [List.map_cons, List.nodup_cons] at hnd
    obtain ⟨ds', e1, e2⟩ := ih (acc ++ [⟨d.name, d.type, u', t'⟩]) (fun d hd => h d (List.mem_cons_of_mem _ hd)) hnd.2 (fun e he => by
      simp only [List.map_append, List.map_cons, List.map_nil, List.mem_append, List.mem_singleton, not_or]
      exact ⟨hacc e (List.mem_cons_of_mem _ he), fun hx => hnd.1 (hx ▸ List.mem_map_of_mem he)⟩)
    refine ⟨⟨d.name, d.type, u', t'⟩ :: ds', ?_, .cons ⟨rfl, rfl, hclean⟩ e2⟩
    rw [List.map_cons, List.cons_append, loop, if_pos (by rfl), hbody]
    simp only
    rw [e1, List.append_assoc]
    rfl

theorem descriptions_ok (c0 : Char) (pat : Bytes) (hc : ∀ c ∈ c0 :: pat, isSpace c = false) (pre : List Bytes)
    (hpre : ∀ l ∈ pre, l = [] ∨ ∃ s, l = c0 :: pat ++ s ∧ c0 ∉ s ∧ ¬ "Column:".toList <+: trim s) (ds : List Desc)
    (h : ∀ d ∈ ds, GoodDesc d ∧ typeToKeyword d.type = .ok (keyword d.type) ∧ (∀ c, d.unit.head? = some c → isSpace c = false) ∧ c0 ∉ descText d (keyword d.type))
    (hnd : (ds.map Desc.name).Nodup) (s : Bytes) (hs : c0 ∉ s) (hns : ¬ "Column:".toList <+: trim s)
    (row : Bytes) (hrow : c0 ∉ row) (hrne : trim row ≠ []) (rest : List Bytes) :
    ∃ ds', (loop (fun (a : List Desc × Bool) => !a.2) (descriptionsBody (c0 :: pat))
      (pre ++ ((ds.map fun d => c0 :: pat ++ descText d (keyword d.type)) ++ [] :: (c0 :: pat ++ s) :: [] :: row :: rest)) ([], false)).2 = .ok (ds', true) ∧
      List.Forall₂ SameColumn ds' ds := by
  have hblank : ∀ a, descriptionsBody (c0 :: pat) a [] = .ok a := fun a => rfl
  have h1 := loop_same (fun (a : List Desc × Bool) => !a.2) (descriptionsBody (c0 :: pat)) ([], false) pre
    ((ds.map fun d => c0 :: pat ++ descText d (keyword d.type)) ++ [] :: (c0 :: pat ++ s) :: [] :: row :: rest) fun l hl => by
      rcases hpre l hl with rfl | ⟨s, rfl, hs, hp⟩
      · exact hblank _
      · exact descriptionsBody_other c0 pat s hc hs hp _
  rcases h1 with h1 | h1
  · obtain ⟨ds', e1, e2⟩ := columns_ok c0 pat hc ds ([] :: (c0 :: pat ++ s) :: [] :: row :: rest) [] h hnd (by simp)
    refine ⟨ds', ?_, e2⟩
    have e5 : descriptionsBody (c0 :: pat) ([] ++ ds', false) row = .ok ([] ++ ds', true) := by
      rw [descriptionsBody]
      simp only
      rw [if_neg hrne, if_neg]
      intro hp
      have : c0 ∈ trim row := hp.subset (by simp)
      rw [trim_rtrim] at this
      exact hrow ((List.dropWhile_sublist _).subset (rtrim_mem this))
    rw [h1, e1, loop, if_pos (by rfl), hblank]
    simp only
    rw [loop, if_pos (by rfl), descriptionsBody_other c0 pat s hc hs hns]
    simp only
    rw [loop, if_pos (by rfl), hblank]
    simp only
    rw [loop, if_pos (by rfl), e5]
    exact loop_stop _ _ _ _ rfl
  · cases h1

theorem find_nodup (ds : List Desc) (hnd : (ds.map Desc.name).Nodup) (i : Nat) (d : Desc) (h : ds[i]? = some d) :
    (ds.find? fun e => e.name == d.name) = some d := by
  induction ds generalizing i with
  | nil => simp at h
  | cons e ds ih =>
    simp only [List.map_cons, List.nodup_cons] at hnd
    cases i with
    | zero => simp only [List.getElem?_cons_zero, Option.some.injEq] at h; subst h; rw [List.find?_cons_of_pos (by simp)]
    | succ i =>
      simp only [List.getElem?_cons_succ] at h
      have : e.name ≠ d.name := fun hx => hnd.1 (hx ▸ List.mem_map_of_mem (List.mem_of_getElem? h))
      rw [List.find?_cons_of_neg (by simpa using this)]
      exact ih hnd.2 i h

theorem infoLoop_ok (ds : List Desc) (hnd : (ds.map Desc.name).Nodup) (hg : ∀ d ∈ ds, GoodDesc d) : ∀ (k i : Nat), i + k = ds.length →
    infoLoop [] (ds.map Desc.name) [] ds k i = .ok (ds.drop i) := by
  intro k
  induction k with
  | zero => intro i hi; rw [infoLoop, List.drop_eq_nil_of_le (by omega)]
  | succ k ih =>
    intro i hi
    have hlt : i < ds.length := by omega
    have hget : ds[i]? = some ds[i] := List.getElem?_eq_getElem hlt
    have hname : (ds.map Desc.name)[i]? = some ds[i].name := by rw [List.getElem?_map, hget]; rfl
    have hm : mkDesc ds[i].name ds[i].type ds[i].unit ds[i].description = .ok ds[i] := (mkDesc_iff _ _ _ _).2 (hg _ (List.getElem_mem hlt))
    rw [infoLoop, if_pos rfl, hname]
    simp only [if_true]
    rw [find_nodup ds hnd i ds[i] hget]
    simp only
    rw [hm, ih (i + 1) (by omega)]
    simp only [Outcome.bind_ok, Outcome.pure_eq]
    rw [← List.cons_getElem_drop_succ (h := hlt)]

theorem sameColumn_names {ds' ds : List Desc} (h : List.Forall₂ SameColumn ds' ds) : ds'.map Desc.name = ds.map Desc.name := by
  induction h with
  | nil => rfl
  | cons h1 _ ih => rw [List.map_cons, List.map_cons, h1.1, ih]

theorem sameColumn_cells {ds' ds : List Desc} (h : List.Forall₂ SameColumn ds' ds) (vs : List (Cell F D)) (hg : GoodCells ds vs) : GoodCells ds' vs := by
  refine ⟨?_, hg.2⟩
  have h1 := hg.1
  clear hg
  induction h1 generalizing ds' with
  | nil => cases h; exact .nil
  | cons a b ih => cases h with
    | cons c e => exact .cons (a.trans c.2.1.symm) (ih e)

/-! ## The written text -/

theorem addComments_ok (ms : List Bytes) : ∀ w : Writer, w.initialized = false →
    ∃ w', w.addComments ms = .ok w' ∧ w'.out = w.out ++ joinLines (ms.flatMap fun m => (splitChar '\n' m).map fun l => w.comment ++ ' ' :: l) ∧
      w'.comment = w.comment ∧ w'.showInfo = w.showInfo ∧ w'.info = w.info ∧ w'.initialized = false := by
  induction ms with
  | nil => intro w hw; exact ⟨w, rfl, by simp [joinLines], rfl, rfl, rfl, hw⟩
  | cons m ms ih =>
    intro w hw
    have h1 : w.addComment m = .ok { w with started := true, out := w.out ++ (splitChar '\n' m).flatMap fun line => w.comment ++ ' ' :: line ++ ['\n'] } := by
      rw [Writer.addComment, if_neg (by simp [hw])]
    obtain ⟨w', e1, e2, e3, e4, e5, e6⟩ := ih { w with started := true, out := w.out ++ (splitChar '\n' m).flatMap fun line => w.comment ++ ' ' :: line ++ ['\n'] } hw
    refine ⟨w', by rw [Writer.addComments, h1]; exact e1, ?_, e3, e4, e5, e6⟩
    rw [e2, List.flatMap_cons, joinLines_append]
    simp only [List.append_assoc, List.append_cancel_left_eq]
    simp only [joinLines, List.flatMap_map, List.append_assoc]

theorem agree_types {a b : Info} (h : Agree a b) : a.length = b.length := by
  have := congrArg List.length h
  simpa using this

theorem addMore_ok (fmt : Fmt F D) (info : Info) (hne : info ≠ []) (ts : List (TableT F D)) : ∀ w : Writer, w.info = some info →
    (∀ t ∈ ts, Agree info t.info ∧ ∀ r ∈ t.rows, r.values.length = info.length ∧ ∀ c ∈ r.values, CellOk fmt c) →
    ∃ w' lines, w.addAll fmt ts = .ok w' ∧ w'.out = w.out ++ joinLines lines ∧
      List.Forall₂ (fun l (r : RowT F D) => RowLine fmt l r.values) lines (ts.flatMap TableT.rows) := by
  induction ts with
  | nil => intro w _ _; exact ⟨w, [], rfl, by simp [joinLines], .nil⟩
  | cons t ts ih =>
    intro w hw h
    obtain ⟨ha, hr⟩ := h t (by simp)
    have hlen := agree_types ha
    have hne' : t.info ≠ [] := fun e => hne (List.length_eq_zero_iff.1 (by rw [hlen, e]; rfl))
    obtain ⟨l1, e1, e2⟩ := append_ok fmt w t hne' fun r hr' => by rw [← hlen]; exact hr r hr'
    obtain ⟨w', l2, f1, f2, f3⟩ := ih { w with out := w.out ++ joinLines l1 } hw fun t ht => h t (List.mem_cons_of_mem _ ht)
    refine ⟨w', l1 ++ l2, ?_, by rw [f2, joinLines_append, List.append_assoc], ?_⟩
    · rw [Writer.addAll, Writer.addData, hw]
      simp only
      rw [if_pos ((sameInfo_iff _ _).2 ha), e1]
      exact f1
    · rw [List.flatMap_cons]; exact List.rel_append e2 f3

theorem written (fmt : Fmt F D) (cm : Bytes) (hnul : '\x00' ∉ cm) (messages : List Bytes) (t : TableT F D) (ts : List (TableT F D)) (hne : t.info ≠ [])
    (hk : ∀ d ∈ t.info, typeToKeyword d.type = .ok (keyword d.type))
    (h : ∀ x ∈ t :: ts, Agree t.info x.info ∧ ∀ r ∈ x.rows, r.values.length = t.info.length ∧ ∀ c ∈ r.values, CellOk fmt c) :
    ∃ w pre ps lines, (do let w ← ({ comment := cm } : Writer).addComments messages; w.addAll fmt (t :: ts)) = .ok w ∧
      w.out = joinLines (pre ++ ((t.info.map fun d => cm ++ descText d (keyword d.type)) ++ [] :: (cm ++ spaced ps) :: [] :: lines)) ∧
      (∀ l ∈ pre, l = [] ∨ ∃ m ∈ messages, ∃ s ∈ splitChar '\n' m, l = cm ++ ' ' :: s) ∧
      List.Forall₂ (fun p (d : Desc) => 1 ≤ p.1 ∧ p.2 = quotedW d.name) ps t.info ∧
      List.Forall₂ (fun l (r : RowT F D) => RowLine fmt l r.values) lines ((t :: ts).flatMap TableT.rows) := by
  obtain ⟨w1, a1, a2, a3, a4, a5, a6⟩ := addComments_ok messages { comment := cm } rfl
  have h0 := h t (by simp)
  have hc : w1.comment = cm := a3
  obtain ⟨ps, b1, b2⟩ := init_ok fmt { w1 with info := some t.info } t a4 (by simpa [hc] using hnul) hk h0.2
  obtain ⟨w2, i1, i2, i3⟩ : ∃ w2, Writer.init fmt { w1 with info := some t.info } t = .ok w2 ∧ w2.out = w1.out ++ joinLines ((if w1.started then [[]] else []) ++
      (t.info.map fun d => w1.comment ++ descText d (keyword d.type)) ++ [[], w1.comment ++ spaced ps, []]) ∧ w2.info = some t.info := ⟨_, b2, rfl, rfl⟩
  obtain ⟨l1, c1, c2⟩ := append_ok fmt w2 t hne h0.2
  obtain ⟨w', l2, d1, d2, d3⟩ := addMore_ok fmt t.info hne ts { w2 with out := w2.out ++ joinLines l1 } i3 fun x hx => h x (List.mem_cons_of_mem _ hx)
  refine ⟨w', (messages.flatMap fun m => (splitChar '\n' m).map fun l => cm ++ ' ' :: l) ++ (if w1.started then [[]] else []), ps, l1 ++ l2, ?_, ?_, ?_, b1, ?_⟩
  · rw [a1, Outcome.bind_ok, Writer.addAll, Writer.addData, a5]
    simp only
    rw [i1, Outcome.bind_ok, c1, Outcome.bind_ok]
    exact d1
  · rw [d2]
    simp only [i2, a2, hc]
    simp only [joinLines_append, joinLines_cons, List.append_assoc, List.nil_append, List.cons_append]
    simp [joinLines]
  · intro l hl
    rcases List.mem_append.1 hl with hl | hl
    · obtain ⟨m, hm, hl⟩ := List.mem_flatMap.1 hl
      obtain ⟨s, hs, rfl⟩ := List.mem_map.1 hl
      exact Or.inr ⟨m, hm, s, hs, rfl⟩
    · left
      split at hl
      · simpa using hl
      · simp at hl
  · rw [List.flatMap_cons]; exact List.rel_append c2 d3

end Alexandria.Table
