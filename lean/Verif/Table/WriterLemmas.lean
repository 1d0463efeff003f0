import Verif.Table.CellLemmas
import Verif.Table.ReaderProps

/-!
# Lemmas: the text written by the writer, and its header as it is read
-/

namespace Alexandria.Table

open Alexandria.Str

variable {F D : Type}

/-! ## The text as lines -/

/-- Lines, each with its line break. -/
def joinLines (ls : List Bytes) : Bytes := ls.flatMap fun l => l ++ ['\n']

theorem joinLines_cons (l : Bytes) (ls : List Bytes) : joinLines (l :: ls) = l ++ '\n' :: joinLines ls := by simp [joinLines]

theorem joinLines_append (a b : List Bytes) : joinLines (a ++ b) = joinLines a ++ joinLines b := by simp [joinLines]

theorem splitChar_joinLines (ls : List Bytes) (h : ∀ l ∈ ls, '\n' ∉ l) : splitChar '\n' (joinLines ls) = ls ++ [[]] := by
  induction ls with
  | nil => rfl
  | cons l ls ih =>
    rw [joinLines_cons, splitChar_sep '\n' l _ (h l (by simp)), ih fun m hm => h m (List.mem_cons_of_mem _ hm)]
    rfl

theorem forall₂_trans_le {ns ms ks : List Nat} (h1 : List.Forall₂ (· ≤ ·) ns ms) (h2 : List.Forall₂ (· ≤ ·) ms ks) : List.Forall₂ (· ≤ ·) ns ks := by
  induction h1 generalizing ks with
  | nil => cases h2; exact .nil
  | cons h _ ih => cases h2 with
    | cons h' h2' => exact .cons (Nat.le_trans h h') (ih h2')

theorem forall₂_le_right {α : Type} {f : α → Nat} {l : List α} {ms ks : List Nat} (h1 : List.Forall₂ (fun c n => f c ≤ n) l ms)
    (h2 : List.Forall₂ (· ≤ ·) ms ks) : List.Forall₂ (fun c n => f c ≤ n) l ks := by
  induction h1 generalizing ks with
  | nil => cases h2; exact .nil
  | cons h _ ih => cases h2 with
    | cons h' h2' => exact .cons (Nat.le_trans h h') (ih h2')

theorem widthLoop_ok (fmt : Fmt F D) : ∀ (ns : List Nat) (cs : List (Cell F D)), ns.length = cs.length → (∀ c ∈ cs, CellOk fmt c) →
    ∃ ns', widthLoop fmt ns cs = .ok ns' ∧ List.Forall₂ (· ≤ ·) ns ns' ∧ List.Forall₂ (fun c n => (cellText fmt c).length ≤ n) cs ns' := by
  intro ns
  induction ns with
  | nil =>
    intro cs hl _
    cases cs with
    | nil => exact ⟨[], rfl, .nil, .nil⟩
    | cons c cs => simp at hl
  | cons n ns ih =>
    intro cs hl hok
    cases cs with
    | nil => simp at hl
    | cons c cs =>
      obtain ⟨ns', h1, h2, h3⟩ := ih cs (by simpa using hl) fun c hc => hok c (List.mem_cons_of_mem _ hc)
      refine ⟨max n (cellText fmt c).length :: ns', ?_, .cons (Nat.le_max_left _ _) h2, .cons (Nat.le_max_right _ _) h3⟩
      rw [widthLoop, (cell_reads fmt c (hok c (by simp))).1, h1]
      rfl

theorem widthsLoop_ok (fmt : Fmt F D) : ∀ (rows : List (RowT F D)) (ns : List Nat), (∀ r ∈ rows, r.values.length = ns.length ∧ ∀ c ∈ r.values, CellOk fmt c) →
    ∃ ns', widthsLoop fmt rows ns = .ok ns' ∧ List.Forall₂ (· ≤ ·) ns ns' ∧
      ∀ r ∈ rows, List.Forall₂ (fun c n => (cellText fmt c).length ≤ n) r.values ns' := by
  intro rows
  induction rows with
  | nil => intro ns _; exact ⟨ns, rfl, List.forall₂_same.2 fun _ _ => Nat.le_refl _, by simp⟩
  | cons r rows ih =>
    intro ns h
    have h0 := h r (by simp)
    obtain ⟨ns1, a1, a2, a3⟩ := widthLoop_ok fmt ns r.values h0.1.symm h0.2
    obtain ⟨ns2, b1, b2, b3⟩ := ih ns1 fun r hr => by
      have := h r (List.mem_cons_of_mem _ hr)
      exact ⟨by rw [this.1, a2.length_eq], this.2⟩
    refine ⟨ns2, by rw [widthsLoop, a1]; exact b1, forall₂_trans_le a2 b2, fun r' hr' => ?_⟩
    rcases List.mem_cons.1 hr' with rfl | hr'
    · exact forall₂_le_right a3 b2
    · exact b3 r' hr'

theorem columnLengths_ok (fmt : Fmt F D) (t : TableT F D) (h : ∀ r ∈ t.rows, r.values.length = t.info.length ∧ ∀ c ∈ r.values, CellOk fmt c) :
    ∃ ns, columnLengths fmt t = .ok ns ∧ List.Forall₂ (fun (d : Desc) n => (quotedW d.name).length < n) t.info ns ∧
      ∀ r ∈ t.rows, List.Forall₂ (fun c n => (cellText fmt c).length < n) r.values ns := by
  obtain ⟨ns, h1, h2, h3⟩ := widthsLoop_ok fmt t.rows (t.info.map fun d => (quotedW d.name).length) fun r hr => by
    have := h r hr
    exact ⟨by simpa using this.1, this.2⟩
  refine ⟨ns.map (· + 1), by rw [columnLengths, h1]; rfl, ?_, fun r hr => ?_⟩
  · rw [List.forall₂_map_right_iff]
    rw [List.forall₂_map_left_iff] at h2
    exact h2.imp fun _ _ h => Nat.lt_succ_of_le h
  · rw [List.forall₂_map_right_iff]
    exact (h3 r hr).imp fun _ _ h => Nat.lt_succ_of_le h

theorem namesLine_ok (info : List Desc) (ns : List Nat) (h : List.Forall₂ (fun (d : Desc) n => (quotedW d.name).length < n) info ns) :
    ∃ ps : List (Nat × Bytes), namesLine ns info = spaced ps ∧ List.Forall₂ (fun p (d : Desc) => 1 ≤ p.1 ∧ p.2 = quotedW d.name) ps info := by
  induction h with
  | nil => exact ⟨[], rfl, .nil⟩
  | @cons d n info ns h1 _ ih =>
    obtain ⟨ps, e1, e2⟩ := ih
    refine ⟨(n - (quotedW d.name).length, quotedW d.name) :: ps, ?_, .cons ⟨by simp only; omega, rfl⟩ e2⟩
    rw [namesLine, e1, spaced, pad]

/-- A line that is written for cells. -/
def RowLine (fmt : Fmt F D) (line : Bytes) (values : List (Cell F D)) : Prop :=
  ∃ ps : List (Nat × Bytes), line = spaced ps ∧ List.Forall₂ (fun p c => 1 ≤ p.1 ∧ p.2 = cellText fmt c) ps values

theorem cellsLine_ok (fmt : Fmt F D) (cs : List (Cell F D)) (ns : List Nat) (hok : ∀ c ∈ cs, CellOk fmt c)
    (h : List.Forall₂ (fun c n => (cellText fmt c).length < n) cs ns) : ∃ line, cellsLine fmt ns cs = .ok line ∧ RowLine fmt line cs := by
  induction h with
  | nil => exact ⟨[], by rw [cellsLine], [], rfl, .nil⟩
  | @cons c n cs ns h1 _ ih =>
    obtain ⟨line, e1, ps, e2, e3⟩ := ih fun c hc => hok c (List.mem_cons_of_mem _ hc)
    refine ⟨pad n (cellText fmt c) ++ line, ?_, (n - (cellText fmt c).length, cellText fmt c) :: ps, ?_, .cons ⟨by simp only; omega, rfl⟩ e3⟩
    · rw [cellsLine, (cell_reads fmt c (hok c (by simp))).1, e1]; rfl
    · rw [spaced, pad, e2]

theorem rowLines_ok (fmt : Fmt F D) (ns : List Nat) (rows : List (RowT F D)) (h : ∀ r ∈ rows, (∀ c ∈ r.values, CellOk fmt c) ∧
    List.Forall₂ (fun c n => (cellText fmt c).length < n) r.values ns) :
    ∃ lines, rowLines fmt ns rows = .ok (joinLines lines) ∧ List.Forall₂ (fun l (r : RowT F D) => RowLine fmt l r.values) lines rows := by
  induction rows with
  | nil => exact ⟨[], rfl, .nil⟩
  | cons r rows ih =>
    obtain ⟨lines, e1, e2⟩ := ih fun r hr => h r (List.mem_cons_of_mem _ hr)
    have h0 := h r (by simp)
    obtain ⟨line, f1, f2⟩ := cellsLine_ok fmt r.values ns h0.1 h0.2
    refine ⟨line :: lines, ?_, .cons f2 e2⟩
    rw [rowLines, f1, e1, joinLines_cons]; rfl

/-- `append` writes a line for each row. -/
theorem append_ok (fmt : Fmt F D) (w : Writer) (t : TableT F D) (hne : t.info ≠ [])
    (h : ∀ r ∈ t.rows, r.values.length = t.info.length ∧ ∀ c ∈ r.values, CellOk fmt c) :
    ∃ lines, w.append fmt t = .ok { w with out := w.out ++ joinLines lines } ∧ List.Forall₂ (fun l (r : RowT F D) => RowLine fmt l r.values) lines t.rows := by
  obtain ⟨ns, h1, h2, h3⟩ := columnLengths_ok fmt t h
  cases ns with
  | nil => cases hi : t.info with
    | nil => exact absurd hi hne
    | cons d l => rw [hi] at h2; cases h2
  | cons n ns =>
    obtain ⟨lines, e1, e2⟩ := rowLines_ok fmt ((n + w.comment.length) :: ns) t.rows fun r hr => by
      refine ⟨(h r hr).2, ?_⟩
      have := h3 r hr
      cases hv : r.values with
      | nil => rw [hv] at this; cases this
      | cons c cs =>
        rw [hv] at this
        cases this with
        | cons a b => exact .cons (Nat.lt_of_lt_of_le a (Nat.le_add_right _ _)) b
    refine ⟨lines, ?_, e2⟩
    rw [Writer.append, h1]
    simp only [Outcome.bind_ok]
    rw [e1]
    rfl

/-- The line of a column without the comment indicator. -/
def descText (d : Desc) (k : Bytes) : Bytes :=
  " Column: ".toList ++ quotedW d.name ++ ' ' :: k ++ (if d.unit = [] then [] else " (".toList ++ d.unit ++ [')']) ++
    (if d.description = [] then [] else " - ".toList ++ d.description)

/-- The keyword of a type. -/
def keyword (t : CType) : Bytes := match typeToKeyword t with
  | .ok k => k
  | _ => []

theorem describe_text (cm : Bytes) (d : Desc) (hk : typeToKeyword d.type = .ok (keyword d.type)) : describe cm d = .ok ((cm ++ descText d (keyword d.type)) ++ ['\n']) := by
  rw [describe, hk]
  unfold descText
  simp only [Outcome.bind_ok, Outcome.pure_eq, List.append_assoc, List.cons_append]

theorem describeAll_ok (cm : Bytes) (ds : List Desc) (h : ∀ d ∈ ds, typeToKeyword d.type = .ok (keyword d.type)) :
    describeAll cm ds = .ok (joinLines (ds.map fun d => cm ++ descText d (keyword d.type))) := by
  induction ds with
  | nil => rfl
  | cons d ds ih =>
    have hd := describe_text cm d (h d (by simp))
    rw [describeAll, hd, ih fun d hd => h d (List.mem_cons_of_mem _ hd), List.map_cons, joinLines_cons]
    simp

theorem init_ok (fmt : Fmt F D) (w : Writer) (t : TableT F D) (hs : w.showInfo = true) (hnul : '\x00' ∉ w.comment)
    (hk : ∀ d ∈ t.info, typeToKeyword d.type = .ok (keyword d.type))
    (h : ∀ r ∈ t.rows, r.values.length = t.info.length ∧ ∀ c ∈ r.values, CellOk fmt c) :
    ∃ ps : List (Nat × Bytes), List.Forall₂ (fun p (d : Desc) => 1 ≤ p.1 ∧ p.2 = quotedW d.name) ps t.info ∧
      w.init fmt t = .ok { w with
        initialized := true
        started := true
        out := w.out ++ joinLines ((if w.started then [[]] else []) ++ (t.info.map fun d => w.comment ++ descText d (keyword d.type)) ++
          [[], w.comment ++ spaced ps, []]) } := by
  obtain ⟨ns, h1, h2, h3⟩ := columnLengths_ok fmt t h
  obtain ⟨ps, e1, e2⟩ := namesLine_ok t.info ns h2
  refine ⟨ps, e2, ?_⟩
  have hc : (w.comment.takeWhile fun c => c ≠ '\x00') = w.comment :=
    List.takeWhile_eq_self_iff.2 fun c hc => by simpa using fun e : c = '\x00' => hnul (e ▸ hc)
  rw [Writer.init, if_pos hs, describeAll_ok w.comment t.info hk, h1]
  simp only [Outcome.bind_ok, Outcome.pure_eq]
  rw [e1, hc]
  congr 2
  simp only [joinLines_append, joinLines_cons]
  cases w.started <;> simp [joinLines]

/-! ## Header lines -/

/-- Without whitespace at the end. -/
def rtrim (s : Bytes) : Bytes := (s.reverse.dropWhile isSpace).reverse

theorem trim_rtrim (s : Bytes) : trim s = rtrim (s.dropWhile isSpace) := rfl

theorem rtrim_append (a b : Bytes) (h : ∀ c, a.getLast? = some c → isSpace c = false) : rtrim (a ++ b) = a ++ rtrim b := by
  rw [rtrim, List.reverse_append, List.dropWhile_append]
  by_cases hb : (b.reverse.dropWhile isSpace).isEmpty = true
  · rw [if_pos hb]
    have hb' : b.reverse.dropWhile isSpace = [] := by simpa using hb
    rw [rtrim, hb', dropWhile_none (by simpa using h)]
    simp
  · rw [if_neg hb, rtrim]
    simp

theorem rtrim_mem {s : Bytes} {c : Char} (h : c ∈ rtrim s) : c ∈ s := by
  rw [rtrim, List.mem_reverse] at h
  exact List.mem_reverse.1 ((List.dropWhile_sublist _).subset h)

theorem rtrim_nil : rtrim [] = [] := rfl

theorem rtrim_rtrim (s : Bytes) : rtrim (rtrim s) = rtrim s := by
  rw [rtrim, rtrim, List.reverse_reverse, List.dropWhile_idempotent]

theorem rtrim_head (s : Bytes) (h : ∀ c, s.head? = some c → isSpace c = false) : ∀ c, (rtrim s).head? = some c → isSpace c = false := by
  intro c hc
  have : rtrim s <+: s := by
    rw [rtrim]
    have := List.dropWhile_suffix (p := isSpace) (l := s.reverse)
    have h2 := List.reverse_prefix.2 this
    rwa [List.reverse_reverse] at h2
  obtain ⟨t, ht⟩ := this
  cases hr : rtrim s with
  | nil => rw [hr] at hc; simp at hc
  | cons d u =>
    rw [hr] at hc ht
    exact h c (by rw [← ht]; simpa using hc)

theorem dropWhile_head (s : Bytes) : ∀ c, (s.dropWhile isSpace).head? = some c → isSpace c = false := by
  induction s with
  | nil => intro c hc; simp at hc
  | cons d t ih =>
    intro c hc
    by_cases hd : isSpace d = true
    · rw [List.dropWhile_cons_of_pos hd] at hc; exact ih c hc
    · rw [List.dropWhile_cons_of_neg hd] at hc
      simp only [List.head?_cons, Option.some.injEq] at hc
      subst hc; simpa using hd

theorem trim_rtrim_eq (s : Bytes) : trim (rtrim s) = trim s := by
  induction s with
  | nil => rfl
  | cons c t ih =>
    by_cases hc : isSpace c = true
    · have h1 : trim (c :: t) = trim t := by rw [trim, List.dropWhile_cons_of_pos hc, trim]
      rw [h1, ← ih]
      by_cases ht : rtrim t = []
      · have : rtrim (c :: t) = [] := by
          rw [rtrim, List.reverse_cons, List.dropWhile_append]
          have ht' : t.reverse.dropWhile isSpace = [] := by simpa [rtrim] using ht
          rw [ht']; simp [hc]
        rw [this, ht]
      · have : rtrim (c :: t) = c :: rtrim t := by
          rw [rtrim, List.reverse_cons, List.dropWhile_append]
          have ht' : t.reverse.dropWhile isSpace ≠ [] := by simpa [rtrim] using ht
          rw [if_neg (by simpa using ht'), rtrim]; simp
        rw [this, trim, List.dropWhile_cons_of_pos hc, trim]
    · have h1 : rtrim (c :: t) = c :: rtrim t := rtrim_append [c] t (by simpa using hc)
      rw [h1, trim_rtrim, List.dropWhile_cons_of_neg hc, trim_rtrim, List.dropWhile_cons_of_neg hc]
      have : rtrim (c :: rtrim t) = c :: rtrim (rtrim t) := rtrim_append [c] _ (by simpa using hc)
      rw [this, rtrim_rtrim, h1]

theorem removeAll_skip (pat : Bytes) : ∀ (a s : Bytes), removeAll pat a.length (a ++ s) = removeAll pat 0 s := by
  intro a
  induction a with
  | nil => intro s; rfl
  | cons c a ih => intro s; rw [List.length_cons, List.cons_append, removeAll]; exact ih s

theorem removeAll_none (c0 : Char) (pat s : Bytes) (h : c0 ∉ s) : removeAll (c0 :: pat) 0 s = s := by
  induction s with
  | nil => rfl
  | cons c s ih =>
    simp only [List.mem_cons, not_or] at h
    rw [removeAll, if_neg, ih h.2]
    simp [List.isPrefixOf, h.1]

theorem removeAll_front (c0 : Char) (pat s : Bytes) (h : c0 ∉ s) : removeAll (c0 :: pat) 0 (c0 :: pat ++ s) = s := by
  rw [List.cons_append, removeAll, if_pos]
  · have : (c0 :: pat).length - 1 = pat.length := by simp
    rw [this, removeAll_skip, removeAll_none c0 pat s h]
  · rw [List.isPrefixOf_iff_prefix, ← List.cons_append]; exact List.prefix_append _ _

/-- What the reader sees of a line that begins with the comment indicator. -/
theorem header_line (c0 : Char) (pat s : Bytes) (hc : ∀ c ∈ c0 :: pat, isSpace c = false) (h : c0 ∉ s) :
    trim (c0 :: pat ++ s) = c0 :: pat ++ rtrim s ∧ trim (removeAll (c0 :: pat) 0 (c0 :: pat ++ rtrim s)) = trim s := by
  refine ⟨?_, ?_⟩
  · rw [trim_rtrim, dropWhile_none, rtrim_append]
    · intro c hl; exact hc c (List.mem_of_getLast? hl)
    · intro c hh; simp only [List.cons_append, List.head?_cons, Option.some.injEq] at hh; subst hh; exact hc _ (by simp)
  · rw [removeAll_front c0 pat _ fun hm => h (rtrim_mem hm), trim_rtrim_eq]

theorem namesBody_header (c0 : Char) (pat s : Bytes) (hc : ∀ c ∈ c0 :: pat, isSpace c = false) (h : c0 ∉ s) (a : NamesSt) :
    ∃ a', namesBody (c0 :: pat) a (c0 :: pat ++ s) = .ok a' ∧ a'.done = a.done ∧ (trim s ≠ [] → a'.last = trim s) := by
  have hl := header_line c0 pat s hc h
  rw [namesBody]
  simp only [hl.1]
  rw [if_neg (by simp), if_pos (List.prefix_append _ _)]
  simp only [hl.2]
  by_cases hp : "Column:".toList <+: trim s
  · rw [if_pos hp]
    exact ⟨_, rfl, rfl, fun hne => by simp only [hne, if_false]⟩
  · rw [if_neg hp]
    exact ⟨_, rfl, rfl, fun hne => by simp only [hne, if_false]⟩

theorem descriptionsBody_other (c0 : Char) (pat s : Bytes) (hc : ∀ c ∈ c0 :: pat, isSpace c = false) (h : c0 ∉ s) (hp : ¬ "Column:".toList <+: trim s)
    (a : List Desc × Bool) : descriptionsBody (c0 :: pat) a (c0 :: pat ++ s) = .ok a := by
  have hl := header_line c0 pat s hc h
  rw [descriptionsBody]
  simp only [hl.1]
  rw [if_neg (by simp), if_pos (List.prefix_append _ _)]
  simp only [hl.2]
  rw [if_neg hp]

/-! ## Loops -/

theorem loop_through {σ : Type} (go : σ → Bool) (body : σ → Bytes → Res σ) (ls rest : List Bytes)
    (h : ∀ l ∈ ls, ∀ a, go a = true → ∃ a', body a l = .ok a' ∧ go a' = true) : ∀ a, go a = true →
    ∃ a', go a' = true ∧ loop go body (ls ++ rest) a = loop go body rest a' := by
  induction ls with
  | nil => intro a ha; exact ⟨a, ha, rfl⟩
  | cons l ls ih =>
    intro a ha
    obtain ⟨a1, h1, h2⟩ := h l (by simp) a ha
    obtain ⟨a2, h3, h4⟩ := ih (fun l hl => h l (List.mem_cons_of_mem _ hl)) a1 h2
    refine ⟨a2, h3, ?_⟩
    rw [List.cons_append, loop, if_pos ha, h1]
    exact h4

theorem loop_same {σ : Type} (go : σ → Bool) (body : σ → Bytes → Res σ) (a : σ) (ls rest : List Bytes)
    (h : ∀ l ∈ ls, body a l = .ok a) : loop go body (ls ++ rest) a = loop go body rest a ∨ go a = false := by
  by_cases ha : go a = true
  · left
    induction ls with
    | nil => rfl
    | cons l ls ih =>
      rw [List.cons_append, loop, if_pos ha, h l (by simp)]
      exact ih fun l hl => h l (List.mem_cons_of_mem _ hl)
  · right; simpa using ha

theorem loop_stop {σ : Type} (go : σ → Bool) (body : σ → Bytes → Res σ) (ls : List Bytes) (a : σ) (h : go a = false) : (loop go body ls a).2 = .ok a := by
  cases ls with
  | nil => rfl
  | cons l ls => rw [loop, if_neg (by simp [h])]

end Alexandria.Table
