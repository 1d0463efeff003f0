import Verif.XYDataset.Props2
import Verif.Common.StringsLemmas

/-! # The ASCII parser and the string functions (C84-C86) -/

namespace Alexandria.XYDataset

open Str

/-! ## C84: parameters -/

namespace Spec

/-- Only white space. -/
def Blank (s : Bytes) : Prop := ∀ c ∈ s, isSpace c = true

/-- `v` is `r` without the white space at both ends. -/
def Trimmed (r v : Bytes) : Prop :=
  ∃ a b, r = a ++ v ++ b ∧ Blank a ∧ Blank b ∧ (∀ c, v.head? = some c → isSpace c = false) ∧ (∀ c, v.getLast? = some c → isSpace c = false)

/-- The line gives the parameter the value `v`. -/
def Gives (key line v : Bytes) : Prop :=
  ∃ s1 s2 s3 r, line = s1 ++ '#' :: (s2 ++ (key ++ (s3 ++ ':' :: r))) ∧ Blank s1 ∧ Blank s2 ∧ Blank s3 ∧ r ≠ [] ∧ Trimmed r v

end Spec

theorem dropWhile_blank {s t : Bytes} (hs : Spec.Blank s) (ht : ∀ c, t.head? = some c → isSpace c = false) :
    (s ++ t).dropWhile isSpace = t := by
  induction s with
  | nil => exact dropWhile_none ht
  | cons c s ih =>
    rw [List.cons_append, List.dropWhile_cons_of_pos (hs c List.mem_cons_self)]
    exact ih (fun d hd => hs d (List.mem_cons_of_mem _ hd))

theorem blank_split (s : Bytes) : ∃ a, Spec.Blank a ∧ s = a ++ s.dropWhile isSpace ∧
    ∀ c, (s.dropWhile isSpace).head? = some c → isSpace c = false := by
  refine ⟨s.takeWhile isSpace, ?_, (List.takeWhile_append_dropWhile).symm, ?_⟩
  · intro c hc
    exact List.mem_takeWhile_imp hc
  · intro c hc
    have := List.head?_dropWhile_not isSpace s
    rw [hc] at this
    simpa using this

theorem Blank.reverse {s : Bytes} (h : Spec.Blank s) : Spec.Blank s.reverse := fun c hc => h c (List.mem_reverse.mp hc)

theorem trim_trimmed (r : Bytes) : Spec.Trimmed r (trim r) := by
  obtain ⟨a, ha, e, hd⟩ := blank_split r
  obtain ⟨b, hb, e', hd'⟩ := blank_split (r.dropWhile isSpace).reverse
  have e2 : r.dropWhile isSpace = trim r ++ b.reverse := by
    have := congrArg List.reverse e'
    rwa [List.reverse_reverse, List.reverse_append] at this
  refine ⟨a, b.reverse, by rw [List.append_assoc, ← e2]; exact e, ha, Blank.reverse hb, ?_, ?_⟩
  · intro c hc
    apply hd c
    rw [e2, List.head?_append, hc]
    rfl
  · intro c hc
    unfold trim at hc
    rw [List.getLast?_reverse] at hc
    exact hd' c hc

theorem trimmed_trim {r v : Bytes} (h : Spec.Trimmed r v) : trim r = v := by
  obtain ⟨a, b, rfl, ha, hb, h1, h2⟩ := h
  unfold trim
  by_cases hv : v = []
  · subst hv
    have : (a ++ [] ++ b).dropWhile isSpace = [] := by
      have := dropWhile_blank (s := a ++ b) (t := []) (by
        intro c hc
        rcases List.mem_append.mp hc with h | h
        · exact ha c h
        · exact hb c h) (by simp)
      rw [List.append_nil] at this
      rw [List.append_nil]
      exact this
    rw [this]
    rfl
  · rw [List.append_assoc, dropWhile_blank ha, List.reverse_append, dropWhile_blank (Blank.reverse hb), List.reverse_reverse]
    · intro c hc
      rw [List.head?_reverse] at hc
      exact h2 c hc
    · intro c hc
      obtain ⟨d, t, e⟩ := List.exists_cons_of_ne_nil hv
      rw [e] at hc h1
      exact h1 c hc

/-- A line gives a parameter exactly if it is a comment `# key : value` with spaces allowed around each part; the value is trimmed. -/
theorem C84_line (key line v : Bytes) (hne : key ≠ []) (hk : ∀ c, key.head? = some c → isSpace c = false) :
    paramOf key line = some v ↔ Spec.Gives key line v := by
  have hhash : isSpace '#' = false := by decide
  have hcolon : isSpace ':' = false := by decide
  constructor
  · intro h
    obtain ⟨s1, b1, e1, _⟩ := blank_split line
    unfold paramOf at h
    split at h
    · rename_i r hr
      obtain ⟨s2, b2, e2, _⟩ := blank_split r
      simp only at h
      split at h
      · rename_i hp
        rw [List.isPrefixOf_iff_prefix] at hp
        obtain ⟨t, ht⟩ := hp
        rw [← ht, List.drop_left] at h
        obtain ⟨s3, b3, e3, _⟩ := blank_split t
        split at h
        · rename_i w hw
          split at h
          · cases h
          · rename_i hw'
            cases h
            refine ⟨s1, s2, s3, w, ?_, b1, b2, b3, hw', trim_trimmed w⟩
            rw [e1, hr]
            congr 2
            rw [e2, ← ht, e3, hw]
        · cases h
      · cases h
    · cases h
  · rintro ⟨s1, s2, s3, r, rfl, b1, b2, b3, hr, ht⟩
    unfold paramOf
    rw [dropWhile_blank b1 (by intro c hc; cases hc; exact hhash)]
    simp only
    have hhead : ∀ c, (key ++ (s3 ++ ':' :: r)).head? = some c → isSpace c = false := by
      intro c hc
      cases hkk : key with
      | nil => exact absurd hkk hne
      | cons d k => rw [hkk] at hc hk; exact hk c hc
    rw [dropWhile_blank b2 hhead, if_pos (by rw [List.isPrefixOf_iff_prefix]; exact List.prefix_append _ _), List.drop_left,
      dropWhile_blank b3 (by intro c hc; cases hc; exact hcolon)]
    simp only
    rw [if_neg hr, trimmed_trim ht]

example : Spec.Gives "NAME".toList "  # NAME :  my data ".toList "my data".toList :=
  ⟨"  ".toList, " ".toList, " ".toList, "  my data ".toList, by decide, by unfold Spec.Blank; decide, by unfold Spec.Blank; decide,
    by unfold Spec.Blank; decide, by decide, "  ".toList, " ".toList, by decide, by unfold Spec.Blank; decide, by unfold Spec.Blank; decide,
    by intro c hc; cases hc; decide, by intro c hc; cases hc; decide⟩

theorem getParameterLoop_eq (key : Bytes) (lines : List Bytes) (v : Bytes) (hv : v ≠ []) :
    getParameterLoop key lines v = v ++ (lines.filterMap (paramOf key)).flatMap (fun w => ';' :: w) := by
  induction lines generalizing v with
  | nil => simp [getParameterLoop]
  | cons l ls ih =>
    rw [getParameterLoop]
    cases hp : paramOf key l with
    | none =>
      rw [List.filterMap_cons_none hp]
      exact ih v hv
    | some w =>
      rw [List.filterMap_cons_some hp]
      simp only [hv, ne_eq, not_false_eq_true, if_true]
      rw [ih _ (by simp)]
      simp

/-- The values of a parameter in the order of the file, joined by semicolons, from the first one on that is not empty. -/
theorem C84_join (key text : Bytes) :
    getParameter key text = [';'].intercalate (((splitChar '\n' text).filterMap (paramOf key)).dropWhile (· = [])) := by
  unfold getParameter
  generalize splitChar '\n' text = lines
  induction lines with
  | nil => rfl
  | cons l ls ih =>
    rw [getParameterLoop]
    cases hp : paramOf key l with
    | none => rw [List.filterMap_cons_none hp]; exact ih
    | some w =>
      rw [List.filterMap_cons_some hp]
      simp only [ne_eq, not_true_eq_false, if_false, List.nil_append]
      by_cases hw : w = []
      · subst hw
        rw [List.dropWhile_cons_of_pos (by simp)]
        exact ih
      · rw [List.dropWhile_cons_of_neg (by simpa using hw), getParameterLoop_eq key ls w hw]
        generalize ls.filterMap (paramOf key) = vs
        clear ih hp hw
        induction vs generalizing w with
        | nil => simp [List.intercalate]
        | cons x xs ihx =>
          rw [List.flatMap_cons, List.cons_append, ihx x]
          simp [List.intercalate, List.intersperse]

/-- The values of a parameter in the order of the file, joined by semicolons, when none of them is empty. -/
theorem C84_join_partial (key text : Bytes) (h : ∀ w ∈ (splitChar '\n' text).filterMap (paramOf key), w ≠ []) :
    getParameter key text = [';'].intercalate ((splitChar '\n' text).filterMap (paramOf key)) := by
  rw [C84_join]
  generalize (splitChar '\n' text).filterMap (paramOf key) = vs at h
  cases vs with
  | nil => rfl
  | cons v vs => rw [List.dropWhile_cons_of_neg (by simpa using h v (List.mem_cons_self ..))]

example : getParameter ['K'] "#K: \n#K:a\n#K: \n#K:b".toList = "a;;b".toList := by decide

/-- Two `OPTION` lines. -/
example : getParameter ['K'] "# K: a b\nx 1\n#K :c\n1 2\n".toList = "a b;c".toList := by decide

/-- The full claim: the values joined by semicolons, empty or not. -/
def C84_full : Prop := ∀ key text : Bytes, key ≠ [] → (∀ c, key.head? = some c → isSpace c = false) →
  getParameter key text = [';'].intercalate ((splitChar '\n' text).filterMap (paramOf key))

/-- An empty value before another one leaves no trace, so the positions shift. -/
theorem C84_violated : ¬ C84_full := by
  intro h
  have := h ['K'] "#K: \n#K:a".toList (by simp) (by intro c hc; cases hc; decide)
  revert this
  decide

/-! ## C85: which files are data sets -/

/-- The first line that is neither empty nor a comment consists of two numbers. -/
def Spec.TwoNumbers (isDouble : Bytes → Bool) (lines : List Bytes) : Prop :=
  ∃ pre l post a b, lines = pre ++ l :: post ∧ (∀ x ∈ pre, x = [] ∨ isComment x = true) ∧ l ≠ [] ∧ isComment l = false ∧
    words l = [a, b] ∧ isDouble a = true ∧ isDouble b = true

theorem firstData_iff (lines : List Bytes) (l : Bytes) :
    firstData lines = (l, true) ↔ ∃ pre post, post ≠ [] ∧ lines = pre ++ l :: post ∧ (∀ x ∈ pre, x = [] ∨ isComment x = true) ∧
      ¬ (l = [] ∨ isComment l = true) := by
  induction lines with
  | nil =>
    simp [firstData]
  | cons x xs ih =>
    cases xs with
    | nil =>
      simp only [firstData, Prod.mk.injEq, Bool.false_eq_true, and_false, false_iff]
      rintro ⟨pre, post, hp, e, _⟩
      have := congrArg List.length e
      obtain ⟨a, t, rfl⟩ := List.exists_cons_of_ne_nil hp
      simp at this
      omega
    | cons y ys =>
      rw [firstData]
      · by_cases hx : x = [] ∨ isComment x = true
        · rw [if_pos hx, ih]
          constructor
          · rintro ⟨pre, post, h1, h2, h3, h4⟩
            refine ⟨x :: pre, post, h1, by rw [h2]; rfl, ?_, h4⟩
            intro z hz
            rcases List.mem_cons.mp hz with rfl | hz
            · exact hx
            · exact h3 z hz
          · rintro ⟨pre, post, h1, h2, h3, h4⟩
            cases pre with
            | nil =>
              simp only [List.nil_append, List.cons.injEq] at h2
              rw [← h2.1] at h4
              exact absurd hx h4
            | cons p pre =>
              simp only [List.cons_append, List.cons.injEq] at h2
              exact ⟨pre, post, h1, h2.2, fun z hz => h3 z (List.mem_cons_of_mem _ hz), h4⟩
        · rw [if_neg hx]
          constructor
          · intro h
            simp only [Prod.mk.injEq, and_true] at h
            subst h
            exact ⟨[], y :: ys, by simp, rfl, by simp, hx⟩
          · rintro ⟨pre, post, h1, h2, h3, h4⟩
            cases pre with
            | nil =>
              simp only [List.nil_append, List.cons.injEq] at h2
              rw [h2.1]
            | cons p pre =>
              simp only [List.cons_append, List.cons.injEq] at h2
              rw [h2.1] at hx
              exact absurd (h3 p List.mem_cons_self) hx
      · intro h; cases h

/-- A file is a data set exactly if, among the lines ended by a newline, the first that is neither empty nor a comment consists of two
numbers. -/
theorem C85_exact (isDouble : Bytes → Bool) (text : Bytes) :
    isDatasetFile isDouble text = true ↔ Spec.TwoNumbers isDouble (splitChar '\n' text).dropLast := by
  unfold isDatasetFile
  generalize splitChar '\n' text = lines
  simp only
  by_cases h2 : (firstData lines).2 = true
  · rw [if_pos h2]
    have hf : firstData lines = ((firstData lines).1, true) := by rw [← h2]
    obtain ⟨pre, post, h1, e, h3, h4⟩ := (firstData_iff lines _).mp hf
    generalize (firstData lines).1 = l at *
    have ed : lines.dropLast = pre ++ l :: post.dropLast := by
      rw [e, List.dropLast_append_of_ne_nil (by simp), List.dropLast_cons_of_ne_nil h1]
    rw [not_or] at h4
    constructor
    · intro h
      split at h
      · rename_i a b hw
        rw [Bool.and_eq_true] at h
        exact ⟨pre, l, post.dropLast, a, b, ed, h3, h4.1, by simpa using h4.2, hw, h.1, h.2⟩
      · cases h
    · rintro ⟨pre', l', post', a, b, e', h3', h5, h6, hw, ha, hb⟩
      have key : ∀ (p q : List Bytes) (u v : Bytes) (r s : List Bytes), p ++ u :: r = q ++ v :: s →
          (∀ x ∈ p, x = [] ∨ isComment x = true) → (∀ x ∈ q, x = [] ∨ isComment x = true) → ¬ (u = [] ∨ isComment u = true) →
          ¬ (v = [] ∨ isComment v = true) → u = v := by
        intro p
        induction p with
        | nil =>
          intro q u v r s e _ hq hu _
          cases q with
          | nil => simp only [List.nil_append, List.cons.injEq] at e; exact e.1
          | cons x q =>
            simp only [List.nil_append, List.cons_append, List.cons.injEq] at e
            rw [e.1] at hu
            exact absurd (hq x List.mem_cons_self) hu
        | cons y p ihp =>
          intro q u v r s e hp hq hu hv
          cases q with
          | nil =>
            simp only [List.nil_append, List.cons_append, List.cons.injEq] at e
            rw [← e.1] at hv
            exact absurd (hp y List.mem_cons_self) hv
          | cons x q =>
            simp only [List.cons_append, List.cons.injEq] at e
            exact ihp q u v r s e.2 (fun z hz => hp z (List.mem_cons_of_mem _ hz)) (fun z hz => hq z (List.mem_cons_of_mem _ hz)) hu hv
      have : l = l' := key pre pre' l l' _ _ (ed.symm.trans e') h3 h3' (by rw [not_or]; exact h4) (by rw [not_or]; exact ⟨h5, by simp [h6]⟩)
      subst this
      rw [hw]
      simp [ha, hb]
  · rw [if_neg h2]
    constructor
    · intro h; cases h
    · rintro ⟨pre, l, post, a, b, e, h3, h5, h6, _⟩
      exfalso
      apply h2
      have hne : lines ≠ [] := by
        rintro rfl
        have := congrArg List.length e
        simp at this
      have hf : firstData lines = (l, true) := by
        rw [firstData_iff]
        refine ⟨pre, post ++ [lines.getLast hne], by simp, ?_, h3, by rw [not_or]; exact ⟨h5, by simp [h6]⟩⟩
        conv_lhs => rw [← List.dropLast_append_getLast hne, e]
        simp
      rw [hf]

theorem splitChar_newline (sep : Char) (t : Bytes) : splitChar sep (t ++ [sep]) = splitChar sep t ++ [[]] := by
  have hf := splitChar_free sep t
  have hj := splitChar_join sep t
  have hne := splitChar_ne_nil sep t
  generalize splitChar sep t = ts at *
  have e : [sep].intercalate (ts ++ [[]]) = t ++ [sep] := by
    rw [← hj]
    clear hj hf
    induction ts with
    | nil => exact absurd rfl hne
    | cons a ts ih =>
      cases ts with
      | nil => simp [List.intercalate]
      | cons b ts =>
        have := ih (by simp)
        simp only [List.intercalate, List.cons_append, List.intersperse, List.flatten_cons] at this ⊢
        simp only [List.append_assoc]
        rw [← List.append_assoc _ _ [sep]] at *
        simp_all
  rw [← e]
  apply splitChar_intercalate
  · simp
  · intro x hx
    rcases List.mem_append.mp hx with h | h
    · exact hf x h
    · simp only [List.mem_singleton] at h; subst h; simp

/-- When the file ends with a newline this is the first such line of the file. -/
theorem C85_dataset_partial (isDouble : Bytes → Bool) (text : Bytes) :
    isDatasetFile isDouble (text ++ ['\n']) = true ↔ Spec.TwoNumbers isDouble (splitChar '\n' text) := by
  rw [C85_exact, splitChar_newline, List.dropLast_concat]

/-- The full claim. -/
def C85_full : Prop := ∀ (isDouble : Bytes → Bool) (text : Bytes),
  isDatasetFile isDouble text = true ↔ Spec.TwoNumbers isDouble (splitChar '\n' text)

/-- A file with a single point and no newline at its end is not a data set. -/
theorem C85_violated : ¬ C85_full := by
  intro h
  have := (h (fun s => s.all Char.isDigit) "1 2".toList).mpr
    ⟨[], "1 2".toList, [], ['1'], ['2'], by decide, by simp, by decide, by decide, by decide, by decide, by decide⟩
  revert this
  decide

example : isDatasetFile (fun s => s.all Char.isDigit) "# NAME: x\n\n 1 2\n3 4".toList = true := by decide
example : isDatasetFile (fun s => s.all Char.isDigit) "1 2 3\n".toList = false := by decide

/-! ## C86: string functions -/

/-- `checkEndSlashes` leaves exactly one slash at the end. -/
theorem C86_end (core : Bytes) (n : Nat) (h : core.getLast? ≠ some '/') (hn : core.length + n < 2 ^ 64 - 1) :
    checkEndSlashes (core ++ List.replicate n '/') = core ++ ['/'] := by
  unfold checkEndSlashes
  have hrev : (core ++ List.replicate n '/').reverse = List.replicate n '/' ++ core.reverse := by
    rw [List.reverse_append, List.reverse_replicate]
  by_cases hc : core = []
  · subst hc
    have hl : lastNotSlash ([] ++ List.replicate n '/') = none := by
      unfold lastNotSlash
      rw [hrev]
      have : List.findIdx? (fun x => decide (x ≠ '/')) (List.replicate n '/' ++ ([] : Bytes).reverse) = none := by
        rw [List.findIdx?_eq_none_iff]
        intro x hx
        simp only [List.reverse_nil, List.append_nil, List.mem_replicate] at hx
        simp [hx.2]
      rw [this]
    rw [hl]
    simp only [posVal, Option.getD_none, List.nil_append, List.length_replicate]
    cases n with
    | zero => rfl
    | succ n =>
      simp only [List.length_nil, Nat.zero_add] at hn
      rw [if_pos (by omega)]
      rfl
  · have hl : lastNotSlash (core ++ List.replicate n '/') = some (core.length - 1) := by
      unfold lastNotSlash
      rw [hrev]
      have := firstNotSlash_replicate n core.reverse (by rw [List.head?_reverse]; exact h) (by simpa using hc)
      unfold firstNotSlash at this
      rw [this]
      simp only [List.length_append, List.length_replicate]
      congr 1
      omega
    rw [hl]
    have hpos : 0 < core.length := List.length_pos_iff.mpr hc
    simp only [posVal, Option.getD_some, List.length_append, List.length_replicate]
    rw [show (core.length + n + 2 ^ 64 - 1) % 2 ^ 64 = core.length + n - 1 by omega,
      show (core.length - 1 + 1) % 2 ^ 64 = core.length by omega]
    by_cases h0 : n = 0
    · subst h0
      rw [if_neg (by omega)]
      simp
    · rw [if_pos (by omega), List.take_left]

/-- So the root path of a provider given as the empty string becomes the root of the file system. -/
theorem C86_empty_root : checkEndSlashes [] = ['/'] := by decide

/-- `checkNoBeginSlashes` removes the slashes at the beginning, but throws on a string of slashes. -/
theorem C86_no_begin (core : Bytes) (m : Nat) (h : core.head? ≠ some '/') :
    checkNoBeginSlashes (List.replicate m '/' ++ core) = if core = [] ∧ m ≠ 0 then .throw .outOfRange else .ok core := by
  unfold checkNoBeginSlashes
  by_cases hc : core = []
  · subst hc
    cases m with
    | zero => rfl
    | succ m =>
      have : firstNotSlash (List.replicate (m + 1) '/' ++ []) = none := by
        unfold firstNotSlash
        rw [List.findIdx?_eq_none_iff]
        intro x hx
        rw [List.append_nil, List.mem_replicate] at hx
        simp [hx.2]
      rw [this, if_neg (by simp)]
      simp [substr]
  · rw [firstNotSlash_replicate m core h hc, if_neg (show ¬ (List.replicate m '/' ++ core = []) by simp [hc]),
      if_neg (show ¬ (core = [] ∧ m ≠ 0) from fun h => hc h.1)]
    cases m with
    | zero => simp
    | succ m => simp [substr]

/-- `checkBeginSlashes` leaves exactly one slash at the beginning of a string that has another character. -/
theorem C86_begin_partial (core : Bytes) (m : Nat) (h : core.head? ≠ some '/') (hc : core ≠ []) :
    checkBeginSlashes (List.replicate m '/' ++ core) = .ok ('/' :: core) := by
  unfold checkBeginSlashes
  rw [firstNotSlash_replicate m core h hc]
  cases m with
  | zero => simp
  | succ m => simp [substr]

/-- The full claim: exactly one slash at the beginning. -/
def C86_full : Prop := ∀ (core : Bytes) (m : Nat), core.head? ≠ some '/' →
  checkBeginSlashes (List.replicate m '/' ++ core) = .ok ('/' :: core)

/-- A string of slashes gets one more. -/
theorem C86_violated : ¬ C86_full := by
  intro h
  have := h [] 2 (by simp)
  revert this
  decide

theorem beforeLast_eq (c : Char) (a b : Bytes) (h : c ∉ b) : beforeLast c (a ++ c :: b) = some a := by
  unfold beforeLast
  have : (a ++ c :: b).reverse.findIdx? (fun x => decide (x = c)) = some b.length := by
    rw [List.reverse_append, List.reverse_cons, List.append_assoc]
    have hb : c ∉ b.reverse := by simpa using h
    rw [← List.length_reverse (as := b)]
    generalize b.reverse = d at hb
    clear h
    induction d with
    | nil => simp [List.findIdx?_cons]
    | cons x d ih =>
      simp only [List.mem_cons, not_or] at hb
      rw [List.cons_append, List.findIdx?_cons, ih hb.2]
      simp [Ne.symm hb.1]
  rw [this]
  simp

theorem beforeLast_none (c : Char) (s : Bytes) (h : c ∉ s) : beforeLast c s = none := by
  unfold beforeLast
  have : s.reverse.findIdx? (fun x => decide (x = c)) = none := by
    rw [List.findIdx?_eq_none_iff]
    intro x hx
    rw [List.mem_reverse] at hx
    simp only [decide_eq_false_iff_not]
    rintro rfl
    exact h hx
  rw [this]

/-- The default name of a data set: the file name without its last extension. -/
theorem C86_file_name (dir name ext : Bytes) (h1 : '/' ∉ name) (h2 : '/' ∉ ext) (h3 : '.' ∉ ext) :
    removeExtension (removeAllBeforeLastSlash (dir ++ '/' :: (name ++ '.' :: ext))) = name := by
  have hs : '/' ∉ name ++ '.' :: ext := by simp [h1, h2]
  unfold removeAllBeforeLastSlash removeExtension
  rw [beforeLast_eq '/' dir _ hs]
  simp only
  rw [show dir ++ '/' :: (name ++ '.' :: ext) = (dir ++ ['/']) ++ (name ++ '.' :: ext) by simp,
    show dir.length + 1 = (dir ++ ['/']).length by simp, List.drop_left, beforeLast_eq '.' name ext h3]
  rfl

/-- Without an extension it is the file name. -/
theorem C86_file_name_plain (dir name : Bytes) (h1 : '/' ∉ name) (h2 : '.' ∉ name) :
    removeExtension (removeAllBeforeLastSlash (dir ++ '/' :: name)) = name := by
  unfold removeAllBeforeLastSlash removeExtension
  rw [beforeLast_eq '/' dir _ h1]
  simp only
  rw [show dir ++ '/' :: name = (dir ++ ['/']) ++ name by simp,
    show dir.length + 1 = (dir ++ ['/']).length by simp, List.drop_left, beforeLast_none '.' name h2]
  rfl

example : removeExtension (removeAllBeforeLastSlash "/a/b.c/sed.v1.txt".toList) = "sed.v1".toList := by decide

/-- A data set made from two vectors has their pairs; different lengths throw. -/
theorem C86_factory {K : Type} (xs ys : List K) :
    (∀ l, factory xs ys = .ok l ↔ xs.length = ys.length ∧ l.map Prod.fst = xs ∧ l.map Prod.snd = ys) ∧
      (factory xs ys = .throw .elements ↔ xs.length ≠ ys.length) := by
  unfold factory
  by_cases h : xs.length = ys.length
  · rw [if_neg (by simpa using h)]
    refine ⟨fun l => ⟨?_, ?_⟩, by simp [h]⟩
    · intro e
      simp only [Outcome.ok.injEq] at e
      subst e
      exact ⟨h, List.map_fst_zip (by omega), List.map_snd_zip (by omega)⟩
    · rintro ⟨_, rfl, rfl⟩
      congr 1
      clear h
      induction l with
      | nil => rfl
      | cons a l ih => simp [ih]
  · rw [if_pos h]
    refine ⟨fun l => ?_, by simp [h]⟩
    simp [h]

example : factory [1, 2] [3, 4] = .ok [(1, 3), (2, 4)] := by decide

end Alexandria.XYDataset
