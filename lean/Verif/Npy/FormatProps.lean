import Verif.Npy.Props

/-!
# C147: the files that are written are npy files

What an npy file is, is specified here independently of the code: the magic string, the version, the length of the header in little endian order, a header that is a Python dictionary, and the data.
Only a part of Python is specified: strings in single quotes of printable ASCII characters without backslash, decimal numbers, `True` and `False`, tuples of numbers and lists of pairs.
-/

namespace Alexandria.Npy

open Alexandria.Str Alexandria.NdArray.Spec

/-! ## Specification -/

namespace Spec

/-- The tokens of Python that occur. -/
inductive Tok where
  | punct (c : Char)
  | str (s : List Char)
  | nat (n : Nat)
  | name (s : List Char)
  deriving DecidableEq, Repr

/-- A character of a string literal that stands for itself. -/
def plainChar (c : Char) : Bool := 32 ≤ c.toNat && c.toNat ≤ 126 && c != '\'' && c != '\\'

/-- Split a text into tokens; the number bounds how many characters are looked at. -/
def lex : Nat → List Char → Option (List Tok)
  | _, [] => some []
  | 0, _ :: _ => none
  | fuel + 1, c :: t =>
    if c = ' ' ∨ c = '\n' then lex fuel t
    else if c ∈ ['{', '}', '[', ']', '(', ')', ',', ':'] then (lex fuel t).map (.punct c :: ·)
    else if c = '\'' then
      match t.dropWhile plainChar with
      | '\'' :: r => (lex fuel r).map (.str (t.takeWhile plainChar) :: ·)
      | _ => none
    else if c.isDigit then
      let s := (c :: t).takeWhile Char.isDigit
      let n := Nat.ofDigitChars 10 s 0
      if Nat.toDigits 10 n = s then (lex fuel (t.dropWhile Char.isDigit)).map (.nat n :: ·) else none
    else if c.isAlpha then (lex fuel (t.dropWhile Char.isAlpha)).map (.name ((c :: t).takeWhile Char.isAlpha) :: ·)
    else none

/-- What an element is. -/
inductive Kind where
  | signed | unsigned | float
  deriving DecidableEq, Repr

/-- The types of numpy: little endian order, kind and number of bytes. -/
def typeCode (s : List Char) : Option (Kind × Nat) :=
  if s = "<b".toList ∨ s = "|i1".toList then some (.signed, 1)
  else if s = "<B".toList ∨ s = "|u1".toList then some (.unsigned, 1)
  else if s = "<i2".toList then some (.signed, 2)
  else if s = "<i4".toList then some (.signed, 4)
  else if s = "<i8".toList then some (.signed, 8)
  else if s = "<u2".toList then some (.unsigned, 2)
  else if s = "<u4".toList then some (.unsigned, 4)
  else if s = "<u8".toList then some (.unsigned, 8)
  else if s = "<f4".toList then some (.float, 4)
  else if s = "<f8".toList then some (.float, 8)
  else none

/-- The type of the elements, or names and types of the fields of records. -/
inductive Descr where
  | plain (t : Kind × Nat)
  | records (l : List (List Char × Kind × Nat))
  deriving DecidableEq, Repr

/-- The rest of a list of pairs of strings. -/
def pairs : List Tok → Option (List (List Char × Kind × Nat) × List Tok)
  | .punct ']' :: r => some ([], r)
  | .punct '(' :: .str a :: .punct ',' :: .str b :: .punct ')' :: .punct ',' :: r =>
    match typeCode b, pairs r with
    | some t, some (l, r) => some ((a, t) :: l, r)
    | _, _ => none
  | .punct '(' :: .str a :: .punct ',' :: .str b :: .punct ')' :: .punct ']' :: r => (typeCode b).map fun t => ([(a, t)], r)
  | _ => none

/-- The value of `descr`. -/
def descr : List Tok → Option (Descr × List Tok)
  | .str s :: r => (typeCode s).map fun t => (.plain t, r)
  | .punct '[' :: r =>
    match pairs r with
    | some (l, r) => if l ≠ [] ∧ (l.map Prod.fst).Nodup ∧ [] ∉ l.map Prod.fst then some (.records l, r) else none
    | none => none
  | _ => none

/-- The rest of a tuple of numbers. -/
def numbers : List Tok → Option (List Nat × List Tok)
  | .punct ')' :: r => some ([], r)
  | .nat n :: .punct ',' :: r =>
    match numbers r with
    | some (l, r) => some (n :: l, r)
    | none => none
  | .nat n :: .punct ')' :: r => some ([n], r)
  | _ => none

/-- A tuple of numbers; a number in parentheses is not a tuple. -/
def tuple : List Tok → Option (List Nat × List Tok)
  | .punct '(' :: .nat _ :: .punct ')' :: _ => none
  | .punct '(' :: r => numbers r
  | _ => none

/-- The dictionary. Arrays in Fortran order are left out. -/
def dictionary : List Tok → Option (Descr × List Nat)
  | .punct '{' :: .str k :: .punct ':' :: r =>
    if k ≠ "descr".toList then none else
    match descr r with
    | some (d, .punct ',' :: .str k :: .punct ':' :: .name f :: .punct ',' :: .str k' :: .punct ':' :: r) =>
      if k ≠ "fortran_order".toList ∨ f ≠ "False".toList ∨ k' ≠ "shape".toList then none else
      match tuple r with
      | some (s, [.punct '}']) => some (d, s)
      | some (s, [.punct ',', .punct '}']) => some (d, s)
      | _ => none
    | _ => none
  | _ => none

/-- The number of bytes of an element. -/
def Descr.size : Descr → Nat
  | .plain t => t.2
  | .records l => (l.map fun f => f.2.2).sum

/-- The contents of an npy file of version 2.0: the type of the elements, the shape, and the data, which has as many bytes as elements of this type need. -/
def npyFile (file : List Char) : Option (Descr × List Nat × List Char) :=
  match file with
  | '\x93' :: 'N' :: 'U' :: 'M' :: 'P' :: 'Y' :: '\x02' :: '\x00' :: l0 :: l1 :: l2 :: l3 :: r =>
    let n := l0.toNat + 256 * l1.toNat + 256 ^ 2 * l2.toNat + 256 ^ 3 * l3.toNat
    if n > r.length ∨ (12 + n) % 64 ≠ 0 ∨ (r.take n).getLast? ≠ some '\n' then none else
    match (lex n (r.take n)).bind dictionary with
    | some (d, s) => if (r.drop n).length = d.size * s.prod then some (d, s, r.drop n) else none
    | none => none
  | _ => none

/-- The types of C++. -/
def meaning : Dtype → Kind × Nat
  | .i8 => (.signed, 1) | .i16 => (.signed, 2) | .i32 => (.signed, 4) | .i64 => (.signed, 8)
  | .u8 => (.unsigned, 1) | .u16 => (.unsigned, 2) | .u32 => (.unsigned, 4) | .u64 => (.unsigned, 8)
  | .f32 => (.float, 4) | .f64 => (.float, 8)

/-- What is expected in the file of an array. -/
def expected (d : Dtype) (names : List (List Char)) : Descr := if names = [] then .plain (meaning d) else .records (names.map fun n => (n, meaning d))

/-- Names that can be written in single quotes, and that numpy takes as names of fields. -/
structure Names (names : List (List Char)) : Prop where
  plain : ∀ n ∈ names, ∀ c ∈ n, plainChar c = true
  filled : [] ∉ names
  distinct : names.Nodup

end Spec

open Spec

/-! ## Lemmas -/

/-- A text with its tokens. -/
def Lx (s : List Char) (ts : List Tok) : Prop := ∀ f, s.length ≤ f → lex f s = some ts

theorem Lx.nil : Lx [] [] := fun f _ => by cases f <;> rfl

theorem Lx.space {c : Char} {r : List Char} {ts : List Tok} (hc : c = ' ' ∨ c = '\n') (h : Lx r ts) : Lx (c :: r) ts := by
  intro f hf
  obtain ⟨f, rfl⟩ : ∃ g, f = g + 1 := ⟨f - 1, by simp at hf; omega⟩
  rw [lex, if_pos hc]
  exact h f (by simpa using hf)

theorem Lx.punct {c : Char} {r : List Char} {ts : List Tok} (hc : c ∈ ['{', '}', '[', ']', '(', ')', ',', ':']) (h : Lx r ts) : Lx (c :: r) (.punct c :: ts) := by
  intro f hf
  obtain ⟨f, rfl⟩ : ∃ g, f = g + 1 := ⟨f - 1, by simp at hf; omega⟩
  have hs : ¬ (c = ' ' ∨ c = '\n') := by
    rintro (rfl | rfl) <;> exact absurd hc (by decide)
  rw [lex, if_neg hs, if_pos hc, h f (by simpa using hf)]
  rfl

theorem takeWhile_of {p : Char → Bool} {s r : List Char} (hs : ∀ c ∈ s, p c = true) (hr : ∀ c ∈ r.head?, p c = false) : (s ++ r).takeWhile p = s ∧ (s ++ r).dropWhile p = r := by
  induction s with
  | nil =>
    cases r with
    | nil => exact ⟨rfl, rfl⟩
    | cons c r =>
      have := hr c rfl
      simp [this]
  | cons c s ih =>
    obtain ⟨h1, h2⟩ := ih fun d hd => hs d (List.mem_cons_of_mem _ hd)
    have := hs c List.mem_cons_self
    simp [this, h1, h2]

theorem Lx.str {s r : List Char} {ts : List Tok} (hs : ∀ c ∈ s, plainChar c = true) (h : Lx r ts) : Lx ('\'' :: (s ++ '\'' :: r)) (.str s :: ts) := by
  intro f hf
  obtain ⟨f, rfl⟩ : ∃ g, f = g + 1 := ⟨f - 1, by simp at hf; omega⟩
  obtain ⟨h1, h2⟩ := takeWhile_of (p := plainChar) (r := '\'' :: r) hs (by simp; decide)
  rw [lex, if_neg (by decide), if_neg (by decide), if_pos rfl, h1, h2]
  simp only
  rw [h f (by simp at hf; omega)]
  rfl

theorem Lx.nat {n : Nat} {r : List Char} {ts : List Tok} (hr : ∀ c ∈ r.head?, c.isDigit = false) (h : Lx r ts) : Lx (showNat n ++ r) (.nat n :: ts) := by
  intro f hf
  have hd : ∀ c ∈ showNat n, c.isDigit = true := fun c hc => isDigit_showNat hc
  obtain ⟨c, s, hs⟩ := List.exists_cons_of_ne_nil (showNat_ne_nil n)
  obtain ⟨h1, h2⟩ := takeWhile_of (p := Char.isDigit) hd hr
  have hc : c.isDigit = true := hd c (by rw [hs]; simp)
  rw [hs, List.cons_append] at hf h1 h2 ⊢
  obtain ⟨f, rfl⟩ : ∃ g, f = g + 1 := ⟨f - 1, by simp at hf; omega⟩
  rw [List.dropWhile_cons, hc, if_pos rfl] at h2
  have n1 : ¬ (c = ' ' ∨ c = '\n') := by rintro (rfl | rfl) <;> exact absurd hc (by decide)
  have n2 : ¬ c ∈ ['{', '}', '[', ']', '(', ')', ',', ':'] := by
    intro hm
    simp only [List.mem_cons, List.not_mem_nil, or_false] at hm
    rcases hm with rfl | rfl | rfl | rfl | rfl | rfl | rfl | rfl <;> exact absurd hc (by decide)
  have n3 : ¬ c = '\'' := by rintro rfl; exact absurd hc (by decide)
  have hv : Nat.ofDigitChars 10 (c :: s) 0 = n := by rw [← hs, showNat, Nat.ofDigitChars_ten_toDigits]
  rw [lex, if_neg n1, if_neg n2, if_neg n3, if_pos hc]
  simp only
  rw [h1, h2, hv, if_pos (by rw [← hs]; rfl), h f (by simp at hf; omega)]
  rfl

theorem Lx.name {s r : List Char} {ts : List Tok} (hne : s ≠ []) (hs : ∀ c ∈ s, c.isAlpha = true) (hr : ∀ c ∈ r.head?, c.isAlpha = false) (h : Lx r ts) : Lx (s ++ r) (.name s :: ts) := by
  intro f hf
  obtain ⟨h1, h2⟩ := takeWhile_of (p := Char.isAlpha) hs hr
  obtain ⟨c, s, rfl⟩ := List.exists_cons_of_ne_nil hne
  have hc : c.isAlpha = true := hs c (by simp)
  rw [List.cons_append] at hf h1 h2 ⊢
  obtain ⟨f, rfl⟩ : ∃ g, f = g + 1 := ⟨f - 1, by simp at hf; omega⟩
  rw [List.dropWhile_cons, hc, if_pos rfl] at h2
  have n1 : ¬ (c = ' ' ∨ c = '\n') := by rintro (rfl | rfl) <;> exact absurd hc (by decide)
  have n2 : ¬ c ∈ ['{', '}', '[', ']', '(', ')', ',', ':'] := by
    intro hm
    simp only [List.mem_cons, List.not_mem_nil, or_false] at hm
    rcases hm with rfl | rfl | rfl | rfl | rfl | rfl | rfl | rfl <;> exact absurd hc (by decide)
  have n3 : ¬ c = '\'' := by rintro rfl; exact absurd hc (by decide)
  have n4 : ¬ c.isDigit = true := by
    intro hd
    simp only [Char.isDigit, Char.isAlpha, Char.isUpper, Char.isLower, Bool.and_eq_true, Bool.or_eq_true, decide_eq_true_eq, ge_iff_le, UInt32.le_iff_toNat_le] at hc hd
    simp at hc hd
    omega
  rw [lex, if_neg n1, if_neg n2, if_neg n3, if_neg n4, if_pos hc, h1, h2, h f (by simp at hf; omega)]
  rfl

/-- The tokens of the pieces of the dictionary. -/
def pairToks (d : Dtype) (names : List (List Char)) : List Tok :=
  names.flatMap fun a => [.punct '(', .str a, .punct ',', .str ('<' :: d.str), .punct ')', .punct ',']

def descrToks (d : Dtype) (names : List (List Char)) : List Tok :=
  if names = [] then [.str ('<' :: d.str)] else .punct '[' :: (pairToks d names ++ [.punct ']'])

def shapeToks (s : List Nat) : List Tok := .punct '(' :: ((s.flatMap fun n => [.nat n, .punct ',']) ++ [.punct ')'])

theorem plain_type (d : Dtype) : ∀ c ∈ '<' :: d.str, plainChar c = true := by cases d <;> decide

theorem typeCode_str (d : Dtype) : typeCode ('<' :: d.str) = some (meaning d) := by cases d <;> decide

theorem lx_pairs (d : Dtype) {r : List Char} {ts : List Tok} (h : Lx r ts) (names : List (List Char)) (hn : ∀ n ∈ names, ∀ c ∈ n, plainChar c = true) :
    Lx (names.flatMap (fun a => ['(', '\''] ++ a ++ ['\'', ',', ' ', '\'', '<'] ++ d.str ++ ['\'', ')', ',', ' ']) ++ r) (pairToks d names ++ ts) := by
  induction names with
  | nil => exact h
  | cons a names ih =>
    have h0 := ih fun n hn' => hn n (List.mem_cons_of_mem _ hn')
    have h1 := (((Lx.str (plain_type d) ((((h0.space (Or.inl rfl)).punct (c := ',') (by decide)).punct (c := ')') (by decide)))).space (Or.inl rfl)).punct (c := ',') (by decide))
    have h2 := (Lx.str (hn a List.mem_cons_self) h1).punct (c := '(') (by decide)
    simpa [pairToks] using h2

theorem lx_descr (d : Dtype) {r : List Char} {ts : List Tok} (h : Lx r ts) (names : List (List Char)) (hn : ∀ n ∈ names, ∀ c ∈ n, plainChar c = true) :
    Lx (typeDescription d.str names ++ r) (descrToks d names ++ ts) := by
  unfold typeDescription descrToks
  by_cases he : names = []
  · rw [if_pos he, if_pos he]
    simpa using Lx.str (plain_type d) h
  · rw [if_neg he, if_neg he]
    have := (lx_pairs d (h.punct (c := ']') (by decide)) names hn).punct (c := '[') (by decide)
    simpa using this

theorem lx_shape {r : List Char} {ts : List Tok} (h : Lx r ts) (s : List Nat) : Lx (npyShape s ++ r) (shapeToks s ++ ts) := by
  have key : Lx (s.flatMap (fun s => showNat s ++ [',']) ++ ')' :: r) ((s.flatMap fun n => [.nat n, .punct ',']) ++ .punct ')' :: ts) := by
    induction s with
    | nil => exact h.punct (by decide)
    | cons n s ih =>
      have := Lx.nat (n := n) (r := ',' :: (s.flatMap (fun s => showNat s ++ [',']) ++ ')' :: r)) (by simp) (ih.punct (by decide))
      simpa using this
  have := key.punct (c := '(') (by decide)
  simpa [npyShape, shapeToks] using this

theorem lx_spaces {r : List Char} {ts : List Tok} (h : Lx r ts) (k : Nat) : Lx (List.replicate k ' ' ++ r) ts := by
  induction k with
  | zero => exact h
  | succ k ih => exact ih.space (Or.inl rfl)

theorem lx_dict (d : Dtype) (names : List (List Char)) (hn : ∀ n ∈ names, ∀ c ∈ n, plainChar c = true) (s : List Nat) (k : Nat) :
    Lx (dict d.str names s ++ (List.replicate k ' ' ++ ['\n']))
      (.punct '{' :: .str "descr".toList :: .punct ':' :: (descrToks d names ++ .punct ',' :: .str "fortran_order".toList :: .punct ':' :: .name "False".toList :: .punct ',' ::
        .str "shape".toList :: .punct ':' :: (shapeToks s ++ [.punct '}']))) := by
  have h1 := lx_shape ((lx_spaces ((Lx.nil).space (c := '\n') (Or.inr rfl)) k).punct (c := '}') (by decide)) s
  have h2 := (((Lx.str (s := "shape".toList) (by decide) ((h1.space (Or.inl rfl)).punct (c := ':') (by decide))).space (Or.inl rfl)).punct (c := ',') (by decide))
  have h3 := Lx.name (s := "False".toList) (by decide) (by decide) (by simp) h2
  have h4 := (((Lx.str (s := "fortran_order".toList) (by decide) ((h3.space (Or.inl rfl)).punct (c := ':') (by decide))).space (Or.inl rfl)).punct (c := ',') (by decide))
  have h5 := lx_descr d h4 names hn
  have h6 := (Lx.str (s := "descr".toList) (by decide) ((h5.space (Or.inl rfl)).punct (c := ':') (by decide))).punct (c := '{') (by decide)
  have e : dict d.str names s ++ (List.replicate k ' ' ++ ['\n']) = '{' :: '\'' :: ("descr".toList ++ '\'' :: ':' :: ' ' :: (typeDescription d.str names ++ ',' :: ' ' :: '\'' ::
      ("fortran_order".toList ++ '\'' :: ':' :: ' ' :: ("False".toList ++ ',' :: ' ' :: '\'' :: ("shape".toList ++ '\'' :: ':' :: ' ' :: (npyShape s ++ '}' :: (List.replicate k ' ' ++ ['\n']))))))) := by
    have e1 : litDescr = '{' :: '\'' :: ("descr".toList ++ ['\'', ':', ' ']) := by decide
    have e2 : litShape = ',' :: ' ' :: '\'' :: ("fortran_order".toList ++ '\'' :: ':' :: ' ' :: ("False".toList ++ ',' :: ' ' :: '\'' :: ("shape".toList ++ ['\'', ':', ' ']))) := by decide
    simp only [dict, e1, e2, List.append_assoc, List.cons_append, List.nil_append]
  rw [e]
  exact h6

theorem pairs_toks (d : Dtype) (r : List Tok) (names : List (List Char)) : pairs (pairToks d names ++ .punct ']' :: r) = some (names.map fun n => (n, meaning d), r) := by
  induction names with
  | nil => rfl
  | cons a names ih =>
    have : pairToks d (a :: names) ++ .punct ']' :: r =
        .punct '(' :: .str a :: .punct ',' :: .str ('<' :: d.str) :: .punct ')' :: .punct ',' :: (pairToks d names ++ .punct ']' :: r) := by simp [pairToks]
    rw [this, pairs, typeCode_str, ih]
    rfl

theorem descr_toks (d : Dtype) (r : List Tok) {names : List (List Char)} (hn : Names names) : descr (descrToks d names ++ r) = some (expected d names, r) := by
  unfold descrToks expected
  by_cases he : names = []
  · rw [if_pos he, if_pos he, List.singleton_append, descr, typeCode_str]
    rfl
  · have hm : (names.map fun n => (n, meaning d)).map Prod.fst = names := by simp [Function.comp_def]
    rw [if_neg he, if_neg he, List.cons_append, List.append_assoc, List.singleton_append, descr, pairs_toks]
    simp only
    rw [hm, if_pos ⟨by simpa using he, hn.distinct, hn.filled⟩]

theorem numbers_toks (r : List Tok) (s : List Nat) : numbers ((s.flatMap fun n => [.nat n, .punct ',']) ++ .punct ')' :: r) = some (s, r) := by
  induction s with
  | nil => rfl
  | cons n s ih =>
    rw [List.flatMap_cons, List.append_assoc, List.cons_append, List.singleton_append, numbers, ih]

theorem tuple_toks (r : List Tok) (s : List Nat) : tuple (shapeToks s ++ r) = some (s, r) := by
  have h := numbers_toks r s
  unfold shapeToks
  rw [List.cons_append, List.append_assoc, List.singleton_append]
  cases s with
  | nil => rfl
  | cons n s =>
    rw [List.flatMap_cons, List.append_assoc, List.cons_append, List.singleton_append] at h ⊢
    rw [tuple]
    · exact h
    · simp

theorem npyFile_header (d : Dtype) {names : List (List Char)} (hn : Names names) (s : List Nat) (hlen : (dict d.str names s).length + 65 < 2 ^ 32) {data : List Char}
    (hd : data.length = (expected d names).size * s.prod) : npyFile (headerBytes d.str names s ++ data) = some (expected d names, s, data) := by
  obtain ⟨k, hk, hal, hle⟩ := padHeader_eq (dict d.str names s)
  have hv := le32_val (n := (padHeader (dict d.str names s)).length) (by omega)
  rw [headerBytes, Nat.mod_eq_of_lt (by omega)]
  generalize hP : padHeader (dict d.str names s) = P at hk hal hle hv ⊢
  obtain ⟨l0, l1, l2, l3, hl⟩ : ∃ l0 l1 l2 l3, le32 P.length = [l0, l1, l2, l3] := ⟨_, _, _, _, rfl⟩
  have hval : l0.toNat + 256 * l1.toNat + 256 ^ 2 * l2.toNat + 256 ^ 3 * l3.toNat = P.length := by
    rw [hl] at hv
    simp only [leVal] at hv
    omega
  have e : magic ++ version ++ le32 P.length ++ P ++ data = '\x93' :: 'N' :: 'U' :: 'M' :: 'P' :: 'Y' :: '\x02' :: '\x00' :: l0 :: l1 :: l2 :: l3 :: (P ++ data) := by
    rw [hl]; rfl
  rw [e, npyFile]
  rw [hval, List.take_left, List.drop_left, if_neg, hk]
  · have h1 := lx_dict d names hn.plain s k (dict d.str names s ++ (List.replicate k ' ' ++ ['\n'])).length (le_refl _)
    rw [h1, Option.bind_some, dictionary, if_neg (by simp), descr_toks d _ hn]
    simp only
    rw [if_neg (by simp), tuple_toks]
    simp only
    rw [if_pos hd]
  · rw [hk]
    rw [hk] at hal
    simp only [not_or, not_lt, not_not]
    refine ⟨by simp, hal, by simp⟩

theorem size_expected (d : Dtype) (names : List (List Char)) (s : List Nat) : (expected d names).size * s.prod = d.size * card (NdArray.appendAttrShape s names.length) := by
  have hm : (meaning d).2 = d.size := by cases d <;> rfl
  have hc : card s = s.prod := by
    induction s with
    | nil => rfl
    | cons n s ih => rw [card, List.prod_cons, ih]
  unfold expected NdArray.appendAttrShape
  by_cases he : names = []
  · subst he
    simp [Descr.size, hm, hc]
  · have hl : names.length ≠ 0 := by simpa using he
    rw [if_neg he, if_pos hl, NdArray.card_append]
    simp [Descr.size, hm, hc, card, Function.comp_def, List.map_const', List.sum_replicate_nat]
    ring

/-! ## C147 -/

/-- **C147 (files).** The file written for an array is an npy file: elements of the type of the array, or records with a field for each name; the shape of the array, without the axis of the
names; and the elements one after the other. -/
theorem C147_written_partial {T : Type} (E : Elem T) (h : NdArray.Heap T) (a : NdArray.Nd) (b : Bytes) (hw : NdArray.WF a) (hb : writeNpy E h a = .ok b) (hn : Names (a.attrs.map String.toList))
    (hlen : (dict E.dtype.str (a.attrs.map String.toList) a.shape).length + 65 < 2 ^ 32) :
    ∃ l s, NdArray.iterate h a = .ok l ∧ a.shape = (if a.attrs = [] then s else s ++ [a.attrs.length]) ∧ npyFile b = some (expected E.dtype (a.attrs.map String.toList), s, l.flatMap E.enc) := by
  unfold writeNpy at hb
  cases hh : writeHeader E.dtype.str a.shape (a.attrs.map String.toList) with
  | throw e => rw [hh] at hb; cases hb
  | ub => rw [hh] at hb; cases hb
  | ok hd =>
    rw [hh, Outcome.bind_ok] at hb
    cases hi : NdArray.iterate h a with
    | throw e => rw [hi] at hb; cases hb
    | ub => rw [hi] at hb; cases hb
    | ok l =>
      rw [hi] at hb
      simp only [ofNd, Outcome.bind_ok, Outcome.pure_eq, Outcome.ok.injEq] at hb
      subst hb
      have h1 := NdArray.iterate_eq (h := h) hw
      rw [hi] at h1
      have hll : l.length = card a.shape := by
        have := congrArg List.length (NdArray.collect_eq_ok h1.symm)
        simpa [NdArray.allCoords_length] using this.symm
      obtain ⟨s, hs, rfl⟩ := writeHeader_spec hh
      rw [List.length_map] at hs
      refine ⟨l, s, rfl, ?_, ?_⟩
      · rw [hs, NdArray.appendAttrShape]
        by_cases he : a.attrs = []
        · simp [he]
        · rw [if_pos (by simpa using he), if_neg he]
      · refine npyFile_header E.dtype hn s ?_ ?_
        · refine lt_of_le_of_lt ?_ hlen
          rw [hs, NdArray.appendAttrShape]
          split
          · simp [dict, npyShape]
          · exact le_refl _
        · rw [size_expected, List.length_map, ← hs, ← hll, List.length_flatMap]
          simp [E.enc_length, Function.comp_def, List.map_const', List.sum_replicate_nat, Nat.mul_comm]

/-- **C147 (memory mapped files).** A mapped file is an npy file after it was created, and whenever it agrees with its header (which it does after every resize, `C78_resize_consistent`). -/
theorem C147_mapped_partial (d : Dtype) (m : Mapped) (s : List Nat) (hc : Consistent d m (NdArray.appendAttrShape s m.attrs.length)) (hn : Names m.attrs)
    (hlen : (dict d.str m.attrs s).length + 65 < 2 ^ 32) :
    ∃ data, npyFile m.file = some (expected d m.attrs, s, data) ∧ m.file = m.file.take m.dataOffset ++ data := by
  obtain ⟨hd, body, h1, h2, h3, h4⟩ := hc.header
  rw [writeHeader_ok] at h1
  cases h1
  refine ⟨body, ?_, ?_⟩
  · rw [h2]
    refine npyFile_header d hn s hlen ?_
    rw [h4, size_expected, hc.elements]
  · rw [h2, ← h3, List.take_left]

/-- **C147 (memory mapped files, created and resized).** After `createMmapNpy`, and after a resize of it that succeeds, the file is an npy file of the shape asked for. -/
theorem C147_resized_partial (d : Dtype) (shape shape' : List Nat) (attrs : List Bytes) (maxSize : Nat) (hn : Names attrs) (hs : card shape < 2 ^ 31) (hs' : card (NdArray.appendAttrShape shape' attrs.length) < 2 ^ 32)
    (hlen : (dict d.str attrs shape).length + 65 < 2 ^ 32) (hlen' : (dict d.str attrs shape').length + 65 < 2 ^ 32) :
    ∃ m, createMmap d shape attrs maxSize = .ok m ∧ (∃ data, npyFile m.file = some (expected d attrs, shape, data)) ∧
      ∀ m', m.resize d (NdArray.appendAttrShape shape' attrs.length) = (m', .ok ()) → ∃ data, npyFile m'.file = some (expected d attrs, shape', data) := by
  obtain ⟨m, hm, hc⟩ := C78_create_consistent d shape attrs maxSize hs
  have ha : m.attrs = attrs := by
    unfold createMmap at hm
    rw [writeHeader_ok] at hm
    simp only [Outcome.bind_ok] at hm
    cases hm
    rfl
  refine ⟨m, hm, ?_, ?_⟩
  · rw [← ha] at hc hn hlen ⊢
    obtain ⟨data, h1, _⟩ := C147_mapped_partial d m shape hc hn hlen
    exact ⟨data, h1⟩
  · intro m' hr
    obtain ⟨hc', _, ha', _⟩ := C78_resize_consistent d m m' _ _ hc hs' hr
    have e : m'.attrs = attrs := ha'.trans ha
    rw [← e] at hc' hn hlen' ⊢
    obtain ⟨data, h1, _⟩ := C147_mapped_partial d m' shape' hc' hn hlen'
    exact ⟨data, h1⟩

/-- A table of two rows that is enlarged to three. -/
example : ∃ m, createMmap .i16 [2] ["x".toList, "y".toList] 1000 = .ok m ∧ (m.resize .i16 [3, 2]).2 = .ok () ∧
    npyFile (m.resize .i16 [3, 2]).1.file = some (.records [("x".toList, .signed, 2), ("y".toList, .signed, 2)], [3], List.replicate 12 '\x00') :=
  ⟨_, rfl, by decide +kernel, by decide +kernel⟩

/-- The file written for any array would be an npy file. -/
def C147_full : Prop := ∀ (shape : List Nat) (names : List String) (data : List (Fin 256)) (h : NdArray.Heap (Fin 256)) (a : NdArray.Nd) (b : Bytes),
  NdArray.mkAttrs [] shape names data = .ok (h, a) → writeNpy byteElem h a = .ok b → ∃ c, npyFile b = some c

/-- **C147 (violated).** With a quote in a name the header is no Python dictionary; and two attributes can have the same name, which numpy does not accept for fields. -/
theorem C147_violated : ¬ C147_full ∧ ∃ h a b, NdArray.mkAttrs [] [1] ["x", "x"] [(1 : Fin 256), 2] = .ok (h, a) ∧ writeNpy byteElem h a = .ok b ∧ npyFile b = none := by
  refine ⟨?_, ⟨_, _, _, rfl, rfl, by decide +kernel⟩⟩
  intro hf
  obtain ⟨h, a, b, hm, hb, hbad⟩ : ∃ h a b, NdArray.mkAttrs [] [1] ["it's"] [(1 : Fin 256)] = .ok (h, a) ∧ writeNpy byteElem h a = .ok b ∧ npyFile b = none := ⟨_, _, _, rfl, rfl, by decide +kernel⟩
  obtain ⟨c, h1⟩ := hf _ _ _ _ _ _ hm hb
  rw [hbad] at h1
  cases h1

/-- An array of two rows and three named columns. -/
example : ∃ h a b, NdArray.mkAttrs [] [2] ["x", "y", "flux [uJy]"] [(1 : Fin 256), 2, 3, 4, 5, 6] = .ok (h, a) ∧ writeNpy byteElem h a = .ok b ∧
    npyFile b = some (.records [("x".toList, .unsigned, 1), ("y".toList, .unsigned, 1), ("flux [uJy]".toList, .unsigned, 1)], [2], ['\x01', '\x02', '\x03', '\x04', '\x05', '\x06']) :=
  ⟨_, _, _, rfl, rfl, by decide +kernel⟩

/-- The header that numpy writes is one. -/
example : npyFile (['\x93', 'N', 'U', 'M', 'P', 'Y', '\x02', '\x00', '\x74', '\x00', '\x00', '\x00'] ++ "{'descr': '<f8', 'fortran_order': False, 'shape': (0, 4), }".toList ++
    List.replicate 56 ' ' ++ ['\n']) = some (.plain (.float, 8), [0, 4], []) := by
  decide +kernel

end Alexandria.Npy
