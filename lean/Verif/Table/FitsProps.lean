import Verif.Table.FitsModel
import Verif.Table.CellLemmas
import Verif.Table.Props
import Mathlib.Tactic.ByContra

/-!
# FITS: dimensions (C46), chunks of rows (C47), formats (C48)
-/

namespace Alexandria.Table

open Alexandria.Str

variable {F D : Type}

/-! ## Dimensions -/

theorem tdimText_eq : ∀ l : List Nat, tdimText l = commas (l.map showNat) := by
  intro l
  induction l with
  | nil => rfl
  | cons n l ih =>
    cases l with
    | nil => simp [tdimText, commas]
    | cons m l =>
      rw [tdimText, ih]
      · simp [commas]
      · simp

theorem parse_text (l : List Nat) (hne : l ≠ []) (h : ∀ n ∈ l, n < 2 ^ 64) : parseTDIM ('(' :: tdimText l ++ [')']) = .ok l.reverse := by
  have h1 : ((('(' :: tdimText l ++ [')']).drop 1).take (('(' :: tdimText l ++ [')']).length - 2)) = tdimText l := by simp
  have h2 : commaTokens (tdimText l) = l.map showNat := by
    rw [tdimText_eq]
    refine commaTokens_commas _ (by simpa using hne) fun x hx => ?_
    obtain ⟨n, _, rfl⟩ := List.mem_map.1 hx
    exact ⟨showNat_ne_nil n, fun hc => absurd (isDigit_showNat hc) (by decide)⟩
  rw [parseTDIM, if_pos ⟨by simp, rfl, by rw [List.getLast?_append]; rfl⟩, h1, h2, mapAll_some lexSize showNat l fun n hn => lexSize_showNat (h n hn)]

/-- The dimensions written for an array are read as its shape, unless their product is 1, in which case no shape is written. -/
theorem C46_tdim_partial (s : Scalar) (hs : s ≠ .bool) (shape : List Nat) (h : ∀ n ∈ shape, n < 2 ^ 64) (v : List (Val F D s)) :
    ∃ text, getTDIM (.nd s) (.nd s shape v) = .ok text ∧ parseTDIM text = .ok (if prod64 shape = 1 then [] else shape) := by
  have hg : getTDIM (.nd s) (.nd s shape v : Cell F D) = if prod64 shape = 1 then .ok [] else .ok ('(' :: tdimText shape.reverse ++ [')']) := by
    cases s with
    | bool => exact absurd rfl hs
    | _ => simp [getTDIM]
  rw [hg]
  by_cases h1 : prod64 shape = 1
  · rw [if_pos h1, if_pos h1]; exact ⟨[], rfl, rfl⟩
  · rw [if_neg h1, if_neg h1]
    have hne : shape ≠ [] := fun e => h1 (by rw [e]; rfl)
    refine ⟨_, rfl, ?_⟩
    rw [parse_text shape.reverse (by simpa using hne) (by simpa using h), List.reverse_reverse]

/-- The claim for every shape. -/
def C46_full : Prop := ∀ (s : Scalar), s ≠ .bool → ∀ (shape : List Nat), (∀ n ∈ shape, n < 2 ^ 64) → ∀ v : List (Val Unit Unit s),
  ∃ text, getTDIM (.nd s) (.nd s shape v) = .ok text ∧ parseTDIM text = .ok shape

/-- An array of one element. -/
theorem C46_violated : ¬ C46_full := fun h => by
  obtain ⟨text, h1, h2⟩ := h .i32 (by simp) [1, 1] (by simp) [7]
  obtain ⟨text', h3, h4⟩ := C46_tdim_partial (F := Unit) (D := Unit) .i32 (by simp) [1, 1] (by simp) [7]
  rw [h1, Outcome.ok.injEq] at h3
  subst h3
  rw [h2, if_pos (by decide)] at h4
  cases h4

theorem mapAll_none {α β : Type} {f : α → Option β} : ∀ {l : List α} {a : α}, a ∈ l → f a = none → mapAll f l = none
  | b :: l, a, h, hf => by
    rcases List.mem_cons.1 h with rfl | h
    · rw [mapAll, hf]
    · rw [mapAll, mapAll_none h hf]
      cases f b <;> rfl

theorem lexSize_none {t : Bytes} {c : Char} (hc : c ∈ t) (hd : c.isDigit = false) (hp : c ≠ '+') (hm : c ≠ '-') : lexSize t = none := by
  have h0 : ∀ u : Bytes, c ∈ u → digits? u = none := by
    intro u hu
    rw [digits?, if_neg]
    rintro ⟨_, ha⟩
    rw [List.all_eq_true.1 ha c hu] at hd
    cases hd
  unfold lexSize
  split
  · rename_i u
    rw [h0 u (by simpa [hm] using hc)]
  · rename_i u
    rw [h0 u (by simpa [hp] using hc)]
  · rw [h0 t hc]

/-- Dimensions that are not all numbers are refused: `boost::bad_lexical_cast`, as soon as one of them has a character that is neither a digit nor a sign. -/
theorem C46_tdim_refused (ts : List Bytes) (h : ∀ t ∈ ts, t ≠ [] ∧ ',' ∉ t) (t : Bytes) (ht : t ∈ ts) (c : Char) (hc : c ∈ t) (hd : c.isDigit = false) (hp : c ≠ '+')
    (hm : c ≠ '-') : parseTDIM ('(' :: commas ts ++ [')']) = .throw .badCast := by
  have h1 : ((('(' :: commas ts ++ [')']).drop 1).take (('(' :: commas ts ++ [')']).length - 2)) = commas ts := by simp
  rw [parseTDIM, if_pos ⟨by simp, rfl, by rw [List.getLast?_append]; rfl⟩, h1, commaTokens_commas ts (List.ne_nil_of_mem ht) h, mapAll_none ht (lexSize_none hc hd hp hm)]

example : parseTDIM "(10,x)".toList = .throw .badCast := C46_tdim_refused ["10".toList, "x".toList] (by decide) "x".toList (by decide) 'x' (by decide) (by decide) (by decide) (by decide)

example : getTDIM (.nd .f64) (.nd .f64 [2, 3, 10] [] : Cell Unit Unit) = .ok "(10,3,2)".toList := by decide +kernel
example : parseTDIM "(10,3,2)".toList = .ok [2, 3, 10] := by decide +kernel
example : prod64 [2, 3, 10] ≠ 1 := by decide

/-! ## Formats -/

/-! Specification: how large the cells of a column are. -/

/-- The width of the widest string. -/
def Widest (cells : List (Cell F D)) (n : Nat) : Prop :=
  (∀ s, Cell.str s ∈ cells → s.length ≤ n) ∧ (n = 0 ∨ ∃ s, Cell.str s ∈ cells ∧ s.length = n)

/-- Columns whose type can be told from the format: strings wider than one character, vectors (of numbers) and arrays with more than one element. -/
def Regular (type : CType) (cells : List (Cell F D)) : Prop :=
  match type with
  | .scalar _ => True
  | .str => ∀ n, Widest cells n → n ≠ 1 ∧ n < 2 ^ 31
  | .vec s => s ≠ .bool ∧ ∀ s' v, Cell.vec s' v ∈ cells → v.length ≠ 1 ∧ v.length < 2 ^ 31
  | .nd _ => ∀ s' shape v, Cell.nd s' shape v ∈ cells → prod64 shape ≠ 1 ∧ v.length < 2 ^ 31 ∧ ∀ n ∈ shape, n < 2 ^ 64
  | .other _ => True

theorem format_sized (n : Nat) (hn : n < 2 ^ 31) (l : Char) (shape : List Nat) :
    binaryFormatToType (showNat n ++ [l]) shape =
      if shape ≠ [] then
        match elementType l with
        | some s => .ok (.nd s)
        | none => .throw .elements
      else if n = 1 then
        if l = 'L' then .ok (.scalar .bool)
        else match elementType l with
          | some s => .ok (.scalar s)
          | none => .throw .elements
      else
        match elementType l with
        | some s => .ok (.vec s)
        | none => if l = 'A' then .ok .str else .throw .elements := by
  have hall : ∀ c ∈ showNat n, c.isDigit = true := fun c hc => isDigit_showNat hc
  have hd : (showNat n ++ [l]).dropLast = showNat n := by simp
  have hst : stoi (showNat n ++ [l]).dropLast = .ok n := by
    rw [hd, stoi, List.takeWhile_eq_self_iff.2 (by simpa using hall), digits?_showNat]
    simp only
    rw [if_pos hn]
  have hlast : ∀ h, (showNat n ++ [l]).getLast h = l := fun h => by simp
  obtain ⟨c, t, hct⟩ := List.exists_cons_of_ne_nil (showNat_ne_nil n)
  have hc : c.isDigit = true := hall c (by rw [hct]; simp)
  have e : showNat n ++ [l] = c :: (t ++ [l]) := by rw [hct]; rfl
  rw [e] at hst
  have hl : (c :: (t ++ [l])).getLast (by simp) = l := by simp
  rw [e, binaryFormatToType]
  simp only [hc, if_true, hst, Outcome.bind_ok, Outcome.pure_eq, hl]
  rfl

theorem maxWidth_str (fmt : Fmt F D) : ∀ (cells : List (Cell F D)) (w : Nat), (∀ c ∈ cells, c.type = .str) →
    ∃ n, maxWidth (rawText fmt) cells w = .ok n ∧ w ≤ n ∧ (∀ s, Cell.str s ∈ cells → s.length ≤ n) ∧ (n = w ∨ ∃ s, Cell.str s ∈ cells ∧ s.length = n) := by
  intro cells
  induction cells with
  | nil => intro w _; exact ⟨w, rfl, Nat.le_refl _, by simp, Or.inl rfl⟩
  | cons c cells ih =>
    intro w hc
    have h0 := hc c (by simp)
    cases c with
    | str s =>
      obtain ⟨n, h1, h2, h3, h4⟩ := ih (max w s.length) (fun c hcm => hc c (List.mem_cons_of_mem _ hcm))
      refine ⟨n, by rw [maxWidth]; exact h1, by omega, fun s' hs' => ?_, ?_⟩
      · simp only [List.mem_cons, Cell.str.injEq] at hs'
        rcases hs' with rfl | hs'
        · omega
        · exact h3 s' hs'
      · rcases h4 with h4 | ⟨s', hs', he⟩
        · by_cases hw : s.length ≤ w
          · left; omega
          · right; exact ⟨s, by simp, by omega⟩
        · right; exact ⟨s', List.mem_cons_of_mem _ hs', he⟩
    | scalar _ _ => cases h0
    | vec _ _ => cases h0
    | nd _ _ _ => cases h0

theorem maxWidth_widest (fmt : Fmt F D) (cells : List (Cell F D)) (hc : ∀ c ∈ cells, c.type = .str) :
    ∃ n, maxWidth (rawText fmt) cells 0 = .ok n ∧ Widest cells n := by
  obtain ⟨n, h1, _, h3, h4⟩ := maxWidth_str fmt cells 0 hc
  exact ⟨n, h1, h3, h4⟩

theorem vectorSize_ok (s : Scalar) (cells : List (Cell F D)) (n : Nat) (h : vectorSize s cells = .ok n) : ∃ v, Cell.vec s v ∈ cells ∧ v.length = n := by
  cases cells with
  | nil => cases h
  | cons c cs =>
    rw [vectorSize] at h
    cases c with
    | vec s' v =>
      rw [vecSize] at h
      by_cases hs : s' = s
      · subst hs
        rw [if_pos rfl, Outcome.bind_ok] at h
        cases hl : sameLoop (vecSize s') v.length (Cell.vec s' v :: cs) with
        | ok u =>
          rw [hl] at h
          simp only [Outcome.bind_ok, Outcome.pure_eq, Outcome.ok.injEq] at h
          exact ⟨v, by simp, h⟩
        | throw e => rw [hl] at h; cases h
        | ub => rw [hl] at h; cases h
      · rw [if_neg hs] at h; cases h
    | str _ => cases h
    | scalar _ _ => cases h
    | nd _ _ _ => cases h

theorem ndArraySize_ok (s : Scalar) (c : Cell F D) (cs : List (Cell F D)) (n : Nat) (h : ndArraySize s (c :: cs) = .ok n) :
    ∃ shape v, c = .nd s shape v ∧ v.length = n := by
  rw [ndArraySize] at h
  cases c with
  | nd s' shape v =>
    rw [ndShape] at h
    by_cases hs : s' = s
    · subst hs
      rw [if_pos rfl, Outcome.bind_ok] at h
      refine ⟨shape, v, rfl, ?_⟩
      revert h
      simp only
      cases sameLoop (fun c => do let m ← ndShape s' c; return m.1) shape (Cell.nd s' shape v :: cs) with
      | ok u => intro h; simpa using h
      | throw e => intro h; cases h
      | ub => intro h; cases h
    · rw [if_neg hs] at h; cases h
  | str _ => cases h
  | scalar _ _ => cases h
  | vec _ _ => cases h

theorem element_letter (s : Scalar) (hs : s ≠ .bool) : elementType (letter s) = some s := by
  cases s with
  | bool => exact absurd rfl hs
  | _ => rfl

/-- The type derived from the format and the dimensions in a binary table is the type of the column. -/
theorem C48_binary_partial (fmt : Fmt F D) (type : CType) (c : Cell F D) (cs : List (Cell F D)) (ht : ∀ x ∈ c :: cs, x.type = type) (hr : Regular type (c :: cs))
    (format dim : Bytes) (hf : binaryFormat fmt type (c :: cs) = .ok format) (hd : getTDIM type c = .ok dim) :
    ∃ shape, parseTDIM dim = .ok shape ∧ binaryFormatToType format shape = .ok type := by
  cases type with
  | scalar s =>
    simp only [getTDIM, Outcome.ok.injEq] at hd
    simp only [binaryFormat, Outcome.ok.injEq] at hf
    subst hd; subst hf
    refine ⟨[], rfl, ?_⟩
    cases s <;> rfl
  | str =>
    simp only [getTDIM, Outcome.ok.injEq] at hd
    subst hd
    obtain ⟨n, h1, h2⟩ := maxWidth_widest fmt (c :: cs) ht
    obtain ⟨h3, h4⟩ := hr n h2
    rw [binaryFormat, h1] at hf
    simp only [Outcome.bind_ok, Outcome.pure_eq, Outcome.ok.injEq] at hf
    subst hf
    refine ⟨[], rfl, ?_⟩
    rw [format_sized n h4, if_neg (by simp), if_neg h3]
    rfl
  | vec s =>
    simp only [getTDIM, Outcome.ok.injEq] at hd
    subst hd
    obtain ⟨hb, hr⟩ := hr
    rw [binaryFormat] at hf
    cases hv : vectorSize s (c :: cs) with
    | throw e => rw [hv] at hf; cases hf
    | ub => rw [hv] at hf; cases hf
    | ok n =>
      rw [hv] at hf
      simp only [Outcome.bind_ok, Outcome.pure_eq, Outcome.ok.injEq] at hf
      subst hf
      obtain ⟨v, hvm, hn⟩ := vectorSize_ok s _ n hv
      obtain ⟨h3, h4⟩ := hr s v hvm
      refine ⟨[], rfl, ?_⟩
      rw [hn] at h3 h4
      rw [format_sized n h4, if_neg (by simp), if_neg h3, element_letter s hb]
  | nd s =>
    by_cases hb : s = .bool
    · subst hb; cases hf
    · have hf' : (do let size ← ndArraySize s (c :: cs); return showNat size ++ [letter s]) = Outcome.ok (ε := Err) format := by
        rw [← hf]; cases s with
        | bool => exact absurd rfl hb
        | _ => rfl
      cases hv : ndArraySize s (c :: cs) with
      | throw e => rw [hv] at hf'; cases hf'
      | ub => rw [hv] at hf'; cases hf'
      | ok n =>
        rw [hv] at hf'
        simp only [Outcome.bind_ok, Outcome.pure_eq, Outcome.ok.injEq] at hf'
        subst hf'
        obtain ⟨shape, v, rfl, hn⟩ := ndArraySize_ok s c cs n hv
        obtain ⟨h3, h4, h5⟩ := hr s shape v (by simp)
        obtain ⟨text, h6, h7⟩ := C46_tdim_partial s hb shape h5 v
        rw [hd, Outcome.ok.injEq] at h6
        subst h6
        rw [if_neg h3] at h7
        refine ⟨shape, h7, ?_⟩
        rw [hn] at h4
        rw [format_sized n h4, if_pos fun e => h3 (by rw [e]; rfl), element_letter s hb]
  | other n => cases hf

/-- A format and dimensions are found exactly if the type can be exported and the vectors have the same size or the arrays the same shape. -/
def Uniform (type : CType) (cells : List (Cell F D)) : Prop :=
  match type with
  | .scalar _ | .str => True
  | .vec _ => ∃ n, ∀ s' v, Cell.vec s' v ∈ cells → v.length = n
  | .nd s => s ≠ .bool ∧ ∃ sh, ∀ s' shape v, Cell.nd s' shape v ∈ cells → shape = sh
  | .other _ => False

theorem sameLoop_iff {α : Type} [DecidableEq α] (get : Cell F D → Res α) (a : α) : ∀ cells : List (Cell F D), (∀ c ∈ cells, ∃ b, get c = .ok b) →
    (sameLoop get a cells = .ok () ↔ ∀ c ∈ cells, get c = .ok a) := by
  intro cells
  induction cells with
  | nil => intro _; simp [sameLoop]
  | cons c cells ih =>
    intro h
    obtain ⟨b, hb⟩ := h c (by simp)
    rw [sameLoop, hb, Outcome.bind_ok]
    by_cases e : b = a
    · rw [if_neg (by simpa using e), ih fun c hc => h c (List.mem_cons_of_mem _ hc)]
      simp [hb, e]
    · rw [if_pos e]; simp [hb, e]

theorem C48_accepts (fmt : Fmt F D) (type : CType) (c : Cell F D) (cs : List (Cell F D)) (ht : ∀ x ∈ c :: cs, x.type = type) :
    (∃ format, binaryFormat fmt type (c :: cs) = .ok format) ↔ Uniform type (c :: cs) := by
  cases type with
  | scalar s => exact ⟨fun _ => trivial, fun _ => ⟨_, rfl⟩⟩
  | str =>
    obtain ⟨n, h1, _⟩ := maxWidth_widest fmt (c :: cs) ht
    exact ⟨fun _ => trivial, fun _ => ⟨_, by rw [binaryFormat, h1]; rfl⟩⟩
  | vec s =>
    have hv : ∀ x ∈ c :: cs, ∃ v, x = Cell.vec s v := fun x hx => by
      have := ht x hx
      cases x with
      | vec s' v => simp only [Cell.type, CType.vec.injEq] at this; subst this; exact ⟨v, rfl⟩
      | _ => cases this
    obtain ⟨v, rfl⟩ := hv c (by simp)
    have hl := sameLoop_iff (vecSize s) v.length (Cell.vec s v :: cs) fun x hx => by
      obtain ⟨w, rfl⟩ := hv x hx
      exact ⟨w.length, by simp [vecSize]⟩
    rw [binaryFormat, vectorSize, vecSize, if_pos rfl, Outcome.bind_ok]
    constructor
    · rintro ⟨f, hf⟩
      refine ⟨v.length, fun s' w hw => ?_⟩
      have hok : sameLoop (vecSize s) v.length (Cell.vec s v :: cs) = .ok () := by
        cases hs : sameLoop (vecSize s) v.length (Cell.vec s v :: cs) with
        | ok u => rfl
        | throw e => rw [hs] at hf; cases hf
        | ub => rw [hs] at hf; cases hf
      have := hl.1 hok _ hw
      rw [vecSize] at this
      split at this
      · simpa using this
      · cases this
    · rintro ⟨n, hn⟩
      have : sameLoop (vecSize s) v.length (Cell.vec s v :: cs) = .ok () := hl.2 fun x hx => by
        obtain ⟨w, rfl⟩ := hv x hx
        rw [vecSize, if_pos rfl, hn s w hx, hn s v (by simp)]
      rw [this]
      exact ⟨_, rfl⟩
  | nd s =>
    by_cases hb : s = .bool
    · subst hb
      constructor
      · rintro ⟨f, hf⟩; cases hf
      · rintro ⟨h, _⟩; exact absurd rfl h
    · have hdef : binaryFormat fmt (.nd s) (c :: cs) = (do let size ← ndArraySize s (c :: cs); return showNat size ++ [letter s]) := by
        cases s with
        | bool => exact absurd rfl hb
        | _ => rfl
      have hv : ∀ x ∈ c :: cs, ∃ shape v, x = Cell.nd s shape v := fun x hx => by
        have := ht x hx
        cases x with
        | nd s' shape v => simp only [Cell.type, CType.nd.injEq] at this; subst this; exact ⟨shape, v, rfl⟩
        | _ => cases this
      obtain ⟨shape, v, rfl⟩ := hv c (by simp)
      have hl := sameLoop_iff (fun c => do let m ← ndShape s c; return m.1) shape (Cell.nd s shape v :: cs) fun x hx => by
        obtain ⟨sh, w, rfl⟩ := hv x hx
        exact ⟨sh, by simp [ndShape]⟩
      rw [hdef, ndArraySize, ndShape, if_pos rfl, Outcome.bind_ok]
      constructor
      · rintro ⟨f, hf⟩
        refine ⟨hb, shape, fun s' sh w hw => ?_⟩
        have hok : sameLoop (fun c => do let m ← ndShape s c; return m.1) shape (Cell.nd s shape v :: cs) = .ok () := by
          revert hf
          simp only
          cases sameLoop (fun c => do let m ← ndShape s c; return m.1) shape (Cell.nd s shape v :: cs) with
          | ok u => intro _; rfl
          | throw e => intro hf; cases hf
          | ub => intro hf; cases hf
        have := hl.1 hok _ hw
        rw [ndShape] at this
        split at this
        · simpa using this
        · cases this
      · rintro ⟨_, sh, hn⟩
        have : sameLoop (fun c => do let m ← ndShape s c; return m.1) shape (Cell.nd s shape v :: cs) = .ok () := hl.2 fun x hx => by
          obtain ⟨sh', w, rfl⟩ := hv x hx
          rw [ndShape, if_pos rfl, hn s sh' w hx, hn s shape v (by simp)]
          rfl
        simp only
        rw [this]
        exact ⟨_, rfl⟩
  | other n =>
    constructor
    · rintro ⟨f, hf⟩; cases hf
    · intro h; exact h.elim

/-- In an ASCII table 64 bit integers, `double` and strings are read back as they are; booleans and 32 bit integers as 64 bit integers, `float` as `double`. -/
theorem C48_ascii_partial (fmt : Fmt F D) (sci : Cell F D → Bytes) (type : CType) (cells : List (Cell F D)) (format : Bytes)
    (hf : asciiFormat fmt sci type cells = .ok format) :
    asciiFormatToType format = .ok (match type with
      | .scalar .bool | .scalar .i32 | .scalar .i64 => .scalar .i64
      | .scalar .f32 | .scalar .f64 => .scalar .f64
      | _ => .str) ∧ ((∃ s, type = .scalar s) ∨ type = .str) := by
  have key : ∀ (x : Res Nat) (l : Char) (t : CType), asciiFormatToType [l] = .ok t → (do let width ← x; return l :: showNat width) = Outcome.ok (ε := Err) format →
      asciiFormatToType format = .ok t := by
    intro x l t h1 h2
    cases x with
    | ok w =>
      simp only [Outcome.bind_ok, Outcome.pure_eq, Outcome.ok.injEq] at h2
      subst h2
      rw [← h1]
      rfl
    | throw e => cases h2
    | ub => cases h2
  cases type with
  | scalar s =>
    refine ⟨?_, Or.inl ⟨s, rfl⟩⟩
    cases s with
    | bool => cases hf; rfl
    | i32 => exact key _ _ _ rfl hf
    | i64 => exact key _ _ _ rfl hf
    | f32 => exact key _ _ _ rfl hf
    | f64 => exact key _ _ _ rfl hf
  | str => exact ⟨key _ _ _ rfl hf, Or.inr rfl⟩
  | vec s => cases hf
  | nd s => cases hf
  | other n => cases hf

/-- The claim for all binary columns that are accepted. -/
def C48_full : Prop := ∀ (fmt : Fmt Unit Unit) (type : CType) (c : Cell Unit Unit) (cs : List (Cell Unit Unit)), (∀ x ∈ c :: cs, x.type = type) →
  ∀ format dim, binaryFormat fmt type (c :: cs) = .ok format → getTDIM type c = .ok dim →
    ∃ shape, parseTDIM dim = .ok shape ∧ binaryFormatToType format shape = .ok type

/-- Vectors of one element are read as scalars. -/
theorem C48_violated : ¬ C48_full := fun h => by
  obtain ⟨shape, h1, h2⟩ := h ⟨⟨fun _ => [], fun _ => none⟩, ⟨fun _ => [], fun _ => none⟩⟩ (.vec .i32) (.vec .i32 [5]) [] (by simp [Cell.type]) ['1', 'J'] [] rfl rfl
  have h3 : parseTDIM [] = .ok [] := by decide
  rw [h3, Outcome.ok.injEq] at h1
  subst h1
  have h4 : binaryFormatToType ['1', 'J'] [] = .ok (.scalar .i32) := by decide +kernel
  rw [h4] at h2
  cases h2

/-- Columns of strings of at most one character cannot be read. -/
theorem C48_violated_string : ¬ C48_full := fun h => by
  obtain ⟨shape, h1, h2⟩ := h ⟨⟨fun _ => [], fun _ => none⟩, ⟨fun _ => [], fun _ => none⟩⟩ .str (.str ['x']) [] (by simp [Cell.type]) ['1', 'A'] [] rfl rfl
  have h3 : parseTDIM [] = .ok [] := by decide
  rw [h3, Outcome.ok.injEq] at h1
  subst h1
  have h4 : binaryFormatToType ['1', 'A'] [] = .throw .elements := by decide +kernel
  rw [h4] at h2
  cases h2

/-- Vectors of booleans cannot be read. -/
theorem C48_violated_bool : ¬ C48_full := fun h => by
  obtain ⟨shape, h1, h2⟩ := h ⟨⟨fun _ => [], fun _ => none⟩, ⟨fun _ => [], fun _ => none⟩⟩ (.vec .bool) (.vec .bool [true, false]) [] (by simp [Cell.type]) ['2', 'L'] [] rfl rfl
  have h3 : parseTDIM [] = .ok [] := by decide
  rw [h3, Outcome.ok.injEq] at h1
  subst h1
  have h4 : binaryFormatToType ['2', 'L'] [] = .throw .elements := by decide +kernel
  rw [h4] at h2
  cases h2

/-- Arrays of one element are read as scalars. -/
theorem C48_violated_array : ¬ C48_full := fun h => by
  obtain ⟨shape, h1, h2⟩ := h ⟨⟨fun _ => [], fun _ => none⟩, ⟨fun _ => [], fun _ => none⟩⟩ (.nd .i64) (.nd .i64 [1] [5]) [] (by simp [Cell.type]) ['1', 'K'] [] rfl rfl
  have h3 : parseTDIM [] = .ok [] := by decide
  rw [h3, Outcome.ok.injEq] at h1
  subst h1
  have h4 : binaryFormatToType ['1', 'K'] [] = .ok (.scalar .i64) := by decide +kernel
  rw [h4] at h2
  cases h2

example (fmt : Fmt F D) : binaryFormat fmt .str [.str ['x'], .str "longer".toList] = .ok "6A".toList := rfl
example : binaryFormat (F := Unit) (D := Unit) ⟨⟨fun _ => [], fun _ => none⟩, ⟨fun _ => [], fun _ => none⟩⟩ (.vec .i64) [.vec .i64 [1, 2], .vec .i64 [3, 4]] = .ok ['2', 'K'] := by
  decide +kernel
example (fmt : Fmt F D) : binaryFormat fmt (.vec .i64) [.vec .i64 [1, 2], .vec .i64 [3]] = .throw .elements := rfl
example : Regular (.vec .i64) ([.vec .i64 [1, 2], .vec .i64 [3, 4]] : List (Cell Unit Unit)) := by
  refine ⟨by simp, fun s' v hv => ?_⟩
  simp only [List.mem_cons, Cell.vec.injEq, List.not_mem_nil, or_false] at hv
  rcases hv with ⟨rfl, h⟩ | ⟨rfl, h⟩ <;> (cases h; simp)
example : binaryFormatToType "2K".toList [] = .ok (.vec .i64) := by decide +kernel
example : binaryFormatToType "6E".toList [2, 3] = .ok (.nd .f32) := by decide +kernel

end Alexandria.Table
