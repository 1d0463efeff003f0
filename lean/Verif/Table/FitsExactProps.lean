import Verif.Table.FitsProps

/-!
# FITS: exactly which shapes (C46) and which types (C48) are read back
-/

namespace Alexandria.Table.FitsExact

open Alexandria.Str Alexandria.Table

variable {F D : Type}

/-! ## Lemmas -/

theorem prod64_mod (shape : List Nat) : prod64 shape = if shape = [] then 1 else shape.prod % 2 ^ 64 := by
  have key : ∀ (l : List Nat) (a : Nat), l ≠ [] → l.foldl (fun acc d => acc * d % 2 ^ 64) a = a * l.prod % 2 ^ 64 := by
    intro l
    induction l with
    | nil => intro a h; exact absurd rfl h
    | cons d l ih =>
      intro a _
      rw [List.foldl_cons, List.prod_cons]
      by_cases hl : l = []
      · subst hl; simp
      · rw [ih _ hl, Nat.mod_mul_mod, Nat.mul_assoc]
  by_cases h : shape = []
  · rw [if_pos h, h]; rfl
  · rw [if_neg h, prod64, key _ _ h, Nat.one_mul]

theorem format_big (n : Nat) (hn : ¬ n < 2 ^ 31) (l : Char) (shape : List Nat) : binaryFormatToType (showNat n ++ [l]) shape = .throw .outOfRange := by
  have hall : ∀ c ∈ showNat n, c.isDigit = true := fun c hc => isDigit_showNat hc
  have hd : (showNat n ++ [l]).dropLast = showNat n := by simp
  have hst : stoi (showNat n ++ [l]).dropLast = .throw .outOfRange := by
    rw [hd, stoi, List.takeWhile_eq_self_iff.2 (by simpa using hall), digits?_showNat]
    simp only
    rw [if_neg hn]
  obtain ⟨c, t, hct⟩ := List.exists_cons_of_ne_nil (showNat_ne_nil n)
  have hc : c.isDigit = true := hall c (by rw [hct]; simp)
  have e : showNat n ++ [l] = c :: (t ++ [l]) := by rw [hct]; rfl
  rw [e] at hst
  rw [e, binaryFormatToType]
  simp only [hc, if_true, hst]
  rfl

/-! ## Theorems -/

/-- **C46 (exactly).** The dimensions written for an array are read as its shape if and only if the array has no axes, or the product of its dimensions is not 1 modulo `2^64`; for all other arrays no
dimensions are read at all. -/
theorem C46_tdim_iff (s : Scalar) (hs : s ≠ .bool) (shape : List Nat) (h : ∀ n ∈ shape, n < 2 ^ 64) (v : List (Val F D s)) :
    ∃ text read, getTDIM (.nd s) (.nd s shape v) = .ok text ∧ parseTDIM text = .ok read ∧ (read = shape ↔ shape = [] ∨ shape.prod % 2 ^ 64 ≠ 1) ∧ (read ≠ shape → read = [] ∧ text = []) := by
  obtain ⟨text, h1, h2⟩ := C46_tdim_partial (F := F) (D := D) s hs shape h v
  refine ⟨text, _, h1, h2, ?_, ?_⟩
  · rw [prod64_mod]
    by_cases he : shape = []
    · simp [he]
    · rw [if_neg he]
      by_cases hp : shape.prod % 2 ^ 64 = 1
      · rw [if_pos hp]
        exact ⟨fun h => absurd h.symm he, fun h => absurd hp (h.resolve_left he)⟩
      · rw [if_neg hp]
        exact ⟨fun _ => .inr hp, fun _ => rfl⟩
  · intro hne
    by_cases hp : prod64 shape = 1
    · rw [if_pos hp]
      refine ⟨rfl, ?_⟩
      have : getTDIM (.nd s) (.nd s shape v : Cell F D) = .ok [] := by
        cases s with
        | bool => exact absurd rfl hs
        | _ => simp [getTDIM, hp]
      rw [this] at h1
      cases h1
      rfl
    · rw [if_neg hp] at hne
      exact absurd rfl hne

/-- What a column is read as; `n` is the width of the widest string, the size of the vectors or of the arrays, `dims` are the dimensions. -/
inductive Spec.ReadAs : CType → Nat → List Nat → Res CType → Prop
  | scalar {s n dims} : ReadAs (.scalar s) n dims (.ok (.scalar s))
  /-- Beyond the range of `int` the format is not understood. -/
  | large {t n dims} : (∀ s, t ≠ .scalar s) → 2 ^ 31 ≤ n → ReadAs t n dims (.throw .outOfRange)
  | str {n dims} : n < 2 ^ 31 → n ≠ 1 → ReadAs .str n dims (.ok .str)
  /-- Strings of one character are not read. -/
  | char {dims} : ReadAs .str 1 dims (.throw .elements)
  | vec {s n dims} : s ≠ .bool → n < 2 ^ 31 → n ≠ 1 → ReadAs (.vec s) n dims (.ok (.vec s))
  /-- A vector of one element is a scalar. -/
  | one {s dims} : ReadAs (.vec s) 1 dims (.ok (.scalar s))
  /-- Vectors of booleans are not read. -/
  | flags {n dims} : n < 2 ^ 31 → n ≠ 1 → ReadAs (.vec .bool) n dims (.throw .elements)
  | nd {s n dims} : s ≠ .bool → n < 2 ^ 31 → dims ≠ [] → dims.prod % 2 ^ 64 ≠ 1 → ReadAs (.nd s) n dims (.ok (.nd s))
  /-- An array of one element is a scalar. -/
  | cell {s dims} : s ≠ .bool → (dims = [] ∨ dims.prod % 2 ^ 64 = 1) → ReadAs (.nd s) 1 dims (.ok (.scalar s))
  /-- Without dimensions the elements are a vector. -/
  | flat {s n dims} : s ≠ .bool → n < 2 ^ 31 → n ≠ 1 → (dims = [] ∨ dims.prod % 2 ^ 64 = 1) → ReadAs (.nd s) n dims (.ok (.vec s))

/-- The size in the format of a column, and the dimensions of the first cell. -/
def Spec.Sized (type : CType) (c : Cell F D) (cs : List (Cell F D)) (n : Nat) (dims : List Nat) : Prop :=
  match type with
  | .str => Widest (c :: cs) n
  | .vec s => ∃ v : List (Val F D s), c = .vec s v ∧ v.length = n
  | .nd s => ∃ v : List (Val F D s), c = .nd s dims v ∧ v.length = n
  | _ => True

/-- **C48 (exactly).** What the type of every column of a binary table is read as. -/
theorem C48_exact (fmt : Fmt F D) (type : CType) (c : Cell F D) (cs : List (Cell F D)) (ht : ∀ x ∈ c :: cs, x.type = type) (h64 : ∀ s shape v, c = .nd s shape v → ∀ n ∈ shape, n < 2 ^ 64)
    (format dim : Bytes) (hf : binaryFormat fmt type (c :: cs) = .ok format) (hd : getTDIM type c = .ok dim) :
    ∃ n dims shape r, Spec.Sized type c cs n dims ∧ Spec.ReadAs type n dims r ∧ parseTDIM dim = .ok shape ∧ binaryFormatToType format shape = r := by
  cases type with
  | scalar s =>
    simp only [getTDIM, Outcome.ok.injEq] at hd
    simp only [binaryFormat, Outcome.ok.injEq] at hf
    subst hd; subst hf
    refine ⟨0, [], [], _, trivial, .scalar, rfl, ?_⟩
    cases s <;> rfl
  | str =>
    simp only [getTDIM, Outcome.ok.injEq] at hd
    subst hd
    obtain ⟨n, h1, h2⟩ := maxWidth_widest fmt (c :: cs) ht
    rw [binaryFormat, h1] at hf
    simp only [Outcome.bind_ok, Outcome.pure_eq, Outcome.ok.injEq] at hf
    subst hf
    by_cases h4 : n < 2 ^ 31
    · by_cases h3 : n = 1
      · subst h3
        refine ⟨1, [], [], _, h2, .char, rfl, ?_⟩
        rw [format_sized 1 h4, if_neg (by simp), if_pos rfl]
        rfl
      · refine ⟨n, [], [], _, h2, .str h4 h3, rfl, ?_⟩
        rw [format_sized n h4, if_neg (by simp), if_neg h3]
        rfl
    · exact ⟨n, [], [], _, h2, .large (by simp) (by omega), rfl, format_big n h4 _ _⟩
  | vec s =>
    simp only [getTDIM, Outcome.ok.injEq] at hd
    subst hd
    rw [binaryFormat] at hf
    have h0 := ht c (by simp)
    cases c with
    | vec s' v =>
      simp only [Cell.type, CType.vec.injEq] at h0
      subst h0
      have hv : vectorSize s' (Cell.vec s' v :: cs) = .ok v.length := by
        cases hv : vectorSize s' (Cell.vec s' v :: cs) with
        | throw e => rw [hv] at hf; cases hf
        | ub => rw [hv] at hf; cases hf
        | ok m =>
          rw [vectorSize, vecSize, if_pos rfl, Outcome.bind_ok] at hv
          cases hl : sameLoop (vecSize s') v.length (Cell.vec s' v :: cs) with
          | ok u => rw [hl] at hv; exact hv.symm
          | throw e => rw [hl] at hv; cases hv
          | ub => rw [hl] at hv; cases hv
      rw [hv] at hf
      simp only [Outcome.bind_ok, Outcome.pure_eq, Outcome.ok.injEq] at hf
      subst hf
      have hsz : Spec.Sized (.vec s') (Cell.vec s' v) cs v.length [] := ⟨v, rfl, rfl⟩
      by_cases h4 : v.length < 2 ^ 31
      · by_cases h3 : v.length = 1
        · rw [h3] at hsz h4 ⊢
          refine ⟨1, [], [], _, hsz, .one, rfl, ?_⟩
          rw [format_sized 1 h4, if_neg (by simp), if_pos rfl]
          cases s' <;> rfl
        · by_cases hb : s' = .bool
          · subst hb
            refine ⟨_, [], [], _, hsz, .flags h4 h3, rfl, ?_⟩
            rw [format_sized _ h4, if_neg (by simp), if_neg h3]
            rfl
          · refine ⟨_, [], [], _, hsz, .vec hb h4 h3, rfl, ?_⟩
            rw [format_sized _ h4, if_neg (by simp), if_neg h3, element_letter s' hb]
      · exact ⟨_, [], [], _, hsz, .large (by simp) (by omega), rfl, format_big _ h4 _ _⟩
    | _ => cases h0
  | nd s =>
    by_cases hb : s = .bool
    · subst hb; cases hf
    · have hf' : (do let size ← ndArraySize s (c :: cs); return showNat size ++ [letter s]) = Outcome.ok (ε := Err) format := by
        rw [← hf]; cases s with
        | bool => exact absurd rfl hb
        | _ => rfl
      cases hv : ndArraySize s (c :: cs) with
      | throw e => rw [hv] at hf'; cases hf'
      | ub => rw [hv] at hf'; cases hf'
      | ok n =>
        rw [hv] at hf'
        simp only [Outcome.bind_ok, Outcome.pure_eq, Outcome.ok.injEq] at hf'
        subst hf'
        obtain ⟨shape, v, rfl, hn⟩ := ndArraySize_ok s c cs n hv
        have h5 := h64 s shape v rfl
        obtain ⟨text, h6, h7⟩ := C46_tdim_partial s hb shape h5 v
        rw [hd, Outcome.ok.injEq] at h6
        subst h6
        have hsz : Spec.Sized (.nd s) (Cell.nd s shape v) cs n shape := ⟨v, rfl, hn⟩
        by_cases h4 : n < 2 ^ 31
        · by_cases h3 : prod64 shape = 1
          · have hp : shape = [] ∨ shape.prod % 2 ^ 64 = 1 := by
              rw [prod64_mod] at h3
              by_cases he : shape = []
              · exact .inl he
              · rw [if_neg he] at h3; exact .inr h3
            rw [if_pos h3] at h7
            by_cases h1 : n = 1
            · subst h1
              refine ⟨1, shape, [], _, hsz, .cell hb hp, h7, ?_⟩
              rw [format_sized 1 h4, if_neg (by simp), if_pos rfl, element_letter s hb]
              cases s with
              | bool => exact absurd rfl hb
              | _ => rfl
            · refine ⟨n, shape, [], _, hsz, .flat hb h4 h1 hp, h7, ?_⟩
              rw [format_sized n h4, if_neg (by simp), if_neg h1, element_letter s hb]
          · have he : shape ≠ [] := fun e => h3 (by rw [e]; rfl)
            rw [if_neg h3] at h7
            rw [prod64_mod, if_neg he] at h3
            refine ⟨n, shape, shape, _, hsz, .nd hb h4 he h3, h7, ?_⟩
            rw [format_sized n h4, if_pos he, element_letter s hb]
        · exact ⟨n, shape, _, _, hsz, .large (by simp) (by omega), h7, format_big n h4 _ _⟩
  | other n => cases hf

/-- **C48 (exactly when the type is kept).** In a binary table that is accepted, the type of a column is read back if and only if it is a scalar, or strings, vectors of numbers or arrays whose width or
size is in the range of `int`, where the widest string has not one character, vectors have not one element and the product of the dimensions is not 1. -/
theorem C48_kept_iff (type : CType) (n : Nat) (dims : List Nat) (r : Res CType) (h : Spec.ReadAs type n dims r) :
    r = .ok type ↔ (∃ s, type = .scalar s) ∨ (n < 2 ^ 31 ∧ ((type = .str ∧ n ≠ 1) ∨ (∃ s, s ≠ .bool ∧ type = .vec s ∧ n ≠ 1) ∨ ∃ s, s ≠ .bool ∧ type = .nd s ∧ dims ≠ [] ∧ dims.prod % 2 ^ 64 ≠ 1)) := by
  cases h with
  | scalar => simp
  | large h1 h2 =>
    constructor
    · intro h; cases h
    · rintro (⟨s, h⟩ | ⟨h, _⟩)
      · exact absurd h (h1 s)
      · omega
  | str h1 h2 => exact ⟨fun _ => .inr ⟨h1, .inl ⟨rfl, h2⟩⟩, fun _ => rfl⟩
  | char => simp
  | vec h1 h2 h3 => exact ⟨fun _ => .inr ⟨h2, .inr (.inl ⟨_, h1, rfl, h3⟩)⟩, fun _ => rfl⟩
  | one => simp
  | flags h1 h2 => simp
  | nd h1 h2 h3 h4 => exact ⟨fun _ => .inr ⟨h2, .inr (.inr ⟨_, h1, rfl, h3, h4⟩)⟩, fun _ => rfl⟩
  | cell h1 h2 =>
    simp only [Outcome.ok.injEq, reduceCtorEq, exists_false, false_or, false_and, and_false, CType.nd.injEq, false_iff, not_and]
    rintro _ ⟨s, _, _, h3, h4⟩
    exact h2.elim h3 h4
  | flat h1 h2 h3 h4 =>
    simp only [Outcome.ok.injEq, reduceCtorEq, exists_false, false_or, false_and, and_false, CType.nd.injEq, false_iff, not_and]
    rintro _ ⟨s, _, _, h5, h6⟩
    exact h4.elim h5 h6

example : Spec.ReadAs (.nd .i32) 1 [1, 1] (.ok (.scalar .i32)) := .cell (by simp) (.inr (by decide))
example : ∃ n dims shape r, Spec.Sized (.vec .i32) (Cell.vec .i32 [5] : Cell Unit Unit) [] n dims ∧ Spec.ReadAs (.vec .i32) n dims r ∧ parseTDIM [] = .ok shape ∧
    binaryFormatToType ['1', 'J'] shape = r := ⟨1, [], [], _, ⟨[5], rfl, rfl⟩, .one, rfl, by decide +kernel⟩

end Alexandria.Table.FitsExact
