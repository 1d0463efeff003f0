import Verif.Table.RowProps
import Verif.Table.CastProps

/-!
# C168: exactly which texts are values of which type
-/

namespace Alexandria.Table

open Alexandria.Str

variable {F D : Type}

/-! ### Specification -/

/-- The number that decimal digits denote. -/
def Spec.digitsValue (ds : Bytes) : Nat := ds.foldl (fun n c => 10 * n + (c.toNat - 48)) 0

/-- A numeral: digits, perhaps after a sign. No spaces. -/
inductive Spec.Numeral : Bytes → Int → Prop
  | plain (ds : Bytes) : ds ≠ [] → (∀ c ∈ ds, c.isDigit = true) → Spec.Numeral ds (Spec.digitsValue ds)
  | plus (ds : Bytes) : ds ≠ [] → (∀ c ∈ ds, c.isDigit = true) → Spec.Numeral ('+' :: ds) (Spec.digitsValue ds)
  | minus (ds : Bytes) : ds ≠ [] → (∀ c ∈ ds, c.isDigit = true) → Spec.Numeral ('-' :: ds) (-(Spec.digitsValue ds : Int))

/-- The texts of the two truth values. -/
def Spec.truth (b : Bool) : List String := if b then ["true", "t", "yes", "y", "1"] else ["false", "f", "no", "n", "0"]

/-- `text` is a text of the value `v`. Floating point numbers are the parameter `fmt`. -/
def Spec.Denotes (fmt : Fmt F D) (text : Bytes) : (s : Scalar) → Val F D s → Prop
  | .bool, v => String.ofList text ∈ Spec.truth v
  | .i32, v => Spec.Numeral text (Int32.toInt v)
  | .i64, v => Spec.Numeral text (Int64.toInt v)
  | .f32, v => fmt.f32.parse text = some v
  | .f64, v => fmt.f64.parse text = some v

/-- `text` consists of pieces separated by commas, and those that are not empty are texts of the values. -/
def Spec.DenotesAll (fmt : Fmt F D) (text : Bytes) (s : Scalar) (vs : List (Val F D s)) : Prop :=
  ∃ pieces : List Bytes, text = [','].intercalate pieces ∧ (∀ p ∈ pieces, ',' ∉ p) ∧
    List.Forall₂ (fun p v => Spec.Denotes fmt p s v) (pieces.filter fun p => p ≠ []) vs

/-- The size that a number in the shape gives. -/
def Spec.SizeOf (n : Int32) (m : Nat) : Prop := m < 2 ^ 64 ∧ ∃ k : Int, (m : Int) = n.toInt + k * 2 ^ 64

/-- `text` is a text of the cell `c` in a column of type `ty`. -/
inductive Spec.CellText (fmt : Fmt F D) : Bytes → CType → Cell F D → Prop
  | scalar (text : Bytes) (s : Scalar) (v : Val F D s) : Spec.Denotes fmt text s v → Spec.CellText fmt text (.scalar s) (.scalar s v)
  | str (text : Bytes) : Spec.CellText fmt text .str (.str text)
  | vec (text : Bytes) (s : Scalar) (vs : List (Val F D s)) : Spec.DenotesAll fmt text s vs → Spec.CellText fmt text (.vec s) (.vec s vs)
  | nd (shapeText dataText : Bytes) (s : Scalar) (ns : List Int32) (shape : List Nat) (vs : List (Val F D s)) : s ≠ .bool → '>' ∉ shapeText →
      Spec.DenotesAll fmt shapeText .i32 ns → List.Forall₂ Spec.SizeOf ns shape → Spec.DenotesAll fmt dataText s vs →
      vs.length = shape.prod % 2 ^ 32 →
      Spec.CellText fmt ('<' :: shapeText ++ '>' :: dataText) (.nd s) (.nd s shape vs)

/-! ### Numbers -/

theorem digitsValue_eq (ds : Bytes) : Nat.ofDigitChars 10 ds 0 = Spec.digitsValue ds := rfl

theorem digits?_iff (ds : Bytes) (n : Nat) : digits? ds = some n ↔ ds ≠ [] ∧ (∀ c ∈ ds, c.isDigit = true) ∧ Spec.digitsValue ds = n := by
  unfold digits?
  by_cases h : ds ≠ [] ∧ ds.all Char.isDigit
  · rw [if_pos h, Option.some.injEq, digitsValue_eq]
    exact ⟨fun e => ⟨h.1, List.all_eq_true.1 h.2, e⟩, fun e => e.2.2⟩
  · rw [if_neg h]
    constructor
    · intro e; cases e
    · rintro ⟨h1, h2, -⟩
      exact absurd ⟨h1, List.all_eq_true.2 h2⟩ h

theorem lexInt_iff (lo hi : Int) (text : Bytes) (n : Int) : lexInt lo hi text = some n ↔ Spec.Numeral text n ∧ lo ≤ n ∧ n ≤ hi := by
  have fin : ∀ o : Option Int, (match o with | some v => if lo ≤ v ∧ v ≤ hi then some v else none | none => none) = some n ↔
      o = some n ∧ lo ≤ n ∧ n ≤ hi := by
    intro o
    cases o with
    | none => simp
    | some v =>
      simp only [Option.some.injEq]
      by_cases h : lo ≤ v ∧ v ≤ hi
      · rw [if_pos h, Option.some.injEq]
        exact ⟨fun e => ⟨e, e ▸ h⟩, fun e => e.1⟩
      · rw [if_neg h]
        constructor
        · intro e; cases e
        · rintro ⟨rfl, h2⟩; exact absurd h2 h
  have hm : ∀ (f : Int → Int) (t : Bytes), (Option.map f (do let a ← digits? t; pure (a : Int))) = some n ↔
      t ≠ [] ∧ (∀ c ∈ t, c.isDigit = true) ∧ n = f (Spec.digitsValue t) := by
    intro f t
    cases e : digits? t with
    | none =>
      constructor
      · intro h; cases h
      · rintro ⟨h1, h2, -⟩
        rw [(digits?_iff t _).2 ⟨h1, h2, rfl⟩] at e
        cases e
    | some v =>
      obtain ⟨h1, h2, rfl⟩ := (digits?_iff t v).1 e
      constructor
      · intro h; cases h; exact ⟨h1, h2, rfl⟩
      · rintro ⟨-, -, rfl⟩; rfl
  refine (fin _).trans (and_congr_left fun _ => ?_)
  constructor
  · intro h
    split at h
    · obtain ⟨h1, h2, rfl⟩ := (hm _ _).1 h
      exact .minus _ h1 h2
    · obtain ⟨h1, h2, rfl⟩ := (hm _ _).1 h
      exact .plus _ h1 h2
    · obtain ⟨h1, h2, rfl⟩ := (hm _ _).1 h
      exact .plain _ h1 h2
  · intro h
    cases h with
    | plain _ h1 h2 =>
      split
      · exact absurd (h2 '-' (by simp)) (by decide)
      · exact absurd (h2 '+' (by simp)) (by decide)
      · exact (hm _ _).2 ⟨h1, h2, rfl⟩
    | plus ds h1 h2 => exact (hm _ _).2 ⟨h1, h2, rfl⟩
    | minus ds h1 h2 => exact (hm _ _).2 ⟨h1, h2, rfl⟩

theorem convertVal_iff (fmt : Fmt F D) (s : Scalar) (text : Bytes) (v : Val F D s) :
    convertVal fmt s text = some v ↔ Spec.Denotes fmt text s v := by
  cases s with
  | bool =>
    unfold convertVal Spec.Denotes
    have e : ∀ l : List String, String.ofList text ∈ l ↔ text ∈ l.map String.toList := by
      intro l
      rw [List.mem_map]
      exact ⟨fun h => ⟨_, h, by simp⟩, by rintro ⟨x, hx, rfl⟩; simpa using hx⟩
    simp only [e]
    cases v with
    | true =>
      show _ ↔ text ∈ ["true".toList, "t".toList, "yes".toList, "y".toList, "1".toList]
      by_cases h1 : text ∈ ["true".toList, "t".toList, "yes".toList, "y".toList, "1".toList]
      · rw [if_pos h1]; exact ⟨fun _ => h1, fun _ => rfl⟩
      · rw [if_neg h1]
        refine ⟨fun h => ?_, fun h => absurd h h1⟩
        by_cases h2 : text ∈ ["false".toList, "f".toList, "no".toList, "n".toList, "0".toList]
        · rw [if_pos h2] at h; cases h
        · rw [if_neg h2] at h; cases h
    | false =>
      show _ ↔ text ∈ ["false".toList, "f".toList, "no".toList, "n".toList, "0".toList]
      by_cases h2 : text ∈ ["false".toList, "f".toList, "no".toList, "n".toList, "0".toList]
      · have h1 : text ∉ ["true".toList, "t".toList, "yes".toList, "y".toList, "1".toList] := by
          simp only [List.mem_cons, List.not_mem_nil, or_false] at h2
          rcases h2 with rfl | rfl | rfl | rfl | rfl <;> decide
        rw [if_neg h1, if_pos h2]; exact ⟨fun _ => h2, fun _ => rfl⟩
      · refine ⟨fun h => ?_, fun h => absurd h h2⟩
        by_cases h1 : text ∈ ["true".toList, "t".toList, "yes".toList, "y".toList, "1".toList]
        · rw [if_pos h1] at h; cases h
        · rw [if_neg h1, if_neg h2] at h; cases h
  | i32 =>
    unfold convertVal Spec.Denotes
    rw [Option.map_eq_some_iff]
    constructor
    · rintro ⟨n, hn, rfl⟩
      obtain ⟨h1, h2, h3⟩ := (lexInt_iff _ _ _ _).1 hn
      show Spec.Numeral text (Int32.toInt (Int32.ofInt n))
      rw [Int32.toInt_ofInt_of_le h2 (by omega)]
      exact h1
    · intro h
      refine ⟨_, (lexInt_iff _ _ _ _).2 ⟨h, Int32.le_toInt v, ?_⟩, Int32.ofInt_toInt v⟩
      have := Int32.toInt_lt v
      omega
  | i64 =>
    unfold convertVal Spec.Denotes
    rw [Option.map_eq_some_iff]
    constructor
    · rintro ⟨n, hn, rfl⟩
      obtain ⟨h1, h2, h3⟩ := (lexInt_iff _ _ _ _).1 hn
      show Spec.Numeral text (Int64.toInt (Int64.ofInt n))
      rw [Int64.toInt_ofInt_of_le h2 (by omega)]
      exact h1
    · intro h
      refine ⟨_, (lexInt_iff _ _ _ _).2 ⟨h, Int64.le_toInt v, ?_⟩, Int64.ofInt_toInt v⟩
      have := Int64.toInt_lt v
      omega
  | f32 => exact Iff.rfl
  | f64 => exact Iff.rfl

/-! ### Vectors -/

theorem mapAll_iff {α β : Type} (f : α → Option β) : ∀ (l : List α) (vs : List β), mapAll f l = some vs ↔ List.Forall₂ (fun a b => f a = some b) l vs
  | [], vs => by simp [mapAll, eq_comm]
  | a :: l, vs => by
    unfold mapAll
    cases ha : f a with
    | none =>
      constructor
      · intro h; cases h
      · intro h; cases h with | cons h1 _ => rw [ha] at h1; cases h1
    | some b =>
      cases hl : mapAll f l with
      | none =>
        constructor
        · intro h; cases h
        · intro h
          cases h with
          | cons _ h2 =>
            have := (mapAll_iff f l _).2 h2
            rw [hl] at this
            cases this
      | some bs =>
        simp only [Option.some.injEq]
        constructor
        · rintro rfl; exact .cons ha ((mapAll_iff f l bs).1 hl)
        · intro h
          cases h with
          | cons h1 h2 =>
            have h3 := (mapAll_iff f l _).2 h2
            rw [hl, Option.some.injEq] at h3
            rw [ha, Option.some.injEq] at h1
            rw [h1, h3]

theorem convertVec_iff (fmt : Fmt F D) (s : Scalar) (text : Bytes) (vs : List (Val F D s)) :
    convertVec fmt s text = some vs ↔ Spec.DenotesAll fmt text s vs := by
  have e : (fun (p : Bytes) (v : Val F D s) => convertVal fmt s p = some v) = fun p v => Spec.Denotes fmt p s v := by
    funext p v; exact propext (convertVal_iff fmt s p v)
  unfold convertVec commaTokens Spec.DenotesAll
  rw [mapAll_iff, e]
  constructor
  · exact fun h => ⟨splitChar ',' text, (splitChar_join ',' text).symm, splitChar_free ',' text, h⟩
  · rintro ⟨ps, rfl, h1, h2⟩
    cases ps with
    | nil => simpa [splitChar] using h2
    | cons p ps => rw [splitChar_intercalate ',' (p :: ps) (by simp) h1]; exact h2

/-! ### Arrays -/

theorem sizeOf_iff (n : Int32) (m : Nat) : Spec.SizeOf n m ↔ toSize n = m := by
  unfold Spec.SizeOf toSize
  have h0 : 0 ≤ n.toInt % 2 ^ 64 := Int.emod_nonneg _ (by norm_num)
  constructor
  · rintro ⟨hm, k, hk⟩
    have : n.toInt = (m : Int) + (-k) * 2 ^ 64 := by rw [hk]; ring
    rw [this, Int.add_mul_emod_self_right, Int.emod_eq_of_lt (by omega) (by omega)]
    rfl
  · rintro rfl
    have h1 := Int.emod_lt_of_pos n.toInt (show (0 : Int) < 2 ^ 64 by norm_num)
    refine ⟨by omega, -(n.toInt / 2 ^ 64), ?_⟩
    rw [Int.toNat_of_nonneg h0]
    have := Int.emod_add_mul_ediv n.toInt (2 ^ 64)
    linarith

theorem sizesOf_iff : ∀ (ns : List Int32) (shape : List Nat), List.Forall₂ Spec.SizeOf ns shape ↔ ns.map toSize = shape
  | [], shape => by simp [eq_comm]
  | n :: ns, shape => by
    constructor
    · intro h
      cases h with
      | cons h1 h2 => rw [List.map_cons, (sizeOf_iff n _).1 h1, (sizesOf_iff ns _).1 h2]
    · rintro rfl
      exact .cons ((sizeOf_iff n _).2 rfl) ((sizesOf_iff ns _).2 rfl)

theorem accU32_mod (shape : List Nat) : NdArray.accU32 shape = shape.prod % 2 ^ 32 := by
  have : ∀ (l : List Nat) (a : Nat), l.foldl (fun acc d => (acc * d) % 2 ^ 32) (a % 2 ^ 32) = (a * l.prod) % 2 ^ 32 := by
    intro l
    induction l with
    | nil => intro a; simp
    | cons d l ih =>
      intro a
      rw [List.foldl_cons, Nat.mod_mul_mod, ih, List.prod_cons, Nat.mul_assoc]
  have h := this shape 1
  rw [Nat.one_mul] at h
  exact h

theorem findAux_one_none {c : Char} : ∀ (t : Bytes) (i : Nat), c ∉ t → findAux [c] t i = none
  | [], i, _ => rfl
  | x :: t, i, h => by
    rw [List.mem_cons, not_or] at h
    unfold findAux
    rw [if_neg (by simp [List.isPrefixOf, h.1]), findAux_one_none t (i + 1) h.2]

theorem find_close {a : Bytes} (h : '>' ∉ a) (b : Bytes) : find ['>'] ('<' :: a ++ '>' :: b) = some (a.length + 1) := by
  have := findAux_char (c := '>') (x := '<' :: a) (y := b) (by simp [h]) 0
  unfold find
  rw [if_pos (Nat.zero_le _), List.drop_zero, this, List.length_cons, Nat.zero_add]

theorem convertNd_iff (fmt : Fmt F D) (s : Scalar) (text : Bytes) (c : Cell F D) :
    convertNd fmt s text = .ok c ↔ ∃ (a b : Bytes) (ns : List Int32) (vs : List (Val F D s)), text = '<' :: a ++ '>' :: b ∧ '>' ∉ a ∧
      Spec.DenotesAll fmt a .i32 ns ∧ Spec.DenotesAll fmt b s vs ∧ vs.length = (ns.map toSize).prod % 2 ^ 32 ∧ c = .nd s (ns.map toSize) vs := by
  have key : ∀ a b : Bytes, '>' ∉ a → (convertNd fmt s ('<' :: a ++ '>' :: b) = .ok c ↔ ∃ (ns : List Int32) (vs : List (Val F D s)),
      Spec.DenotesAll fmt a .i32 ns ∧ Spec.DenotesAll fmt b s vs ∧ vs.length = (ns.map toSize).prod % 2 ^ 32 ∧ c = .nd s (ns.map toSize) vs) := by
    intro a b ha
    have hf := find_close ha b
    have h1 : (('<' :: a ++ '>' :: b).drop 1).take (a.length + 1 - 1) = a := by simp
    have h2 : ('<' :: a ++ '>' :: b).drop (a.length + 1 + 1) = b := by simp
    have hu : convertNd fmt s ('<' :: a ++ '>' :: b) = (match convertVec fmt .i32 a, convertVec fmt s b with
      | some shape, some data =>
        if NdArray.accU32 (shape.map toSize) ≠ data.length then .throw .invalidArgument else .ok (.nd s (shape.map toSize) data)
      | _, _ => .throw .elements) := by
      unfold convertNd
      simp only [List.cons_append] at hf h1 h2 ⊢
      rw [hf]
      simp only [h1, h2]
      rfl
    rw [hu]
    cases e1 : convertVec fmt .i32 a with
    | none =>
      constructor
      · intro h; cases h
      · rintro ⟨ns, vs, h1, -⟩
        rw [← convertVec_iff, e1] at h1
        cases h1
    | some ns =>
      cases e2 : convertVec fmt s b with
      | none =>
        constructor
        · intro h; cases h
        · rintro ⟨ns, vs, -, h2, -⟩
          rw [← convertVec_iff, e2] at h2
          cases h2
      | some vs =>
        simp only [accU32_mod]
        have f1 := (convertVec_iff fmt .i32 a ns).1 e1
        have f2 := (convertVec_iff fmt s b vs).1 e2
        constructor
        · intro h
          by_cases hl : (ns.map toSize).prod % 2 ^ 32 ≠ vs.length
          · rw [if_pos hl] at h; cases h
          · rw [if_neg hl] at h
            cases h
            exact ⟨ns, vs, f1, f2, (not_not.1 hl).symm, rfl⟩
        · rintro ⟨ns', vs', g1, g2, g3, rfl⟩
          rw [← convertVec_iff, e1, Option.some.injEq] at g1
          rw [← convertVec_iff, e2, Option.some.injEq] at g2
          subst g1
          subst g2
          rw [if_neg (not_not.2 g3.symm)]
  constructor
  · intro h
    have hsh : ∃ t, text = '<' :: t := by
      unfold convertNd at h
      split at h
      · exact ⟨_, rfl⟩
      · cases h
    obtain ⟨t, rfl⟩ := hsh
    by_cases ht : '>' ∈ t
    · obtain ⟨a, b, rfl, ha⟩ := List.eq_append_cons_of_mem ht
      obtain ⟨ns, vs, h1, h2, h3, h4⟩ := (key a b ha).1 h
      exact ⟨a, b, ns, vs, rfl, ha, h1, h2, h3, h4⟩
    · exfalso
      unfold convertNd find at h
      simp only [Nat.zero_le, if_true, List.drop_zero] at h
      rw [findAux_one_none _ _ (by simp [ht])] at h
      cases h
  · rintro ⟨a, b, ns, vs, rfl, ha, h⟩
    exact (key a b ha).2 ⟨ns, vs, h⟩

/-! ### The property -/

/-- **C168**: a text is converted to a cell exactly if it is a text of that cell: for truth values one of the ten words, for integers a
numeral whose number is in the range of the type, for strings the text itself, for vectors texts of the elements between commas, where empty
ones do not count, and for arrays the sizes in angle brackets and the elements, as many as the product of the sizes modulo `2^32`. -/
theorem C168_iff (fmt : Fmt F D) (text : Bytes) (ty : CType) (c : Cell F D) :
    convertToCellType fmt text ty = .ok c ↔ Spec.CellText fmt text ty c := by
  have hnd : ∀ s : Scalar, s ≠ .bool → (convertNd fmt s text = .ok c ↔ Spec.CellText fmt text (.nd s) c) := by
    intro s hs
    rw [convertNd_iff]
    constructor
    · rintro ⟨a, b, ns, vs, rfl, h1, h2, h3, h4, rfl⟩
      exact .nd a b s ns _ vs hs h1 h2 ((sizesOf_iff ns _).2 rfl) h3 h4
    · intro h
      cases h with
      | nd a b _ ns shape vs _ h1 h2 h3 h4 h5 =>
        have := (sizesOf_iff ns shape).1 h3
        subst this
        exact ⟨a, b, ns, vs, rfl, h1, h2, h4, h5, rfl⟩
  cases ty with
  | scalar s =>
    constructor
    · intro h
      cases e : convertVal fmt s text with
      | none => simp only [convertToCellType, e] at h; cases h
      | some v => simp only [convertToCellType, e] at h; cases h; exact .scalar text s v ((convertVal_iff fmt s text v).1 e)
    · intro h
      cases h with
      | scalar _ _ v hv => simp only [convertToCellType, (convertVal_iff fmt s text v).2 hv]
  | str =>
    unfold convertToCellType
    constructor
    · intro h; cases h; exact .str text
    · intro h; cases h; rfl
  | vec s =>
    constructor
    · intro h
      cases e : convertVec fmt s text with
      | none => simp only [convertToCellType, e] at h; cases h
      | some v => simp only [convertToCellType, e] at h; cases h; exact .vec text s v ((convertVec_iff fmt s text v).1 e)
    · intro h
      cases h with
      | vec _ _ v hv => simp only [convertToCellType, (convertVec_iff fmt s text v).2 hv]
  | nd s =>
    cases s with
    | bool =>
      constructor
      · intro h; cases h
      · intro h; cases h; contradiction
    | i32 => exact hnd .i32 (by simp)
    | i64 => exact hnd .i64 (by simp)
    | f32 => exact hnd .f32 (by simp)
    | f64 => exact hnd .f64 (by simp)
  | other n =>
    constructor
    · intro h; cases h
    · intro h; cases h

/-- Every other text is refused with an exception. -/
theorem C168_refused (fmt : Fmt F D) (text : Bytes) (ty : CType) (h : ∀ c, ¬ Spec.CellText fmt text ty c) :
    ∃ e, convertToCellType fmt text ty = .throw e := by
  rcases convert_out fmt text ty with ⟨c, hc, -⟩ | he
  · exact absurd ((C168_iff fmt text ty c).1 hc) (h c)
  · exact he

/-- No text is a text of two cells of a column. -/
theorem C168_unique (fmt : Fmt F D) (text : Bytes) (ty : CType) (c c' : Cell F D) (h : Spec.CellText fmt text ty c)
    (h' : Spec.CellText fmt text ty c') : c = c' := by
  rw [← C168_iff] at h h'
  rw [h] at h'
  cases h'
  rfl

/-! ### Examples -/

/-- A leading plus sign and leading zeros are allowed. -/
example (fmt : Fmt F D) : Spec.CellText fmt "+007".toList (.scalar .i32) (.scalar .i32 7) :=
  .scalar _ _ _ (.plus ['0', '0', '7'] (by simp) (by decide))
example (fmt : Fmt F D) : Spec.CellText fmt "yes".toList (.scalar .bool) (.scalar .bool true) := .scalar _ _ _ (by show _ ∈ _; decide +kernel)

/-- Empty pieces of a vector are skipped; the text of the vector may be empty. -/
example (fmt : Fmt F D) : Spec.CellText fmt ",1,,-2".toList (.vec .i64) (.vec .i64 [1, -2]) :=
  .vec _ _ _ ⟨[[], ['1'], [], ['-', '2']], by decide, by decide,
    .cons (.plain ['1'] (by simp) (by decide)) (.cons (.minus ['2'] (by simp) (by decide)) .nil)⟩
example (fmt : Fmt F D) : Spec.CellText fmt [] (.vec .i64) (.vec .i64 []) := .vec _ _ _ ⟨[], by simp, by simp, .nil⟩

/-- An array of two times one elements. -/
example (fmt : Fmt F D) : convertToCellType fmt "<2,1>5,6".toList (.nd .i32) = .ok (.nd .i32 [2, 1] [5, 6]) := by rfl

/-- The hypothesis of `C168_refused` is met: a space is not part of a numeral, and `TRUE` is no truth value. -/
example (fmt : Fmt F D) : ∃ e, convertToCellType fmt " 1".toList (.scalar .i32) = .throw e := ⟨_, rfl⟩
example (fmt : Fmt F D) (c : Cell F D) : ¬ Spec.CellText fmt "TRUE".toList (.scalar .bool) c := by
  rw [← C168_iff]
  intro h
  cases h

end Alexandria.Table
