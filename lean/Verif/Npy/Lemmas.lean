import Verif.Npy.Model
import Verif.Common.StringsLemmas
import Verif.NdArray.Lemmas
import Verif.NdArray.Lemmas2

/-!
# Lemmas about the npy header and its parser
-/

namespace Alexandria.Npy

open Alexandria.Str Alexandria.NdArray.Spec

theorem substr_append (a b : Bytes) (n : Nat) : substr (a ++ b) a.length n = .ok (b.take n) := by
  simp [substr]

theorem substr_append' {a b : Bytes} {k : Nat} (hk : k = a.length) (n : Nat) : substr (a ++ b) k n = .ok (b.take n) := by
  rw [hk, substr_append]

theorem charAt_append {a b : Bytes} {c : Char} {k : Nat} (hk : k = a.length) : charAt (a ++ c :: b) k = .ok c := by
  rw [hk, charAt, if_neg (by simp)]
  simp

/-- Position of a keyword, plus a constant. -/
theorem key_pos {p pre z : Bytes} (h : Skips p pre) (k : Nat) (hl : (pre ++ (p ++ z)).length + k < 2 ^ 64) :
    (posVal (find p (pre ++ (p ++ z))) + k) % 2 ^ 64 = pre.length + k := by
  rw [find_skips h]
  simp only [posVal, Option.getD_some]
  apply Nat.mod_eq_of_lt
  simp only [List.length_append] at hl
  omega

/-- The pieces of a header where `parseNpyDict` looks. -/
structure Pieces (H : Bytes) (f d st : Bytes) : Prop where
  len : H.length < 2 ^ 63
  fort : ∃ F1 F2, H = F1 ++ ("fortran_order".toList ++ ("': ".toList ++ F2)) ∧ Skips "fortran_order".toList F1 ∧ F2.take 4 = f
  descr : ∃ D1, H = D1 ++ ("descr".toList ++ ("': ".toList ++ d)) ∧ Skips "descr".toList D1
  shape : ∃ S1 S3, H = S1 ++ ("shape".toList ++ ("': (".toList ++ (st ++ ')' :: S3))) ∧ Skips "shape".toList S1 ∧ ')' ∉ st

theorem fort_eq {H f d st : Bytes} (P : Pieces H f d st) :
    substr H ((posVal (find "fortran_order".toList H) + 16) % 2 ^ 64) 4 = .ok f := by
  obtain ⟨F1, F2, rfl, hs, rfl⟩ := P.fort
  rw [key_pos hs 16 (by have := P.len; omega)]
  have : F1 ++ ("fortran_order".toList ++ ("': ".toList ++ F2)) = (F1 ++ ("fortran_order".toList ++ "': ".toList)) ++ F2 := by simp
  rw [this, substr_append' (by simp)]

theorem descr_pos {H f d st : Bytes} (P : Pieces H f d st) :
    ∃ D0, H = D0 ++ d ∧ (posVal (find "descr".toList H) + 8) % 2 ^ 64 = D0.length := by
  obtain ⟨D1, hH, hs⟩ := P.descr
  refine ⟨D1 ++ ("descr".toList ++ "': ".toList), by simp [hH], ?_⟩
  have := P.len
  rw [hH] at this ⊢
  rw [key_pos hs 8 (by omega)]
  simp

theorem shape_eq {H f d st : Bytes} (P : Pieces H f d st) :
    ∃ loc, (posVal (find "shape".toList H) + 9) % 2 ^ 64 = loc ∧
      substr H loc ((posVal (find [')'] H loc) + 2 ^ 64 - loc) % 2 ^ 64) = .ok st := by
  obtain ⟨S1, S3, hH, hs, hst⟩ := P.shape
  refine ⟨_, rfl, ?_⟩
  have hl := P.len
  rw [hH] at hl ⊢
  rw [key_pos hs 9 (by omega)]
  have h1 : S1 ++ ("shape".toList ++ ("': (".toList ++ (st ++ ')' :: S3))) =
    (S1 ++ ("shape".toList ++ "': (".toList)) ++ (st ++ ')' :: S3) := by simp
  have h2 : S1.length + 9 = (S1 ++ ("shape".toList ++ "': (".toList)).length := by simp
  rw [h1] at hl ⊢
  rw [h2]
  generalize S1 ++ ("shape".toList ++ "': (".toList) = A at hl ⊢
  rw [find_char hst, substr_append]
  simp only [posVal, Option.getD_some]
  simp only [List.length_append] at hl
  have : (A.length + st.length + 2 ^ 64 - A.length) % 2 ^ 64 = st.length := by omega
  rw [this]
  simp

/-- A single type: the text up to the closing quote. -/
theorem single_eq {D0 ty r : Bytes} (hty : '\'' ∉ ty) (hl : (D0 ++ '\'' :: (ty ++ '\'' :: r)).length < 2 ^ 63) :
    substr (D0 ++ '\'' :: (ty ++ '\'' :: r)) (D0.length + 1)
      ((posVal (find ['\''] (D0 ++ '\'' :: (ty ++ '\'' :: r)) (D0.length + 1)) + 2 ^ 64 - D0.length - 1) % 2 ^ 64) = .ok ty := by
  have h1 : D0 ++ '\'' :: (ty ++ '\'' :: r) = (D0 ++ ['\'']) ++ (ty ++ '\'' :: r) := by simp
  have h2 : D0.length + 1 = (D0 ++ ['\'']).length := by simp
  rw [h1] at hl ⊢
  have h3 : ∀ x, x + 2 ^ 64 - D0.length - 1 = x + 2 ^ 64 - (D0 ++ ['\'']).length := by intro x; simp; omega
  rw [h3, h2]
  generalize D0 ++ ['\''] = A at hl ⊢
  rw [find_char hty, substr_append]
  simp only [posVal, Option.getD_some]
  simp only [List.length_append] at hl
  have : (A.length + ty.length + 2 ^ 64 - A.length) % 2 ^ 64 = ty.length := by omega
  rw [this]
  simp

/-- A list of fields: the text up to the closing bracket. -/
theorem fields_eq {D0 fs r : Bytes} (hfs : ']' ∉ fs) (hl : (D0 ++ '[' :: (fs ++ ']' :: r)).length < 2 ^ 63) :
    substr (D0 ++ '[' :: (fs ++ ']' :: r)) (D0.length + 1)
      ((posVal (find [']'] (D0 ++ '[' :: (fs ++ ']' :: r)) (D0.length + 1)) + 2 ^ 64 - D0.length - 1) % 2 ^ 64) = .ok fs := by
  have h1 : D0 ++ '[' :: (fs ++ ']' :: r) = (D0 ++ ['[']) ++ (fs ++ ']' :: r) := by simp
  have h2 : D0.length + 1 = (D0 ++ ['[']).length := by simp
  rw [h1] at hl ⊢
  have h3 : ∀ x, x + 2 ^ 64 - D0.length - 1 = x + 2 ^ 64 - (D0 ++ ['[']).length := by intro x; simp; omega
  rw [h3, h2]
  generalize D0 ++ ['['] = A at hl ⊢
  rw [find_char hfs, substr_append]
  simp only [posVal, Option.getD_some]
  simp only [List.length_append] at hl
  have : (A.length + fs.length + 2 ^ 64 - A.length) % 2 ^ 64 = fs.length := by omega
  rw [this]
  simp

theorem parseDict_single {H f st ty r st' : Bytes} {c : Char} {shape : List Nat}
    (P : Pieces H f ('\'' :: ((c :: ty) ++ '\'' :: r)) st) (hty : '\'' ∉ c :: ty) (hchop : chopComma st = .ok st')
    (hsh : stringToSizes st' = some shape) :
    parseDict H = .ok ⟨f == "True".toList, c == '>', ty, shape, [], NdArray.accI32 shape⟩ := by
  obtain ⟨D0, hH, hpos⟩ := descr_pos P
  obtain ⟨loc, hloc, hsub⟩ := shape_eq P
  have hl := P.len
  have hf := fort_eq P
  unfold parseDict
  simp only [hf, hpos, hloc, Outcome.bind_ok]
  rw [hsub]
  rw [hH] at hl ⊢
  rw [charAt_append rfl]
  simp only [Outcome.bind_ok, if_true]
  rw [single_eq hty hl]
  simp only [Outcome.bind_ok, parseSingleValue]
  rw [hchop]
  simp only [Outcome.bind_ok, hsh, Outcome.pure_eq]

theorem parseDict_fields {H f st fs r st' : Bytes} {shape : List Nat} {big : Bool} {attrs : List Bytes} {ty : Bytes}
    (P : Pieces H f ('[' :: (fs ++ ']' :: r)) st) (hfs : ']' ∉ fs) (hparse : parseFields fs = .ok (big, attrs, ty))
    (hchop : chopComma st = .ok st') (hsh : stringToSizes st' = some shape) :
    parseDict H = .ok ⟨f == "True".toList, big, ty, shape, attrs, NdArray.accI32 shape⟩ := by
  obtain ⟨D0, hH, hpos⟩ := descr_pos P
  obtain ⟨loc, hloc, hsub⟩ := shape_eq P
  have hl := P.len
  have hf := fort_eq P
  unfold parseDict
  simp only [hf, hpos, hloc, Outcome.bind_ok]
  rw [hsub]
  rw [hH] at hl ⊢
  rw [charAt_append rfl]
  simp only [Outcome.bind_ok, if_true]
  rw [if_neg (by decide)]
  rw [fields_eq hfs hl]
  simp only [Outcome.bind_ok, hparse]
  rw [hchop]
  simp only [Outcome.bind_ok, hsh, Outcome.pure_eq]

/-! ## The list of fields -/

/-- One field. -/
def fieldText (ty : Bytes) (a : Bytes) : Bytes := ['(', '\''] ++ a ++ ['\'', ',', ' ', '\'', '<'] ++ ty ++ ['\'', ')', ',', ' ']

theorem takeWhile_quote {a r : Bytes} (h : '\'' ∉ a) : (a ++ '\'' :: r).takeWhile (· ≠ '\'') = a := by
  induction a with
  | nil => simp
  | cons c a ih =>
    have hc : c ≠ '\'' := by rintro rfl; exact h (by simp)
    rw [List.cons_append, List.takeWhile_cons, if_pos (by simpa using hc), ih fun hh => h (by simp [hh])]

theorem dropWhile_quote {a r : Bytes} (h : '\'' ∉ a) : (a ++ '\'' :: r).dropWhile (· ≠ '\'') = '\'' :: r := by
  induction a with
  | nil => simp
  | cons c a ih =>
    have hc : c ≠ '\'' := by rintro rfl; exact h (by simp)
    rw [List.cons_append, List.dropWhile_cons, if_pos (by simpa using hc), ih fun hh => h (by simp [hh])]

theorem matchField_text {ty a r : Bytes} (ha : '\'' ∉ a) (hty : '\'' ∉ ty) :
    matchField (fieldText ty a ++ r) = some (a, '<' :: ty, ',' :: ' ' :: r) := by
  have hty' : '\'' ∉ '<' :: ty := by simp [hty]
  have h1 : fieldText ty a ++ r = '(' :: '\'' :: (a ++ '\'' :: (',' :: ' ' :: '\'' :: (('<' :: ty) ++ '\'' :: (')' :: ',' :: ' ' :: r)))) := by
    simp [fieldText]
  rw [h1, matchField]
  rw [dropWhile_quote ha]
  have h2 : ∀ z : Bytes, (' ' :: '\'' :: z).dropWhile isSpace = '\'' :: z := by
    intro z
    simp [List.dropWhile_cons, show isSpace ' ' = true by decide, show isSpace '\'' = false by decide]
  simp only [h2]
  rw [dropWhile_quote hty']
  simp only
  rw [takeWhile_quote ha, takeWhile_quote hty']

theorem searchField_text {ty a r : Bytes} (ha : '\'' ∉ a) (hty : '\'' ∉ ty) :
    searchField (fieldText ty a ++ r) = some (a, '<' :: ty, ',' :: ' ' :: r) := by
  have h := matchField_text (r := r) ha hty
  cases hf : fieldText ty a ++ r with
  | nil => simp [fieldText] at hf
  | cons c t => rw [hf] at h; rw [searchField, h]

theorem searchField_sep (r : Bytes) : searchField (',' :: ' ' :: r) = searchField r := by
  rw [searchField]
  have h1 : matchField (',' :: ' ' :: r) = none := by
    simp [matchField]
  rw [h1]
  simp only
  rw [searchField]
  have h2 : matchField (' ' :: r) = none := by
    simp [matchField]
  rw [h2]

theorem fieldLoop_text {ty : Bytes} (hty : '\'' ∉ ty) (hne : ty ≠ []) (attrs : List Bytes) (ha : ∀ a ∈ attrs, '\'' ∉ a) (acc : List Bytes)
    (fuel : Nat) (hfu : attrs.length < fuel) :
    fieldLoop fuel (',' :: ' ' :: attrs.flatMap (fieldText ty)) false acc ty = .ok (false, acc ++ attrs, ty) := by
  induction attrs generalizing acc fuel with
  | nil =>
    obtain ⟨n, rfl⟩ : ∃ n, fuel = n + 1 := ⟨fuel - 1, by simp at hfu; omega⟩
    rw [fieldLoop, searchField_sep]
    simp [searchField]
  | cons a attrs ih =>
    obtain ⟨n, rfl⟩ : ∃ n, fuel = n + 1 := ⟨fuel - 1, by simp at hfu; omega⟩
    rw [fieldLoop, searchField_sep, List.flatMap_cons, searchField_text (ha a (by simp)) hty]
    simp only [parseSingleValue, Outcome.bind_ok]
    rw [if_neg hne, if_neg (by simp), ih (fun b hb => ha b (by simp [hb])) _ _ (by simp at hfu; omega)]
    simp

theorem fieldText_length (ty a : Bytes) : 0 < (fieldText ty a).length := by simp [fieldText]

theorem parseFields_text {ty : Bytes} (hty : '\'' ∉ ty) (hne : ty ≠ []) {attrs : List Bytes} (hn : attrs ≠ []) (ha : ∀ a ∈ attrs, '\'' ∉ a) :
    parseFields (attrs.flatMap (fieldText ty)) = .ok (false, attrs, ty) := by
  obtain ⟨a, as, rfl⟩ := List.exists_cons_of_ne_nil hn
  have hlen : ∀ as : List Bytes, as.length ≤ (as.flatMap (fieldText ty)).length := by
    intro as
    induction as with
    | nil => simp
    | cons b bs ih =>
      rw [List.flatMap_cons, List.length_append, List.length_cons]
      have := fieldText_length ty b
      omega
  rw [parseFields, fieldLoop]
  have hl := hlen (a :: as)
  rw [List.flatMap_cons, searchField_text (ha a (by simp)) hty]
  simp only [parseSingleValue, Outcome.bind_ok, if_true]
  rw [show ('<' == '>') = false from rfl, fieldLoop_text hty hne as (fun b hb => ha b (by simp [hb])) _ _ (by simp [List.flatMap_cons] at hl ⊢; omega)]
  rfl

theorem le32_val {n : Nat} (h : n < 2 ^ 32) : leVal (le32 n) = n := by
  have hv : ∀ k, k < 256 → (Char.ofNat k).toNat = k := by
    intro k hk
    have h : k.isValidChar := Or.inl (by omega)
    simp only [Char.ofNat, h, dif_pos]
    rfl
  simp only [le32, leVal]
  rw [hv _ (by omega), hv _ (by omega), hv _ (by omega), hv _ (by omega)]
  omega

theorem dtype_noquote (d : Dtype) : '\'' ∉ d.str := by cases d <;> decide
theorem dtype_nobracket (d : Dtype) : ']' ∉ d.str := by cases d <;> decide
theorem dtype_ne_nil (d : Dtype) : d.str ≠ [] := by cases d <;> decide
theorem dtype_nofort (d : Dtype) : ¬ "fortran_order".toList <:+: d.str := by cases d <;> decide
theorem dtype_noshape (d : Dtype) : ¬ "shape".toList <:+: d.str := by cases d <;> decide

end Alexandria.Npy
