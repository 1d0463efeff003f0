import Verif.Table.CastModel
import Verif.Table.CellLemmas
import Mathlib.Data.List.Forall2
import Mathlib.Data.Fintype.Pigeonhole

/-!
# Conversions of cells (C49)
-/

namespace Alexandria.Table

open Alexandria.Str

variable {F D : Type}

/-! ## Specification -/

/-- The number that a cell of a boolean or integer type represents. -/
def intOf : Cell F D → Option Int
  | .scalar .bool b => some (match b with | true => 1 | false => 0)
  | .scalar .i32 v => some (Int32.toInt v)
  | .scalar .i64 v => some (Int64.toInt v)
  | _ => none

/-- The order of the types: each can be converted to those after it. -/
def Scalar.rank : Scalar → Nat
  | .bool => 0 | .i32 => 1 | .i64 => 2 | .f32 => 3 | .f64 => 4

/-- The smallest and the largest number of an integer type. -/
def lowest : Scalar → Int
  | .i32 => -2 ^ 31 | .i64 => -2 ^ 63 | _ => 0

def highest : Scalar → Int
  | .i32 => 2 ^ 31 - 1 | .i64 => 2 ^ 63 - 1 | _ => 0

/-- The text begins with spaces and the decimal numeral of `n`, followed by `rest`. -/
def Begins (s : Bytes) (n : Int) (rest : Bytes) : Prop :=
  ∃ sp ds : Bytes, (∀ c ∈ sp, isSpace c = true) ∧ ds ≠ [] ∧ (∀ c ∈ ds, c.isDigit = true) ∧
    ((s = sp ++ ds ++ rest ∨ s = sp ++ '+' :: ds ++ rest) ∧ n = Nat.ofDigitChars 10 ds 0 ∨ s = sp ++ '-' :: ds ++ rest ∧ n = -Nat.ofDigitChars 10 ds 0)

/-- The whole text is the numeral of `n`. -/
def Denotes (s : Bytes) (n : Int) : Prop := Begins s n []

/-! ## Texts as integers -/

theorem dropWhile_spaces' {sp t : Bytes} (h : ∀ c ∈ sp, isSpace c = true) (ht : ∀ c, t.head? = some c → isSpace c = false) : (sp ++ t).dropWhile isSpace = t := by
  rw [List.dropWhile_append_of_pos h]
  cases t with
  | nil => rfl
  | cons c t => rw [List.dropWhile_cons_of_neg]; simpa using ht c rfl

theorem takeWhile_digits {ds r : Bytes} (h : ∀ c ∈ ds, c.isDigit = true) (hr : ∀ c, r.head? = some c → c.isDigit = false) : (ds ++ r).takeWhile Char.isDigit = ds := by
  rw [List.takeWhile_append_of_pos h]
  cases r with
  | nil => simp
  | cons c r => rw [List.takeWhile_cons_of_neg]; · simp
                simpa using hr c rfl

theorem digits?_ok {ds : Bytes} (hne : ds ≠ []) (h : ∀ c ∈ ds, c.isDigit = true) : digits? ds = some (Nat.ofDigitChars 10 ds 0) := by
  rw [digits?, if_pos ⟨hne, List.all_eq_true.2 h⟩]

theorem cstr_append {p r : Bytes} (h : ∀ c ∈ p, c ≠ '\x00') : cstr (p ++ r) = p ++ cstr r := by
  rw [cstr, List.takeWhile_append_of_pos (by intro c hc; simpa using h c hc), cstr]

theorem cstr_head {r : Bytes} (h : ∀ c, r.head? = some c → c.isDigit = false) : ∀ c, (cstr r).head? = some c → c.isDigit = false := by
  intro c hc
  cases r with
  | nil => simp [cstr] at hc
  | cons d r =>
    rw [cstr, List.takeWhile_cons] at hc
    split at hc
    · exact h c (by simpa using hc)
    · simp at hc

/-- The number limited to the range of `int64_t`. -/
def limited (n : Int) : Int := max (-2 ^ 63) (min (2 ^ 63 - 1) n)

theorem digit_facts {c : Char} (h : c.isDigit = true) : isSpace c = false ∧ c ≠ '-' ∧ c ≠ '+' ∧ c ≠ '\x00' := by
  refine ⟨isDigit_not_space h, ?_, ?_, ?_⟩ <;> (rintro rfl; exact absurd h (by decide))

theorem space_ne_nul {c : Char} (h : isSpace c = true) : c ≠ '\x00' := by rintro rfl; exact absurd h (by decide)

theorem strtoll_of {s : Bytes} {n : Int} {rest : Bytes} (h : Begins s n rest) (hr : ∀ c, rest.head? = some c → c.isDigit = false) : strtoll (cstr s) = some (limited n) := by
  obtain ⟨sp, ds, h1, h2, h3, h4⟩ := h
  have hr' := cstr_head hr
  have hds : ∀ c ∈ ds, c ≠ '\x00' := fun c hc => (digit_facts (h3 c hc)).2.2.2
  have hsp : ∀ c ∈ sp, c ≠ '\x00' := fun c hc => space_ne_nul (h1 c hc)
  obtain ⟨d, ds', rfl⟩ := List.exists_cons_of_ne_nil h2
  have hd := digit_facts (h3 d (by simp))
  have hnn : (0 : Int) ≤ (Nat.ofDigitChars 10 (d :: ds') 0 : Nat) := Int.natCast_nonneg _
  generalize hv : Nat.ofDigitChars 10 (d :: ds') 0 = v at *
  rcases h4 with ⟨rfl | rfl, rfl⟩ | ⟨rfl, rfl⟩
  · have hc : cstr (sp ++ d :: ds' ++ rest) = sp ++ (d :: ds' ++ cstr rest) := by
      rw [List.append_assoc, cstr_append hsp, cstr_append hds]
    rw [hc, strtoll, dropWhile_spaces' h1 (by intro c hc; simp at hc; subst hc; exact hd.1)]
    have hm : signOf (d :: ds' ++ cstr rest) = (false, d :: ds' ++ cstr rest) := by
      rw [List.cons_append, signOf.eq_def]
      split
      · rename_i e; rw [List.cons.injEq] at e; exact absurd e.1 hd.2.1
      · rename_i e; rw [List.cons.injEq] at e; exact absurd e.1 hd.2.2.1
      · rfl
    rw [hm]
    simp only
    rw [takeWhile_digits h3 hr', digits?_ok h2 h3, hv]
    simp only [limited, Bool.false_eq_true, if_false]
    congr 1
    omega
  · have hc : cstr (sp ++ '+' :: (d :: ds') ++ rest) = sp ++ ('+' :: (d :: ds' ++ cstr rest)) := by
      rw [List.append_assoc, cstr_append hsp, ← List.cons_append, show '+' :: (d :: ds') ++ rest = ('+' :: (d :: ds')) ++ rest from rfl,
        cstr_append (by intro c hc; rcases List.mem_cons.1 hc with rfl | hc; · decide
                        exact hds c hc)]
    rw [hc, strtoll, dropWhile_spaces' h1 (by intro c hc; simp at hc; subst hc; decide)]
    simp only [signOf]
    rw [takeWhile_digits h3 hr', digits?_ok h2 h3, hv]
    simp only [limited, Bool.false_eq_true, if_false]
    congr 1
    omega
  · have hc : cstr (sp ++ '-' :: (d :: ds') ++ rest) = sp ++ ('-' :: (d :: ds' ++ cstr rest)) := by
      rw [List.append_assoc, cstr_append hsp, ← List.cons_append, show '-' :: (d :: ds') ++ rest = ('-' :: (d :: ds')) ++ rest from rfl,
        cstr_append (by intro c hc; rcases List.mem_cons.1 hc with rfl | hc; · decide
                        exact hds c hc)]
    rw [hc, strtoll, dropWhile_spaces' h1 (by intro c hc; simp at hc; subst hc; decide)]
    simp only [signOf]
    rw [takeWhile_digits h3 hr', digits?_ok h2 h3, hv]
    simp only [limited, if_true]
    congr 1
    omega

theorem strtoll_some {s : Bytes} {v : Int} (h : strtoll (cstr s) = some v) :
    ∃ n rest, Begins s n rest ∧ ∀ c, rest.head? = some c → c.isDigit = false := by
  have hs : s = cstr s ++ s.dropWhile fun c => c ≠ '\x00' := (List.takeWhile_append_dropWhile).symm
  have hu : cstr s = (cstr s).takeWhile isSpace ++ (cstr s).dropWhile isSpace := (List.takeWhile_append_dropWhile).symm
  have hsp : ∀ c ∈ (cstr s).takeWhile isSpace, isSpace c = true := by
    have := List.all_takeWhile (p := isSpace) (l := cstr s)
    rwa [List.all_eq_true] at this
  have hzero : ∀ c, (s.dropWhile fun c => c ≠ '\x00').head? = some c → c.isDigit = false := by
    intro c hc
    have := List.head?_dropWhile_not (fun c => decide (c ≠ '\x00')) s
    rw [hc] at this
    have h0 : c = '\x00' := by simpa using this
    rw [h0]; decide
  generalize cstr s = u at *
  generalize (s.dropWhile fun c => c ≠ '\x00') = z at *
  rw [strtoll] at h
  generalize u.takeWhile isSpace = sp at *
  generalize u.dropWhile isSpace = t at *
  have key : ∀ t' : Bytes, ∀ n, digits? (t'.takeWhile Char.isDigit) = some n → ∃ ds r, t' = ds ++ r ∧ ds ≠ [] ∧ (∀ c ∈ ds, c.isDigit = true) ∧ ∀ c, (r ++ z).head? = some c → c.isDigit = false := by
    intro t' n hn
    rw [digits?] at hn
    split at hn
    · rename_i hd
      refine ⟨_, _, (List.takeWhile_append_dropWhile (p := Char.isDigit)).symm, hd.1, List.all_eq_true.1 hd.2, fun c hc => ?_⟩
      cases hdrop : t'.dropWhile Char.isDigit with
      | nil => rw [hdrop] at hc; exact hzero c hc
      | cons e r =>
        rw [hdrop] at hc
        have := List.head?_dropWhile_not Char.isDigit t'
        rw [hdrop] at this
        simp at hc this
        rw [← hc]; exact this
    · cases hn
  split at h
  · cases h
  · rename_i m hm
    rw [signOf.eq_def] at hm
    split at hm
    · rename_i w
      obtain ⟨ds, r, rfl, h2, h3, h4⟩ := key _ _ hm
      refine ⟨_, r ++ z, ⟨sp, ds, hsp, h2, h3, Or.inr ⟨?_, rfl⟩⟩, h4⟩
      rw [hs, hu]; simp
    · rename_i w
      obtain ⟨ds, r, rfl, h2, h3, h4⟩ := key _ _ hm
      refine ⟨_, r ++ z, ⟨sp, ds, hsp, h2, h3, Or.inl ⟨Or.inr ?_, rfl⟩⟩, h4⟩
      rw [hs, hu]; simp
    · obtain ⟨ds, r, e, h2, h3, h4⟩ := key _ _ hm
      refine ⟨_, r ++ z, ⟨sp, ds, hsp, h2, h3, Or.inl ⟨Or.inl ?_, rfl⟩⟩, h4⟩
      simp only at e
      rw [hs, hu, e]; simp

theorem bind_eq_ok' {α β : Type} {x : Res α} {f : α → Res β} {b : β} : (x >>= f) = .ok b ↔ ∃ a, x = .ok a ∧ f a = .ok b := by
  cases x with
  | ok a => simp
  | throw e => simp
  | ub => simp

/-! ## Properties -/

/-- Converting a cell to its own type gives the cell. -/
theorem C49_same (conv : Conv F D) (fmt : Fmt F D) (c : Cell F D) : castTo conv fmt c.type c = .ok c := by
  cases c with
  | scalar s v => cases s <;> rfl
  | str v => rfl
  | vec s v => simp [castTo, Cell.type, castVec]
  | nd s shape v => simp [castTo, Cell.type]

/-- The result has the type asked for. -/
theorem C49_type (conv : Conv F D) (fmt : Fmt F D) (t : CType) (c c' : Cell F D) (h : castTo conv fmt t c = .ok c') : c'.type = t := by
  rw [castTo.eq_def] at h
  cases t with
  | scalar t =>
    simp only at h
    obtain ⟨v, _, h⟩ := bind_eq_ok'.1 h
    cases h; rfl
  | vec t =>
    simp only at h
    obtain ⟨v, _, h⟩ := bind_eq_ok'.1 h
    cases h; rfl
  | str =>
    simp only at h
    obtain ⟨v, _, h⟩ := bind_eq_ok'.1 h
    cases h; rfl
  | nd s =>
    simp only at h
    split at h
    · cases h; assumption
    · cases h
  | other n =>
    simp only at h
    split at h
    · cases h; assumption
    · cases h

/-- Numbers are converted exactly to the types that come later in the order of the types. -/
theorem C49_accepts (conv : Conv F D) (fmt : Fmt F D) (s t : Scalar) (v : Val F D s) :
    (s.rank ≤ t.rank → ∃ w, castTo conv fmt (.scalar t) (.scalar s v) = .ok (.scalar t w)) ∧
    (¬ s.rank ≤ t.rank → castTo conv fmt (.scalar t) (.scalar s v) = .throw .elements) := by
  cases s <;> cases t <;>
    first
    | exact ⟨fun _ => ⟨_, rfl⟩, fun h => absurd (by decide) h⟩
    | exact ⟨fun h => absurd h (by decide), fun _ => rfl⟩

/-- Booleans and integers keep their value in integer types. -/
theorem C49_value (conv : Conv F D) (fmt : Fmt F D) (s t : Scalar) (v : Val F D s) (hs : s.rank ≤ 2) (ht : t.rank ≤ 2) (c : Cell F D)
    (h : castTo conv fmt (.scalar t) (.scalar s v) = .ok c) : intOf c = intOf (.scalar s v : Cell F D) ∧ intOf c ≠ none := by
  cases s <;> cases t <;> simp only [Scalar.rank] at hs ht <;> try omega
  all_goals cases h
  · exact ⟨rfl, by simp [intOf]⟩
  · rcases v with _ | _
    · exact ⟨by rfl, by simp [intOf]⟩
    · exact ⟨by rfl, by simp [intOf]⟩
  · rcases v with _ | _
    · exact ⟨by rfl, by simp [intOf]⟩
    · exact ⟨by rfl, by simp [intOf]⟩
  · exact ⟨rfl, by simp [intOf]⟩
  · refine ⟨?_, by simp [intOf]⟩
    simp only [intOf]
    rw [Int32.toInt_toInt64]
  · exact ⟨rfl, by simp [intOf]⟩

/-- In floating point types the value is that given by the conversion of the language. -/
theorem C49_float (conv : Conv F D) (fmt : Fmt F D) (s : Scalar) (v : Val F D s) (n : Int) (h : intOf (.scalar s v : Cell F D) = some n) :
    castTo conv fmt (.scalar .f32) (.scalar s v) = .ok (.scalar .f32 (conv.f32OfInt n)) ∧
    castTo conv fmt (.scalar .f64) (.scalar s v) = .ok (.scalar .f64 (conv.f64OfInt n)) := by
  cases s <;> simp only [intOf, Option.some.injEq, reduceCtorEq] at h <;> subst h
  · rcases v with _ | _ <;> exact ⟨rfl, rfl⟩
  · exact ⟨rfl, rfl⟩
  · exact ⟨rfl, rfl⟩

/-- A text that is the numeral of a number in the range of the type is converted to it; numbers out of the range of `int32_t` are rejected. -/
theorem C49_numeral_partial (conv : Conv F D) (fmt : Fmt F D) (s : Bytes) (n : Int) (h : Denotes s n) :
    (lowest .i64 ≤ n ∧ n ≤ highest .i64 → ∃ c, castTo conv fmt (.scalar .i64) (.str s) = .ok c ∧ intOf c = some n) ∧
    (lowest .i32 ≤ n ∧ n ≤ highest .i32 → ∃ c, castTo conv fmt (.scalar .i32) (.str s) = .ok c ∧ intOf c = some n) ∧
    (¬ (lowest .i32 ≤ n ∧ n ≤ highest .i32) → castTo conv fmt (.scalar .i32) (.str s) = .throw .elements) := by
  have hs := strtoll_of h (by simp)
  simp only [lowest, highest]
  refine ⟨fun hr => ?_, fun hr => ?_, fun hr => ?_⟩
  · refine ⟨.scalar .i64 (Int64.ofInt (limited n)), ?_, ?_⟩
    · simp only [castTo, castScalar, hs]; rfl
    · simp only [intOf]
      rw [Int64.toInt_ofInt_of_le (by rw [limited]; omega) (by rw [limited]; omega)]
      congr 1
      rw [limited]; omega
  · refine ⟨.scalar .i32 (Int32.ofInt (limited n)), ?_, ?_⟩
    · simp only [castTo, castScalar, hs]
      rw [if_neg (by rw [limited]; omega)]; rfl
    · simp only [intOf]
      rw [Int32.toInt_ofInt_of_le (by rw [limited]; omega) (by rw [limited]; omega)]
      congr 1
      rw [limited]; omega
  · simp only [castTo, castScalar, hs]
    rw [if_pos (by rw [limited]; omega)]; rfl

/-- Texts that do not begin with a numeral are rejected. -/
theorem C49_rejects (conv : Conv F D) (fmt : Fmt F D) (s : Bytes) (h : ∀ n rest, ¬ Begins s n rest) :
    castTo conv fmt (.scalar .i64) (.str s) = .throw .elements ∧ castTo conv fmt (.scalar .i32) (.str s) = .throw .elements := by
  have hs : strtoll (cstr s) = none := by
    cases hv : strtoll (cstr s) with
    | none => rfl
    | some v =>
      obtain ⟨n, rest, hb, _⟩ := strtoll_some hv
      exact absurd hb (h n rest)
  constructor <;> (simp only [castTo, castScalar, hs]; rfl)

/-- What texts give: the number of the longest numeral that they begin with, whatever follows; for `int64_t` limited to the range of the type, for `int32_t` refused out of it. -/
theorem C49_text_exact (conv : Conv F D) (fmt : Fmt F D) (s : Bytes) (n : Int) (rest : Bytes) (h : Begins s n rest) (hr : ∀ c, rest.head? = some c → c.isDigit = false) :
    (∃ c, castTo conv fmt (.scalar .i64) (.str s) = .ok c ∧ intOf c = some (max (lowest .i64) (min n (highest .i64)))) ∧
    (lowest .i32 ≤ n ∧ n ≤ highest .i32 → ∃ c, castTo conv fmt (.scalar .i32) (.str s) = .ok c ∧ intOf c = some n) ∧
    (¬ (lowest .i32 ≤ n ∧ n ≤ highest .i32) → castTo conv fmt (.scalar .i32) (.str s) = .throw .elements) := by
  have hs := strtoll_of h hr
  simp only [lowest, highest]
  refine ⟨?_, fun hr => ?_, fun hr => ?_⟩
  · refine ⟨.scalar .i64 (Int64.ofInt (limited n)), ?_, ?_⟩
    · simp only [castTo, castScalar, hs]; rfl
    · simp only [intOf]
      rw [Int64.toInt_ofInt_of_le (by rw [limited]; omega) (by rw [limited]; omega)]
      congr 1
      rw [limited]; omega
  · refine ⟨.scalar .i32 (Int32.ofInt (limited n)), ?_, ?_⟩
    · simp only [castTo, castScalar, hs]
      rw [if_neg (by rw [limited]; omega)]; rfl
    · simp only [intOf]
      rw [Int32.toInt_ofInt_of_le (by rw [limited]; omega) (by rw [limited]; omega)]
      congr 1
      rw [limited]; omega
  · simp only [castTo, castScalar, hs]
    rw [if_pos (by rw [limited]; omega)]; rfl

/-- Exactly which texts that are converted to `int64_t` are given their value: numerals, with nothing after them, of numbers in the range. -/
theorem C49_text_iff (conv : Conv F D) (fmt : Fmt F D) (s : Bytes) (c : Cell F D) (h : castTo conv fmt (.scalar .i64) (.str s) = .ok c) :
    (∃ n, Denotes s n ∧ intOf c = some n) ↔ ∃ n, Denotes s n ∧ lowest .i64 ≤ n ∧ n ≤ highest .i64 := by
  constructor
  · rintro ⟨n, hd, hc⟩
    refine ⟨n, hd, ?_⟩
    obtain ⟨c', e, hn⟩ := (C49_text_exact conv fmt s n [] hd (by simp)).1
    rw [h] at e
    cases e
    rw [hc, Option.some.injEq] at hn
    simp only [lowest, highest] at hn ⊢
    omega
  · rintro ⟨n, hd, hr⟩
    obtain ⟨c', e, hn⟩ := (C49_numeral_partial conv fmt s n hd).1 hr
    rw [h] at e
    cases e
    exact ⟨n, hd, hn⟩

/-- "12.5" begins with 12. -/
example : Begins "12.5".toList 12 ".5".toList ∧ ∀ c, (".5".toList).head? = some c → c.isDigit = false :=
  ⟨⟨[], ['1', '2'], by simp, by simp, by decide, Or.inl ⟨Or.inl rfl, by decide +kernel⟩⟩, by intro c hc; simp at hc; subst hc; decide⟩
example (conv : Conv F D) (fmt : Fmt F D) : castTo conv fmt (.scalar .i64) (.str " 12".toList) = .ok (.scalar .i64 12) := by rfl

theorem castLoop_ok (conv : Conv F D) (t : Scalar) : ∀ (cs : List (Cell F D)) (vs : List (Val F D t)),
    castLoop conv t cs = .ok vs ↔ List.Forall₂ (fun c v => castScalar conv t c = .ok v) cs vs := by
  intro cs
  induction cs with
  | nil =>
    intro vs
    cases vs with
    | nil => simp [castLoop]
    | cons v vs => simp [castLoop]
  | cons c cs ih =>
    intro vs
    rw [castLoop, bind_eq_ok']
    constructor
    · rintro ⟨v, h1, h2⟩
      obtain ⟨ws, h3, h4⟩ := bind_eq_ok'.1 h2
      cases h4
      exact .cons h1 ((ih ws).1 h3)
    · intro h
      cases h with
      | cons h1 h2 =>
        refine ⟨_, h1, ?_⟩
        rw [(ih _).2 h2]; rfl

theorem castScalar_same (conv : Conv F D) (s : Scalar) (x : Val F D s) : castScalar conv s (.scalar s x) = .ok x := by cases s <;> rfl

theorem castTo_scalar {conv : Conv F D} {fmt : Fmt F D} {t : Scalar} {c : Cell F D} {v : Val F D t} :
    castTo conv fmt (.scalar t) c = .ok (.scalar t v) ↔ castScalar conv t c = .ok v := by
  simp only [castTo, bind_eq_ok']
  constructor
  · rintro ⟨w, h1, h2⟩
    rw [Outcome.pure_eq, Outcome.ok.injEq] at h2
    cases h2
    exact h1
  · intro h; exact ⟨v, h, rfl⟩

/-- A vector is converted by converting its elements. -/
theorem C49_vector (conv : Conv F D) (fmt : Fmt F D) (s t : Scalar) (v : List (Val F D s)) (w : List (Val F D t)) :
    castTo conv fmt (.vec t) (.vec s v) = .ok (.vec t w) ↔
      List.Forall₂ (fun x y => castTo conv fmt (.scalar t) (.scalar s x) = .ok (.scalar t y)) v w := by
  have hiff : castTo conv fmt (.vec t) (.vec s v) = .ok (.vec t w) ↔ castVec conv t (.vec s v) = .ok w := by
    simp only [castTo, bind_eq_ok']
    constructor
    · rintro ⟨w', h1, h2⟩
      rw [Outcome.pure_eq, Outcome.ok.injEq] at h2
      cases h2
      exact h1
    · intro h; exact ⟨w, h, rfl⟩
  rw [hiff]
  simp only [castTo_scalar, castVec]
  by_cases h : s = t
  · subst h
    simp only [dite_true, castScalar_same, Outcome.ok.injEq]
    constructor
    · rintro rfl; exact List.forall₂_same.2 fun _ _ => rfl
    · intro h
      exact List.forall₂_eq_eq_eq ▸ h
  · rw [dif_neg h, castLoop_ok, List.forall₂_map_left_iff]

/-- A scalar is converted to a vector of one element. -/
theorem C49_singleton (conv : Conv F D) (fmt : Fmt F D) (s t : Scalar) (x : Val F D s) (y : Val F D t)
    (h : castTo conv fmt (.scalar t) (.scalar s x) = .ok (.scalar t y)) : castTo conv fmt (.vec t) (.scalar s x) = .ok (.vec t [y]) := by
  simp only [castTo, castVec, castTo_scalar.1 h]
  rfl

/-- The text of a value can be converted back. -/
def BackOk (conv : Conv F D) (fmt : Fmt F D) : (s : Scalar) → Val F D s → Prop
  | .bool, _ => False
  | .i32, _ => True
  | .i64, _ => True
  | .f32, v => conv.strtof (cstr (fmt.f32.print v)) = some v ∧ conv.hugeF v = false ∧ fmt.f32.print v ≠ [] ∧ ',' ∉ fmt.f32.print v
  | .f64, v => conv.strtod (cstr (fmt.f64.print v)) = some v ∧ conv.hugeD v = false ∧ fmt.f64.print v ≠ [] ∧ ',' ∉ fmt.f64.print v

theorem denotes_showInt (n : Int) : Denotes (showInt n) n := by
  have hd : ∀ c ∈ showNat n.natAbs, c.isDigit = true := fun c hc => isDigit_showNat hc
  have hv : Nat.ofDigitChars 10 (showNat n.natAbs) 0 = n.natAbs := Nat.ofDigitChars_ten_toDigits
  refine ⟨[], showNat n.natAbs, by simp, showNat_ne_nil _, hd, ?_⟩
  rw [hv, showInt]
  by_cases hn : n < 0
  · rw [if_pos hn]; exact Or.inr ⟨by simp, by omega⟩
  · rw [if_neg hn]; exact Or.inl ⟨Or.inl (by simp), by omega⟩

theorem castScalar_back (conv : Conv F D) (fmt : Fmt F D) (s : Scalar) (v : Val F D s) (h : BackOk conv fmt s v) :
    castScalar conv s (.str (printVal fmt s v)) = .ok v ∧ printVal fmt s v ≠ [] ∧ ',' ∉ printVal fmt s v := by
  cases s with
  | bool => exact h.elim
  | i32 =>
    have h1 := Int32.le_toInt v
    have h2 := Int32.toInt_lt v
    refine ⟨?_, showInt_ne _, fun hc => (plain_ok (showInt_plain _) _ hc).2.1 rfl⟩
    simp only [castScalar, printVal]
    rw [strtoll_of (denotes_showInt _) (by simp)]
    have hl : limited (Int32.toInt v) = Int32.toInt v := by rw [limited]; omega
    simp only [hl]
    rw [if_neg (by omega), Int32.ofInt_toInt]
  | i64 =>
    have h1 := Int64.le_toInt v
    have h2 := Int64.toInt_lt v
    refine ⟨?_, showInt_ne _, fun hc => (plain_ok (showInt_plain _) _ hc).2.1 rfl⟩
    simp only [castScalar, printVal]
    rw [strtoll_of (denotes_showInt _) (by simp)]
    have hl : limited (Int64.toInt v) = Int64.toInt v := by rw [limited]; omega
    simp only [hl]
    rw [Int64.ofInt_toInt]
  | f32 =>
    refine ⟨?_, h.2.2⟩
    simp only [castScalar, printVal, h.1, h.2.1]
    rfl
  | f64 =>
    refine ⟨?_, h.2.2⟩
    simp only [castScalar, printVal, h.1, h.2.1]
    rfl

/-- Numbers and non-empty vectors of numbers are the same after a conversion to a string and back; for floating point numbers under the hypothesis that
their text is read back by the C library. -/
theorem C49_roundtrip_partial (conv : Conv F D) (fmt : Fmt F D) (s : Scalar) :
    (∀ v : Val F D s, BackOk conv fmt s v → ∃ text, castTo conv fmt .str (.scalar s v) = .ok (.str text) ∧ castTo conv fmt (.scalar s) (.str text) = .ok (.scalar s v)) ∧
    (∀ v : List (Val F D s), v ≠ [] → (∀ x ∈ v, BackOk conv fmt s x) →
      ∃ text, castTo conv fmt .str (.vec s v) = .ok (.str text) ∧ castTo conv fmt (.vec s) (.str text) = .ok (.vec s v)) := by
  constructor
  · intro v h
    exact ⟨_, rfl, castTo_scalar.2 (castScalar_back conv fmt s v h).1⟩
  · intro v hne h
    refine ⟨commas (v.map (printVal fmt s)), ?_, ?_⟩
    · simp only [castTo, castStr, printCell]
      rw [if_neg hne]; rfl
    · have hb := fun x hx => castScalar_back conv fmt s x (h x hx)
      have ht : commaTokens (commas (v.map (printVal fmt s))) = v.map (printVal fmt s) := by
        refine commaTokens_commas _ (by simpa using hne) fun x hx => ?_
        obtain ⟨y, hy, rfl⟩ := List.mem_map.1 hx
        exact (hb y hy).2
      simp only [castTo, castVec]
      rw [ht, (castLoop_ok conv s _ v).2]
      · rfl
      · rw [List.forall₂_map_left_iff, List.forall₂_map_left_iff, List.forall₂_same]
        exact fun x hx => (hb x hx).1

/-- The claim for texts: only those that are numerals are converted, to the number they denote. -/
def C49_full : Prop := ∀ (conv : Conv Unit Unit) (fmt : Fmt Unit Unit) (s : Bytes) (c : Cell Unit Unit),
  castTo conv fmt (.scalar .i64) (.str s) = .ok c → ∃ n, Denotes s n ∧ intOf c = some n

def unitConv : Conv Unit Unit := ⟨fun _ => (), fun _ => (), fun _ => (), fun _ => none, fun _ => none, fun _ => false, fun _ => false⟩
def unitFmt : Fmt Unit Unit := ⟨⟨fun _ => [], fun _ => none⟩, ⟨fun _ => [], fun _ => none⟩⟩

/-- What follows the numeral is ignored. -/
theorem C49_violated : ¬ C49_full := fun h => by
  have hb : Begins "12.5".toList 12 ".5".toList := ⟨[], ['1', '2'], by simp, by simp, by decide, Or.inl ⟨Or.inl rfl, by decide +kernel⟩⟩
  have hs := strtoll_of hb (by intro c hc; simp at hc; subst hc; decide)
  obtain ⟨n, hd, _⟩ := h unitConv unitFmt "12.5".toList (.scalar .i64 (Int64.ofInt (limited 12))) (by simp only [castTo, castScalar, hs]; rfl)
  obtain ⟨sp, ds, h1, _, h3, h4⟩ := hd
  have hdot : '.' ∈ "12.5".toList := by decide
  have hno : ∀ t : Bytes, "12.5".toList = t → '.' ∈ t := fun t e => e ▸ hdot
  have hcheck : '.' ∉ sp ∧ '.' ∉ ds := ⟨fun hm => absurd (h1 _ hm) (by decide), fun hm => absurd (h3 _ hm) (by decide)⟩
  rcases h4 with ⟨e | e, _⟩ | ⟨e, _⟩ <;> have := hno _ e <;> simp [hcheck.1, hcheck.2] at this

theorem digitsOf {ds : Bytes} (h : ∀ c ∈ ds, c.isDigit = true) {t : Bytes} (ht : ∀ c ∈ t, c.isDigit = true) {sp sg : Bytes} (hsp : ∀ c ∈ sp, isSpace c = true)
    (hsg : ∀ c ∈ sg, c = '+' ∨ c = '-') (e : t = sp ++ sg ++ ds) : sg = [] ∧ ds = t := by
  have h1 : sp = [] := by
    cases sp with
    | nil => rfl
    | cons c sp =>
      have := (digit_facts (ht c (by rw [e]; simp))).1
      rw [hsp c (by simp)] at this
      cases this
  have h2 : sg = [] := by
    cases sg with
    | nil => rfl
    | cons c sg =>
      have := digit_facts (ht c (by rw [e]; simp))
      rcases hsg c (by simp) with rfl | rfl
      · exact absurd rfl this.2.2.1
      · exact absurd rfl this.2.1
  subst h1 h2
  exact ⟨rfl, by simpa using e.symm⟩

/-- Numbers out of the range of `int64_t` are replaced by its limits. -/
theorem C49_violated_range : ¬ C49_full := fun h => by
  have hb : Begins "9223372036854775808".toList (2 ^ 63) [] := ⟨[], "9223372036854775808".toList, by simp, by simp, by decide +kernel, Or.inl ⟨Or.inl (by simp), by decide +kernel⟩⟩
  have hs := strtoll_of hb (by simp)
  obtain ⟨n, hd, hn⟩ := h unitConv unitFmt "9223372036854775808".toList (.scalar .i64 (Int64.ofInt (limited (2 ^ 63)))) (by simp only [castTo, castScalar, hs]; rfl)
  have hdig : ∀ c ∈ "9223372036854775808".toList, c.isDigit = true := by decide +kernel
  obtain ⟨sp, ds, h1, _, h3, h4⟩ := hd
  have hv : Nat.ofDigitChars 10 "9223372036854775808".toList 0 = 2 ^ 63 := by decide +kernel
  have hlim : intOf (.scalar .i64 (Int64.ofInt (limited (2 ^ 63))) : Cell Unit Unit) = some (2 ^ 63 - 1) := by
    simp only [intOf]
    rw [Int64.toInt_ofInt_of_le (by rw [limited]; omega) (by rw [limited]; omega)]
    rfl
  rw [hlim, Option.some.injEq] at hn
  rcases h4 with ⟨e | e, hn'⟩ | ⟨e, hn'⟩
  · obtain ⟨_, rfl⟩ := digitsOf h3 hdig h1 (sg := []) (by simp) (by simpa using e)
    rw [hv] at hn'
    omega
  · have := (digitsOf h3 hdig h1 (sg := ['+']) (by simp) (by simpa using e)).1
    cases this
  · have := (digitsOf h3 hdig h1 (sg := ['-']) (by simp) (by simpa using e)).1
    cases this

/-- Empty elements of a list are dropped. -/
theorem C49_violated_empty : castTo unitConv unitFmt (.vec .i32) (.str "1,,2".toList) = .ok (.vec .i32 [1, 2]) := by rfl

/-- A type with no more values than there are `float` cannot represent all the integers that are converted to it. -/
theorem C49_violated_float [Fintype F] (hF : Fintype.card F ≤ 2 ^ 32) (conv : Conv F D) (fmt : Fmt F D) :
    ∃ v w : Int64, v ≠ w ∧ castTo conv fmt (.scalar .f32) (.scalar .i64 v) = castTo conv fmt (.scalar .f32) (.scalar .i64 w) := by
  obtain ⟨a, b, hab, he⟩ := Fintype.exists_ne_map_eq_of_card_lt (fun i : Fin (2 ^ 33) => conv.f32OfInt (i.val : Int)) (by rw [Fintype.card_fin]; omega)
  have hr : ∀ i : Fin (2 ^ 33), (Int64.ofInt (i.val : Int)).toInt = i.val := fun i => Int64.toInt_ofInt_of_le (by have := i.isLt; omega) (by have := i.isLt; omega)
  refine ⟨Int64.ofInt a.val, Int64.ofInt b.val, fun e => hab ?_, ?_⟩
  · have := congrArg Int64.toInt e
    rw [hr, hr] at this
    exact Fin.ext (by omega)
  · simp only [castTo, castScalar, hr]
    rw [he]

example : Denotes " -17".toList (-17) := ⟨[' '], ['1', '7'], by decide, by decide, by decide, Or.inr ⟨by decide, by decide +kernel⟩⟩
example (conv : Conv F D) (fmt : Fmt F D) : castTo conv fmt (.vec .i64) (.vec .bool [true, false]) = .ok (.vec .i64 [1, 0]) := rfl
example (conv : Conv F D) (fmt : Fmt F D) : castTo conv fmt (.vec .i32) (.str "12,-5".toList) = .ok (.vec .i32 [12, -5]) := by rfl
example (conv : Conv F D) (fmt : Fmt F D) : castTo conv fmt (.scalar .i32) (.scalar .i64 (5 : Int64)) = .throw .elements := rfl
example (conv : Conv F D) (fmt : Fmt F D) : castTo conv fmt (.scalar .i32) (.str "abc".toList) = .throw .elements := by rfl
example (conv : Conv F D) (fmt : Fmt F D) (v : Int64) : BackOk conv fmt .i64 v := trivial

end Alexandria.Table
