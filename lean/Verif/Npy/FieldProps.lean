import Verif.Npy.AnyProps

/-!
# The fields of a record in any text (C160)
-/

namespace Alexandria.Npy

open Alexandria.Str

namespace Spec

/-- The texts that the regular expression `\('([^']*)',\s*'([^']*)'\)` describes, with its two groups. -/
def Describes (name type text : Bytes) : Prop :=
  '\'' ∉ name ∧ '\'' ∉ type ∧ ∃ blanks : Bytes, (∀ c ∈ blanks, isSpace c = true) ∧ text = "('".toList ++ name ++ "',".toList ++ blanks ++ ['\''] ++ type ++ "')".toList

/-- The fields of a text, from left to right: each one begins at the first place behind the field before where one begins. -/
inductive Fields : Bytes → List (Bytes × Bytes) → Prop
  | none (s : Bytes) (h : ∀ pre text post name type, Describes name type text → s ≠ pre ++ text ++ post) : Fields s []
  | next (pre text post name type : Bytes) (l : List (Bytes × Bytes)) (hd : Describes name type text)
      (hfirst : ∀ pre' text' post' name' type', Describes name' type' text' → pre'.length < pre.length → pre ++ text ++ post ≠ pre' ++ text' ++ post')
      (hl : Fields post l) : Fields (pre ++ text ++ post) ((name, type) :: l)

/-- What a list of fields says together, given what is known from the ones before. -/
def together : Bool → Bytes → List (Bytes × Bytes) → Res (Bool × Bytes)
  | big, code, [] => .ok (big, code)
  | big, code, (_, t) :: l =>
    match t with
    | [] => .ub
    | o :: c => if code = [] then together (o == '>') c l else if code = c ∧ big = (o == '>') then together big code l else .throw .invalidArgument

end Spec

/-! ## The matcher finds what the expression describes -/

theorem matchField_of {name type text : Bytes} (h : Spec.Describes name type text) (post : Bytes) : matchField (text ++ post) = some (name, type, post) := by
  obtain ⟨h1, h2, blanks, hb, rfl⟩ := h
  have e : "('".toList ++ name ++ "',".toList ++ blanks ++ ['\''] ++ type ++ "')".toList ++ post =
      '(' :: '\'' :: (name ++ '\'' :: ',' :: (blanks ++ '\'' :: (type ++ '\'' :: ')' :: post))) := by simp
  have hs : (blanks ++ '\'' :: (type ++ '\'' :: ')' :: post)).dropWhile isSpace = '\'' :: (type ++ '\'' :: ')' :: post) := by
    rw [List.dropWhile_append_of_pos hb]
    rfl
  rw [e, matchField]
  simp only [dropWhile_quote h1, hs, dropWhile_quote h2, takeWhile_quote h1, takeWhile_quote h2]

theorem split_while (p : Char → Bool) (s : Bytes) : s = s.takeWhile p ++ s.dropWhile p := List.takeWhile_append_dropWhile.symm

theorem matchField_to {s name type post : Bytes} (h : matchField s = some (name, type, post)) : ∃ text, Spec.Describes name type text ∧ s = text ++ post := by
  unfold matchField at h
  split at h
  swap
  · cases h
  rename_i t
  split at h
  swap
  · cases h
  rename_i u hu
  split at h
  swap
  · cases h
  rename_i v hv
  split at h
  swap
  · cases h
  rename_i r hr
  cases h
  refine ⟨"('".toList ++ t.takeWhile (· ≠ '\'') ++ "',".toList ++ u.takeWhile isSpace ++ ['\''] ++ v.takeWhile (· ≠ '\'') ++ "')".toList,
    ⟨fun h => by simpa using List.mem_takeWhile_imp h, fun h => by simpa using List.mem_takeWhile_imp h, u.takeWhile isSpace, fun c hc => List.mem_takeWhile_imp hc, rfl⟩, ?_⟩
  have e1 := split_while (· ≠ '\'') t
  have e2 := split_while isSpace u
  have e3 := split_while (· ≠ '\'') v
  rw [hu] at e1
  rw [hv] at e2
  rw [hr] at e3
  conv_lhs => rw [e1, e2, e3]
  simp

/-- A description is not empty. -/
theorem describes_ne {name type text : Bytes} (h : Spec.Describes name type text) : ∃ c t, text = c :: t := by
  obtain ⟨_, _, b, _, rfl⟩ := h
  exact ⟨'(', _, rfl⟩

theorem searchField_none {s : Bytes} : searchField s = none ↔ ∀ pre text post name type, Spec.Describes name type text → s ≠ pre ++ text ++ post := by
  induction s with
  | nil =>
    refine ⟨fun _ pre text post name type hd h => ?_, fun _ => rfl⟩
    obtain ⟨c, t, rfl⟩ := describes_ne hd
    simp at h
  | cons c t ih =>
    rw [searchField]
    cases hm : matchField (c :: t) with
    | some m =>
      obtain ⟨name, type, post⟩ := m
      obtain ⟨text, hd, he⟩ := matchField_to hm
      exact ⟨fun h => (by cases h), fun h => absurd he (h [] text post name type hd)⟩
    | none =>
      simp only
      rw [ih]
      constructor
      · intro h pre text post name type hd he
        cases pre with
        | nil =>
          rw [List.nil_append] at he
          rw [he, matchField_of hd] at hm
          cases hm
        | cons x pre =>
          simp only [List.cons_append, List.cons.injEq] at he
          exact h pre text post name type hd he.2
      · intro h pre text post name type hd he
        exact h (c :: pre) text post name type hd (by rw [he]; rfl)

theorem searchField_some {s name type post : Bytes} (h : searchField s = some (name, type, post)) : ∃ pre text, Spec.Describes name type text ∧ s = pre ++ text ++ post ∧
    ∀ pre' text' post' name' type', Spec.Describes name' type' text' → pre'.length < pre.length → s ≠ pre' ++ text' ++ post' := by
  induction s with
  | nil => cases h
  | cons c t ih =>
    rw [searchField] at h
    cases hm : matchField (c :: t) with
    | some m =>
      rw [hm] at h
      cases h
      obtain ⟨text, hd, he⟩ := matchField_to hm
      exact ⟨[], text, hd, he, fun pre' _ _ _ _ _ hlt => absurd hlt (by simp)⟩
    | none =>
      rw [hm] at h
      obtain ⟨pre, text, hd, he, hf⟩ := ih h
      refine ⟨c :: pre, text, hd, by rw [he]; rfl, ?_⟩
      intro pre' text' post' name' type' hd' hlt he'
      cases pre' with
      | nil =>
        rw [List.nil_append] at he'
        rw [he', matchField_of hd'] at hm
        cases hm
      | cons x pre' =>
        simp only [List.cons_append, List.cons.injEq] at he'
        exact hf pre' text' post' name' type' hd' (by simpa using hlt) he'.2

/-- The search is determined by the first place. -/
theorem searchField_first (pre : Bytes) : ∀ {text post name type : Bytes}, Spec.Describes name type text →
    (∀ pre' text' post' name' type', Spec.Describes name' type' text' → pre'.length < pre.length → pre ++ text ++ post ≠ pre' ++ text' ++ post') →
    searchField (pre ++ text ++ post) = some (name, type, post) := by
  induction pre with
  | nil =>
    intro text post name type hd _
    have hm := matchField_of hd post
    obtain ⟨c, t, rfl⟩ := describes_ne hd
    rw [List.nil_append, List.cons_append, searchField]
    rw [List.cons_append] at hm
    rw [hm]
  | cons x pre ih =>
    intro text post name type hd hf
    rw [List.cons_append, List.cons_append, searchField]
    cases hm : matchField (x :: (pre ++ text ++ post)) with
    | some m =>
      obtain ⟨n', t', p'⟩ := m
      obtain ⟨text', hd', he'⟩ := matchField_to hm
      exact absurd he' (hf [] text' p' n' t' hd' (by simp))
    | none =>
      refine ih hd ?_
      intro pre' text' post' name' type' hd' hlt he'
      exact hf (x :: pre') text' post' name' type' hd' (by simpa using hlt) (by rw [List.cons_append, List.cons_append, he']; rfl)

theorem searchField_shorter {s name type post : Bytes} (h : searchField s = some (name, type, post)) : post.length < s.length := by
  obtain ⟨pre, text, hd, he, _⟩ := searchField_some h
  obtain ⟨c, t, rfl⟩ := describes_ne hd
  rw [he]
  simp
  omega

theorem fields_exist : ∀ (n : Nat) (s : Bytes), s.length ≤ n → ∃ l, Spec.Fields s l := by
  intro n
  induction n with
  | zero =>
    intro s hs
    refine ⟨[], .none s ?_⟩
    rw [← searchField_none, List.length_eq_zero_iff.1 (Nat.le_zero.1 hs)]
    rfl
  | succ n ih =>
    intro s hs
    cases hm : searchField s with
    | none => exact ⟨[], .none s (searchField_none.1 hm)⟩
    | some m =>
      obtain ⟨name, type, post⟩ := m
      obtain ⟨pre, text, hd, he, hf⟩ := searchField_some hm
      obtain ⟨l, hl⟩ := ih post (by have := searchField_shorter hm; omega)
      refine ⟨(name, type) :: l, ?_⟩
      rw [he]
      rw [he] at hf
      exact .next pre text post name type l hd hf hl

/-- **C160**: every text has exactly one list of fields. -/
theorem C160_fields_unique (s : Bytes) : ∃! l, Spec.Fields s l := by
  obtain ⟨l, hl⟩ := fields_exist s.length s (Nat.le_refl _)
  refine ⟨l, hl, ?_⟩
  intro l' hl'
  induction hl generalizing l' with
  | none s h =>
    generalize hs : s = s' at hl'
    cases hl' with
    | none _ _ => rfl
    | next pre text post name type l hd hf hl => exact absurd hs (h pre text post name type hd)
  | next pre text post name type l hd hf hl ih =>
    have h1 := searchField_first pre hd hf
    generalize hs : pre ++ text ++ post = s' at hl' h1
    cases hl' with
    | none _ h => exact absurd hs.symm (h pre text post name type hd)
    | next pre' text' post' name' type' l' hd' hf' hl' =>
      rw [searchField_first pre' hd' hf'] at h1
      cases h1
      rw [ih l' hl']

theorem fieldLoop_fields {s : Bytes} {l : List (Bytes × Bytes)} (h : Spec.Fields s l) : ∀ (fuel : Nat), s.length < fuel → ∀ (big : Bool) (attrs : List Bytes) (code : Bytes),
    fieldLoop fuel s big attrs code = match Spec.together big code l with
      | .ok (b, c) => .ok (b, attrs ++ l.map Prod.fst, c)
      | .throw e => .throw e
      | .ub => .ub := by
  induction h with
  | none s h =>
    intro fuel hf big attrs code
    obtain ⟨fuel, rfl⟩ : ∃ f, fuel = f + 1 := ⟨fuel - 1, by omega⟩
    rw [fieldLoop, searchField_none.2 h]
    simp [Spec.together]
  | next pre text post name type l hd hfirst hl ih =>
    intro fuel hf big attrs code
    obtain ⟨fuel, rfl⟩ : ∃ f, fuel = f + 1 := ⟨fuel - 1, by omega⟩
    have hsf := searchField_first pre hd hfirst
    have hlen := searchField_shorter hsf
    rw [fieldLoop, hsf]
    cases type with
    | nil => rfl
    | cons o c =>
      have hp : parseSingleValue (o :: c) = .ok (o == '>', c) := rfl
      simp only [hp, Outcome.bind_ok, Spec.together]
      by_cases h1 : code = []
      · rw [if_pos h1, if_pos h1, ih fuel (by omega)]
        cases Spec.together (o == '>') c l with
        | ub => rfl
        | throw e => rfl
        | ok x => simp
      · rw [if_neg h1, if_neg h1]
        by_cases h2 : code = c ∧ big = (o == '>')
        · rw [if_pos h2, if_neg (by simp [h2.1, h2.2]), ih fuel (by omega)]
          cases Spec.together big code l with
          | ub => rfl
          | throw e => rfl
          | ok x => simp
        · rw [if_neg h2, if_pos (by by_contra h; push Not at h; exact h2 h)]

/-- **C160**: `parseFieldValues` takes the names and types from the fields of the text, as `boost::regex_search` finds them by the documentation of regular expressions. -/
theorem C160_fields (s : Bytes) (l : List (Bytes × Bytes)) (h : Spec.Fields s l) : parseFields s = match Spec.together false [] l with
    | .ok (b, c) => .ok (b, l.map Prod.fst, c)
    | .throw e => .throw e
    | .ub => .ub := by
  rw [parseFields, fieldLoop_fields h _ (Nat.lt_succ_self _)]
  cases Spec.together false [] l with
  | ub => rfl
  | throw e => rfl
  | ok x => simp

theorem together_same (o : Char) (c : Bytes) (hc : c ≠ []) : ∀ (l : List (Bytes × Bytes)), Spec.together (o == '>') c l = .ok (o == '>', c) ↔ ∀ f ∈ l, ∃ o', f.2 = o' :: c ∧ ((o' == '>') = (o == '>')) := by
  intro l
  induction l with
  | nil => simp [Spec.together]
  | cons f l ih =>
    obtain ⟨n, t⟩ := f
    cases t with
    | nil =>
      refine ⟨fun h => (by cases h), fun h => ?_⟩
      obtain ⟨o', h, _⟩ := h (n, []) (by simp)
      cases h
    | cons o' c' =>
      rw [Spec.together, if_neg hc]
      by_cases h2 : c = c' ∧ (o == '>') = (o' == '>')
      · rw [if_pos h2, ih]
        rw [List.forall_mem_cons]
        exact ⟨fun h => ⟨⟨o', by rw [h2.1], h2.2.symm⟩, h⟩, fun h => h.2⟩
      · rw [if_neg h2]
        refine ⟨fun h => (by cases h), fun h => ?_⟩
        obtain ⟨o'', h, h'⟩ := h (n, o' :: c') (by simp)
        cases h
        exact absurd ⟨rfl, h'.symm⟩ h2

/-- **C160**: fields whose first has a type of at least two characters are accepted exactly if all types have the same code and all or none are big endian. -/
theorem C160_uniform (s name : Bytes) (o : Char) (code : Bytes) (hc : code ≠ []) (l : List (Bytes × Bytes)) (h : Spec.Fields s ((name, o :: code) :: l)) :
    parseFields s = .ok (o == '>', name :: l.map Prod.fst, code) ↔ ∀ f ∈ l, ∃ o', f.2 = o' :: code ∧ ((o' == '>') = (o == '>')) := by
  rw [C160_fields s _ h, Spec.together, if_pos rfl, ← together_same o code hc l]
  cases Spec.together (o == '>') code l with
  | ub => exact ⟨fun h => (by cases h), fun h => (by cases h)⟩
  | throw e => exact ⟨fun h => (by cases h), fun h => (by cases h)⟩
  | ok x =>
    obtain ⟨b, c⟩ := x
    simp

/-! ## Examples -/

-- a field in brackets and blanks, a field that is an array, and one that begins within what looks like another
example : Spec.Fields "('x',  '<f8'), ('y', '<f8', (2,))".toList [("x".toList, "<f8".toList)] := by
  have h := Spec.Fields.next [] "('x',  '<f8')".toList ", ('y', '<f8', (2,))".toList "x".toList "<f8".toList []
    ⟨by decide, by decide, "  ".toList, by decide, by decide⟩ (fun _ _ _ _ _ _ h => absurd h (by simp)) (.none _ (searchField_none.1 (by decide +kernel)))
  exact h
example : parseFields "('x',  '<f8'), ('y', '<f8', (2,))".toList = .ok (false, ["x".toList], "f8".toList) := by decide +kernel
example : parseFields "('a', '<f8'), ('b', '>f8')".toList = .throw .invalidArgument ∧ parseFields "('a', '<f8'), ('b', '=f8')".toList = .ok (false, ["a".toList, "b".toList], "f8".toList) := by
  decide +kernel

end Alexandria.Npy
