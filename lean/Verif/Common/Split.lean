import Verif.Common.Strings

/-! # Splitting at a character without compression (`boost::split` with the default `token_compress_off`) -/

namespace Alexandria.Str

/-- `boost::split(parts, s, is_any_of(sep))`: always at least one token; adjacent separators give empty tokens. -/
def splitChar (sep : Char) : Bytes → List Bytes
  | [] => [[]]
  | c :: t =>
    if c = sep then [] :: splitChar sep t
    else match splitChar sep t with
      | [] => [[c]]
      | h :: r => (c :: h) :: r

theorem splitChar_ne_nil (sep : Char) (s : Bytes) : splitChar sep s ≠ [] := by
  cases s with
  | nil => simp [splitChar]
  | cons c t =>
    rw [splitChar]
    split
    · simp
    · split <;> simp

/-- No token contains the separator. -/
theorem splitChar_free (sep : Char) : ∀ (s : Bytes), ∀ t ∈ splitChar sep s, sep ∉ t := by
  intro s
  induction s with
  | nil => intro t ht; simp only [splitChar, List.mem_singleton] at ht; subst ht; simp
  | cons c s ih =>
    intro t ht
    rw [splitChar] at ht
    by_cases h : c = sep
    · rw [if_pos h] at ht
      rcases List.mem_cons.mp ht with rfl | ht
      · simp
      · exact ih t ht
    · rw [if_neg h] at ht
      split at ht
      · rename_i he; exact absurd he (splitChar_ne_nil sep s)
      · rename_i a r he
        rcases List.mem_cons.mp ht with rfl | ht
        · have := ih a (by rw [he]; exact List.mem_cons_self)
          simp only [List.mem_cons, not_or]
          exact ⟨fun e => h e.symm, this⟩
        · exact ih t (by rw [he]; exact List.mem_cons_of_mem _ ht)

/-- The tokens joined by the separator give the string back. -/
theorem splitChar_join (sep : Char) : ∀ (s : Bytes), [sep].intercalate (splitChar sep s) = s := by
  intro s
  induction s with
  | nil => rfl
  | cons c s ih =>
    rw [splitChar]
    by_cases h : c = sep
    · rw [if_pos h]
      obtain ⟨a, r, he⟩ := List.exists_cons_of_ne_nil (splitChar_ne_nil sep s)
      rw [he] at ih ⊢
      rw [List.intercalate_cons_cons]
      · rw [ih, h]; rfl
    · rw [if_neg h]
      split
      · rename_i he; exact absurd he (splitChar_ne_nil sep s)
      · rename_i a r he
        rw [he] at ih
        cases r with
        | nil => simp only [List.intercalate_singleton] at ih ⊢; rw [ih]
        | cons b r => rw [List.intercalate_cons_cons] at ih ⊢; rw [List.cons_append, List.cons_append, ih]

/-- Splitting inverts joining. -/
theorem splitChar_intercalate (sep : Char) : ∀ (ts : List Bytes), ts ≠ [] → (∀ t ∈ ts, sep ∉ t) →
    splitChar sep ([sep].intercalate ts) = ts := by
  have hone : ∀ (t : Bytes) (r : Bytes), sep ∉ t → splitChar sep (t ++ sep :: r) = t :: splitChar sep r := by
    intro t
    induction t with
    | nil => intro r _; simp [splitChar]
    | cons c t ih =>
      intro r h
      simp only [List.mem_cons, not_or] at h
      rw [List.cons_append, splitChar, if_neg (fun e => h.1 e.symm), ih r h.2]
  have hlast : ∀ (t : Bytes), sep ∉ t → splitChar sep t = [t] := by
    intro t
    induction t with
    | nil => intro _; rfl
    | cons c t ih =>
      intro h
      simp only [List.mem_cons, not_or] at h
      rw [splitChar, if_neg (fun e => h.1 e.symm), ih h.2]
  intro ts
  induction ts with
  | nil => intro h; exact absurd rfl h
  | cons t ts ih =>
    intro _ hf
    cases ts with
    | nil => rw [List.intercalate_singleton]; exact hlast t (hf t List.mem_cons_self)
    | cons u ts =>
      rw [List.intercalate_cons_cons, List.append_assoc, List.singleton_append, hone t _ (hf t List.mem_cons_self),
        ih (by simp) (fun v hv => hf v (List.mem_cons_of_mem _ hv))]

end Alexandria.Str
