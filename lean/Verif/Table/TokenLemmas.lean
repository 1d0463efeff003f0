import Verif.Table.AsciiModel
import Verif.Common.StringsLemmas
import Mathlib.Tactic.ByContra
import Mathlib.Data.List.Forall2

/-!
# Lemmas: tokens and values as text
-/

namespace Alexandria.Table

open Alexandria.Str

variable {F D : Type}

/-- What may follow a token. -/
def Sep (rest : Bytes) : Prop := rest = [] ∨ ∃ t, rest = ' ' :: t

/-- Texts with spaces before each of them. -/
def spaced : List (Nat × Bytes) → Bytes
  | [] => []
  | (k, raw) :: l => List.replicate k ' ' ++ raw ++ spaced l

theorem spaced_sep (l : List (Nat × Bytes)) (h : ∀ p ∈ l, 1 ≤ p.1) : Sep (spaced l) := by
  cases l with
  | nil => exact Or.inl rfl
  | cons p l =>
    obtain ⟨k, raw⟩ := p
    have := h (k, raw) (by simp)
    obtain ⟨j, rfl⟩ : ∃ j, k = j + 1 := ⟨k - 1, by simp only at this; omega⟩
    exact Or.inr ⟨_, by rw [spaced, List.replicate_succ]; rfl⟩

theorem dropWhile_spaces (k : Nat) (s : Bytes) : (List.replicate k ' ' ++ s).dropWhile isSpace = s.dropWhile isSpace := by
  induction k with
  | zero => rfl
  | succ k ih => rw [List.replicate_succ, List.cons_append, List.dropWhile_cons_of_pos (by decide)]; exact ih

theorem trim_spaces (k : Nat) (s : Bytes) : trim (List.replicate k ' ' ++ s) = trim s := by rw [trim, dropWhile_spaces, trim]

theorem readQ_spaces (k : Nat) (s : Bytes) : readQ (List.replicate k ' ' ++ s) = readQ s := by rw [readQ, dropWhile_spaces, readQ]

theorem unquote_escaped (s rest : Bytes) :
    unquote ((s.flatMap fun c => if c == '"' || c == '\\' then ['\\', c] else [c]) ++ '"' :: rest) = (s, some rest) := by
  induction s with
  | nil => rw [List.flatMap_nil, List.nil_append, unquote.eq_def]; simp
  | cons c s ih =>
    rw [List.flatMap_cons]
    by_cases h : (c == '"' || c == '\\') = true
    · rw [if_pos h, List.append_assoc, List.cons_append, List.cons_append, List.nil_append, unquote.eq_def]
      simp only [if_true]
      rw [ih]
    · rw [if_neg h, List.append_assoc, List.singleton_append, unquote.eq_def]
      simp only [Bool.or_eq_true, beq_iff_eq, not_or] at h
      simp only
      rw [if_neg h.2, if_neg h.1, ih]

theorem readQ_quotedOut (s rest : Bytes) : readQ (quotedOut s ++ rest) = (s, some rest) := by
  have : quotedOut s ++ rest = '"' :: ((s.flatMap fun c => if c == '"' || c == '\\' then ['\\', c] else [c]) ++ '"' :: rest) := by
    simp [quotedOut]
  rw [this, readQ, List.dropWhile_cons_of_neg (by decide)]
  simp only [if_true]
  exact unquote_escaped s rest

theorem takeWhile_token (tok rest : Bytes) (h : ∀ c ∈ tok, isSpace c = false) (hr : Sep rest) :
    (tok ++ rest).takeWhile (fun c => !isSpace c) = tok ∧ (tok ++ rest).dropWhile (fun c => !isSpace c) = rest := by
  induction tok with
  | nil =>
    rcases hr with rfl | ⟨t, rfl⟩
    · exact ⟨rfl, rfl⟩
    · exact ⟨rfl, rfl⟩
  | cons c tok ih =>
    have hc := h c (by simp)
    have := ih (fun c hc => h c (List.mem_cons_of_mem _ hc))
    rw [List.cons_append, List.takeWhile_cons_of_pos (by simp [hc]), List.dropWhile_cons_of_pos (by simp [hc]), this.1, this.2]
    exact ⟨rfl, rfl⟩

theorem readWord_plain (tok rest : Bytes) (hne : tok ≠ []) (h : ∀ c ∈ tok, isSpace c = false) (hr : Sep rest) :
    readWord (tok ++ rest) = (tok, some rest) := by
  cases tok with
  | nil => exact absurd rfl hne
  | cons c t =>
    have := takeWhile_token (c :: t) rest h hr
    rw [readWord, List.cons_append, List.dropWhile_cons_of_neg (by simp [h c (by simp)])]
    simp only [List.cons_append] at this
    simp only
    rw [this.1, this.2]

theorem readQ_plain (tok rest : Bytes) (hne : tok ≠ []) (h : ∀ c ∈ tok, isSpace c = false) (hq : tok.head? ≠ some '"') (hr : Sep rest) :
    readQ (tok ++ rest) = (tok, some rest) := by
  cases tok with
  | nil => exact absurd rfl hne
  | cons c t =>
    have hw := readWord_plain (c :: t) rest hne h hr
    rw [readQ, List.cons_append, List.dropWhile_cons_of_neg (by simp [h c (by simp)])]
    simp only
    rw [if_neg (by simpa using hq)]
    exact hw

/-- A text that is read as a token. -/
structure Reads (raw val : Bytes) : Prop where
  ne : raw ≠ []
  head : ∀ c, raw.head? = some c → isSpace c = false
  last : ∀ c, raw.getLast? = some c → isSpace c = false
  read : ∀ rest, Sep rest → readQ (raw ++ rest) = (val, some rest)

theorem reads_plain (tok : Bytes) (hne : tok ≠ []) (h : ∀ c ∈ tok, isSpace c = false) (hq : tok.head? ≠ some '"') : Reads tok tok :=
  ⟨hne, fun c hc => h c (List.mem_of_mem_head? (by simpa using hc)), fun c hc => h c (List.mem_of_getLast? hc), fun rest hr => readQ_plain tok rest hne h hq hr⟩

theorem quotedW_plain (s : Bytes) (h : ∀ c ∈ s, isSpace c = false ∧ c ≠ '"') : quotedW s = s := by
  rw [quotedW, if_neg]
  simp only [List.any_eq_true, Bool.or_eq_true, beq_iff_eq, not_exists, not_and, not_or]
  intro c hc
  exact ⟨by simp [(h c hc).1], (h c hc).2⟩

theorem reads_quotedW (s : Bytes) (hne : s ≠ []) : Reads (quotedW s) s := by
  by_cases h : (s.any fun c => isSpace c || c == '"') = true
  · have hw : quotedW s = quotedOut s := by rw [quotedW, if_pos h]
    rw [hw]
    refine ⟨by simp [quotedOut], fun c hc => ?_, fun c hc => ?_, fun rest _ => readQ_quotedOut s rest⟩
    · simp only [quotedOut, List.cons_append, List.head?_cons, Option.some.injEq] at hc
      subst hc; decide
    · simp only [quotedOut, List.getLast?_append, List.getLast?_singleton, Option.some_or, Option.some.injEq] at hc
      subst hc; decide
  · have hw : quotedW s = s := by rw [quotedW, if_neg h]
    rw [hw]
    simp only [List.any_eq_true, Bool.or_eq_true, beq_iff_eq, not_exists, not_and, not_or] at h
    refine reads_plain s hne (fun c hc => by simpa using (h c hc).1) fun hq => ?_
    exact (h '"' (List.mem_of_mem_head? (by simpa using hq))).2 rfl

/-- The tokens of a line of spaced texts. -/
theorem tokensQ_spaced (l : List (Nat × Bytes)) (vals : List Bytes) (h : List.Forall₂ (fun p v => 1 ≤ p.1 ∧ Reads p.2 v) l vals) :
    ∀ fuel, l.length < fuel → tokensQ fuel (spaced l) = vals := by
  induction h with
  | nil =>
    intro fuel hf
    obtain ⟨n, rfl⟩ : ∃ n, fuel = n + 1 := ⟨fuel - 1, by simp at hf; omega⟩
    rfl
  | @cons p v l vals h1 h2 ih =>
    intro fuel hf
    obtain ⟨n, rfl⟩ : ∃ n, fuel = n + 1 := ⟨fuel - 1, by simp at hf; omega⟩
    obtain ⟨k, raw⟩ := p
    have hsep : Sep (spaced l) := spaced_sep l fun q hq => by
      obtain ⟨i, hi, rfl⟩ := List.getElem_of_mem hq
      exact ((List.forall₂_iff_get.1 h2).2 i hi (by rw [← h2.length_eq]; exact hi)).1
    have hr : readQ (spaced ((k, raw) :: l)) = (v, some (spaced l)) := by
      rw [spaced, List.append_assoc, readQ_spaces]; exact h1.2.read _ hsep
    rw [tokensQ, hr]
    simp only
    rw [ih n (by simp at hf; omega)]

theorem length_spaced (l : List (Nat × Bytes)) (h : ∀ p ∈ l, p.2 ≠ []) : l.length ≤ (spaced l).length := by
  induction l with
  | nil => simp
  | cons p l ih =>
    obtain ⟨k, raw⟩ := p
    have h1 := ih fun q hq => h q (List.mem_cons_of_mem _ hq)
    have h2 : 0 < raw.length := List.length_pos_iff.2 (h (k, raw) (by simp))
    simp only [spaced, List.length_append, List.length_cons]
    omega

theorem spaced_last (l : List (Nat × Bytes)) (h : ∀ p ∈ l, p.2 ≠ [] ∧ ∀ c, p.2.getLast? = some c → isSpace c = false) :
    ∀ c, (spaced l).getLast? = some c → isSpace c = false := by
  induction l with
  | nil => intro c hc; simp [spaced] at hc
  | cons p l ih =>
    obtain ⟨k, raw⟩ := p
    intro c hc
    rw [spaced, List.getLast?_append] at hc
    cases hs : (spaced l).getLast? with
    | some d =>
      rw [hs] at hc
      simp only [Option.some_or, Option.some.injEq] at hc
      subst hc
      exact ih (fun q hq => h q (List.mem_cons_of_mem _ hq)) _ hs
    | none =>
      rw [hs, List.getLast?_append] at hc
      have h0 := h (k, raw) (by simp)
      cases hr : raw.getLast? with
      | none => exact absurd (List.getLast?_eq_none_iff.1 hr) h0.1
      | some d =>
        rw [hr] at hc
        simp only [Option.none_or, Option.some_or, Option.some.injEq] at hc
        subst hc
        exact h0.2 _ hr

theorem forall₂_left {α β : Type} {R : α → β → Prop} {P : α → Prop} {l : List α} {m : List β} (h : List.Forall₂ R l m) (hp : ∀ a b, R a b → P a) : ∀ a ∈ l, P a := by
  induction h with
  | nil => simp
  | cons h1 _ ih => intro a ha; rcases List.mem_cons.1 ha with rfl | ha
                    · exact hp _ _ h1
                    · exact ih a ha

/-- Trimming a line of spaced texts removes the spaces before the first one. -/
theorem trim_spaced (k : Nat) (raw : Bytes) (l : List (Nat × Bytes)) (h : ∀ p ∈ (k, raw) :: l, p.2 ≠ [] ∧ (∀ c, p.2.head? = some c → isSpace c = false) ∧
    ∀ c, p.2.getLast? = some c → isSpace c = false) : trim (spaced ((k, raw) :: l)) = raw ++ spaced l := by
  have h0 := h (k, raw) (by simp)
  have hs : spaced ((k, raw) :: l) = List.replicate k ' ' ++ (raw ++ spaced l) := by rw [spaced, List.append_assoc]
  rw [hs, trim_spaces]
  apply trim_eq
  · intro c hc
    cases raw with
    | nil => exact absurd rfl h0.1
    | cons d t => exact h0.2.1 c (by simpa using hc)
  · intro c hc
    have : raw ++ spaced l = spaced ((0, raw) :: l) := by simp [spaced]
    rw [this] at hc
    refine spaced_last _ (fun p hp => ?_) c hc
    rcases List.mem_cons.1 hp with rfl | hp
    · exact ⟨h0.1, h0.2.2⟩
    · exact ⟨(h p (List.mem_cons_of_mem _ hp)).1, (h p (List.mem_cons_of_mem _ hp)).2.2⟩

theorem tokens_trimmed (k : Nat) (raw : Bytes) (l : List (Nat × Bytes)) (vals : List Bytes)
    (h : List.Forall₂ (fun p v => 1 ≤ p.1 ∧ Reads p.2 v) ((k, raw) :: l) vals) : tokens (raw ++ spaced l) = vals := by
  cases h with
  | @cons _ v _ vals h1 h2 =>
    have hsep : Sep (spaced l) := spaced_sep l (forall₂_left h2 fun _ _ h => h.1)
    have hr : readQ (raw ++ spaced l) = (v, some (spaced l)) := h1.2.read _ hsep
    rw [tokens, tokensQ, hr]
    simp only
    congr 1
    apply tokensQ_spaced l vals h2
    have h3 := length_spaced l (forall₂_left h2 fun _ _ h => h.2.ne)
    have h4 : 0 < raw.length := List.length_pos_iff.2 h1.2.ne
    simp only [List.length_append]
    omega

/-! ## Values -/

theorem showInt_ne (n : Int) : showInt n ≠ [] := by
  rw [showInt]; split
  · simp
  · exact showNat_ne_nil _

/-- The characters of numbers. -/
def Plain (c : Char) : Prop := c.isDigit = true ∨ c = '-'

theorem showInt_plain (n : Int) : ∀ c ∈ showInt n, Plain c := by
  intro c hc
  rw [showInt] at hc
  split at hc
  · rcases List.mem_cons.1 hc with rfl | hc
    · exact Or.inr rfl
    · exact Or.inl (isDigit_showNat hc)
  · exact Or.inl (isDigit_showNat hc)

theorem lexInt_showInt (lo hi n : Int) (h1 : lo ≤ n) (h2 : n ≤ hi) : lexInt lo hi (showInt n) = some n := by
  rw [showInt]
  by_cases hn : n < 0
  · rw [if_pos hn, lexInt, digits?_showNat]
    have : -((n.natAbs : Nat) : Int) = n := by omega
    show (if lo ≤ -((n.natAbs : Nat) : Int) ∧ -((n.natAbs : Nat) : Int) ≤ hi then some (-((n.natAbs : Nat) : Int)) else none) = some n
    rw [this, if_pos ⟨h1, h2⟩]
  · rw [if_neg hn]
    have hd : digits? (showNat n.natAbs) = some n.natAbs := digits?_showNat _
    have : ((n.natAbs : Nat) : Int) = n := by omega
    have hne := showNat_ne_nil n.natAbs
    have hdig : ∀ c ∈ showNat n.natAbs, c.isDigit = true := fun c hc => isDigit_showNat hc
    revert hd hne hdig
    generalize showNat n.natAbs = t
    intro hd hne hdig
    cases t with
    | nil => exact absurd rfl hne
    | cons c t =>
      have hc := hdig c (by simp)
      rw [lexInt, hd]
      · show (if lo ≤ ((n.natAbs : Nat) : Int) ∧ ((n.natAbs : Nat) : Int) ≤ hi then some ((n.natAbs : Nat) : Int) else none) = some n
        rw [this, if_pos ⟨h1, h2⟩]
      · intro u h; simp only [List.cons.injEq] at h; rw [h.1] at hc; exact absurd hc (by decide)
      · intro u h; simp only [List.cons.injEq] at h; rw [h.1] at hc; exact absurd hc (by decide)

end Alexandria.Table
