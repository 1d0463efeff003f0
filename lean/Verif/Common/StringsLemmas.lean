import Verif.Common.Strings
import Mathlib.Data.List.Infix
import Mathlib.Data.Nat.Digits.Defs
import Mathlib.Data.List.DropRight

/-!
# Lemmas about the string functions
-/

namespace Alexandria.Str

/-- `pre` can be cut into pieces, each ending in a character that is not in `p`, without an occurrence of `p`. -/
inductive Skips (p : Bytes) : Bytes → Prop where
  | nil : Skips p []
  | seg (x : Bytes) (c : Char) (y : Bytes) : ¬ p <:+: x → c ∉ p → Skips p y → Skips p (x ++ c :: y)

theorem Skips.append {p a b : Bytes} (ha : Skips p a) (hb : Skips p b) : Skips p (a ++ b) := by
  induction ha with
  | nil => exact hb
  | seg x c y hx hc _ ih => simpa using Skips.seg x c _ hx hc ih

theorem Skips.one {p x : Bytes} {c : Char} (hx : ¬ p <:+: x) (hc : c ∉ p) : Skips p (x ++ [c]) := Skips.seg x c [] hx hc .nil

theorem Skips.flatMap {α : Type} {p : Bytes} {f : α → Bytes} {l : List α} (h : ∀ a ∈ l, Skips p (f a)) : Skips p (l.flatMap f) := by
  induction l with
  | nil => exact .nil
  | cons a l ih =>
    rw [List.flatMap_cons]
    exact (h a (by simp)).append (ih fun b hb => h b (by simp [hb]))

theorem findAux_skip {p x y : Bytes} {c : Char} (hx : ¬ p <:+: x) (hc : c ∉ p) (i : Nat) :
    findAux p (x ++ c :: y) i = findAux p y (i + x.length + 1) := by
  induction x generalizing i with
  | nil =>
    have hp : p ≠ [] := by rintro rfl; exact hx ⟨[], [], rfl⟩
    obtain ⟨d, q, rfl⟩ := List.exists_cons_of_ne_nil hp
    have : ¬ d = c := by rintro rfl; exact hc (by simp)
    simp [findAux, List.isPrefixOf, this]
  | cons d x ih =>
    have hx' : ¬ p <:+: x := fun hh => hx (hh.trans (List.infix_cons (List.infix_refl _)))
    have hpre : ¬ p <+: (d :: x) ++ c :: y := by
      intro hh
      rcases Nat.lt_or_ge (d :: x).length p.length with hl | hl
      · have h1 : (d :: x) ++ [c] <+: p := by
          apply List.prefix_of_prefix_length_le _ hh (by simp at hl ⊢; omega)
          exact ⟨y, by simp⟩
        exact hc (h1.subset (by simp))
      · exact hx (List.prefix_of_prefix_length_le hh ⟨c :: y, rfl⟩ hl).isInfix
    rw [List.cons_append, findAux, if_neg (by simpa [List.isPrefixOf_iff_prefix] using hpre), ih hx']
    congr 1
    simp; omega

theorem findAux_skips {p pre : Bytes} (h : Skips p pre) (z : Bytes) (i : Nat) :
    findAux p (pre ++ z) i = findAux p z (i + pre.length) := by
  induction h generalizing i with
  | nil => rfl
  | seg x c y hx hc _ ih =>
    rw [List.append_assoc, List.cons_append, findAux_skip hx hc, ih]
    congr 1
    simp; omega

theorem findAux_here (p y : Bytes) (i : Nat) : findAux p (p ++ y) i = some i := by
  have h : (p.isPrefixOf (p ++ y)) = true := by simp [List.isPrefixOf_iff_prefix]
  cases hp : p ++ y with
  | nil => rw [findAux, ← hp, if_pos h]
  | cons c t => rw [findAux, ← hp, if_pos h]

theorem find_skips {p pre : Bytes} (h : Skips p pre) (z : Bytes) : find p (pre ++ (p ++ z)) = some pre.length := by
  simp only [find, Nat.zero_le, if_true, List.drop_zero]
  rw [findAux_skips h, findAux_here, Nat.zero_add]

theorem findAux_char {c : Char} {x y : Bytes} (h : c ∉ x) (i : Nat) : findAux [c] (x ++ c :: y) i = some (i + x.length) := by
  induction x generalizing i with
  | nil => exact findAux_here [c] y i
  | cons d x ih =>
    have hd : ¬ c = d := by rintro rfl; exact h (by simp)
    rw [List.cons_append, findAux, if_neg (by simp [List.isPrefixOf, hd]), ih (fun hh => h (by simp [hh]))]
    simp; omega

theorem find_char {c : Char} {a x y : Bytes} (h : c ∉ x) : find [c] (a ++ (x ++ c :: y)) a.length = some (a.length + x.length) := by
  rw [find, if_pos (by simp), List.drop_left, findAux_char h]

theorem showNat_ne_nil (n : Nat) : showNat n ≠ [] := Nat.toDigits_ne_nil

theorem isDigit_showNat {n : Nat} {c : Char} (h : c ∈ showNat n) : c.isDigit = true :=
  Nat.isDigit_of_mem_toDigits (by decide) (by decide) h

theorem digits?_showNat (n : Nat) : digits? (showNat n) = some n := by
  rw [digits?, if_pos ⟨showNat_ne_nil n, List.all_eq_true.mpr fun c hc => isDigit_showNat hc⟩, showNat,
    Nat.ofDigitChars_ten_toDigits]

theorem lexSize_showNat {n : Nat} (h : n < 2 ^ 64) : lexSize (showNat n) = some n := by
  have hd := digits?_showNat n
  have hm : '-' ∉ showNat n := fun hc => by simpa using isDigit_showNat hc
  have hp : '+' ∉ showNat n := fun hc => by simpa using isDigit_showNat hc
  unfold lexSize
  split
  · rename_i t heq; exact absurd (heq ▸ List.mem_cons_self) hm
  · rename_i t heq; exact absurd (heq ▸ List.mem_cons_self) hp
  · rw [hd]; simp only [if_pos h]

theorem mapAll_map {α β γ : Type} {f : β → Option γ} {g : α → β} {k : α → γ} {l : List α} (h : ∀ a ∈ l, f (g a) = some (k a)) :
    mapAll f (l.map g) = some (l.map k) := by
  induction l with
  | nil => rfl
  | cons a l ih =>
    rw [List.map_cons, mapAll, h a (by simp), ih fun b hb => h b (by simp [hb])]
    rfl

theorem splitGo_token {sep : Char → Bool} {t y cur : Bytes} {b : Bool} (ht : ∀ c ∈ t, sep c = false) (hne : t ≠ []) :
    splitGo sep (t ++ y) cur b = splitGo sep y (t.reverse ++ cur) false := by
  induction t generalizing cur b with
  | nil => exact absurd rfl hne
  | cons c t ih =>
    rw [List.cons_append, splitGo, ht c (by simp)]
    by_cases hn : t = []
    · subst hn; simp
    · simp only [Bool.false_eq_true, if_false]
      rw [ih (fun d hd => ht d (by simp [hd])) hn]
      simp

theorem splitGo_seps {sep : Char → Bool} {s y cur : Bytes} (hs : ∀ c ∈ s, sep c = true) :
    splitGo sep (s ++ y) [] true = splitGo sep y [] true := by
  induction s with
  | nil => rfl
  | cons c s ih => rw [List.cons_append, splitGo, hs c (by simp)]; simpa using ih fun d hd => hs d (by simp [hd])

/-- Tokens joined by runs of separators are recovered. -/
theorem splitGo_join {sep : Char → Bool} {ss : Bytes} (hss : ss ≠ []) (hs : ∀ c ∈ ss, sep c = true) {toks : List Bytes}
    (hne : toks ≠ []) (ht : ∀ t ∈ toks, t ≠ [] ∧ ∀ c ∈ t, sep c = false) (b : Bool) :
    splitGo sep (ss.intercalate toks) [] b = toks := by
  induction toks generalizing b with
  | nil => exact absurd rfl hne
  | cons t toks ih =>
    obtain ⟨h1, h2⟩ := ht t (by simp)
    by_cases hn : toks = []
    · subst hn
      have := splitGo_token (sep := sep) (y := []) (cur := []) (b := b) h2 h1
      simp only [List.append_nil] at this
      rw [List.intercalate_singleton, this]
      simp [splitGo]
    · obtain ⟨c, cs, rfl⟩ := List.exists_cons_of_ne_nil hss
      rw [List.intercalate_cons_of_ne_nil hn, List.append_assoc, splitGo_token h2 h1, List.cons_append, splitGo, hs c (by simp)]
      simp only [if_true, Bool.false_eq_true, if_false, List.append_nil, List.reverse_reverse]
      rw [splitGo_seps (cur := []) (fun d hd => hs d (by simp [hd])), ih hn fun u hu => ht u (by simp [hu])]

theorem dropWhile_none {s : Bytes} (h : ∀ c, s.head? = some c → isSpace c = false) : s.dropWhile isSpace = s := by
  cases s with
  | nil => rfl
  | cons c t => simp [h c rfl]

theorem trim_eq {s : Bytes} (h1 : ∀ c, s.head? = some c → isSpace c = false)
    (h2 : ∀ c, s.getLast? = some c → isSpace c = false) : trim s = s := by
  rw [trim, dropWhile_none h1, dropWhile_none (by simpa using h2), List.reverse_reverse]

theorem isDigit_not_space {c : Char} (h : c.isDigit = true) : isSpace c = false := by
  have h1 : 48 ≤ c.toNat ∧ c.toNat ≤ 57 := by
    simpa [Char.isDigit, UInt32.le_iff_toNat_le] using h
  have h2 : ¬ c = ' ' := by
    rintro rfl
    exact absurd h (by decide)
  simp [isSpace, h2]; omega

theorem intercalate_ends {ss : Bytes} {toks : List Bytes} (hne : toks ≠ []) (ht : ∀ t ∈ toks, t ≠ [] ∧ ∀ c ∈ t, isSpace c = false) :
    (∀ c, (ss.intercalate toks).head? = some c → isSpace c = false) ∧
      (∀ c, (ss.intercalate toks).getLast? = some c → isSpace c = false) := by
  induction toks with
  | nil => exact absurd rfl hne
  | cons t toks ih =>
    obtain ⟨h1, h2⟩ := ht t (by simp)
    by_cases hn : toks = []
    · subst hn
      rw [List.intercalate_singleton]
      exact ⟨fun c hc => h2 c (List.mem_of_mem_head? hc), fun c hc => h2 c (List.mem_of_getLast? hc)⟩
    · rw [List.intercalate_cons_of_ne_nil hn]
      have ih := ih hn fun u hu => ht u (by simp [hu])
      constructor
      · intro c hc
        rw [List.head?_append_of_ne_nil _ (by simp [h1]), List.head?_append_of_ne_nil _ h1] at hc
        exact h2 c (List.mem_of_mem_head? hc)
      · intro c hc
        by_cases hi : ss.intercalate toks = []
        · exfalso
          obtain ⟨u, us, rfl⟩ := List.exists_cons_of_ne_nil hn
          have hu := (ht u (by simp)).1
          by_cases hus : us = []
          · subst hus; exact hu (by simpa using hi)
          · rw [List.intercalate_cons_of_ne_nil hus] at hi; simp [hu] at hi
        · rw [List.getLast?_append_of_ne_nil _ hi] at hc
          exact ih.2 c hc

/-- `stringToVector<size_t>` of decimal numbers joined by commas and spaces. -/
theorem stringToSizes_join {ss : Bytes} (hss : ss ≠ []) (hs : ∀ c ∈ ss, c = ',' ∨ c = ' ') {shape : List Nat} (hne : shape ≠ [])
    (hb : ∀ n ∈ shape, n < 2 ^ 64) : stringToSizes (ss.intercalate (shape.map showNat)) = some shape := by
  have hne' : shape.map showNat ≠ [] := by simpa using hne
  have hdig : ∀ t ∈ shape.map showNat, t ≠ [] ∧ ∀ c ∈ t, c.isDigit = true := by
    intro t ht
    obtain ⟨n, _, rfl⟩ := List.mem_map.mp ht
    exact ⟨showNat_ne_nil n, fun c hc => isDigit_showNat hc⟩
  obtain ⟨h1, h2⟩ := intercalate_ends (ss := ss) hne' fun t ht => ⟨(hdig t ht).1, fun c hc => isDigit_not_space ((hdig t ht).2 c hc)⟩
  rw [stringToSizes, trim_eq h1 h2, splitCompress, splitGo_join hss (fun c hc => by rcases hs c hc with rfl | rfl <;> rfl) hne', mapAll_map (k := id),
    List.map_id]
  · exact fun n hn => lexSize_showNat (hb n hn)
  · intro t ht
    refine ⟨(hdig t ht).1, fun c hc => ?_⟩
    have := (hdig t ht).2 c hc
    simp only [Bool.or_eq_false_iff, beq_eq_false_iff_ne, ne_eq]
    constructor <;> (rintro rfl; exact absurd this (by decide))

end Alexandria.Str
