import Verif.Grid.FixProps

/-! # Exactly when fixing an axis on the way goes to the right cell (C111) -/

namespace Alexandria.Grid

open Spec

/-- The coordinates that have `i` on one axis. -/
theorem agrees_one (pre post : List Nat) (s i : Nat) (cs : List Nat) (h : InRange cs (pre ++ s :: post)) :
    Agrees (List.replicate pre.length none ++ some i :: List.replicate post.length none) cs ↔ ∃ pc qc, cs = pc ++ i :: qc ∧ pc.length = pre.length := by
  have free : ∀ (post cs : List Nat), InRange cs post → Agrees (List.replicate post.length none) cs := by
    intro post
    induction post with
    | nil => intro cs h; cases cs with
      | nil => trivial
      | cons _ _ => exact h.elim
    | cons p post ih => intro cs h; cases cs with
      | nil => exact h.elim
      | cons c cs => exact ih cs h.2
  induction pre generalizing cs with
  | nil =>
    cases cs with
    | nil => exact h.elim
    | cons c cs =>
      constructor
      · rintro ⟨rfl, _⟩
        exact ⟨[], cs, rfl, rfl⟩
      · rintro ⟨pc, qc, e, hl⟩
        cases pc with
        | nil => cases e; exact ⟨rfl, free post _ h.2⟩
        | cons _ _ => simp at hl
  | cons p pre ih =>
    cases cs with
    | nil => exact h.elim
    | cons c cs =>
      have := ih cs h.2
      constructor
      · intro ha
        obtain ⟨pc, qc, rfl, hl⟩ := this.1 ha
        exact ⟨c :: pc, qc, rfl, by simp [hl]⟩
      · rintro ⟨pc, qc, e, hl⟩
        cases pc with
        | nil => simp at hl
        | cons d pc =>
          cases e
          exact this.2 ⟨pc, qc, rfl, by simpa using hl⟩

theorem inRange_join {pre : List Nat} {s : Nat} {post pc : List Nat} {c : Nat} {qc : List Nat} (h1 : InRange pc pre) (hc : c < s) (h2 : InRange qc post) :
    InRange (pc ++ c :: qc) (pre ++ s :: post) := by
  induction pre generalizing pc with
  | nil => cases pc with
    | nil => exact ⟨hc, h2⟩
    | cons _ _ => exact h1.elim
  | cons p pre ih => cases pc with
    | nil => exact h1.elim
    | cons d pc => exact ⟨h1.1, ih h1.2⟩

theorem total_split (pre : List Nat) (s : Nat) (post : List Nat) : total (pre ++ s :: post) = total pre * (s * total post) := by
  induction pre with
  | nil => simp [total]
  | cons p pre ih => simp only [List.cons_append, total]; rw [ih]; ring

theorem cellNo_zero {pre pc : List Nat} (h : InRange pc pre) : cellNo pre pc = 0 ↔ ∀ d ∈ pc, d = 0 := by
  induction pre generalizing pc with
  | nil => cases pc with
    | nil => simp [cellNo]
    | cons _ _ => exact h.elim
  | cons p pre ih => cases pc with
    | nil => exact h.elim
    | cons d pc =>
      have hp : p ≠ 0 := by have := h.1; omega
      simp [cellNo, hp, ih h.2]

theorem cellNo_last {post qc : List Nat} (h : InRange qc post) : cellNo post qc + 1 < total post ↔ ∃ j d t : Nat, qc[j]? = some d ∧ post[j]? = some t ∧ d + 1 < t := by
  induction post generalizing qc with
  | nil => cases qc with
    | nil => simp [cellNo, total]
    | cons _ _ => exact h.elim
  | cons p post ih => cases qc with
    | nil => exact h.elim
    | cons d qc =>
      have h1 := h.1
      have h2 := cellNo_lt h.2
      simp only [cellNo, total]
      have key : d + p * cellNo post qc + 1 < p * total post ↔ d + 1 < p ∨ cellNo post qc + 1 < total post := by
        generalize cellNo post qc = H at *
        generalize total post = T at *
        constructor
        · intro hlt
          by_contra hn
          have e1 : d + 1 = p := by omega
          have e2 : T = H + 1 := by omega
          subst e2
          rw [Nat.mul_add] at hlt
          omega
        · rintro (hd | hH)
          · have := Nat.mul_le_mul_left p (show H + 1 ≤ T by omega)
            rw [Nat.mul_add] at this
            omega
          · have := Nat.mul_le_mul_left p (show H + 2 ≤ T by omega)
            rw [Nat.mul_add] at this
            omega
      rw [key, ih h.2]
      constructor
      · rintro (hd | ⟨j, a, t, ha, ht, hat⟩)
        · exact ⟨0, d, p, rfl, rfl, hd⟩
        · exact ⟨j + 1, a, t, ha, ht, hat⟩
      · rintro ⟨j, a, t, ha, ht, hat⟩
        cases j with
        | zero => cases ha; cases ht; exact .inl hat
        | succ j => exact .inr ⟨j, a, t, ha, ht, hat⟩

theorem pos_of_total {ss : List Nat} (h : 0 < total ss) : ∀ s ∈ ss, 0 < s := by
  induction ss with
  | nil => simp
  | cons t ss ih =>
    rw [total] at h
    intro s hs
    rcases List.mem_cons.1 hs with rfl | hs
    · exact Nat.pos_of_mul_pos_right h
    · exact ih (Nat.pos_of_mul_pos_left h) s hs

/-- The first cell from `k` on with the index `i` on one axis, in numbers. -/
theorem firstFrom_one (pre post : List Nat) (s i k p : Nat) (hi : i < s) :
    FirstFrom (pre ++ s :: post) (List.replicate pre.length none ++ some i :: List.replicate post.length none) k p ↔
      (∃ l H, l < total pre ∧ H < total post ∧ p = l + total pre * (i + s * H) ∧ k ≤ p ∧
        ∀ l' H', l' < total pre → H' < total post → k ≤ l' + total pre * (i + s * H') → p ≤ l' + total pre * (i + s * H')) ∨
      (p = total pre * (s * total post) ∧ ∀ l' H', l' < total pre → H' < total post → ¬ k ≤ l' + total pre * (i + s * H')) := by
  have all : ∀ Q : Nat → Prop, (∀ cs', InRange cs' (pre ++ s :: post) →
      Agrees (List.replicate pre.length none ++ some i :: List.replicate post.length none) cs' → Q (cellNo (pre ++ s :: post) cs')) ↔
      ∀ l' H', l' < total pre → H' < total post → Q (l' + total pre * (i + s * H')) := by
    intro Q
    constructor
    · intro hall l H hl hH
      have r1 := digits_inRange pre l (pos_of_total (by omega))
      have r2 := digits_inRange post H (pos_of_total (by omega))
      have r := inRange_join r1 hi r2
      have := hall _ r ((agrees_one pre post s i _ r).2 ⟨_, _, rfl, inRange_length r1⟩)
      rwa [cellNo_split _ _ _ _ _ _ (inRange_length r1), cellNo_digits _ _ hl, cellNo_digits _ _ hH] at this
    · intro hall cs' r ha
      obtain ⟨pc, qc, rfl, hl⟩ := (agrees_one pre post s i _ r).1 ha
      obtain ⟨r1, _, r2⟩ := inRange_split r hl
      rw [cellNo_split _ _ _ _ _ _ hl]
      exact hall _ _ (cellNo_lt r1) (cellNo_lt r2)
  unfold FirstFrom
  rw [total_split, ← all fun q => ¬ k ≤ q]
  refine or_congr ?_ Iff.rfl
  constructor
  · rintro ⟨cs, r, ha, hp, hk, hmin⟩
    obtain ⟨pc, qc, rfl, hl⟩ := (agrees_one pre post s i _ r).1 ha
    obtain ⟨r1, _, r2⟩ := inRange_split r hl
    rw [cellNo_split _ _ _ _ _ _ hl] at hp
    exact ⟨_, _, cellNo_lt r1, cellNo_lt r2, hp.symm, hk, (all fun q => k ≤ q → p ≤ q).1 hmin⟩
  · rintro ⟨l, H, hl, hH, hp, hk, hmin⟩
    have r1 := digits_inRange pre l (pos_of_total (by omega))
    have r2 := digits_inRange post H (pos_of_total (by omega))
    have r := inRange_join r1 hi r2
    refine ⟨_, r, (agrees_one pre post s i _ r).2 ⟨_, _, rfl, inRange_length r1⟩, ?_, hk, (all fun q => k ≤ q → p ≤ q).2 hmin⟩
    rw [cellNo_split _ _ _ _ _ _ (inRange_length r1), cellNo_digits _ _ hl, cellNo_digits _ _ hH, hp]

/-- The comparison of cells with the index `i` with the cell `(lo, c, H)`. -/
theorem le_cell {P s c i lo l H H' : Nat} (hlo : lo < P) (hl : l < P) (hc : c < s) (hi : i < s) (h : lo + P * (c + s * H) ≤ l + P * (i + s * H')) :
    c + s * H ≤ i + s * H' ∧ H ≤ H' ∧ (i < c → H + 1 ≤ H') := by
  have h1 : c + s * H ≤ i + s * H' := by
    by_contra hn
    have := Nat.mul_le_mul_left P (show i + s * H' + 1 ≤ c + s * H by omega)
    rw [Nat.mul_add P (i + s * H') 1] at this
    omega
  have h2 : H ≤ H' := by
    by_contra hn
    have := Nat.mul_le_mul_left s (show H' + 1 ≤ H by omega)
    rw [Nat.mul_add] at this
    omega
  refine ⟨h1, h2, fun hic => ?_⟩
  by_contra hn
  have : H' = H := by omega
  subst this
  omega

/-- **C111**, from any cell of a grid of any shape if no axis is fixed yet: exactly when the iterator goes to the first cell from the current one on
that has the index. It does if it need not move; otherwise all indices of the axes before must be zero, and if the index is behind the
current one and not zero, then not all indices of the axes after may be the last ones. -/
theorem C111_fix_iff (pre post pc qc : List Nat) (s c i : Nat) (h1 : InRange pc pre) (hc : c < s) (h2 : InRange qc post) (hi : i < s) :
    ∃ it, Iter.fixAxisByIndex (pre ++ s :: post) ⟨cellNo (pre ++ s :: post) (pc ++ c :: qc), List.replicate (pre ++ s :: post).length none⟩ pre.length i = .ok it ∧
      (FirstFrom (pre ++ s :: post) it.fixed (cellNo (pre ++ s :: post) (pc ++ c :: qc)) it.pos ↔
        c = i ∨ ((∀ d ∈ pc, d = 0) ∧ (c < i ∨ i = 0 ∨ ∃ j d t : Nat, qc[j]? = some d ∧ post[j]? = some t ∧ d + 1 < t))) := by
  have hp0 := inRange_pos h1
  have hlo := cellNo_lt h1
  have hH := cellNo_lt h2
  have hnone : (List.replicate (pre ++ s :: post).length (none : Option Nat)).getD pre.length none = none := by
    simp [List.getD, List.getElem?_replicate]
  have hset : (List.replicate (pre ++ s :: post).length (none : Option Nat)).set pre.length (some i) =
      List.replicate pre.length none ++ some i :: List.replicate post.length none := by
    rw [List.length_append, List.length_cons, List.replicate_add, List.set_append_right _ _ (by simp)]
    simp [List.replicate_succ]
  have hsz : (pre ++ s :: post).getD pre.length 0 = s := by simp [List.getD]
  have hidx : cellNo (pre ++ s :: post) (pc ++ c :: qc) / total pre % s = c := by
    rw [cellNo_split _ _ _ _ _ _ (inRange_length h1), Nat.add_mul_div_left _ _ hp0, Nat.div_eq_of_lt hlo, Nat.zero_add, Nat.add_mul_mod_self_left, Nat.mod_eq_of_lt hc]
  refine ⟨_, by
    rw [Iter.fixAxisByIndex]
    simp only [hnone]
    rw [Iter.fixAxisByIndex.go, hsz, if_neg (by omega)]
    simp only
    rw [forwardToIndex_pre _ _ _ _ _ hp0 (by omega), Outcome.bind_ok, hidx]
    rfl, ?_⟩
  simp only
  rw [hset, firstFrom_one _ _ _ _ _ _ hi, ← cellNo_zero h1, ← cellNo_last h2, cellNo_split _ _ _ _ _ _ (inRange_length h1)]
  generalize cellNo pre pc = lo at *
  generalize cellNo post qc = H at *
  generalize total pre = P at *
  generalize total post = T at *
  have hcmp : ∀ l H', l < P → lo + P * (c + s * H) ≤ l + P * (i + s * H') → c + s * H ≤ i + s * H' ∧ H ≤ H' ∧ (i < c → H + 1 ≤ H') :=
    fun l H' hl h => le_cell hlo hl hc hi h
  rcases Nat.lt_trichotomy c i with hlt | rfl | hgt
  · -- forwards
    rw [if_neg (by omega), if_pos hlt]
    have hp : lo + P * (c + s * H) + (i - c) * P = lo + P * (i + s * H) := by
      obtain ⟨d, rfl⟩ := Nat.exists_eq_add_of_lt hlt
      rw [show c + d + 1 - c = d + 1 by omega]
      ring
    rw [hp]
    have hq : lo + P * (c + s * H) ≤ 0 + P * (i + s * H) := by
      have := Nat.mul_le_mul_left P (show c + s * H + 1 ≤ i + s * H by omega)
      rw [Nat.mul_add P (c + s * H) 1] at this
      omega
    constructor
    · rintro (⟨_, _, _, _, _, _, hmin⟩ | ⟨_, hnot⟩)
      · have := hmin 0 H hp0 hH hq
        exact .inr ⟨by omega, .inl hlt⟩
      · exact absurd hq (hnot 0 H hp0 hH)
    · rintro (h | ⟨h, _⟩)
      · omega
      · subst h
        refine .inl ⟨0, H, hp0, hH, rfl, hq, ?_⟩
        intro l' H' hl' _ hk
        have := Nat.mul_le_mul_left P (show i + s * H ≤ i + s * H' by
          have := Nat.mul_le_mul_left s (hcmp l' H' hl' hk).2.1
          omega)
        omega
  · -- the iterator stays
    rw [if_pos rfl]
    simp only [Nat.zero_mul, Nat.add_zero, true_or, iff_true]
    exact .inl ⟨lo, H, hlo, hH, rfl, Nat.le_refl _, fun _ _ _ _ h => h⟩
  · -- backwards
    rw [if_neg (by omega), if_neg (by omega)]
    have hp : lo + P * (c + s * H) + (s + i - c) * P = lo + P * (i + s * (H + 1)) := by
      obtain ⟨d, rfl⟩ := Nat.exists_eq_add_of_lt hc
      rw [show c + d + 1 + i - c = d + 1 + i by omega]
      ring
    rw [hp]
    by_cases hT : H + 1 < T
    · have hq : lo + P * (c + s * H) ≤ 0 + P * (i + s * (H + 1)) := by
        have := Nat.mul_le_mul_left P (show c + s * H + 1 ≤ i + s * (H + 1) by rw [Nat.mul_add]; omega)
        rw [Nat.mul_add P (c + s * H) 1] at this
        omega
      constructor
      · rintro (⟨_, _, _, _, _, _, hmin⟩ | ⟨_, hnot⟩)
        · have := hmin 0 (H + 1) hp0 hT hq
          exact .inr ⟨by omega, .inr (.inr hT)⟩
        · exact absurd hq (hnot 0 (H + 1) hp0 hT)
      · rintro (h | ⟨h, _⟩)
        · omega
        · subst h
          refine .inl ⟨0, H + 1, hp0, hT, rfl, hq, ?_⟩
          intro l' H' hl' _ hk
          have := Nat.mul_le_mul_left P (show i + s * (H + 1) ≤ i + s * H' by
            have := Nat.mul_le_mul_left s ((hcmp l' H' hl' hk).2.2 hgt)
            omega)
          omega
    · have hTe : T = H + 1 := by omega
      subst hTe
      have hend : lo + P * (i + s * (H + 1)) = P * (s * (H + 1)) ↔ lo = 0 ∧ i = 0 := by
        rw [Nat.mul_add P i]
        constructor
        · intro h
          have h0 : P * i = 0 := by omega
          rcases Nat.mul_eq_zero.1 h0 with h0 | h0
          · omega
          · exact ⟨by omega, h0⟩
        · rintro ⟨rfl, rfl⟩
          simp
      constructor
      · rintro (⟨l, H', hl, hH', he, hk, _⟩ | ⟨he, _⟩)
        · rw [he] at hk
          have := (hcmp l H' hl hk).2.2 hgt
          omega
        · obtain ⟨a, b⟩ := hend.1 he
          exact .inr ⟨a, .inr (.inl b)⟩
      · rintro (h | ⟨h, h' | h' | h'⟩)
        · omega
        · omega
        · refine .inr ⟨hend.2 ⟨h, h'⟩, ?_⟩
          intro l' H' hl' hH' hk
          have := (hcmp l' H' hl' hk).2.2 hgt
          omega
        · exact absurd h' hT

/-- The cell (0, 2, 0) of a grid of 2 x 3 x 2 cells: the second axis can be fixed at 1, which is (0, 1, 1). -/
example : ∃ it, Iter.fixAxisByIndex [2, 3, 2] ⟨4, [none, none, none]⟩ 1 1 = .ok it ∧ FirstFrom [2, 3, 2] it.fixed 4 it.pos := by
  obtain ⟨it, h, hiff⟩ := C111_fix_iff [2] [2] [0] [0] 3 2 1 (by simp [InRange]) (by decide) (by simp [InRange]) (by decide)
  exact ⟨it, h, hiff.2 (.inr ⟨by simp, .inr (.inr ⟨0, 0, 2, rfl, rfl, by decide⟩)⟩)⟩

end Alexandria.Grid
