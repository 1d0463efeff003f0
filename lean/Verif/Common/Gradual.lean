import Verif.Common.Binary

/-!
# Rounding with subnormal numbers

`grad p q x` is the multiple of `2^q` with a significand of at most `p` bits that is nearest to `x`, ties to even: IEEE 754 with gradual
underflow. `double` has `p = 53` and `q = -1074`. There is no greatest number here; for overflow see `Ieee.lean`.
-/

namespace Alexandria.Binary

/-- Rounding of positive numbers. -/
def gradPos (p : Nat) (q : Int) (x : Rat) : Rat := if x < 2 ^ (q + p) then toInt (x / 2 ^ q) * 2 ^ q else rndPos p x

def grad (p : Nat) (q : Int) (x : Rat) : Rat := if 0 < x then gradPos p q x else if x < 0 then -gradPos p q (-x) else 0

/-- What can be represented. -/
def RepG (p : Nat) (q : Int) (x : Rat) : Prop := ∃ (m e : Int), |m| ≤ 2 ^ p ∧ q ≤ e ∧ x = (m : Rat) * 2 ^ e

variable {p : Nat} {q : Int}

theorem two_pos (e : Int) : (0 : Rat) < 2 ^ e := zpow_pos (by norm_num) _

theorem toInt_nonneg {x : Rat} (h : 0 ≤ x) : 0 ≤ toInt x := by
  have h1 := toInt_mono (a := ((0 : Int) : Rat)) (b := x) (by simpa using h)
  rwa [toInt_int] at h1

/-- At the border between the two formulas. -/
theorem gradPos_below {x : Rat} (h : x < 2 ^ (q + p)) : toInt (x / 2 ^ q) ≤ 2 ^ p := by
  have h3 : x / 2 ^ q ≤ ((2 ^ p : Int) : Rat) := by
    rw [div_le_iff₀ (two_pos q)]
    push_cast
    rw [← zpow_natCast, ← zpow_add₀ (by norm_num), add_comm]
    exact h.le
  have h4 := toInt_mono h3
  rwa [toInt_int] at h4

theorem rndPos_ge {x : Rat} (hp : 1 ≤ p) (h : 2 ^ (q + p) ≤ x) : 2 ^ (q + p) ≤ rndPos p x := by
  have h1 := rndPos_mono hp (two_pos (q + p)) h
  have h2 := rndPos_fixed (p := p) hp (m := 1) (e := q + p) (by norm_num) (by exact_mod_cast Nat.one_le_two_pow)
  simp only [Int.cast_one, one_mul] at h2
  rwa [h2] at h1

theorem gradPos_nonneg (hp : 1 ≤ p) {x : Rat} (hx : 0 < x) : 0 ≤ gradPos p q x := by
  unfold gradPos
  by_cases h : x < 2 ^ (q + p)
  · rw [if_pos h]
    exact mul_nonneg (by exact_mod_cast toInt_nonneg (div_nonneg hx.le (two_pos q).le)) (two_pos q).le
  · rw [if_neg h]
    exact (rndPos_pos hp hx).le

theorem gradPos_mono (hp : 1 ≤ p) {x y : Rat} (hx : 0 < x) (h : x ≤ y) : gradPos p q x ≤ gradPos p q y := by
  unfold gradPos
  by_cases hy : y < 2 ^ (q + p)
  · rw [if_pos hy, if_pos (lt_of_le_of_lt h hy)]
    have := toInt_mono ((div_le_div_iff_of_pos_right (two_pos q)).mpr h)
    exact mul_le_mul_of_nonneg_right (by exact_mod_cast this) (two_pos q).le
  · rw [if_neg hy]
    by_cases hx' : x < 2 ^ (q + p)
    · rw [if_pos hx']
      refine le_trans ?_ (rndPos_ge hp (not_lt.mp hy))
      rw [add_comm, zpow_add₀ (by norm_num)]
      refine mul_le_mul_of_nonneg_right ?_ (two_pos q).le
      rw [zpow_natCast]
      exact_mod_cast gradPos_below hx'
    · rw [if_neg hx']
      exact rndPos_mono hp hx h

theorem gradPos_fixed (hp : 1 ≤ p) {m e : Int} (hm : 0 < m) (hm' : m ≤ 2 ^ p) (he : q ≤ e) : gradPos p q ((m : Rat) * 2 ^ e) = (m : Rat) * 2 ^ e := by
  unfold gradPos
  by_cases h : (m : Rat) * 2 ^ e < 2 ^ (q + p)
  · rw [if_pos h]
    obtain ⟨k, hk⟩ := Int.eq_ofNat_of_zero_le (sub_nonneg.mpr he)
    have e1 : (m : Rat) * 2 ^ e / 2 ^ q = ((m * 2 ^ k : Int) : Rat) := by
      rw [div_eq_iff (two_pos q).ne']
      push_cast
      rw [mul_assoc, ← zpow_natCast, ← zpow_add₀ (by norm_num)]
      congr 2
      omega
    rw [e1, toInt_int, ← e1, div_mul_cancel₀ _ (two_pos q).ne']
  · rw [if_neg h]
    exact rndPos_fixed hp hm hm'

theorem gradPos_rep (hp : 1 ≤ p) {x : Rat} (hx : 0 < x) : RepG p q (gradPos p q x) := by
  unfold gradPos
  by_cases h : x < 2 ^ (q + p)
  · rw [if_pos h]
    exact ⟨_, q, by rw [abs_of_nonneg (toInt_nonneg (div_nonneg hx.le (two_pos q).le))]; exact gradPos_below h, le_rfl, rfl⟩
  · rw [if_neg h]
    obtain ⟨m, e, h1, h2, h3⟩ := rndPos_form hp hx
    refine ⟨m, e, by rw [abs_of_pos h1]; exact h2, ?_, h3⟩
    by_contra hc
    have hge := rndPos_ge hp (not_lt.mp h)
    rw [h3] at hge
    have : (m : Rat) * 2 ^ e < 2 ^ (q + p) := by
      calc (m : Rat) * 2 ^ e ≤ 2 ^ p * 2 ^ e := mul_le_mul_of_nonneg_right (by exact_mod_cast h2) (two_pos e).le
        _ = 2 ^ (e + p) := by rw [← zpow_natCast, ← zpow_add₀ (by norm_num), add_comm]
        _ < 2 ^ (q + p) := zpow_lt_zpow_right₀ (by norm_num) (by omega)
    linarith

theorem grad_of_pos {x : Rat} (hx : 0 < x) : grad p q x = gradPos p q x := if_pos hx

theorem grad_neg (x : Rat) : grad p q (-x) = -grad p q x := by
  unfold grad
  rcases lt_trichotomy x 0 with h | h | h
  · rw [if_pos (by linarith), if_neg (by linarith), if_pos h, neg_neg]
  · subst h; simp
  · rw [if_neg (by linarith), if_pos (by linarith), if_pos h, neg_neg]

theorem grad_zero : grad p q 0 = 0 := by simp [grad]

theorem grad_nonneg (hp : 1 ≤ p) {x : Rat} (hx : 0 ≤ x) : 0 ≤ grad p q x := by
  rcases eq_or_lt_of_le hx with h | h
  · rw [← h, grad_zero]
  · rw [grad_of_pos h]; exact gradPos_nonneg hp h

theorem grad_mono (hp : 1 ≤ p) (x y : Rat) (h : x ≤ y) : grad p q x ≤ grad p q y := by
  have hneg : ∀ z : Rat, z ≤ 0 → grad p q z ≤ 0 := by
    intro z hz
    have := grad_nonneg (q := q) hp (x := -z) (by linarith)
    rw [grad_neg] at this
    linarith
  rcases lt_or_ge 0 x with hx | hx
  · rw [grad_of_pos hx, grad_of_pos (lt_of_lt_of_le hx h)]
    exact gradPos_mono hp hx h
  · rcases lt_or_ge y 0 with hy | hy
    · have := gradPos_mono (q := q) hp (x := -y) (y := -x) (by linarith) (by linarith)
      rw [← grad_of_pos (by linarith), ← grad_of_pos (x := -x) (by linarith), grad_neg, grad_neg] at this
      linarith
    · exact le_trans (hneg x hx) (grad_nonneg hp hy)

theorem grad_rep (hp : 1 ≤ p) (x : Rat) : RepG p q (grad p q x) := by
  unfold grad
  split_ifs with h1 h2
  · exact gradPos_rep hp h1
  · obtain ⟨m, e, h3, he, h4⟩ := gradPos_rep (q := q) hp (x := -x) (by linarith)
    exact ⟨-m, e, by rw [abs_neg]; exact h3, he, by rw [h4]; push_cast; ring⟩
  · exact ⟨0, q, by simp, le_rfl, by simp⟩

theorem grad_of_rep (hp : 1 ≤ p) {x : Rat} (h : RepG p q x) : grad p q x = x := by
  obtain ⟨m, e, hm, he, rfl⟩ := h
  rcases lt_trichotomy m 0 with h | h | h
  · rw [abs_of_neg h] at hm
    have hneg : (m : Rat) * 2 ^ e = -(((-m : Int) : Rat) * 2 ^ e) := by push_cast; ring
    have hpos : (0 : Rat) < ((-m : Int) : Rat) * 2 ^ e := mul_pos (by exact_mod_cast (by omega : 0 < -m)) (two_pos e)
    rw [hneg, grad_neg, grad_of_pos hpos, gradPos_fixed hp (by omega) hm he]
  · subst h; simp [grad_zero]
  · rw [abs_of_pos h] at hm
    have hpos : (0 : Rat) < (m : Rat) * 2 ^ e := mul_pos (by exact_mod_cast h) (two_pos e)
    rw [grad_of_pos hpos, gradPos_fixed hp h hm he]

theorem grad_twice (hp : 1 ≤ p) (x : Rat) : grad p q (2 * grad p q x) = 2 * grad p q x := by
  refine grad_of_rep hp ?_
  obtain ⟨m, e, hm, he, h⟩ := grad_rep (q := q) hp x
  exact ⟨m, e + 1, hm, by omega, by rw [h, zpow_add₀ (by norm_num)]; ring⟩

/-- Rounding with subnormal numbers. -/
def gradual (p : Nat) (q : Int) (hp : 1 ≤ p) : Rounding Rat :=
  ⟨grad p q, grad_mono hp, fun x => grad_of_rep hp (grad_rep hp x), grad_neg, grad_twice hp⟩

/-- The rounding of `double`. -/
def double : Rounding Rat := gradual 53 (-1074) (by decide)

/-- The greatest `double`. -/
def doubleMax : Rat := (2 ^ 53 - 1) * 2 ^ 971

/-- The difference of two numbers is a multiple of the smallest one: it is not rounded to zero. -/
theorem grad_sub_ne (hp : 1 ≤ p) {x y : Rat} (hx : RepG p q x) (hy : RepG p q y) (h : x < y) : 0 < grad p q (y - x) := by
  have form : ∀ z, RepG p q z → ∃ n : Int, z = (n : Rat) * 2 ^ q := by
    rintro z ⟨m, e, -, he, rfl⟩
    obtain ⟨k, hk⟩ := Int.eq_ofNat_of_zero_le (sub_nonneg.mpr he)
    refine ⟨m * 2 ^ k, ?_⟩
    push_cast
    rw [mul_assoc, ← zpow_natCast, ← zpow_add₀ (by norm_num)]
    congr 2
    omega
  obtain ⟨a, rfl⟩ := form x hx
  obtain ⟨b, rfl⟩ := form y hy
  have hab : a < b := by
    have := (mul_lt_mul_iff_left₀ (two_pos q)).mp h
    exact_mod_cast this
  have h1 : (1 : Rat) * 2 ^ q ≤ (b : Rat) * 2 ^ q - (a : Rat) * 2 ^ q := by
    rw [← sub_mul]
    refine mul_le_mul_of_nonneg_right ?_ (two_pos q).le
    have : a + 1 ≤ b := hab
    have h2 : ((a + 1 : Int) : Rat) ≤ b := by exact_mod_cast this
    push_cast at h2
    linarith
  have h2 : grad p q ((1 : Rat) * 2 ^ q) = 1 * 2 ^ q :=
    grad_of_rep hp ⟨1, q, by rw [abs_one]; exact_mod_cast Nat.one_le_two_pow, le_rfl, by simp⟩
  have h3 := grad_mono (q := q) hp _ _ h1
  rw [h2] at h3
  exact lt_of_lt_of_le (by rw [one_mul]; exact two_pos q) h3

example : double.rnd (3 * 2 ^ (-1075 : Int)) = 2 ^ (-1073 : Int) ∧ double.rnd (2 ^ (-1075 : Int)) = 0 ∧ double.rnd (1 / 3) = 6004799503160661 / 18014398509481984 := by
  decide +kernel

end Alexandria.Binary
