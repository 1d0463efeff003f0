import Verif.Common.Binary
import Mathlib.Algebra.Order.Archimedean.Real.Basic
import Mathlib.Data.Rat.Cast.Order

/-!
# Rounding of real numbers to the nearest binary floating point number

`Binary.rnd` for real numbers, such as square roots: `rnd p x` is the number with a significand of `p` bits that is nearest to `x`, ties to even, with unbounded exponent.
-/

namespace Alexandria.RealBinary

/-- To the nearest integer, ties to even. -/
noncomputable def toInt (q : ℝ) : Int :=
  if q - ⌊q⌋ < 1 / 2 then ⌊q⌋ else if 1 / 2 < q - ⌊q⌋ then ⌊q⌋ + 1 else if ⌊q⌋ % 2 = 0 then ⌊q⌋ else ⌊q⌋ + 1

/-- The unit in the last place of a positive number: a power of two. -/
noncomputable def ulp (p : Nat) (x : ℝ) : ℝ := (2 : ℝ) ^ (Int.log 2 x + 1 - p)

/-- Rounding of positive numbers. -/
noncomputable def rndPos (p : Nat) (x : ℝ) : ℝ := toInt (x / ulp p x) * ulp p x

noncomputable def rnd (p : Nat) (x : ℝ) : ℝ := if 0 < x then rndPos p x else if x < 0 then -rndPos p (-x) else 0

theorem toInt_ge (q : ℝ) : ⌊q⌋ ≤ toInt q := by unfold toInt; split_ifs <;> omega

theorem toInt_le (q : ℝ) : toInt q ≤ ⌊q⌋ + 1 := by unfold toInt; split_ifs <;> omega

theorem toInt_int (n : Int) : toInt (n : ℝ) = n := by
  unfold toInt
  rw [Int.floor_intCast, if_pos (by norm_num)]

theorem toInt_mono {a b : ℝ} (h : a ≤ b) : toInt a ≤ toInt b := by
  have hf := Int.floor_le_floor h
  rcases eq_or_lt_of_le hf with he | hlt
  · unfold toInt
    rw [← he]
    split_ifs <;> first | omega | (exfalso; linarith)
  · exact le_trans (toInt_le a) (le_trans (by omega) (toInt_ge b))

theorem ulp_pos (p : Nat) (x : ℝ) : 0 < ulp p x := zpow_pos (by norm_num) _

theorem log_bounds {x : ℝ} (hx : 0 < x) : (2 : ℝ) ^ Int.log 2 x ≤ x ∧ x < (2 : ℝ) ^ (Int.log 2 x + 1) := by
  have h1 := Int.zpow_log_le_self (b := 2) (by norm_num) hx
  have h2 := Int.lt_zpow_succ_log_self (b := 2) (by norm_num) x
  exact ⟨by exact_mod_cast h1, by exact_mod_cast h2⟩

theorem log_div (p : Nat) (x : ℝ) : (2 : ℝ) ^ (Int.log 2 x + 1) = ((2 ^ p : Int) : ℝ) * ulp p x := by
  unfold ulp
  push_cast
  rw [← zpow_natCast, ← zpow_add₀ (by norm_num)]
  congr 1
  ring

theorem log_div' {p : Nat} (hp : 1 ≤ p) (x : ℝ) : (2 : ℝ) ^ Int.log 2 x = ((2 ^ (p - 1) : Int) : ℝ) * ulp p x := by
  unfold ulp
  push_cast
  rw [← zpow_natCast, ← zpow_add₀ (by norm_num)]
  congr 1
  push_cast [Nat.cast_sub hp]
  ring

/-- The rounded number is in the same binade, or at its upper end. -/
theorem rndPos_bounds {p : Nat} (hp : 1 ≤ p) {x : ℝ} (hx : 0 < x) : (2 : ℝ) ^ Int.log 2 x ≤ rndPos p x ∧ rndPos p x ≤ (2 : ℝ) ^ (Int.log 2 x + 1) := by
  obtain ⟨h1, h2⟩ := log_bounds hx
  have hu := ulp_pos p x
  constructor
  · rw [log_div' hp] at h1 ⊢
    have h3 : ((2 ^ (p - 1) : Int) : ℝ) ≤ x / ulp p x := by rw [le_div_iff₀ hu]; exact h1
    have h4 := toInt_mono h3
    rw [toInt_int] at h4
    exact mul_le_mul_of_nonneg_right (by exact_mod_cast h4) hu.le
  · rw [log_div p] at h2 ⊢
    have h3 : x / ulp p x ≤ ((2 ^ p : Int) : ℝ) := by rw [div_le_iff₀ hu]; exact h2.le
    have h4 := toInt_mono h3
    rw [toInt_int] at h4
    exact mul_le_mul_of_nonneg_right (by exact_mod_cast h4) hu.le

theorem rndPos_pos {p : Nat} (hp : 1 ≤ p) {x : ℝ} (hx : 0 < x) : 0 < rndPos p x :=
  lt_of_lt_of_le (zpow_pos (by norm_num) _) (rndPos_bounds hp hx).1

theorem rndPos_mono {p : Nat} (hp : 1 ≤ p) {x y : ℝ} (hx : 0 < x) (h : x ≤ y) : rndPos p x ≤ rndPos p y := by
  have hy : 0 < y := lt_of_lt_of_le hx h
  have hl : Int.log 2 x ≤ Int.log 2 y := Int.log_mono_right hx h
  rcases eq_or_lt_of_le hl with he | hlt
  · have hu : ulp p x = ulp p y := by unfold ulp; rw [he]
    unfold rndPos
    rw [hu]
    have := toInt_mono ((div_le_div_iff_of_pos_right (ulp_pos p y)).mpr h)
    exact mul_le_mul_of_nonneg_right (by exact_mod_cast this) (ulp_pos p y).le
  · refine le_trans (rndPos_bounds hp hx).2 (le_trans ?_ (rndPos_bounds hp hy).1)
    exact zpow_le_zpow_right₀ (by norm_num) (by omega)

/-- Numbers with a significand of at most `p` bits are left alone. -/
theorem rndPos_fixed {p : Nat} (hp : 1 ≤ p) {m : Int} {e : Int} (hm : 0 < m) (hm' : m ≤ 2 ^ p) : rndPos p ((m : ℝ) * 2 ^ e) = (m : ℝ) * 2 ^ e := by
  obtain ⟨x, hxd⟩ : ∃ x : ℝ, x = (m : ℝ) * 2 ^ e := ⟨_, rfl⟩
  have h2e : (0 : ℝ) < 2 ^ e := zpow_pos (by norm_num) _
  have hmq : (0 : ℝ) < m := by exact_mod_cast hm
  have hx : 0 < x := by rw [hxd]; positivity
  -- the quotient by the unit in the last place is an integer
  have hint : ∃ n : Int, x / ulp p x = n := by
    obtain ⟨h1, _⟩ := log_bounds hx
    have hle : x ≤ (2 : ℝ) ^ (p + e : Int) := by
      rw [hxd, zpow_add₀ (by norm_num), zpow_natCast]
      exact mul_le_mul_of_nonneg_right (by exact_mod_cast hm') h2e.le
    have hlog : Int.log 2 x ≤ p + e := by
      by_contra hc
      have : (2 : ℝ) ^ (p + e : Int) < (2 : ℝ) ^ Int.log 2 x := zpow_lt_zpow_right₀ (by norm_num) (by omega)
      linarith
    rcases eq_or_lt_of_le hlog with he | hlt
    · have hxe : x = (2 : ℝ) ^ (p + e : Int) := le_antisymm hle (by rw [he] at h1; exact h1)
      refine ⟨2 ^ (p - 1), ?_⟩
      rw [div_eq_iff (ulp_pos p x).ne', ← log_div' hp, he]
      exact hxe
    · have hk : 0 ≤ e - (Int.log 2 x + 1 - p) := by omega
      obtain ⟨k, hk'⟩ := Int.eq_ofNat_of_zero_le hk
      refine ⟨m * 2 ^ k, ?_⟩
      rw [div_eq_iff (ulp_pos p x).ne']
      conv_lhs => rw [hxd]
      unfold ulp
      push_cast
      rw [mul_assoc, ← zpow_natCast, ← zpow_add₀ (by norm_num)]
      congr 2
      omega
  rw [← hxd]
  obtain ⟨n, hn⟩ := hint
  unfold rndPos
  rw [hn, toInt_int, ← hn, div_mul_cancel₀ _ (ulp_pos p x).ne']

/-- A rounded number has a significand of at most `p` bits. -/
theorem rndPos_form {p : Nat} (hp : 1 ≤ p) {x : ℝ} (hx : 0 < x) : ∃ (m e : Int), 0 < m ∧ m ≤ 2 ^ p ∧ rndPos p x = (m : ℝ) * 2 ^ e := by
  refine ⟨toInt (x / ulp p x), Int.log 2 x + 1 - p, ?_, ?_, rfl⟩
  · have h := rndPos_pos hp hx
    unfold rndPos at h
    have := (mul_pos_iff_of_pos_right (ulp_pos p x)).mp h
    exact_mod_cast this
  · have h3 : x / ulp p x ≤ ((2 ^ p : Int) : ℝ) := by
      rw [div_le_iff₀ (ulp_pos p x), ← log_div]
      exact (log_bounds hx).2.le
    have h4 := toInt_mono h3
    rwa [toInt_int] at h4

theorem toInt_err (q : ℝ) : |(toInt q : ℝ) - q| ≤ 1 / 2 := by
  have h1 := Int.floor_le q
  have h2 := Int.lt_floor_add_one q
  unfold toInt
  rw [abs_le]
  split_ifs <;> push_cast <;> constructor <;> linarith

theorem rndPos_err {p : Nat} {x : ℝ} (hx : 0 < x) : |rndPos p x - x| ≤ x * (1 / 2) ^ p := by
  have hu := ulp_pos p x
  have e : rndPos p x - x = ((toInt (x / ulp p x) : ℝ) - x / ulp p x) * ulp p x := by
    unfold rndPos
    rw [sub_mul, div_mul_cancel₀ _ hu.ne']
  rw [e, abs_mul, abs_of_pos hu]
  have h1 := mul_le_mul_of_nonneg_right (toInt_err (x / ulp p x)) hu.le
  refine le_trans h1 ?_
  have h2 := (log_bounds hx).1
  have h3 : (1 / 2 : ℝ) * ulp p x = (2 : ℝ) ^ Int.log 2 x * (1 / 2) ^ p := by
    unfold ulp
    rw [show Int.log 2 x + 1 - (p : Int) = Int.log 2 x + (1 + -(p : Int)) by ring, zpow_add₀ (by norm_num), zpow_add₀ (by norm_num), zpow_neg, zpow_natCast, zpow_one,
      one_div, inv_pow]
    ring
  rw [h3]
  exact mul_le_mul_of_nonneg_right h2 (by positivity)

theorem rnd_of_pos {p : Nat} {x : ℝ} (hx : 0 < x) : rnd p x = rndPos p x := if_pos hx

theorem rnd_neg (p : Nat) (x : ℝ) : rnd p (-x) = -rnd p x := by
  unfold rnd
  rcases lt_trichotomy x 0 with h | h | h
  · rw [if_pos (by linarith), if_neg (by linarith), if_pos h, neg_neg]
  · subst h; simp
  · rw [if_neg (by linarith), if_pos (by linarith), if_pos h, neg_neg]

theorem rnd_zero (p : Nat) : rnd p 0 = 0 := by simp [rnd]

theorem rnd_nonneg {p : Nat} (hp : 1 ≤ p) {x : ℝ} (hx : 0 ≤ x) : 0 ≤ rnd p x := by
  rcases eq_or_lt_of_le hx with h | h
  · rw [← h, rnd_zero]
  · rw [rnd_of_pos h]; exact (rndPos_pos hp h).le

theorem rnd_mono {p : Nat} (hp : 1 ≤ p) (x y : ℝ) (h : x ≤ y) : rnd p x ≤ rnd p y := by
  have hneg : ∀ z : ℝ, z ≤ 0 → rnd p z ≤ 0 := by
    intro z hz
    have := rnd_nonneg hp (x := -z) (by linarith)
    rw [rnd_neg] at this
    linarith
  rcases lt_or_ge 0 x with hx | hx
  · rw [rnd_of_pos hx, rnd_of_pos (lt_of_lt_of_le hx h)]
    exact rndPos_mono hp hx h
  · rcases lt_or_ge y 0 with hy | hy
    · have := rndPos_mono hp (x := -y) (y := -x) (by linarith) (by linarith)
      rw [← rnd_of_pos (by linarith), ← rnd_of_pos (x := -x) (by linarith), rnd_neg, rnd_neg] at this
      linarith
    · exact le_trans (hneg x hx) (rnd_nonneg hp hy)

/-- The relative error. -/
theorem rnd_err (p : Nat) (x : ℝ) : |rnd p x - x| ≤ |x| * (1 / 2) ^ p := by
  rcases lt_trichotomy x 0 with h | h | h
  · have h1 := rndPos_err (p := p) (x := -x) (by linarith)
    rw [← rnd_of_pos (by linarith), rnd_neg, ← abs_neg] at h1
    rw [abs_of_neg h]
    convert h1 using 2
    ring
  · subst h; simp [rnd_zero]
  · rw [rnd_of_pos h, abs_of_pos h]; exact rndPos_err h

theorem rnd_ge (p : Nat) {x : ℝ} (h : 0 ≤ x) : x * (1 - (1 / 2) ^ p) ≤ rnd p x := by
  have := (abs_le.mp (rnd_err p x)).1
  rw [abs_of_nonneg h] at this
  linarith

theorem rnd_le (p : Nat) {x : ℝ} (h : 0 ≤ x) : rnd p x ≤ x * (1 + (1 / 2) ^ p) := by
  have := (abs_le.mp (rnd_err p x)).2
  rw [abs_of_nonneg h] at this
  linarith

/-- What can be represented with `p` bits. -/
def Rep (p : Nat) (x : ℝ) : Prop := ∃ (m e : Int), |m| ≤ 2 ^ p ∧ x = (m : ℝ) * 2 ^ e

theorem rnd_rep {p : Nat} (hp : 1 ≤ p) (x : ℝ) : Rep p (rnd p x) := by
  have key : ∀ z : ℝ, 0 < z → Rep p (rndPos p z) := by
    intro z hz
    obtain ⟨m, e, h1, h2, h3⟩ := rndPos_form hp hz
    exact ⟨m, e, by rw [abs_of_pos h1]; exact h2, h3⟩
  unfold rnd
  split_ifs with h1 h2
  · exact key x h1
  · obtain ⟨m, e, h3, h4⟩ := key (-x) (by linarith)
    exact ⟨-m, e, by rw [abs_neg]; exact h3, by rw [h4]; push_cast; ring⟩
  · exact ⟨0, 0, by simp, by simp⟩

theorem rnd_of_rep {p : Nat} (hp : 1 ≤ p) {x : ℝ} (h : Rep p x) : rnd p x = x := by
  obtain ⟨m, e, hm, rfl⟩ := h
  have h2e : (0 : ℝ) < 2 ^ e := zpow_pos (by norm_num) _
  rcases lt_trichotomy m 0 with h | h | h
  · rw [abs_of_neg h] at hm
    have hneg : (m : ℝ) * 2 ^ e = -(((-m : Int) : ℝ) * 2 ^ e) := by push_cast; ring
    have hpos : (0 : ℝ) < ((-m : Int) : ℝ) * 2 ^ e := mul_pos (by exact_mod_cast (by omega : 0 < -m)) h2e
    rw [hneg, rnd_neg, rnd_of_pos hpos, rndPos_fixed hp (by omega) hm]
  · subst h; simp [rnd_zero]
  · rw [abs_of_pos h] at hm
    have hpos : (0 : ℝ) < (m : ℝ) * 2 ^ e := mul_pos (by exact_mod_cast h) h2e
    rw [rnd_of_pos hpos, rndPos_fixed hp h hm]

theorem rnd_idem {p : Nat} (hp : 1 ≤ p) (x : ℝ) : rnd p (rnd p x) = rnd p x := rnd_of_rep hp (rnd_rep hp x)

theorem rnd_twice {p : Nat} (hp : 1 ≤ p) (x : ℝ) : rnd p (2 * rnd p x) = 2 * rnd p x := by
  refine rnd_of_rep hp ?_
  obtain ⟨m, e, hm, h⟩ := rnd_rep hp x
  exact ⟨m, e + 1, hm, by rw [h, zpow_add₀ (by norm_num)]; ring⟩

/-- The rounding of binary floating point numbers with `p` bits, to nearest with ties to even; `double` has 53 bits. -/
noncomputable def rounding (p : Nat) (hp : 1 ≤ p) : Rounding ℝ :=
  ⟨rnd p, rnd_mono hp, rnd_idem hp, rnd_neg p, rnd_twice hp⟩

theorem log_cast {q : Rat} (hq : 0 < q) : Int.log 2 (q : ℝ) = Int.log 2 q := by
  have hq' : (0 : ℝ) < q := by exact_mod_cast hq
  obtain ⟨h1, h2⟩ := log_bounds hq'
  obtain ⟨h3, h4⟩ := Binary.log_bounds hq
  have h3' : (((2 : Rat) ^ Int.log 2 q : Rat) : ℝ) ≤ q := Rat.cast_le.mpr h3
  have h4' : (q : ℝ) < (((2 : Rat) ^ (Int.log 2 q + 1) : Rat) : ℝ) := Rat.cast_lt.mpr h4
  rw [Rat.cast_zpow, Rat.cast_ofNat] at h3' h4'
  have a1 := (zpow_lt_zpow_iff_right₀ (by norm_num : (1 : ℝ) < 2)).mp (h1.trans_lt h4')
  have a2 := (zpow_lt_zpow_iff_right₀ (by norm_num : (1 : ℝ) < 2)).mp (h3'.trans_lt h2)
  omega

theorem toInt_cast (q : Rat) : toInt (q : ℝ) = Binary.toInt q := by
  have e : ((q : ℝ) - ⌊q⌋) = ((q - ⌊q⌋ : Rat) : ℝ) := by push_cast; rfl
  have l1 : ((q : ℝ) - ⌊q⌋ < 1 / 2) ↔ (q - ⌊q⌋ < 1 / 2) := by rw [e, show (1 / 2 : ℝ) = ((1 / 2 : Rat) : ℝ) by norm_num, Rat.cast_lt]
  have l2 : (1 / 2 < (q : ℝ) - ⌊q⌋) ↔ (1 / 2 < q - ⌊q⌋) := by rw [e, show (1 / 2 : ℝ) = ((1 / 2 : Rat) : ℝ) by norm_num, Rat.cast_lt]
  unfold toInt Binary.toInt
  rw [Rat.floor_cast]
  simp only [l1, l2]

theorem rndPos_cast (p : Nat) {q : Rat} (hq : 0 < q) : rndPos p (q : ℝ) = (Binary.rndPos p q : ℝ) := by
  have hu : ulp p (q : ℝ) = ((Binary.ulp p q : Rat) : ℝ) := by unfold ulp Binary.ulp; rw [log_cast hq]; push_cast; rfl
  unfold rndPos Binary.rndPos
  rw [hu, ← Rat.cast_div, toInt_cast]
  push_cast
  rfl

/-- On rational numbers this is the rounding of `Binary.lean`. -/
theorem rnd_cast (p : Nat) (q : Rat) : rnd p (q : ℝ) = (Binary.rnd p q : ℝ) := by
  unfold rnd Binary.rnd
  rcases lt_trichotomy q 0 with h | h | h
  · have h' : (q : ℝ) < 0 := by exact_mod_cast h
    rw [if_neg (not_lt.mpr h'.le), if_pos h', if_neg (not_lt.mpr h.le), if_pos h, ← Rat.cast_neg, rndPos_cast p (by linarith)]
    push_cast
    rfl
  · subst h; simp
  · have h' : (0 : ℝ) < q := by exact_mod_cast h
    rw [if_pos h', if_pos h, rndPos_cast p h]

end Alexandria.RealBinary
