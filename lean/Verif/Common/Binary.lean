import Verif.Common.Rounding
import Mathlib.Algebra.Order.Field.Rat
import Mathlib.Algebra.Order.Floor.Ring
import Mathlib.Data.Rat.Floor
import Mathlib.Data.Int.Log
import Mathlib.Tactic.Linarith
import Mathlib.Tactic.Ring
import Mathlib.Tactic.Positivity
import Mathlib.Tactic.FieldSimp
import Mathlib.Tactic.ByContra

/-!
# Rounding to the nearest binary floating point number

`rnd p x` is the number with a significand of `p` bits that is nearest to `x`; of two nearest ones the one with the even significand
(IEEE 754, `roundTiesToEven`). The exponent is unbounded: neither overflow nor subnormal numbers. `double` has `p = 53`.
-/

namespace Alexandria.Binary

/-- To the nearest integer, ties to even. -/
def toInt (q : Rat) : Int :=
  if q - ⌊q⌋ < 1 / 2 then ⌊q⌋ else if 1 / 2 < q - ⌊q⌋ then ⌊q⌋ + 1 else if ⌊q⌋ % 2 = 0 then ⌊q⌋ else ⌊q⌋ + 1

/-- The unit in the last place of a positive number: a power of two. -/
def ulp (p : Nat) (x : Rat) : Rat := (2 : Rat) ^ (Int.log 2 x + 1 - p)

/-- Rounding of positive numbers. -/
def rndPos (p : Nat) (x : Rat) : Rat := toInt (x / ulp p x) * ulp p x

def rnd (p : Nat) (x : Rat) : Rat := if 0 < x then rndPos p x else if x < 0 then -rndPos p (-x) else 0

theorem toInt_ge (q : Rat) : ⌊q⌋ ≤ toInt q := by unfold toInt; split_ifs <;> omega

theorem toInt_le (q : Rat) : toInt q ≤ ⌊q⌋ + 1 := by unfold toInt; split_ifs <;> omega

theorem toInt_int (n : Int) : toInt (n : Rat) = n := by
  unfold toInt
  rw [Int.floor_intCast, if_pos (by norm_num)]

theorem toInt_mono {a b : Rat} (h : a ≤ b) : toInt a ≤ toInt b := by
  have hf := Int.floor_le_floor h
  rcases eq_or_lt_of_le hf with he | hlt
  · unfold toInt
    rw [← he]
    split_ifs <;> first | omega | (exfalso; linarith)
  · exact le_trans (toInt_le a) (le_trans (by omega) (toInt_ge b))

theorem ulp_pos (p : Nat) (x : Rat) : 0 < ulp p x := zpow_pos (by norm_num) _

theorem log_bounds {x : Rat} (hx : 0 < x) : (2 : Rat) ^ Int.log 2 x ≤ x ∧ x < (2 : Rat) ^ (Int.log 2 x + 1) := by
  have h1 := Int.zpow_log_le_self (b := 2) (by norm_num) hx
  have h2 := Int.lt_zpow_succ_log_self (b := 2) (by norm_num) x
  exact ⟨by exact_mod_cast h1, by exact_mod_cast h2⟩

theorem log_div (p : Nat) (x : Rat) : (2 : Rat) ^ (Int.log 2 x + 1) = ((2 ^ p : Int) : Rat) * ulp p x := by
  unfold ulp
  push_cast
  rw [← zpow_natCast, ← zpow_add₀ (by norm_num)]
  congr 1
  ring

theorem log_div' {p : Nat} (hp : 1 ≤ p) (x : Rat) : (2 : Rat) ^ Int.log 2 x = ((2 ^ (p - 1) : Int) : Rat) * ulp p x := by
  unfold ulp
  push_cast
  rw [← zpow_natCast, ← zpow_add₀ (by norm_num)]
  congr 1
  push_cast [Nat.cast_sub hp]
  ring

/-- The rounded number is in the same binade, or at its upper end. -/
theorem rndPos_bounds {p : Nat} (hp : 1 ≤ p) {x : Rat} (hx : 0 < x) : (2 : Rat) ^ Int.log 2 x ≤ rndPos p x ∧ rndPos p x ≤ (2 : Rat) ^ (Int.log 2 x + 1) := by
  obtain ⟨h1, h2⟩ := log_bounds hx
  have hu := ulp_pos p x
  constructor
  · rw [log_div' hp] at h1 ⊢
    have h3 : ((2 ^ (p - 1) : Int) : Rat) ≤ x / ulp p x := by rw [le_div_iff₀ hu]; exact h1
    have h4 := toInt_mono h3
    rw [toInt_int] at h4
    exact mul_le_mul_of_nonneg_right (by exact_mod_cast h4) hu.le
  · rw [log_div p] at h2 ⊢
    have h3 : x / ulp p x ≤ ((2 ^ p : Int) : Rat) := by rw [div_le_iff₀ hu]; exact h2.le
    have h4 := toInt_mono h3
    rw [toInt_int] at h4
    exact mul_le_mul_of_nonneg_right (by exact_mod_cast h4) hu.le

theorem rndPos_pos {p : Nat} (hp : 1 ≤ p) {x : Rat} (hx : 0 < x) : 0 < rndPos p x :=
  lt_of_lt_of_le (zpow_pos (by norm_num) _) (rndPos_bounds hp hx).1

theorem rndPos_mono {p : Nat} (hp : 1 ≤ p) {x y : Rat} (hx : 0 < x) (h : x ≤ y) : rndPos p x ≤ rndPos p y := by
  have hy : 0 < y := lt_of_lt_of_le hx h
  have hl : Int.log 2 x ≤ Int.log 2 y := Int.log_mono_right hx h
  rcases eq_or_lt_of_le hl with he | hlt
  · have hu : ulp p x = ulp p y := by unfold ulp; rw [he]
    unfold rndPos
    rw [hu]
    have := toInt_mono ((div_le_div_iff_of_pos_right (ulp_pos p y)).mpr h)
    exact mul_le_mul_of_nonneg_right (by exact_mod_cast this) (ulp_pos p y).le
  · refine le_trans (rndPos_bounds hp hx).2 (le_trans ?_ (rndPos_bounds hp hy).1)
    exact zpow_le_zpow_right₀ (by norm_num) (by omega)

/-- Numbers with a significand of at most `p` bits are left alone. -/
theorem rndPos_fixed {p : Nat} (hp : 1 ≤ p) {m : Int} {e : Int} (hm : 0 < m) (hm' : m ≤ 2 ^ p) : rndPos p ((m : Rat) * 2 ^ e) = (m : Rat) * 2 ^ e := by
  obtain ⟨x, hxd⟩ : ∃ x : Rat, x = (m : Rat) * 2 ^ e := ⟨_, rfl⟩
  have h2e : (0 : Rat) < 2 ^ e := zpow_pos (by norm_num) _
  have hmq : (0 : Rat) < m := by exact_mod_cast hm
  have hx : 0 < x := by rw [hxd]; positivity
  -- the quotient by the unit in the last place is an integer
  have hint : ∃ n : Int, x / ulp p x = n := by
    obtain ⟨h1, _⟩ := log_bounds hx
    have hle : x ≤ (2 : Rat) ^ (p + e : Int) := by
      rw [hxd, zpow_add₀ (by norm_num), zpow_natCast]
      exact mul_le_mul_of_nonneg_right (by exact_mod_cast hm') h2e.le
    have hlog : Int.log 2 x ≤ p + e := by
      by_contra hc
      have : (2 : Rat) ^ (p + e : Int) < (2 : Rat) ^ Int.log 2 x := zpow_lt_zpow_right₀ (by norm_num) (by omega)
      linarith
    rcases eq_or_lt_of_le hlog with he | hlt
    · have hxe : x = (2 : Rat) ^ (p + e : Int) := le_antisymm hle (by rw [he] at h1; exact h1)
      refine ⟨2 ^ (p - 1), ?_⟩
      rw [div_eq_iff (ulp_pos p x).ne', ← log_div' hp, he]
      exact hxe
    · have hk : 0 ≤ e - (Int.log 2 x + 1 - p) := by omega
      obtain ⟨k, hk'⟩ := Int.eq_ofNat_of_zero_le hk
      refine ⟨m * 2 ^ k, ?_⟩
      rw [div_eq_iff (ulp_pos p x).ne']
      conv_lhs => rw [hxd]
      unfold ulp
      push_cast
      rw [mul_assoc, ← zpow_natCast, ← zpow_add₀ (by norm_num)]
      congr 2
      omega
  rw [← hxd]
  obtain ⟨n, hn⟩ := hint
  unfold rndPos
  rw [hn, toInt_int, ← hn, div_mul_cancel₀ _ (ulp_pos p x).ne']

/-- A rounded number has a significand of at most `p` bits. -/
theorem rndPos_form {p : Nat} (hp : 1 ≤ p) {x : Rat} (hx : 0 < x) : ∃ (m e : Int), 0 < m ∧ m ≤ 2 ^ p ∧ rndPos p x = (m : Rat) * 2 ^ e := by
  refine ⟨toInt (x / ulp p x), Int.log 2 x + 1 - p, ?_, ?_, rfl⟩
  · have h := rndPos_pos hp hx
    unfold rndPos at h
    have := (mul_pos_iff_of_pos_right (ulp_pos p x)).mp h
    exact_mod_cast this
  · have h3 : x / ulp p x ≤ ((2 ^ p : Int) : Rat) := by
      rw [div_le_iff₀ (ulp_pos p x), ← log_div]
      exact (log_bounds hx).2.le
    have h4 := toInt_mono h3
    rwa [toInt_int] at h4

theorem toInt_err (q : Rat) : |(toInt q : Rat) - q| ≤ 1 / 2 := by
  have h1 := Int.floor_le q
  have h2 := Int.lt_floor_add_one q
  unfold toInt
  rw [abs_le]
  split_ifs <;> push_cast <;> constructor <;> linarith

theorem rndPos_err {p : Nat} {x : Rat} (hx : 0 < x) : |rndPos p x - x| ≤ x * (1 / 2) ^ p := by
  have hu := ulp_pos p x
  have e : rndPos p x - x = ((toInt (x / ulp p x) : Rat) - x / ulp p x) * ulp p x := by
    unfold rndPos
    rw [sub_mul, div_mul_cancel₀ _ hu.ne']
  rw [e, abs_mul, abs_of_pos hu]
  have h1 := mul_le_mul_of_nonneg_right (toInt_err (x / ulp p x)) hu.le
  refine le_trans h1 ?_
  have h2 := (log_bounds hx).1
  have h3 : (1 / 2 : Rat) * ulp p x = (2 : Rat) ^ Int.log 2 x * (1 / 2) ^ p := by
    unfold ulp
    rw [show Int.log 2 x + 1 - (p : Int) = Int.log 2 x + (1 + -(p : Int)) by ring, zpow_add₀ (by norm_num), zpow_add₀ (by norm_num), zpow_neg, zpow_natCast, zpow_one,
      one_div, inv_pow]
    ring
  rw [h3]
  exact mul_le_mul_of_nonneg_right h2 (by positivity)

theorem rnd_of_pos {p : Nat} {x : Rat} (hx : 0 < x) : rnd p x = rndPos p x := if_pos hx

theorem rnd_neg (p : Nat) (x : Rat) : rnd p (-x) = -rnd p x := by
  unfold rnd
  rcases lt_trichotomy x 0 with h | h | h
  · rw [if_pos (by linarith), if_neg (by linarith), if_pos h, neg_neg]
  · subst h; simp
  · rw [if_neg (by linarith), if_pos (by linarith), if_pos h, neg_neg]

theorem rnd_zero (p : Nat) : rnd p 0 = 0 := by simp [rnd]

theorem rnd_nonneg {p : Nat} (hp : 1 ≤ p) {x : Rat} (hx : 0 ≤ x) : 0 ≤ rnd p x := by
  rcases eq_or_lt_of_le hx with h | h
  · rw [← h, rnd_zero]
  · rw [rnd_of_pos h]; exact (rndPos_pos hp h).le

theorem rnd_mono {p : Nat} (hp : 1 ≤ p) (x y : Rat) (h : x ≤ y) : rnd p x ≤ rnd p y := by
  have hneg : ∀ z : Rat, z ≤ 0 → rnd p z ≤ 0 := by
    intro z hz
    have := rnd_nonneg hp (x := -z) (by linarith)
    rw [rnd_neg] at this
    linarith
  rcases lt_or_ge 0 x with hx | hx
  · rw [rnd_of_pos hx, rnd_of_pos (lt_of_lt_of_le hx h)]
    exact rndPos_mono hp hx h
  · rcases lt_or_ge y 0 with hy | hy
    · have := rndPos_mono hp (x := -y) (y := -x) (by linarith) (by linarith)
      rw [← rnd_of_pos (by linarith), ← rnd_of_pos (x := -x) (by linarith), rnd_neg, rnd_neg] at this
      linarith
    · exact le_trans (hneg x hx) (rnd_nonneg hp hy)

/-- The relative error. -/
theorem rnd_err (p : Nat) (x : Rat) : |rnd p x - x| ≤ |x| * (1 / 2) ^ p := by
  rcases lt_trichotomy x 0 with h | h | h
  · have h1 := rndPos_err (p := p) (x := -x) (by linarith)
    rw [← rnd_of_pos (by linarith), rnd_neg, ← abs_neg] at h1
    rw [abs_of_neg h]
    convert h1 using 2
    ring
  · subst h; simp [rnd_zero]
  · rw [rnd_of_pos h, abs_of_pos h]; exact rndPos_err h

theorem rnd_ge (p : Nat) {x : Rat} (h : 0 ≤ x) : x * (1 - (1 / 2) ^ p) ≤ rnd p x := by
  have := (abs_le.mp (rnd_err p x)).1
  rw [abs_of_nonneg h] at this
  linarith

theorem rnd_le (p : Nat) {x : Rat} (h : 0 ≤ x) : rnd p x ≤ x * (1 + (1 / 2) ^ p) := by
  have := (abs_le.mp (rnd_err p x)).2
  rw [abs_of_nonneg h] at this
  linarith

/-- The error of numbers up to a power of two. -/
theorem rnd_err_pow {p : Nat} (hp : 1 ≤ p) {k : Int} {x : Rat} (h0 : 0 ≤ x) (h : x ≤ 2 ^ (k + 1)) : |rnd p x - x| ≤ 2 ^ k * (1 / 2) ^ p := by
  have hr : (0 : Rat) ≤ 2 ^ k * (1 / 2) ^ p := mul_nonneg (zpow_nonneg (by norm_num) _) (by positivity)
  rcases eq_or_lt_of_le h0 with h0 | h0
  · rw [← h0, rnd_zero]; simpa using hr
  rcases eq_or_lt_of_le h with h | h
  · have : rndPos p x = x := by
      have := rndPos_fixed hp (m := 1) (e := k + 1) (by norm_num) (by exact_mod_cast Nat.one_le_two_pow)
      rw [h]; simpa using this
    rw [rnd_of_pos h0, this]; simpa using hr
  rw [rnd_of_pos h0]
  have hu := ulp_pos p x
  have e : rndPos p x - x = ((toInt (x / ulp p x) : Rat) - x / ulp p x) * ulp p x := by
    unfold rndPos
    rw [sub_mul, div_mul_cancel₀ _ hu.ne']
  rw [e, abs_mul, abs_of_pos hu]
  refine le_trans (mul_le_mul_of_nonneg_right (toInt_err (x / ulp p x)) hu.le) ?_
  have h3 : (1 / 2 : Rat) * ulp p x = (2 : Rat) ^ Int.log 2 x * (1 / 2) ^ p := by
    unfold ulp
    rw [show Int.log 2 x + 1 - (p : Int) = Int.log 2 x + (1 + -(p : Int)) by ring, zpow_add₀ (by norm_num), zpow_add₀ (by norm_num), zpow_neg, zpow_natCast, zpow_one,
      one_div, inv_pow]
    ring
  rw [h3]
  refine mul_le_mul_of_nonneg_right (zpow_le_zpow_right₀ (by norm_num) ?_) (by positivity)
  by_contra hc
  have h4 : (2 : Rat) ^ (k + 1) ≤ 2 ^ Int.log 2 x := zpow_le_zpow_right₀ (by norm_num) (by omega)
  linarith [(log_bounds h0).1]

/-- Up to half a unit in the last place above a power of two is rounded to it: its significand is even. -/
theorem rnd_le_pow {p : Nat} (hp : 2 ≤ p) {k : Int} {x : Rat} (h : x ≤ 2 ^ k * (1 + (1 / 2) ^ p)) : rnd p x ≤ 2 ^ k := by
  have h2k : (0 : Rat) < 2 ^ k := zpow_pos (by norm_num) _
  have hfix : rnd p ((2 : Rat) ^ k) = 2 ^ k := by
    rw [rnd_of_pos h2k]
    have := rndPos_fixed (p := p) (by omega) (m := 1) (e := k) (by norm_num) (by exact_mod_cast Nat.one_le_two_pow)
    simpa using this
  rcases le_or_gt x (2 ^ k) with hx | hx
  · exact (rnd_mono (by omega) _ _ hx).trans hfix.le
  have h0 : 0 < x := h2k.trans hx
  have hlt : x < 2 ^ (k + 1) := by
    have h5 : ((1 : Rat) / 2) ^ p ≤ (1 / 2) ^ 2 := pow_le_pow_of_le_one (by norm_num) (by norm_num) hp
    rw [zpow_add₀ (by norm_num), zpow_one]
    nlinarith
  have hlog : Int.log 2 x = k := by
    obtain ⟨h1, h2⟩ := log_bounds h0
    apply le_antisymm
    · by_contra hc
      have h4 : (2 : Rat) ^ (k + 1) ≤ 2 ^ Int.log 2 x := zpow_le_zpow_right₀ (by norm_num) (by omega)
      linarith
    · by_contra hc
      have h4 : (2 : Rat) ^ (Int.log 2 x + 1) ≤ 2 ^ k := zpow_le_zpow_right₀ (by norm_num) (by omega)
      linarith
  have hul : (2 : Rat) ^ k = ((2 ^ (p - 1) : Int) : Rat) * ulp p x := by rw [← log_div' (by omega), hlog]
  have hu := ulp_pos p x
  have hup : ulp p x = 2 * (2 ^ k * (1 / 2) ^ p) := by
    unfold ulp
    rw [hlog, show k + 1 - (p : Int) = k + (1 + -(p : Int)) by ring, zpow_add₀ (by norm_num), zpow_add₀ (by norm_num), zpow_neg, zpow_natCast, zpow_one, one_div, inv_pow]
    ring
  have hq1 : x / ulp p x ≤ ((2 ^ (p - 1) : Int) : Rat) + 1 / 2 := by
    rw [div_le_iff₀ hu, add_mul, ← hul]
    linarith
  have hq0 : ((2 ^ (p - 1) : Int) : Rat) ≤ x / ulp p x := by
    rw [le_div_iff₀ hu, ← hul]; exact hx.le
  have hfl : ⌊x / ulp p x⌋ = 2 ^ (p - 1) := by
    rw [Int.floor_eq_iff]
    exact ⟨hq0, by linarith⟩
  rw [rnd_of_pos h0, rndPos, hul]
  refine mul_le_mul_of_nonneg_right ?_ hu.le
  have : toInt (x / ulp p x) = 2 ^ (p - 1) := by
    unfold toInt
    rw [hfl]
    by_cases h6 : x / ulp p x - ((2 ^ (p - 1) : Int) : Rat) < 1 / 2
    · rw [if_pos h6]
    · rw [if_neg h6, if_neg (by linarith), if_pos]
      obtain ⟨n, hn⟩ : ∃ n, p - 1 = n + 1 := ⟨p - 2, by omega⟩
      rw [hn, pow_succ]
      omega
  rw [this]

/-- What can be represented with `p` bits. -/
def Rep (p : Nat) (x : Rat) : Prop := ∃ (m e : Int), |m| ≤ 2 ^ p ∧ x = (m : Rat) * 2 ^ e

theorem rnd_rep {p : Nat} (hp : 1 ≤ p) (x : Rat) : Rep p (rnd p x) := by
  have key : ∀ z : Rat, 0 < z → Rep p (rndPos p z) := by
    intro z hz
    obtain ⟨m, e, h1, h2, h3⟩ := rndPos_form hp hz
    exact ⟨m, e, by rw [abs_of_pos h1]; exact h2, h3⟩
  unfold rnd
  split_ifs with h1 h2
  · exact key x h1
  · obtain ⟨m, e, h3, h4⟩ := key (-x) (by linarith)
    exact ⟨-m, e, by rw [abs_neg]; exact h3, by rw [h4]; push_cast; ring⟩
  · exact ⟨0, 0, by simp, by simp⟩

theorem rnd_of_rep {p : Nat} (hp : 1 ≤ p) {x : Rat} (h : Rep p x) : rnd p x = x := by
  obtain ⟨m, e, hm, rfl⟩ := h
  have h2e : (0 : Rat) < 2 ^ e := zpow_pos (by norm_num) _
  rcases lt_trichotomy m 0 with h | h | h
  · rw [abs_of_neg h] at hm
    have hneg : (m : Rat) * 2 ^ e = -(((-m : Int) : Rat) * 2 ^ e) := by push_cast; ring
    have hpos : (0 : Rat) < ((-m : Int) : Rat) * 2 ^ e := mul_pos (by exact_mod_cast (by omega : 0 < -m)) h2e
    rw [hneg, rnd_neg, rnd_of_pos hpos, rndPos_fixed hp (by omega) hm]
  · subst h; simp [rnd_zero]
  · rw [abs_of_pos h] at hm
    have hpos : (0 : Rat) < (m : Rat) * 2 ^ e := mul_pos (by exact_mod_cast h) h2e
    rw [rnd_of_pos hpos, rndPos_fixed hp h hm]

theorem rnd_idem {p : Nat} (hp : 1 ≤ p) (x : Rat) : rnd p (rnd p x) = rnd p x := rnd_of_rep hp (rnd_rep hp x)

theorem rnd_twice {p : Nat} (hp : 1 ≤ p) (x : Rat) : rnd p (2 * rnd p x) = 2 * rnd p x := by
  refine rnd_of_rep hp ?_
  obtain ⟨m, e, hm, h⟩ := rnd_rep hp x
  exact ⟨m, e + 1, hm, by rw [h, zpow_add₀ (by norm_num)]; ring⟩

/-- Whole numbers of at most `p` bits are represented. -/
theorem rep_nat {p n : Nat} (h : n ≤ 2 ^ p) : Rep p (n : Rat) :=
  ⟨n, 0, by rw [abs_of_nonneg (by positivity)]; exact_mod_cast h, by simp⟩

/-- The rounding of binary floating point numbers with `p` bits, to nearest with ties to even; `double` has 53 bits. -/
def rounding (p : Nat) (hp : 1 ≤ p) : Rounding Rat :=
  ⟨rnd p, rnd_mono hp, rnd_idem hp, rnd_neg p, rnd_twice hp⟩

theorem rounding_half (p : Nat) (hp : 1 ≤ p) : (rounding p hp).rnd (1 / 2) = 1 / 2 :=
  rnd_of_rep hp ⟨1, -1, by rw [abs_one]; exact_mod_cast Nat.one_le_two_pow, by norm_num⟩

theorem rep_pow (p : Nat) (k : Int) : Rep p ((2 : Rat) ^ k) :=
  ⟨1, k, by rw [abs_one]; exact_mod_cast Nat.one_le_two_pow, by simp⟩

end Alexandria.Binary
