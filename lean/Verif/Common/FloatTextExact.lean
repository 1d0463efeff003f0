import Verif.Common.FloatTextLemmas

/-!
# How many digits make a floating point number readable exactly
-/

namespace Alexandria.FloatText

open Alexandria.Str

theorem log2_eq {x : Rat} {e : Int} (h1 : (2 : Rat) ^ e ≤ x) (h2 : x < (2 : Rat) ^ (e + 1)) : Int.log 2 x = e := by
  have hx : 0 < x := lt_of_lt_of_le (zpow_pos (by norm_num) e) h1
  obtain ⟨h3, h4⟩ := Binary.log_bounds hx
  have a : Int.log 2 x < e + 1 := (zpow_lt_zpow_iff_right₀ (by norm_num : (1 : Rat) < 2)).1 (lt_of_le_of_lt h3 h2)
  have b : e < Int.log 2 x + 1 := (zpow_lt_zpow_iff_right₀ (by norm_num : (1 : Rat) < 2)).1 (lt_of_le_of_lt h1 h4)
  omega

/-- The positive numbers of `p` bits, with a first bit that is set. -/
theorem rep_normal {p : Nat} (hp : 1 ≤ p) {x : Rat} (hx : 0 < x) (h : Binary.Rep p x) :
    ∃ m : Int, x = (m : Rat) * Binary.ulp p x ∧ 2 ^ (p - 1) ≤ m ∧ m < 2 ^ p := by
  have hr := Binary.rnd_of_rep hp h
  rw [Binary.rnd_of_pos hx, Binary.rndPos] at hr
  have hu := Binary.ulp_pos p x
  obtain ⟨h1, h2⟩ := Binary.log_bounds hx
  rw [Binary.log_div' hp x] at h1
  rw [Binary.log_div p x] at h2
  obtain ⟨m, hm⟩ : ∃ m, m = Binary.toInt (x / Binary.ulp p x) := ⟨_, rfl⟩
  rw [← hm] at hr
  refine ⟨m, hr.symm, ?_, ?_⟩
  · have h3 : (((2 : Int) ^ (p - 1) : Int) : Rat) * Binary.ulp p x ≤ (m : Rat) * Binary.ulp p x := by rw [hr]; exact h1
    exact_mod_cast le_of_mul_le_mul_right h3 hu
  · have h3 : (m : Rat) * Binary.ulp p x < (((2 : Int) ^ p : Int) : Rat) * Binary.ulp p x := by rw [hr]; exact h2
    exact_mod_cast lt_of_mul_lt_mul_right h3 hu.le

/-- A number near to one of `p` bits is rounded to it. -/
theorem rnd_near {p : Nat} (hp : 1 ≤ p) {x v : Rat} (hx : 0 < x) (h : Binary.Rep p x) (hv : |v - x| < x * (1 / 2) ^ (p + 1)) : Binary.rnd p v = x := by
  obtain ⟨m, hm, h1, h2⟩ := rep_normal hp hx h
  obtain ⟨u, hu⟩ : ∃ u, u = Binary.ulp p x := ⟨_, rfl⟩
  have hu0 : 0 < u := by rw [hu]; exact Binary.ulp_pos p x
  rw [← hu] at hm
  have hpow : (2 : Rat) ^ p * (1 / 2) ^ (p + 1) = 1 / 2 := by
    rw [pow_succ, ← mul_assoc, ← mul_pow]; norm_num
  have hm2 : (m : Rat) < 2 ^ p := by exact_mod_cast h2
  have hm1 : (2 : Rat) ^ (p - 1) ≤ m := by exact_mod_cast h1
  have hle : (m : Rat) ≤ 2 ^ p - 1 := by
    have : m ≤ 2 ^ p - 1 := by omega
    exact_mod_cast this
  have hsplit : (2 : Rat) ^ p = 2 * 2 ^ (p - 1) := by
    rw [← pow_succ']; congr 1; omega
  have hhalf0 : (0 : Rat) < (1 / 2) ^ (p + 1) := by positivity
  have hb : x * (1 / 2) ^ (p + 1) < u * (1 / 2) := by
    calc x * (1 / 2) ^ (p + 1) = m * u * (1 / 2) ^ (p + 1) := by rw [hm]
      _ < 2 ^ p * u * (1 / 2) ^ (p + 1) := by
        apply mul_lt_mul_of_pos_right _ hhalf0
        exact mul_lt_mul_of_pos_right hm2 hu0
      _ = u * (2 ^ p * (1 / 2) ^ (p + 1)) := by ring
      _ = u * (1 / 2) := by rw [hpow]
  have hq : (1 / 2 : Rat) ^ (p + 1) ≤ 1 / 2 := by
    calc (1 / 2 : Rat) ^ (p + 1) ≤ (1 / 2) ^ 1 := pow_le_pow_of_le_one (by norm_num) (by norm_num) (by omega)
      _ = 1 / 2 := by norm_num
  have hv0 : 0 < v := by
    have h3 : x * (1 / 2) ^ (p + 1) ≤ x * (1 / 2) := mul_le_mul_of_nonneg_left hq hx.le
    have := (abs_lt.1 hv).1
    linarith
  obtain ⟨hl, hr⟩ := abs_lt.1 hv
  have hE1 : (2 : Rat) ^ Int.log 2 x = 2 ^ (p - 1) * u := by
    rw [Binary.log_div' hp x, ← hu]; push_cast; rfl
  have hE2 : (2 : Rat) ^ (Int.log 2 x + 1) = 2 ^ p * u := by
    rw [Binary.log_div p x, ← hu]; push_cast; rfl
  rw [Binary.rnd_of_pos hv0, Binary.rndPos]
  by_cases hc : (2 : Rat) ^ Int.log 2 x ≤ v
  · have hlog : Int.log 2 v = Int.log 2 x := by
      apply log2_eq hc
      rw [hE2]
      calc v < x + u * (1 / 2) := by linarith
        _ ≤ (2 ^ p - 1) * u + u * (1 / 2) := by
          have := mul_le_mul_of_nonneg_right hle hu0.le
          rw [← hm] at this; linarith
        _ ≤ 2 ^ p * u := by nlinarith
    have hul : Binary.ulp p v = u := by rw [hu, Binary.ulp, Binary.ulp, hlog]
    rw [hul]
    have ht : Binary.toInt (v / u) = m := by
      apply toInt_eq
      have e : (m : Rat) - v / u = (x - v) / u := by
        rw [sub_div]
        congr 1
        rw [hm]; field_simp
      rw [e, abs_div, abs_of_pos hu0, div_lt_iff₀ hu0, abs_sub_comm]
      linarith
    rw [ht, hm]
  · have hc' : v < 2 ^ (p - 1) * u := by rw [← hE1]; exact not_le.1 hc
    have hmp : m = 2 ^ (p - 1) := by
      have h3 : (m : Rat) * u < (2 ^ (p - 1) + 1) * u := by
        rw [← hm]; nlinarith
      have h4 := lt_of_mul_lt_mul_right h3 hu0.le
      have h5 : m < 2 ^ (p - 1) + 1 := by exact_mod_cast h4
      omega
    have hxp : x = 2 ^ (p - 1) * u := by rw [hm, hmp]; push_cast; rfl
    have hlog : Int.log 2 v = Int.log 2 x - 1 := by
      apply log2_eq
      · rw [zpow_sub₀ (by norm_num), zpow_one, hE1, ← hxp]
        have h3 : x * (1 / 2) ^ (p + 1) ≤ x * (1 / 2) := mul_le_mul_of_nonneg_left hq hx.le
        linarith
      · rw [sub_add_cancel]; exact not_le.1 hc
    have hul : Binary.ulp p v = u / 2 := by
      rw [hu, Binary.ulp, Binary.ulp, hlog, eq_div_iff (by norm_num), ← zpow_add_one₀ (by norm_num)]
      congr 1; ring
    rw [hul]
    have hxv : |x - v| < u / 4 := by
      rw [abs_sub_comm]
      refine lt_of_lt_of_eq hv ?_
      rw [hxp]
      have : (2 : Rat) ^ (p - 1) * (1 / 2) ^ (p + 1) = 1 / 4 := by
        rw [hsplit] at hpow; linarith
      rw [mul_right_comm, this]; ring
    have ht : Binary.toInt (v / (u / 2)) = 2 ^ p := by
      apply toInt_eq
      have e : (((2 : Int) ^ p : Int) : Rat) - v / (u / 2) = (x - v) / (u / 2) := by
        rw [sub_div]
        congr 1
        rw [hxp]; push_cast; field_simp; rw [hsplit]; ring
      rw [e, abs_div, abs_of_pos (by linarith : 0 < u / 2), div_lt_iff₀ (by linarith)]
      linarith
    rw [ht, hxp]
    push_cast
    rw [hsplit]; ring

/-- `Binary.rnd` rounds to a nearest number of `p` bits. -/
theorem rnd_nearest {p : Nat} (hp : 1 ≤ p) (x : Rat) {y : Rat} (hy : Binary.Rep p y) : |Binary.rnd p x - x| ≤ |y - x| := by
  have key : ∀ x y : Rat, 0 < x → Binary.Rep p y → |Binary.rnd p x - x| ≤ |y - x| := fun x y hx hy => by
    rw [Binary.rnd_of_pos hx, Binary.rndPos]
    have hu := Binary.ulp_pos p x
    have hE1 := Binary.log_div' hp x
    have hxl := (Binary.log_bounds hx).1
    obtain ⟨L, hL⟩ : ∃ L, L = Int.log 2 x := ⟨_, rfl⟩
    have hul : Binary.ulp p x = 2 ^ (L + 1 - (p : Int)) := by rw [Binary.ulp, hL]
    rw [← hL] at hE1 hxl
    have mult : ∀ k : Int, |(Binary.toInt (x / Binary.ulp p x) : Rat) * Binary.ulp p x - x| ≤ |(k : Rat) * Binary.ulp p x - x| := fun k => by
      have hq : ∀ a : Rat, |a * Binary.ulp p x - x| = |a - x / Binary.ulp p x| * Binary.ulp p x := fun a => by
        rw [← abs_of_pos hu, ← abs_mul, sub_mul, abs_of_pos hu, div_mul_cancel₀ _ hu.ne']
      rw [hq, hq]
      exact mul_le_mul_of_nonneg_right (toInt_closest _ k) hu.le
    obtain ⟨m, e, hm, rfl⟩ := hy
    by_cases he : L + 1 - (p : Int) ≤ e
    · have h1 : (m : Rat) * 2 ^ e = ((m * 2 ^ (e - (L + 1 - (p : Int))).toNat : Int) : Rat) * Binary.ulp p x := by
        push_cast
        rw [hul, mul_assoc, ← zpow_natCast (2 : Rat), Int.toNat_of_nonneg (by omega), ← zpow_add₀ (by norm_num)]
        congr 2; omega
      rw [h1]
      exact mult _
    · have h1 : (m : Rat) * 2 ^ e ≤ 2 ^ L := by
        have h2 : (m : Rat) ≤ 2 ^ p := by
          have : m ≤ 2 ^ p := le_trans (le_abs_self m) hm
          exact_mod_cast this
        have h3 : (0 : Rat) < 2 ^ e := zpow_pos (by norm_num) e
        calc (m : Rat) * 2 ^ e ≤ 2 ^ p * 2 ^ e := mul_le_mul_of_nonneg_right h2 h3.le
          _ = 2 ^ ((p : Int) + e) := by rw [zpow_add₀ (by norm_num), zpow_natCast]
          _ ≤ 2 ^ L := zpow_le_zpow_right₀ (by norm_num) (by omega)
      refine le_trans (mult (2 ^ (p - 1))) ?_
      rw [← hE1, abs_sub_comm, abs_sub_comm _ x, abs_of_nonneg (by linarith), abs_of_nonneg (by linarith)]
      linarith
  rcases lt_trichotomy x 0 with h0 | h0 | h0
  · obtain ⟨m, e, h1, h2⟩ := hy
    have := key (-x) (-y) (by linarith) ⟨-m, e, by rwa [abs_neg], by rw [h2]; push_cast; ring⟩
    rw [Binary.rnd_neg] at this
    rw [show Binary.rnd p x - x = -(-Binary.rnd p x - -x) by ring, show y - x = -(-y - -x) by ring, abs_neg, abs_neg]
    exact this
  · rw [h0, Binary.rnd_zero]; simp
  · exact key x y h0 hy

/-- With `n` digits where `2 ^ p < 10 ^ (n - 1)`, numbers of `p` bits are read back exactly. -/
theorem rnd_dec {n p : Nat} (hn : 1 ≤ n) (hp : 1 ≤ p) (h : 2 ^ p < 10 ^ (n - 1)) {x : Rat} (hx : Binary.Rep p x) : Binary.rnd p (dec n x) = x := by
  have key : ∀ y : Rat, 0 < y → Binary.Rep p y → Binary.rnd p (dec n y) = y := fun y hy hr => by
    apply rnd_near hp hy hr
    refine lt_of_le_of_lt (dec_rel hn y) ?_
    rw [abs_of_pos hy]
    apply mul_lt_mul_of_pos_left _ hy
    have h10 : (10 : Rat) ^ n = 10 * 10 ^ (n - 1) := by rw [← pow_succ']; congr 1; omega
    have h2 : (2 : Rat) ^ p < 10 ^ (n - 1) := by exact_mod_cast h
    rw [h10, pow_succ, one_div_pow, div_lt_iff₀ (by positivity)]
    have hp2 : (0 : Rat) < 2 ^ p := by positivity
    rw [show (1 : Rat) / 2 ^ p * (1 / 2) * (10 * 10 ^ (n - 1)) = 5 * (10 ^ (n - 1) / 2 ^ p) by ring]
    have : (1 : Rat) < 10 ^ (n - 1) / 2 ^ p := by rwa [lt_div_iff₀ hp2, one_mul]
    linarith
  rcases lt_trichotomy x 0 with h0 | h0 | h0
  · have hr : Binary.Rep p (-x) := by
      obtain ⟨m, e, h1, h2⟩ := hx
      exact ⟨-m, e, by rwa [abs_neg], by rw [h2]; push_cast; ring⟩
    have := key (-x) (by linarith) hr
    rw [dec_neg, Binary.rnd_neg] at this
    linarith
  · rw [h0]
    have : dec n 0 = 0 := by simp [dec]
    rw [this, Binary.rnd_zero]
  · exact key x h0 hx

theorem parse_print_exact {n p : Nat} (hn : 1 ≤ n) (hp : 1 ≤ p) (h : 2 ^ p < 10 ^ (n - 1)) {x : Rat} (hx : Binary.Rep p x) :
    parse p (print n x) = some x := by
  rw [parse_print hn, rnd_dec hn hp h hx]

end Alexandria.FloatText
