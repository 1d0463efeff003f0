import Verif.MathUtils.AdaptiveRoundProps
import Verif.Common.RealBinary
import Verif.Physics.DistanceRoundModel
import Verif.Physics.DistanceProps

/-!
# C166: the comoving distance in floating point arithmetic
-/

namespace Alexandria.Physics

open Set MathUtils

/-! ## The rounding errors -/

/-- Repeated roundings of doubles. -/
theorem pow_rounding {u : ℝ} (hu : 0 ≤ u) (hu2 : u ≤ 1 / 2 ^ 53) (n : Nat) (hn : (n : ℝ) ≤ 2 ^ 49) : (1 + u) ^ n - 1 ≤ 9 / 8 * (n / 2 ^ 53) := by
  have h0 : (0 : ℝ) ≤ n := Nat.cast_nonneg n
  have h1 : 1 + (n : ℝ) * (-u) ≤ (1 + -u) ^ n := one_add_mul_le_pow (by norm_num at hu2; linarith) n
  have h2 : (n : ℝ) * u ≤ n / 2 ^ 53 := by rw [div_eq_mul_one_div]; exact mul_le_mul_of_nonneg_left hu2 h0
  have h3 : (n : ℝ) / 2 ^ 53 ≤ 1 / 9 := by rw [div_le_iff₀ (by positivity)]; linarith
  have h4 : (1 + u) ^ n * (1 + -u) ^ n ≤ 1 := by
    rw [← mul_pow]
    refine pow_le_one₀ ?_ ?_
    · norm_num at hu2; nlinarith
    · nlinarith
  have h5 : 0 ≤ (1 + u) ^ n := by positivity
  generalize (n : ℝ) / 2 ^ 53 = t at *
  have h6 : (1 + u) ^ n * (1 - t) ≤ 1 := (mul_le_mul_of_nonneg_left (by linarith) h5).trans h4
  generalize (1 + u) ^ n = B at *
  nlinarith [mul_nonneg (show (0 : ℝ) ≤ t by nlinarith [mul_nonneg h0 hu]) (show 0 ≤ 1 / 9 - t by linarith)]

variable {R : Rounding ℝ} {u : ℝ}

theorem rel_rnd (hu : 0 ≤ u) (hr : ∀ x, |R.rnd x - x| ≤ u * |x|) {x' x q : ℝ} (h : |x' - x| ≤ q * |x|) : |R.rnd x' - x| ≤ (q + u + u * q) * |x| := by
  have h1 := hr x'
  have h2 := abs_add_le (x' - x) x
  rw [sub_add_cancel] at h2
  have h3 := abs_add_le (R.rnd x' - x') (x' - x)
  rw [sub_add_sub_cancel] at h3
  have h4 := mul_le_mul_of_nonneg_left (h2.trans (add_le_add h le_rfl)) hu
  linarith

theorem rel_sqrt {x' x q : ℝ} (hx : 0 < x) (hx' : 0 ≤ x') (h : |x' - x| ≤ q * x) : |Real.sqrt x' - Real.sqrt x| ≤ q * Real.sqrt x := by
  have hs := Real.sqrt_pos.2 hx
  have hs' := Real.sqrt_nonneg x'
  have e : x' - x = (Real.sqrt x' - Real.sqrt x) * (Real.sqrt x' + Real.sqrt x) := by
    nlinarith [Real.mul_self_sqrt hx', Real.mul_self_sqrt hx.le]
  rw [e, abs_mul, abs_of_pos (show 0 < Real.sqrt x' + Real.sqrt x by linarith)] at h
  have h2 : |Real.sqrt x' - Real.sqrt x| * Real.sqrt x ≤ q * Real.sqrt x * Real.sqrt x := by
    rw [mul_assoc q, Real.mul_self_sqrt hx.le]
    exact (mul_le_mul_of_nonneg_left (by linarith) (abs_nonneg _)).trans h
  exact le_of_mul_le_mul_right h2 hs

theorem rel_inv {x' x q : ℝ} (hx : 0 < x) (hq : q < 1) (h : |x' - x| ≤ q * x) : 0 < x' ∧ |1 / x' - 1 / x| ≤ q / (1 - q) * (1 / x) := by
  have h1 : x * (1 - q) ≤ x' := by have := (abs_le.mp h).1; linarith
  have h2 : 0 < x * (1 - q) := mul_pos hx (by linarith)
  have hx' : 0 < x' := by linarith
  refine ⟨hx', ?_⟩
  have e : 1 / x' - 1 / x = (x - x') / (x' * x) := by field_simp
  rw [e, abs_div, abs_of_pos (mul_pos hx' hx), abs_sub_comm]
  have hq0 : 0 ≤ q * x := (abs_nonneg _).trans h
  calc |x' - x| / (x' * x) ≤ (q * x) / (x * (1 - q) * x) := div_le_div₀ hq0 h (mul_pos h2 hx) (mul_le_mul_of_nonneg_right h1 hx.le)
    _ = _ := by
      have : 1 - q ≠ 0 := by linarith
      field_simp

/-! ## The function that is integrated -/

theorem rad_low (m l y : ℝ) (hm : 0 ≤ m) (hl : 0 ≤ l) (hml : m + l ≤ 1) (hy : -(1 / 8) ≤ y) : 343 / 512 ≤ rad m l y := by
  have hX : 7 / 8 ≤ 1 + y := by linarith
  have h2 : (7 / 8 : ℝ) ^ 2 ≤ (1 + y) ^ 2 := pow_le_pow_left₀ (by norm_num) hX 2
  have h3 : (7 / 8 : ℝ) ^ 3 ≤ (1 + y) ^ 3 := pow_le_pow_left₀ (by norm_num) hX 3
  have p1 := mul_le_mul_of_nonneg_left h3 hm
  have p2 := mul_le_mul_of_nonneg_left h2 (show 0 ≤ 1 - m - l by linarith)
  unfold rad
  linarith

theorem inv_high (m l y : ℝ) (hm : 0 ≤ m) (hl : 0 ≤ l) (hml : m + l ≤ 1) (hy : -(1 / 8) ≤ y) : 0 < inv m l y ∧ inv m l y ≤ 5 / 4 := by
  have h := rad_low m l y hm hl hml hy
  have h1 : (4 / 5 : ℝ) ≤ Real.sqrt (rad m l y) := Real.le_sqrt_of_sq_le (by linarith)
  refine ⟨one_div_pos.mpr (by linarith), ?_⟩
  unfold inv
  rw [div_le_iff₀ (by linarith)]
  linarith

theorem inv_lipschitz (m l x y : ℝ) (hm : 0 ≤ m) (hl : 0 ≤ l) (hml : m + l ≤ 1) (hx : -(1 / 8) ≤ x) (hy : -(1 / 8) ≤ y) : |inv m l y - inv m l x| ≤ 5 / 2 * |y - x| := by
  have := Convex.norm_image_sub_le_of_norm_hasDerivWithin_le (f := inv m l) (s := Ici (-(1 / 8))) (C := 5 / 2)
    (f' := fun x => -(1 / 2) * inv m l x ^ 3 * (3 * m * (1 + x) ^ 2 + 2 * (1 - m - l) * (1 + x)))
    (fun x hx => (inv_deriv m l x (lt_of_lt_of_le (by norm_num) (rad_low m l x hm hl hml hx))).hasDerivWithinAt) (fun x hx => ?_) (convex_Ici _) hx hy
  · simpa [Real.norm_eq_abs] using this
  · have hx' : -(1 / 8) ≤ x := hx
    obtain ⟨i1, i2⟩ := inv_high m l x hm hl hml hx'
    have hr := rad_low m l x hm hl hml hx'
    have hs : inv m l x ^ 2 * rad m l x = 1 := by
      unfold inv
      rw [div_pow, one_pow, Real.sq_sqrt (by linarith)]
      field_simp
    have hX : 7 / 8 ≤ 1 + x := by linarith
    have hk : 0 ≤ 1 - m - l := by linarith
    have hA : 0 ≤ 3 * m * (1 + x) ^ 2 + 2 * (1 - m - l) * (1 + x) := by positivity
    -- the derivative of the radicand times (1 + x) is at most three times the radicand
    have hB : (3 * m * (1 + x) ^ 2 + 2 * (1 - m - l) * (1 + x)) * (1 + x) ≤ 3 * rad m l x := by
      unfold rad
      have : 0 ≤ (1 - m - l) * (1 + x) ^ 2 := by positivity
      nlinarith
    have hC : inv m l x ^ 2 * (3 * m * (1 + x) ^ 2 + 2 * (1 - m - l) * (1 + x)) ≤ 24 / 7 := by
      have h1 := mul_le_mul_of_nonneg_left hB (sq_nonneg (inv m l x))
      have h2 : inv m l x ^ 2 * (3 * rad m l x) = 3 := by linarith
      rw [h2] at h1
      have h3 := mul_nonneg (sq_nonneg (inv m l x)) hA
      nlinarith
    rw [Real.norm_eq_abs, abs_mul, abs_mul, abs_of_nonneg hA, abs_of_nonneg (pow_nonneg i1.le 3), show |(-(1 / 2) : ℝ)| = 1 / 2 by norm_num]
    have h4 : 0 ≤ inv m l x ^ 2 * (3 * m * (1 + x) ^ 2 + 2 * (1 - m - l) * (1 + x)) := mul_nonneg (sq_nonneg _) hA
    calc 1 / 2 * inv m l x ^ 3 * (3 * m * (1 + x) ^ 2 + 2 * (1 - m - l) * (1 + x)) =
          1 / 2 * (inv m l x * (inv m l x ^ 2 * (3 * m * (1 + x) ^ 2 + 2 * (1 - m - l) * (1 + x)))) := by ring
      _ ≤ 1 / 2 * (5 / 4 * (24 / 7)) := by gcongr
      _ ≤ 5 / 2 := by norm_num

/-- The rounded radicand. -/
theorem arg_close (hu : 0 ≤ u) (hr : ∀ x, |R.rnd x - x| ≤ u * |x|) (m l h y : ℝ) (hm : 0 ≤ m) (hl : 0 ≤ l) (hml : m + l ≤ 1) (hy : -(1 / 8) ≤ y) :
    Close u 8 (m * ((1 + y) * (1 + y) * (1 + y)) + (1 - m + l) * ((1 + y) * (1 + y)) + l)
      (R.rnd (R.rnd (R.rnd (m * R.rnd (R.rnd (R.rnd (1 + y) * R.rnd (1 + y)) * R.rnd (1 + y))) +
        R.rnd ((machineParams R m l h).omegaK * R.rnd (R.rnd (1 + y) * R.rnd (1 + y)))) + l)) (rad m l y) := by
  have c1 := (Close.refl u (1 + y)).rnd hu hr
  rw [abs_of_pos (show 0 < 1 + y by linarith)] at c1
  have sq := (c1.mul hu c1).rnd hu hr
  have cu := (sq.mul hu c1).rnd hu hr
  have k1 := (((Close.refl u (1 - m)).rnd hu hr).sub ((Close.refl u l).mono hu (by omega : 0 ≤ 1))).rnd hu hr
  rw [abs_of_nonneg (show 0 ≤ 1 - m by linarith), abs_of_nonneg hl] at k1
  have t1 := (cu.scale hu m).rnd hu hr
  have t2 := (k1.mul hu sq).rnd hu hr
  rw [abs_of_nonneg hm] at t1
  have t := (((t1.add t2).rnd hu hr).add ((Close.refl u l).mono hu (by omega : 0 ≤ 7))).rnd hu hr
  rw [abs_of_nonneg hl] at t
  have e : rad m l y = m * ((1 + y) * (1 + y) * (1 + y)) + (1 - m - l) * ((1 + y) * (1 + y)) + l := by unfold rad; ring
  rw [e]
  exact t

theorem adapter_close (hu : 0 ≤ u) (hu2 : u ≤ 1 / 2 ^ 53) (hr : ∀ x, |R.rnd x - x| ≤ u * |x|) (m l h y : ℝ) (hm : 0 ≤ m) (hl : 0 ≤ l) (hml : m + l ≤ 1) (hy : -(1 / 8) ≤ y) (hy2 : y ≤ 14) :
    ∃ v, machineAdapter R (machineParams R m l h) y = some v ∧ |v - inv m l y| ≤ 3 / 2 / 10 ^ 12 := by
  have hlow := rad_low m l y hm hl hml hy
  have ha := (arg_close hu hr m l h y hm hl hml hy).1
  unfold machineAdapter machineHubble
  show ∃ v, (do let e ← machineSqrt? R (R.rnd (R.rnd (R.rnd (m * R.rnd (R.rnd (R.rnd (1 + y) * R.rnd (1 + y)) * R.rnd (1 + y))) +
        R.rnd ((machineParams R m l h).omegaK * R.rnd (R.rnd (1 + y) * R.rnd (1 + y)))) + l)); machineDiv? R 1 e) = some v ∧ _
  generalize R.rnd (R.rnd (R.rnd (m * R.rnd (R.rnd (R.rnd (1 + y) * R.rnd (1 + y)) * R.rnd (1 + y))) +
        R.rnd ((machineParams R m l h).omegaK * R.rnd (R.rnd (1 + y) * R.rnd (1 + y)))) + l) = a at ha
  have hp8 : (1 + u) ^ 8 - 1 ≤ 9 / 8 * (8 / 2 ^ 53) := by have := pow_rounding hu hu2 8 (by norm_num); exact_mod_cast this
  have hp0 : 0 ≤ (1 + u) ^ 8 - 1 := by linarith [one_le_pow_u hu 8]
  have hA : m * ((1 + y) * (1 + y) * (1 + y)) + (1 - m + l) * ((1 + y) * (1 + y)) + l ≤ 700 * rad m l y := by
    have hX : 7 / 8 ≤ 1 + y := by linarith
    have e : m * ((1 + y) * (1 + y) * (1 + y)) + (1 - m + l) * ((1 + y) * (1 + y)) + l = rad m l y + 2 * l * (1 + y) ^ 2 := by unfold rad; ring
    have h2 : (1 + y) ^ 2 ≤ 15 ^ 2 := pow_le_pow_left₀ (by linarith) (by linarith) 2
    have h3 : l * (1 + y) ^ 2 ≤ 1 * 15 ^ 2 := mul_le_mul (by linarith) h2 (by positivity) (by norm_num)
    rw [e]
    linarith
  have hq : |a - rad m l y| ≤ 1 / 10 ^ 12 * rad m l y := by
    have h1 := mul_le_mul hp8 hA (by have : 0 ≤ 1 - m := by linarith
                                     have : 0 ≤ 1 + y := by linarith
                                     positivity) (by norm_num)
    have h2 := ha.trans h1
    norm_num at h2 ⊢
    linarith
  have hapos : 0 ≤ a := by
    have := (abs_le.mp hq).1
    norm_num at this
    linarith
  have hrp : 0 < rad m l y := by linarith
  have hs := rel_sqrt hrp hapos hq
  have hsp := Real.sqrt_pos.2 hrp
  rw [← abs_of_pos hsp, abs_of_pos hsp] at hs
  have hs2 := rel_rnd (R := R) hu hr (x' := Real.sqrt a) (x := Real.sqrt (rad m l y)) (q := 1 / 10 ^ 12) (by rw [abs_of_pos hsp]; exact hs)
  rw [abs_of_pos hsp] at hs2
  have hu3 : u ≤ 1 / 10 ^ 15 := by norm_num at hu2 ⊢; linarith
  have hq1 : 1 / 10 ^ 12 + u + u * (1 / 10 ^ 12) ≤ 101 / 10 ^ 14 := by norm_num at hu3 ⊢; linarith
  have hs3 := hs2.trans (mul_le_mul_of_nonneg_right hq1 hsp.le)
  obtain ⟨i1, i2⟩ := rel_inv hsp (by norm_num) hs3
  have hip := (inv_high m l y hm hl hml hy)
  have e1 : 1 / Real.sqrt (rad m l y) = inv m l y := rfl
  rw [e1] at i2
  have i3 := rel_rnd (R := R) hu hr (x' := 1 / R.rnd (Real.sqrt a)) (x := inv m l y) (q := 101 / 10 ^ 14 / (1 - 101 / 10 ^ 14)) (by rw [abs_of_pos hip.1]; exact i2)
  rw [abs_of_pos hip.1] at i3
  refine ⟨R.rnd (1 / R.rnd (Real.sqrt a)), ?_, i3.trans ?_⟩
  · rw [machineSqrt?, if_neg (not_lt.mpr hapos)]
    show machineDiv? R 1 (R.rnd (Real.sqrt a)) = _
    rw [machineDiv?, if_neg i1.ne']
  · have h5 : 101 / 10 ^ 14 / (1 - 101 / 10 ^ 14) + u + u * (101 / 10 ^ 14 / (1 - 101 / 10 ^ 14)) ≤ 6 / 5 / 10 ^ 12 := by norm_num at hu3 ⊢; linarith
    calc _ ≤ 6 / 5 / 10 ^ 12 * (5 / 4 : ℝ) := mul_le_mul h5 hip.2 hip.1.le (by norm_num)
      _ ≤ _ := by norm_num

theorem samples (hu : 0 ≤ u) (hu2 : u ≤ 1 / 2 ^ 53) (hr : ∀ x, |R.rnd x - x| ≤ u * |x|) (m l h z : ℝ) (hm : 0 ≤ m) (hl : 0 ≤ l) (hml : m + l ≤ 1) (hz : 0 ≤ z) (hz13 : z ≤ 13) :
    MathUtils.Spec.Samples u 0 z (fun x => (machineAdapter R (machineParams R m l h) x).getD 0) (inv m l) (2 / 10 ^ 12) 1 := by
  have hp : (1 + u) ^ 4 - 1 ≤ 9 / 8 * (4 / 2 ^ 53) := by have := pow_rounding hu hu2 4 (by norm_num); exact_mod_cast this
  have hp0 : 0 ≤ (1 + u) ^ 4 - 1 := by linarith [one_le_pow_u hu 4]
  have hd : MathUtils.Spec.displacement u 0 z ≤ 1 / 10 ^ 13 := by
    unfold MathUtils.Spec.displacement
    rw [abs_zero, zero_add, abs_of_nonneg hz]
    calc _ ≤ 9 / 8 * (4 / 2 ^ 53) * (2 * (13 : ℝ)) := mul_le_mul hp (by linarith) (by linarith) (by norm_num)
      _ ≤ _ := by norm_num
  constructor
  · intro x h0 _
    rw [abs_of_pos (inv_pos m l x hm (by linarith) h0)]
    exact inv_le_one m l x hm (by linarith) h0
  · intro x y h0 h1 hxy
    have hxy' := hxy.trans hd
    have h2 := abs_le.mp hxy'
    have h3 : (1 : ℝ) / 10 ^ 13 ≤ 1 / 8 := by norm_num
    obtain ⟨v, e, hv⟩ := adapter_close hu hu2 hr m l h y hm hl hml (by linarith [h2.1]) (by linarith [h2.2])
    have hL := inv_lipschitz m l x y hm hl hml (by linarith) (by linarith [h2.1])
    show |(machineAdapter R (machineParams R m l h) y).getD 0 - inv m l x| ≤ _
    rw [e, Option.getD_some]
    have h4 := abs_add_le (v - inv m l y) (inv m l y - inv m l x)
    rw [sub_add_sub_cancel] at h4
    norm_num at hxy' hv ⊢
    linarith

theorem mostRoundings_pow (hu : 0 ≤ u) (hu2 : u ≤ 1 / 2 ^ 53) {n : Nat} (hn : n ≤ MathUtils.Spec.mostRoundings) : (1 + u) ^ n - 1 ≤ 7 / 10 ^ 8 := by
  have e : ((MathUtils.Spec.mostRoundings : Nat) : ℝ) = 536870917 := by unfold MathUtils.Spec.mostRoundings; norm_num
  have h1 : (n : ℝ) ≤ 536870917 := by rw [← e]; exact_mod_cast hn
  have h2 := pow_rounding hu hu2 n (h1.trans (by norm_num))
  generalize (1 + u) ^ n = B at *
  norm_num at h2 ⊢
  linarith

/-! ## The comoving distance -/

theorem machineIntegral_iff (hu : 0 ≤ u) (hu2 : u ≤ 1 / 2 ^ 53) (hr : ∀ x, |R.rnd x - x| ≤ u * |x|) (precision m l h z i : ℝ) (hm : 0 ≤ m) (hl : 0 ≤ l) (hml : m + l ≤ 1) (hz : 0 ≤ z)
    (hz13 : z ≤ 13) : machineIntegral R precision (machineAdapter R (machineParams R m l h)) 0 z = some i ↔
      machineAdaptive R precision 3 (fun x => (machineAdapter R (machineParams R m l h) x).getD 0) 0 z = .ok i := by
  rw [machineIntegral, if_pos]
  · cases machineAdaptive R precision 3 (fun x => (machineAdapter R (machineParams R m l h) x).getD 0) 0 z <;> simp
  · intro x h1 h2
    rw [min_eq_left hz] at h1
    rw [max_eq_right hz] at h2
    obtain ⟨v, e, _⟩ := adapter_close hu hu2 hr m l h x hm hl hml (by linarith) (by linarith)
    rw [e]; rfl

theorem machineComoving_iff (hu : 0 ≤ u) (hu2 : u ≤ 1 / 2 ^ 53) (hr : ∀ x, |R.rnd x - x| ≤ u * |x|) (c precision m l h z d : ℝ) (isZero : ℝ → Bool) (hh : h ≠ 0) (hm : 0 ≤ m) (hl : 0 ≤ l)
    (hml : m + l ≤ 1) (hz : 0 ≤ z) (hz13 : z ≤ 13) (hz0 : isZero z = false) : machineComoving R c isZero precision z (machineParams R m l h) = some d ↔
      ∃ v, machineAdaptive R precision 3 (fun x => (machineAdapter R (machineParams R m l h) x).getD 0) 0 z = .ok v ∧ d = R.rnd (R.rnd (R.rnd (c * 1000) / h) * v) := by
  have e : machineHubbleDistance R c (machineParams R m l h) = some (R.rnd (R.rnd (c * 1000) / h)) := if_neg hh
  unfold machineComoving
  rw [hz0, e]
  show (do let i ← machineIntegral R precision (machineAdapter R (machineParams R m l h)) 0 z; return R.rnd (R.rnd (R.rnd (c * 1000) / h) * i)) = some d ↔ _
  constructor
  · intro h1
    cases hi : machineIntegral R precision (machineAdapter R (machineParams R m l h)) 0 z with
    | none => rw [hi] at h1; cases h1
    | some i =>
      rw [hi] at h1
      exact ⟨i, (machineIntegral_iff hu hu2 hr precision m l h z i hm hl hml hz hz13).1 hi, (Option.some.inj h1).symm⟩
  · rintro ⟨v, h1, rfl⟩
    rw [(machineIntegral_iff hu hu2 hr precision m l h z v hm hl hml hz hz13).2 h1]
    rfl

/-- **C166 (error).** In flat and open models up to redshift 13, on doubles: the computed comoving distance differs from the exact one at most as much as with exact arithmetic, and by another
`2e-7` of the distance of the Hubble law. -/
theorem C166_comoving (hu : 0 ≤ u) (hu2 : u ≤ 1 / 2 ^ 53) (hr : ∀ x, |R.rnd x - x| ≤ u * |x|) (c precision m l h z d : ℝ) (isZero : ℝ → Bool) (hc : 0 < c) (hh : 0 < h) (hm : 0 ≤ m)
    (hl : 0 ≤ l) (hml : m + l ≤ 1) (hz : 0 ≤ z) (hz13 : z ≤ 13) (hz0 : isZero z = false) (hd : machineComoving R c isZero precision z (machineParams R m l h) = some d) :
    ∃ e, comovingDistance (exactEnv c) z (mkParams m l h) = some e ∧ |d - e| ≤ (1275 / 12 * (z / 16) ^ 4 + 2 / 10 ^ 7) * (c * 1000 / h * z) := by
  have hl1 : l ≤ 1 := by linarith
  obtain ⟨v, hv, rfl⟩ := (machineComoving_iff hu hu2 hr c precision m l h z d isZero hh.ne' hm hl hml hz hz13 hz0).1 hd
  refine ⟨_, C54_comoving c z m l h hh.ne' (fun x hx => rad_pos m l x hm hl1 (uIcc_nonneg hz hx)), ?_⟩
  show |R.rnd (R.rnd (R.rnd (c * 1000) / h) * v) - c * 1000 / h * los m l z| ≤ _
  have hb : (1 + u) ^ MathUtils.Spec.mostRoundings ≤ 13 / 12 := by have := mostRoundings_pow hu hu2 le_rfl; norm_num at this; linarith
  obtain ⟨k, w, _, k1, k2, _, k3, _⟩ := C166_result hu hb hr _ _ _ _ _ _ _ _ hz (samples hu hu2 hr m l h z hm hl hml hz hz13) _ hv
  have k1' : 3 ≤ k := by omega
  obtain ⟨f1, f2, f3, f4, hs⟩ := inv_smooth m l z hm hl hml
  have k4 := Quadrature.smooth_error hs hz (2 ^ (k + 1)) (pow_ge (by omega : 3 ≤ k + 1))
  have e0 : ∫ y in (0 : ℝ)..z, inv m l y = los m l z := rfl
  rw [e0, sub_zero] at k4
  have hN : (16 : ℝ) ≤ ((2 ^ (k + 1) : Nat) : ℝ) := by exact_mod_cast (pow_ge (by omega : 4 ≤ k + 1) : 2 ^ 4 ≤ 2 ^ (k + 1))
  have k5 : (z / ((2 ^ (k + 1) : Nat) : ℝ)) ^ 4 ≤ (z / 16) ^ 4 := pow_le_pow_left₀ (by positivity) (div_le_div_of_nonneg_left hz (by norm_num) hN) 4
  have k6 : MathUtils.Spec.adaptiveError u 0 z (2 / 10 ^ 12) 1 k ≤ z * (19 / 10 ^ 8) := by
    unfold MathUtils.Spec.adaptiveError
    rw [sub_zero]
    refine mul_le_mul_of_nonneg_left ?_ hz
    have := mostRoundings_pow hu hu2 (le_mostRoundings (by omega : k ≤ 29))
    generalize (1 + u) ^ (2 ^ k + 5) - 1 = B at *
    norm_num at this ⊢
    linarith
  have k7 := mul_le_mul_of_nonneg_left k5 (show 0 ≤ 1275 * z by linarith)
  have k8 := abs_add_le (v - MathUtils.Spec.rule (inv m l) 0 z (2 ^ (k + 1))) (MathUtils.Spec.rule (inv m l) 0 z (2 ^ (k + 1)) - los m l z)
  rw [sub_add_sub_cancel] at k8
  have hvI : |v - los m l z| ≤ z * (1275 / 12 * (z / 16) ^ 4 + 19 / 10 ^ 8) := by linarith
  have hI0 : 0 ≤ los m l z := intervalIntegral.integral_nonneg hz fun x hx => one_div_nonneg.mpr (Real.sqrt_nonneg _)
  -- the value is at most the length and its error
  have hvz : |v| ≤ z * (1 + 19 / 10 ^ 8) := by
    have r1 := rule_bound hz (G := 1) (g := inv m l) (fun x h0 _ => by
      rw [abs_of_pos (inv_pos m l x hm hl1 h0)]
      exact inv_le_one m l x hm hl1 h0) (pow_ge (by omega : 3 ≤ k + 1))
    have r2 := abs_add_le (v - MathUtils.Spec.rule (inv m l) 0 z (2 ^ (k + 1))) (MathUtils.Spec.rule (inv m l) 0 z (2 ^ (k + 1)))
    rw [sub_add_cancel] at r2
    linarith
  have hD : 0 < c * 1000 / h := by positivity
  have cD := (((Close.refl u (c * 1000)).rnd hu hr).div hu h).rnd hu hr
  rw [abs_of_pos (by positivity : 0 < c * 1000), abs_of_pos hh] at cD
  have c3 := ((cD.mul hu (Close.refl u v)).rnd hu hr).1
  have hp3 : (1 + u) ^ (2 + 0 + 1) - 1 ≤ 9 / 8 * (3 / 2 ^ 53) := by have := pow_rounding hu hu2 3 (by norm_num); exact_mod_cast this
  generalize c * 1000 / h = D at *
  have q1 : ((1 + u) ^ (2 + 0 + 1) - 1) * (D * |v|) ≤ 9 / 8 * (3 / 2 ^ 53) * (D * (z * (1 + 19 / 10 ^ 8))) :=
    mul_le_mul hp3 (mul_le_mul_of_nonneg_left hvz hD.le) (by positivity) (by norm_num)
  have q2 := mul_le_mul_of_nonneg_left hvI hD.le
  rw [← abs_of_pos hD, ← abs_mul, abs_of_pos hD, mul_sub] at q2
  have q3 := abs_add_le (R.rnd (R.rnd (R.rnd (c * 1000) / h) * v) - D * v) (D * v - D * los m l z)
  rw [sub_add_sub_cancel] at q3
  have q4 := mul_nonneg hD.le hz
  norm_num at q1 q2 ⊢
  linarith

/-- **C166 (there is a result).** With the default precision, in flat and open models up to redshift 13, there is a result on doubles. -/
theorem C166_default (hu : 0 ≤ u) (hu2 : u ≤ 1 / 2 ^ 53) (hr : ∀ x, |R.rnd x - x| ≤ u * |x|) (c m l h z : ℝ) (isZero : ℝ → Bool) (hh : h ≠ 0) (hm : 0 ≤ m)
    (hl : 0 ≤ l) (hml : m + l ≤ 1) (hz : 0 ≤ z) (hz13 : z ≤ 13) : ∃ d, machineComoving R c isZero (1 / 10000000) z (machineParams R m l h) = some d := by
  by_cases hz0 : isZero z = true
  · exact ⟨0, by unfold machineComoving; rw [if_pos hz0]⟩
  have hz0' : isZero z = false := by simpa using hz0
  have hl1 : l ≤ 1 := by linarith
  have hb : (1 + u) ^ MathUtils.Spec.mostRoundings ≤ 13 / 12 := by have := mostRoundings_pow hu hu2 le_rfl; norm_num at this; linarith
  obtain ⟨f1, f2, f3, f4, hs⟩ := inv_smooth m l z hm hl hml
  have a1 := Quadrature.smooth_error hs hz (2 ^ (16 + 1)) (pow_ge (by omega : 3 ≤ 16 + 1))
  have a2 := Quadrature.smooth_error hs hz (2 ^ 16) (pow_ge (by omega : 3 ≤ 16))
  have hsq : Real.sqrt (rad m l z) ≤ 53 := by
    have h1 : rad m l z ≤ (53 : ℝ) ^ 2 := by
      have u1 : (1 + z) ^ 2 ≤ 14 ^ 2 := pow_le_pow_left₀ (by linarith) (by linarith) 2
      have u2 : (1 + z) ^ 3 ≤ 14 ^ 3 := pow_le_pow_left₀ (by linarith) (by linarith) 3
      have p1 := mul_le_mul_of_nonneg_left u2 hm
      have p2 := mul_le_mul_of_nonneg_left u1 (show 0 ≤ 1 - m - l by linarith)
      unfold rad
      linarith
    have h2 := Real.sqrt_le_sqrt h1
    rwa [Real.sqrt_sq (by norm_num)] at h2
  have hinv : ∀ x ∈ Icc (0 : ℝ) z, 1 / 53 ≤ inv m l x := fun x hx =>
    (one_div_le_one_div_of_le (Real.sqrt_pos.2 (rad_pos m l z hm hl1 hz)) hsq).trans (inv_anti m l z hm hl1 hx ⟨hz, le_rfl⟩ hx.2)
  have a3 := (Quadrature.rule_between (f := inv m l) (lo := 1 / 53) (hi := 1) hz (fun x hx => ⟨hinv x hx, inv_le_one m l x hm hl1 hx.1⟩) (2 ^ 16) (pow_ge (by omega : 3 ≤ 16))).1
  have a4 : MathUtils.Spec.adaptiveError u 0 z (2 / 10 ^ 12) 1 16 ≤ z * (3 / 10 ^ 11) := by
    unfold MathUtils.Spec.adaptiveError
    rw [sub_zero]
    refine mul_le_mul_of_nonneg_left ?_ hz
    have := pow_rounding hu hu2 (2 ^ 16 + 5) (by norm_num)
    generalize (1 + u) ^ (2 ^ 16 + 5) - 1 = B at *
    norm_num at this ⊢
    linarith
  have a5 : ∀ N : Nat, 2 ^ 16 ≤ N → 1275 * (z - 0) * ((z - 0) / (N : ℝ)) ^ 4 / 12 ≤ z * (2 / 10 ^ 13) := fun N hN => by
    have hN' : (2 : ℝ) ^ 16 ≤ N := by exact_mod_cast hN
    have h1 : (z / (N : ℝ)) ^ 4 ≤ (13 / 2 ^ 16) ^ 4 := pow_le_pow_left₀ (by positivity) (div_le_div₀ (by norm_num) hz13 (by norm_num) hN') 4
    have h2 := mul_le_mul_of_nonneg_left h1 hz
    rw [sub_zero]
    norm_num at h2 ⊢
    linarith
  have b1 := a1.trans (a5 _ (pow_ge (by omega : 16 ≤ 16 + 1)))
  have b2 := a2.trans (a5 _ le_rfl)
  obtain ⟨v, k, hv, _⟩ := C166_ends hu hb hr _ _ 0 z _ _ (1 / 10000000) hz (by norm_num) (samples hu hu2 hr m l h z hm hl hml hz hz13) 3 16 (by omega) (by omega) (by omega) (by
    generalize MathUtils.Spec.rule (inv m l) 0 z (2 ^ (16 + 1)) = s at *
    generalize MathUtils.Spec.rule (inv m l) 0 z (2 ^ 16) = t at *
    generalize MathUtils.Spec.adaptiveError u 0 z (2 / 10 ^ 12) 1 16 = E at *
    have c1 := abs_add_le (s - ∫ y in (0 : ℝ)..z, inv m l y) ((∫ y in (0 : ℝ)..z, inv m l y) - t)
    rw [sub_add_sub_cancel, abs_sub_comm (∫ y in (0 : ℝ)..z, inv m l y) t] at c1
    have c2 : (1 + u) ^ 2 ≤ 2 := by
      have : u ≤ 1 / 4 := hu2.trans (by norm_num)
      nlinarith
    have c3 := le_abs_self t
    have c4 : |s - t| + 2 * E ≤ z * (7 / 10 ^ 11) := by norm_num at b1 b2 a4 ⊢; linarith
    calc (|s - t| + 2 * E) * (1 + u) ^ 2 ≤ z * (7 / 10 ^ 11) * (1 + u) ^ 2 := mul_le_mul_of_nonneg_right c4 (by positivity)
      _ ≤ z * (7 / 10 ^ 11) * 2 := mul_le_mul_of_nonneg_left c2 (by positivity)
      _ ≤ 1 / 10000000 * (|t| - E) := by norm_num at a3 a4 ⊢; linarith)
  exact ⟨_, (machineComoving_iff hu hu2 hr c _ m l h z _ isZero hh hm hl hml hz hz13 hz0').2 ⟨v, by exact_mod_cast hv, rfl⟩⟩

/-- Doubles, with the parameters of the Planck mission: the comoving distance at redshift 1 has a value, which is right up to 0.17 percent of the Hubble law (the exact arithmetic of the rule) and rounding. -/
example : ∃ d e, machineComoving (RealBinary.rounding 53 (by decide)) 299792458 (fun x => decide (x = 0)) (1 / 10000000) 1
      (machineParams (RealBinary.rounding 53 (by decide)) (3089 / 10000) (6911 / 10000) (6774 / 100)) = some d ∧
    comovingDistance (exactEnv 299792458) 1 (mkParams (3089 / 10000) (6911 / 10000) (6774 / 100)) = some e ∧ |d - e| ≤ 17 / 10000 * (299792458 * 1000 / (6774 / 100)) := by
  have hr : ∀ x, |(RealBinary.rounding 53 (by decide)).rnd x - x| ≤ (1 / 2 ^ 53) * |x| := fun x => by
    have := RealBinary.rnd_err 53 x
    rw [mul_comm, one_div_pow] at this
    exact this
  obtain ⟨d, hd⟩ := C166_default (by norm_num) le_rfl hr 299792458 (3089 / 10000) (6911 / 10000) (6774 / 100) 1 (fun x => decide (x = 0)) (by norm_num) (by norm_num) (by norm_num) (by norm_num)
    (by norm_num) (by norm_num)
  obtain ⟨e, he, hb⟩ := C166_comoving (by norm_num) le_rfl hr 299792458 _ (3089 / 10000) (6911 / 10000) (6774 / 100) 1 d _ (by norm_num) (by norm_num) (by norm_num) (by norm_num) (by norm_num)
    (by norm_num) (by norm_num) (by simp) hd
  refine ⟨d, e, hd, he, hb.trans ?_⟩
  norm_num

end Alexandria.Physics
