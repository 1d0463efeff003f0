import Verif.Physics.Props

/-!
# Distances in curved models as functions of the curvature
-/

namespace Alexandria.Physics

open Set

/-- The transverse distance at comoving distance `y`, both in units of the Hubble distance, where the square of `a` is the curvature. -/
noncomputable def bend (a y : ℝ) : ℝ := if a = 0 then y else Real.sinh (a * y) / a

theorem bend_deriv (a y : ℝ) : HasDerivAt (bend a) (Real.cosh (a * y)) y := by
  by_cases ha : a = 0
  · subst ha
    have e : bend 0 = id := by funext y; simp [bend]
    rw [e, zero_mul, Real.cosh_zero]
    exact hasDerivAt_id y
  · have e : bend a = fun y => Real.sinh (a * y) / a := by funext y; simp [bend, ha]
    rw [e]
    have h1 : HasDerivAt (fun y : ℝ => a * y) a y := by simpa using (hasDerivAt_id y).const_mul a
    have h2 := (h1.sinh).div_const a
    rwa [mul_div_assoc, div_self ha, mul_one] at h2

theorem bend_zero (a : ℝ) : bend a 0 = 0 := by unfold bend; simp

theorem bend_lip {a M y y' : ℝ} (ha : 0 ≤ a) (hy : |y| ≤ M) (hy' : |y'| ≤ M) : |bend a y' - bend a y| ≤ Real.cosh (a * M) * |y' - y| := by
  have := Convex.norm_image_sub_le_of_norm_hasDerivWithin_le (f := bend a) (s := Icc (-M) M) (C := Real.cosh (a * M)) (f' := fun y => Real.cosh (a * y))
    (fun x _ => (bend_deriv a x).hasDerivWithinAt) (fun x hx => ?_) (convex_Icc (-M) M) (abs_le.mp hy) (abs_le.mp hy')
  · simpa [Real.norm_eq_abs] using this
  · have hx' : |x| ≤ M := abs_le.mpr hx
    rw [Real.norm_eq_abs, abs_of_pos (Real.cosh_pos _), Real.cosh_le_cosh, abs_mul, abs_mul, abs_of_nonneg ha, abs_of_nonneg ((abs_nonneg x).trans hx')]
    exact mul_le_mul_of_nonneg_left hx' ha

theorem le_bend {a y : ℝ} (ha : 0 ≤ a) (hy : 0 ≤ y) : y ≤ bend a y := by
  unfold bend
  by_cases h : a = 0
  · rw [if_pos h]
  · rw [if_neg h, le_div_iff₀ (lt_of_le_of_ne ha (Ne.symm h)), mul_comm]
    exact Real.self_le_sinh_iff.2 (mul_nonneg ha hy)

theorem bend_abs {a M y : ℝ} (ha : 0 ≤ a) (hy : |y| ≤ M) : |bend a y| ≤ Real.cosh (a * M) * |y| := by
  have := bend_lip ha (y := 0) (by rw [abs_zero]; exact (abs_nonneg y).trans hy) hy
  rwa [bend_zero, sub_zero, sub_zero] at this

theorem sinh_le_mul_cosh {x : ℝ} (hx : 0 ≤ x) : Real.sinh x ≤ x * Real.cosh x := by
  have := bend_abs (a := 1) (M := x) zero_le_one (abs_of_nonneg hx).le
  rw [bend, if_neg one_ne_zero, div_one, one_mul, abs_of_nonneg hx] at this
  linarith [le_abs_self (Real.sinh x)]

/-- The increase of the hyperbolic cosine. -/
theorem cosh_sub_le {p q : ℝ} (hq : 0 ≤ q) (hpq : q ≤ p) : 0 ≤ Real.cosh p - Real.cosh q ∧ Real.cosh p - Real.cosh q ≤ (p ^ 2 - q ^ 2) / 2 * Real.cosh p := by
  set A := (p + q) / 2 with hA
  set B := (p - q) / 2 with hB
  have hA0 : 0 ≤ A := by rw [hA]; linarith
  have hB0 : 0 ≤ B := by rw [hB]; linarith
  have e1 : p = A + B := by rw [hA, hB]; ring
  have e2 : q = A - B := by rw [hA, hB]; ring
  have h1 : Real.cosh p - Real.cosh q = 2 * (Real.sinh A * Real.sinh B) := by rw [e1, e2, Real.cosh_add, Real.cosh_sub]; ring
  have sA := Real.sinh_nonneg_iff.2 hA0
  have sB := Real.sinh_nonneg_iff.2 hB0
  have h2 : Real.sinh A * Real.sinh B ≤ A * Real.cosh A * (B * Real.cosh B) :=
    mul_le_mul (sinh_le_mul_cosh hA0) (sinh_le_mul_cosh hB0) sB (mul_nonneg hA0 (Real.cosh_pos A).le)
  have h3 : Real.cosh A * Real.cosh B ≤ Real.cosh p := by
    rw [e1, Real.cosh_add]
    linarith [mul_nonneg sA sB]
  have h4 := mul_le_mul_of_nonneg_left h3 (mul_nonneg hA0 hB0)
  have e3 : p ^ 2 - q ^ 2 = 4 * (A * B) := by rw [e1, e2]; ring
  rw [h1, e3]
  refine ⟨mul_nonneg (by norm_num) (mul_nonneg sA sB), ?_⟩
  linarith

/-- How the transverse distance depends on the curvature. -/
theorem bend_sub {a b y : ℝ} (hb : 0 ≤ b) (hab : b ≤ a) (hy : 0 ≤ y) : |bend a y - bend b y| ≤ (a ^ 2 - b ^ 2) / 2 * y ^ 3 * Real.cosh (a * y) := by
  have hsq : 0 ≤ a ^ 2 - b ^ 2 := by nlinarith
  have := Convex.norm_image_sub_le_of_norm_hasDerivWithin_le (f := fun t => bend a t - bend b t) (s := Icc 0 y)
    (C := (a ^ 2 - b ^ 2) / 2 * y ^ 2 * Real.cosh (a * y)) (f' := fun t => Real.cosh (a * t) - Real.cosh (b * t))
    (fun x _ => ((bend_deriv a x).sub (bend_deriv b x)).hasDerivWithinAt) (fun x hx => ?_) (convex_Icc 0 y) ⟨le_rfl, hy⟩ ⟨hy, le_rfl⟩
  · simp only [bend_zero, sub_zero, Real.norm_eq_abs] at this
    rw [abs_of_nonneg hy] at this
    calc _ ≤ _ := this
      _ = _ := by ring
  · obtain ⟨h1, h2⟩ := cosh_sub_le (mul_nonneg hb hx.1) (mul_le_mul_of_nonneg_right hab hx.1)
    rw [Real.norm_eq_abs, abs_of_nonneg h1]
    refine h2.trans ?_
    have ha := hb.trans hab
    have c1 : Real.cosh (a * x) ≤ Real.cosh (a * y) := by
      rw [Real.cosh_le_cosh, abs_of_nonneg (mul_nonneg ha hx.1), abs_of_nonneg (mul_nonneg ha hy)]
      exact mul_le_mul_of_nonneg_left hx.2 ha
    have c2 : x ^ 2 ≤ y ^ 2 := pow_le_pow_left₀ hx.1 hx.2 2
    have c3 : ((a * x) ^ 2 - (b * x) ^ 2) / 2 ≤ (a ^ 2 - b ^ 2) / 2 * y ^ 2 := by
      have := mul_le_mul_of_nonneg_left c2 hsq
      nlinarith
    exact mul_le_mul c3 c1 (Real.cosh_pos _).le (mul_nonneg (by linarith) (sq_nonneg y))

/-- In open models the comoving distance is at most the logarithm of the redshift, in units of the radius of curvature. -/
theorem los_log (m l z : ℝ) (hm : 0 ≤ m) (hl : 0 ≤ l) (hml : m + l ≤ 1) (hz : 0 ≤ z) : Real.sqrt (1 - m - l) * los m l z ≤ Real.log (1 + z) := by
  set k := 1 - m - l with hk
  have hk0 : 0 ≤ k := by rw [hk]; linarith
  have hl1 : l ≤ 1 := by linarith
  unfold los
  rw [← intervalIntegral.integral_const_mul]
  have h1 : ∫ x in (0 : ℝ)..z, Real.sqrt k * (1 / Real.sqrt (rad m l x)) ≤ ∫ x in (0 : ℝ)..z, (fun y => 1 / y) (1 + x) := by
    refine intervalIntegral.integral_mono_on hz ?_ ?_ fun x hx => ?_
    · exact ((integrand_cont m l z fun x hx => rad_pos m l x hm hl1 (uIcc_nonneg hz hx)).const_smul (Real.sqrt k)).intervalIntegrable
    · refine ContinuousOn.intervalIntegrable ?_
      refine continuousOn_const.div (by fun_prop) fun x hx => ?_
      have := uIcc_nonneg hz hx
      linarith
    · have hx1 : 0 < 1 + x := by linarith [hx.1]
      have h2 : k * (1 + x) ^ 2 ≤ rad m l x := by
        unfold rad
        have := mul_nonneg hm (pow_nonneg hx1.le 3)
        linarith
      have h3 : Real.sqrt k * (1 + x) ≤ Real.sqrt (rad m l x) := by
        have := Real.sqrt_le_sqrt h2
        rwa [Real.sqrt_mul hk0, Real.sqrt_sq hx1.le] at this
      show Real.sqrt k * (1 / Real.sqrt (rad m l x)) ≤ 1 / (1 + x)
      rw [mul_one_div, div_le_div_iff₀ (Real.sqrt_pos.2 (rad_pos m l x hm hl1 hx.1)) hx1, one_mul]
      exact h3
  rw [intervalIntegral.integral_comp_add_left (fun y => 1 / y) 1, integral_one_div_of_pos (by norm_num) (by linarith)] at h1
  simpa using h1

/-- The exact transverse distance of flat and open models. -/
theorem exact_transverse (c z m l h : ℝ) (hc : 0 < c) (hh : 0 < h) (hm : 0 ≤ m) (hl : 0 ≤ l) (hml : m + l ≤ 1) (hz : 0 ≤ z) :
    transverseDistance (exactEnv c) z (mkParams m l h) = some (c * 1000 / h * bend (Real.sqrt (1 - m - l)) (los m l z)) := by
  have hl1 : l ≤ 1 := by linarith
  have hd := C54_comoving c z m l h hh.ne' (fun x hx => rad_pos m l x hm hl1 (uIcc_nonneg hz hx))
  have hd' : comovingDistance (exactEnv c) z (mkParams m l h) = some (c * 1000 / h * los m l z) := hd
  by_cases hk : 1 - m - l = 0
  · rw [C54_flat _ z m l h (by simp [exactEnv, hk]), hd', hk, Real.sqrt_zero, bend, if_pos rfl]
  · have hk0 : 0 < 1 - m - l := lt_of_le_of_ne (by linarith) (Ne.symm hk)
    have hs := Real.sqrt_pos.2 hk0
    rw [transverse_eq (exactEnv c) z m l h _ hh.ne' hc.ne' (by simp [exactEnv, hk]) hk hd', if_pos hk0, abs_of_pos hk0, bend, if_neg hs.ne']
    have hD : 0 < c * 1000 / h := by positivity
    show some (c * 1000 / h / Real.sqrt (1 - m - l) * Real.sinh (c * 1000 / h * los m l z / (c * 1000 / h / Real.sqrt (1 - m - l)))) = _
    generalize c * 1000 / h = D at *
    congr 1
    have : D * los m l z / (D / Real.sqrt (1 - m - l)) = Real.sqrt (1 - m - l) * los m l z := by field_simp
    rw [this]
    ring

end Alexandria.Physics
