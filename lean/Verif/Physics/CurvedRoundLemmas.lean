import Mathlib.Analysis.Complex.ExponentialBounds
import Verif.Physics.CurvedLemmas
import Verif.Physics.CurvedRoundModel
import Verif.Physics.DistanceRoundProps

/-!
# Rounding errors of the distances in curved models
-/

namespace Alexandria.Physics

open Set MathUtils

/-! ## Relative errors -/

theorem rel_mul {x' x y' y p q : ℝ} (hx : |x' - x| ≤ p * |x|) (hy : |y' - y| ≤ q * |y|) : |x' * y' - x * y| ≤ (p + q + p * q) * |x * y| := by
  have e : x' * y' - x * y = (x' - x) * y + x * (y' - y) + (x' - x) * (y' - y) := by ring
  have h1 := abs_add_le ((x' - x) * y + x * (y' - y)) ((x' - x) * (y' - y))
  have h2 := abs_add_le ((x' - x) * y) (x * (y' - y))
  rw [abs_mul, abs_mul] at h2
  rw [abs_mul (x' - x) (y' - y)] at h1
  have h3 := mul_le_mul_of_nonneg_right hx (abs_nonneg y)
  have h4 := mul_le_mul_of_nonneg_left hy (abs_nonneg x)
  have h5 := mul_le_mul hx hy (abs_nonneg _) ((abs_nonneg _).trans hx)
  rw [e, abs_mul x y]
  linarith

theorem rel_div {x' x y' y p q : ℝ} (hy0 : 0 < y) (hq0 : 0 ≤ q) (hq : q ≤ 1 / 10 ^ 6) (hx : |x' - x| ≤ p * |x|) (hy : |y' - y| ≤ q * y) :
    0 < y' ∧ |x' / y' - x / y| ≤ (p + 11 / 10 * q + p * (11 / 10 * q)) * |x / y| := by
  obtain ⟨h1, h2⟩ := rel_inv hy0 (by norm_num at hq; linarith) hy
  have h3 : q / (1 - q) ≤ 11 / 10 * q := by
    rw [div_le_iff₀ (by norm_num at hq; linarith)]
    norm_num at hq
    nlinarith
  have h4 : |1 / y' - 1 / y| ≤ 11 / 10 * q * |1 / y| := by
    rw [abs_of_pos (one_div_pos.mpr hy0)]
    exact h2.trans (mul_le_mul_of_nonneg_right h3 (one_div_pos.mpr hy0).le)
  refine ⟨h1, ?_⟩
  have := rel_mul hx h4
  rwa [mul_one_div, mul_one_div] at this

theorem rel_mono {x' x p q : ℝ} (h : |x' - x| ≤ p * |x|) (hpq : p ≤ q) : |x' - x| ≤ q * |x| := h.trans (mul_le_mul_of_nonneg_right hpq (abs_nonneg x))

variable {R : Rounding ℝ} {u : ℝ}

/-! ## The comoving distance -/

/-- The error of the integration, as a part of the distance of the Hubble law. -/
noncomputable def Spec.integrationError (z : ℝ) : ℝ := min (5 / 128) (1275 / 12 * (z / 16) ^ 4)

theorem comoving_coarse (hu : 0 ≤ u) (hu2 : u ≤ 1 / 2 ^ 53) (hr : ∀ x, |R.rnd x - x| ≤ u * |x|) (c precision m l h z d : ℝ) (isZero : ℝ → Bool) (hc : 0 < c) (hh : 0 < h) (hm : 0 ≤ m)
    (hl : 0 ≤ l) (hml : m + l ≤ 1) (hz : 0 ≤ z) (hz13 : z ≤ 13) (hz0 : isZero z = false) (hd : machineComoving R c isZero precision z (machineParams R m l h) = some d) :
    |d - c * 1000 / h * los m l z| ≤ (5 / 128 + 2 / 10 ^ 7) * (c * 1000 / h * z) := by
  have hl1 : l ≤ 1 := by linarith
  obtain ⟨v, hv, rfl⟩ := (machineComoving_iff hu hu2 hr c precision m l h z d isZero hh.ne' hm hl hml hz hz13 hz0).1 hd
  have hb : (1 + u) ^ MathUtils.Spec.mostRoundings ≤ 13 / 12 := by have := mostRoundings_pow hu hu2 le_rfl; norm_num at this; linarith
  obtain ⟨k, w, _, k1, k2, _, k3, _⟩ := C166_result hu hb hr _ _ _ _ _ _ _ _ hz (samples hu hu2 hr m l h z hm hl hml hz hz13) _ hv
  have k1' : 3 ≤ k := by omega
  have k4 := Quadrature.antitone_error (inv_anti m l z hm hl1) hz (2 ^ (k + 1)) (pow_ge (by omega : 3 ≤ k + 1))
  have e0 : ∫ y in (0 : ℝ)..z, inv m l y = los m l z := rfl
  rw [e0, sub_zero, inv_zero] at k4
  have hN : (16 : ℝ) ≤ ((2 ^ (k + 1) : Nat) : ℝ) := by exact_mod_cast (pow_ge (by omega : 4 ≤ k + 1) : 2 ^ 4 ≤ 2 ^ (k + 1))
  have k5 : z / ((2 ^ (k + 1) : Nat) : ℝ) ≤ z / 16 := div_le_div_of_nonneg_left hz (by norm_num) hN
  have hi0 := inv_pos m l z hm hl1 hz
  have hi1 := inv_le_one m l z hm hl1 hz
  have k4' : 5 / 8 * (z / ((2 ^ (k + 1) : Nat) : ℝ)) * (1 - inv m l z) ≤ 5 / 8 * (z / 16) * 1 :=
    mul_le_mul (mul_le_mul_of_nonneg_left k5 (by norm_num)) (by linarith) (by linarith) (by positivity)
  have k6 : MathUtils.Spec.adaptiveError u 0 z (2 / 10 ^ 12) 1 k ≤ z * (19 / 10 ^ 8) := by
    unfold MathUtils.Spec.adaptiveError
    rw [sub_zero]
    refine mul_le_mul_of_nonneg_left ?_ hz
    have := mostRoundings_pow hu hu2 (le_mostRoundings (by omega : k ≤ 29))
    generalize (1 + u) ^ (2 ^ k + 5) - 1 = B at *
    norm_num at this ⊢
    linarith
  have k8 := abs_add_le (v - MathUtils.Spec.rule (inv m l) 0 z (2 ^ (k + 1))) (MathUtils.Spec.rule (inv m l) 0 z (2 ^ (k + 1)) - los m l z)
  rw [sub_add_sub_cancel] at k8
  have hvI : |v - los m l z| ≤ z * (5 / 128 + 19 / 10 ^ 8) := by linarith
  have hvz : |v| ≤ z * (1 + 19 / 10 ^ 8) := by
    have r1 := rule_bound hz (G := 1) (g := inv m l) (fun x h0 _ => by
      rw [abs_of_pos (inv_pos m l x hm hl1 h0)]
      exact inv_le_one m l x hm hl1 h0) (pow_ge (by omega : 3 ≤ k + 1))
    have r2 := abs_add_le (v - MathUtils.Spec.rule (inv m l) 0 z (2 ^ (k + 1))) (MathUtils.Spec.rule (inv m l) 0 z (2 ^ (k + 1)))
    rw [sub_add_cancel] at r2
    linarith
  have hD : 0 < c * 1000 / h := by positivity
  have cD := (((Close.refl u (c * 1000)).rnd hu hr).div hu h).rnd hu hr
  rw [abs_of_pos (by positivity : 0 < c * 1000), abs_of_pos hh] at cD
  have c3 := ((cD.mul hu (Close.refl u v)).rnd hu hr).1
  have hp3 : (1 + u) ^ (2 + 0 + 1) - 1 ≤ 9 / 8 * (3 / 2 ^ 53) := by have := pow_rounding hu hu2 3 (by norm_num); exact_mod_cast this
  generalize c * 1000 / h = D at *
  have q1 : ((1 + u) ^ (2 + 0 + 1) - 1) * (D * |v|) ≤ 9 / 8 * (3 / 2 ^ 53) * (D * (z * (1 + 19 / 10 ^ 8))) :=
    mul_le_mul hp3 (mul_le_mul_of_nonneg_left hvz hD.le) (by positivity) (by norm_num)
  have q2 := mul_le_mul_of_nonneg_left hvI hD.le
  rw [← abs_of_pos hD, ← abs_mul, abs_of_pos hD, mul_sub] at q2
  have q3 := abs_add_le (R.rnd (R.rnd (R.rnd (c * 1000) / h) * v) - D * v) (D * v - D * los m l z)
  rw [sub_add_sub_cancel] at q3
  have q4 := mul_nonneg hD.le hz
  norm_num at q1 q2 ⊢
  linarith

theorem comoving_close (hu : 0 ≤ u) (hu2 : u ≤ 1 / 2 ^ 53) (hr : ∀ x, |R.rnd x - x| ≤ u * |x|) (c precision m l h z d : ℝ) (isZero : ℝ → Bool) (hc : 0 < c) (hh : 0 < h) (hm : 0 ≤ m)
    (hl : 0 ≤ l) (hml : m + l ≤ 1) (hz : 0 ≤ z) (hz13 : z ≤ 13) (hz0 : isZero z = false) (hd : machineComoving R c isZero precision z (machineParams R m l h) = some d) :
    |d - c * 1000 / h * los m l z| ≤ (Spec.integrationError z + 2 / 10 ^ 7) * (c * 1000 / h * z) := by
  have h1 := comoving_coarse hu hu2 hr c precision m l h z d isZero hc hh hm hl hml hz hz13 hz0 hd
  obtain ⟨e, he, h2⟩ := C166_comoving hu hu2 hr c precision m l h z d isZero hc hh hm hl hml hz hz13 hz0 hd
  have he' : comovingDistance (exactEnv c) z (mkParams m l h) = some (c * 1000 / h * los m l z) :=
    C54_comoving c z m l h hh.ne' (fun x hx => rad_pos m l x hm (by linarith) (uIcc_nonneg hz hx))
  rw [he'] at he
  rw [← Option.some.inj he] at h2
  unfold Spec.integrationError
  rcases min_cases (5 / 128 : ℝ) (1275 / 12 * (z / 16) ^ 4) with ⟨h3, _⟩ | ⟨h3, _⟩
  · rw [h3]; exact h1
  · rw [h3]; exact h2

theorem integrationError_nonneg (z : ℝ) : 0 ≤ Spec.integrationError z := le_min (by norm_num) (by positivity)

theorem integrationError_le (z : ℝ) : Spec.integrationError z ≤ 5 / 128 := min_le_left _ _

theorem los_nonneg (m l z : ℝ) (hz : 0 ≤ z) : 0 ≤ los m l z := intervalIntegral.integral_nonneg hz fun _ _ => one_div_nonneg.mpr (Real.sqrt_nonneg _)

theorem los_le (m l z : ℝ) (hm : 0 ≤ m) (hl : l ≤ 1) (hz : 0 ≤ z) : los m l z ≤ z := by
  have h := intervalIntegral.integral_mono_on (μ := MeasureTheory.volume) (f := fun x => 1 / Real.sqrt (rad m l x)) (g := fun _ => (1 : ℝ)) hz
    (integrand_cont m l z fun x hx => rad_pos m l x hm hl (uIcc_nonneg hz hx)).intervalIntegrable intervalIntegrable_const (fun x hx => inv_le_one m l x hm hl hx.1)
  simpa [los] using h

theorem le_los (m l z : ℝ) (hm : 0 ≤ m) (hl : l ≤ 1) (hz : 0 ≤ z) : z * inv m l z ≤ los m l z := by
  have h := intervalIntegral.integral_mono_on (μ := MeasureTheory.volume) (g := fun x => 1 / Real.sqrt (rad m l x)) (f := fun _ => inv m l z) hz intervalIntegrable_const
    (integrand_cont m l z fun x hx => rad_pos m l x hm hl (uIcc_nonneg hz hx)).intervalIntegrable (fun x hx => inv_anti m l z hm hl hx ⟨hz, le_rfl⟩ hx.2)
  simpa [los] using h

/-! ## The curvature -/

theorem omegaK_close (hu : 0 ≤ u) (hu2 : u ≤ 1 / 2 ^ 53) (hr : ∀ x, |R.rnd x - x| ≤ u * |x|) (m l h : ℝ) (hm : 0 ≤ m) (hl : 0 ≤ l) (hml : m + l ≤ 1) :
    |(machineParams R m l h).omegaK - (1 - m - l)| ≤ 1 / 10 ^ 15 := by
  have k1 := ((((Close.refl u (1 - m)).rnd hu hr).sub ((Close.refl u l).mono hu (by omega : 0 ≤ 1))).rnd hu hr).1
  rw [abs_of_nonneg (show 0 ≤ 1 - m by linarith), abs_of_nonneg hl] at k1
  have hp : (1 + u) ^ (0 + 1 + 1) - 1 ≤ 9 / 8 * (2 / 2 ^ 53) := by have := pow_rounding hu hu2 2 (by norm_num); exact_mod_cast this
  refine k1.trans ?_
  calc _ ≤ 9 / 8 * (2 / 2 ^ 53) * (2 : ℝ) := mul_le_mul hp (by linarith) (by linarith) (by norm_num)
    _ ≤ _ := by norm_num

theorem sqrt_sub_le {x y e : ℝ} (hx : 0 ≤ x) (hy : 0 ≤ y) (he : 0 ≤ e) (h : |x - y| ≤ e ^ 2) : |Real.sqrt x - Real.sqrt y| ≤ e := by
  have h1 := Real.mul_self_sqrt hx
  have h2 := Real.mul_self_sqrt hy
  have h3 := Real.sqrt_nonneg x
  have h4 := Real.sqrt_nonneg y
  have h5 := abs_le.mp h
  rw [abs_le]
  constructor
  · by_contra hc
    push Not at hc
    nlinarith
  · by_contra hc
    push Not at hc
    nlinarith

/-- The growth of the hyperbolic cosine up to the computed distance. -/
theorem cosh_bound {a a' y M z : ℝ} (hy : 0 ≤ y) (ha : 0 ≤ a) (ha1 : a ≤ 1) (ha' : 0 ≤ a') (hz : 0 ≤ z) (hz13 : z ≤ 13) (hyz : y ≤ z) (hM : M ≤ y + 6 / 10) (hM0 : 0 ≤ M) (hd : a' ≤ a + 1 / 10 ^ 7)
    (hlog : a * y ≤ Real.log (1 + z)) : Real.cosh (a' * M) ≤ 2 * (1 + z) := by
  have h1 : a' * M ≤ Real.log (1 + z) + 61 / 100 := by
    have := mul_le_mul_of_nonneg_right hd hM0
    have h2 := mul_le_mul_of_nonneg_left hM ha
    norm_num at this ⊢
    nlinarith
  have h0 : 0 ≤ a' * M := mul_nonneg ha' hM0
  have h3 : Real.cosh (a' * M) ≤ Real.exp (a' * M) := by
    rw [Real.cosh_eq]
    have : Real.exp (-(a' * M)) ≤ Real.exp (a' * M) := Real.exp_le_exp.2 (by linarith)
    linarith
  refine h3.trans ((Real.exp_le_exp.2 h1).trans ?_)
  rw [Real.exp_add, Real.exp_log (by linarith)]
  have h4 : Real.exp (61 / 100) ≤ 2 := by
    rw [← Real.le_log_iff_exp_le (by norm_num)]
    linarith [Real.log_two_gt_d9]
  nlinarith

theorem sin_near {x : ℝ} (hx : |x| ≤ 1) : |Real.sin x - x| ≤ |x| ^ 3 / 4 := by
  have h := Real.sin_bound hx
  have h1 := abs_add_le (Real.sin x - (x - x ^ 3 / 6)) (-(x ^ 3 / 6))
  rw [show Real.sin x - (x - x ^ 3 / 6) + -(x ^ 3 / 6) = Real.sin x - x by ring, abs_neg, abs_div, abs_pow, show |(6 : ℝ)| = 6 by norm_num] at h1
  have h0 := abs_nonneg x
  have h2 : |x| ^ 5 ≤ |x| ^ 3 := pow_le_pow_of_le_one h0 hx (by omega)
  have h3 := pow_nonneg h0 3
  linarith

end Alexandria.Physics
