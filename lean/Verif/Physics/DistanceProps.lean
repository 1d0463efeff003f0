import Verif.MathUtils.QuadratureProps
import Verif.Physics.DistanceModel
import Verif.Physics.Props

/-!
# C136: cosmological distances with the integration that is used
-/

namespace Alexandria.Physics

open Set MathUtils

/-! ## The function that is integrated -/

theorem rad_mono (m l : ℝ) (hm : 0 ≤ m) (hl : l ≤ 1) {x y : ℝ} (hx : 0 ≤ x) (hxy : x ≤ y) : rad m l x ≤ rad m l y := by
  have h1 : rad m l y - rad m l x = (y - x) * (m * ((1 + y) * y + (1 + x) * x + (1 + x) * (1 + y)) + (1 - l) * (2 + x + y)) := by unfold rad; ring
  have hy : 0 ≤ y := hx.trans hxy
  have h2 : 0 ≤ m * ((1 + y) * y + (1 + x) * x + (1 + x) * (1 + y)) := by positivity
  have h3 : 0 ≤ (1 - l) * (2 + x + y) := mul_nonneg (by linarith) (by linarith)
  have := mul_nonneg (sub_nonneg.mpr hxy) (add_nonneg h2 h3)
  linarith

/-- The inverse Hubble parameter. -/
noncomputable def inv (m l x : ℝ) : ℝ := 1 / Real.sqrt (rad m l x)

theorem inv_anti (m l z : ℝ) (hm : 0 ≤ m) (hl : l ≤ 1) : AntitoneOn (inv m l) (Icc 0 z) := by
  intro x hx y hy hxy
  exact one_div_le_one_div_of_le (Real.sqrt_pos.2 (rad_pos m l x hm hl hx.1)) (Real.sqrt_le_sqrt (rad_mono m l hm hl hx.1 hxy))

theorem inv_zero (m l : ℝ) : inv m l 0 = 1 := by
  have : rad m l 0 = 1 := by unfold rad; ring
  rw [inv, this, Real.sqrt_one, div_one]

theorem inv_pos (m l x : ℝ) (hm : 0 ≤ m) (hl : l ≤ 1) (hx : 0 ≤ x) : 0 < inv m l x := one_div_pos.mpr (Real.sqrt_pos.2 (rad_pos m l x hm hl hx))

theorem inv_le_one (m l x : ℝ) (hm : 0 ≤ m) (hl : l ≤ 1) (hx : 0 ≤ x) : inv m l x ≤ 1 := by
  rw [← inv_zero m l]
  exact inv_anti m l x hm hl ⟨le_rfl, hx⟩ ⟨hx, le_rfl⟩ hx

theorem getD_eq (m l h x : ℝ) (hm : 0 ≤ m) (hl : l ≤ 1) (hx : 0 ≤ x) : (adapter (mkParams m l h) x).getD 0 = inv m l x := by
  rw [adapter_eq m l h x (rad_pos m l x hm hl hx)]
  rfl

/-- The comoving distance is the Hubble distance times the result of the adaptive integration. -/
theorem comoving_iff (c z m l h precision d : ℝ) (isZero : ℝ → Bool) (hz0 : isZero z = false) (hz : 0 ≤ z) (hh : h ≠ 0) (hm : 0 ≤ m) (hl : l ≤ 1) :
    comovingDistance (codeEnv c isZero precision) z (mkParams m l h) = some d ↔
      ∃ v, adaptive precision 3 (fun x => (adapter (mkParams m l h) x).getD 0) 0 z = .ok v ∧ d = c * 1000 / h * v := by
  unfold comovingDistance
  rw [if_neg (by simp [codeEnv, hz0]), hubbleDistance_eq _ m l h hh]
  show (do let i ← adaptiveIntegral precision (adapter (mkParams m l h)) 0 z; return c * 1000 / h * i) = _ ↔ _
  rw [adaptiveIntegral, if_pos]
  · cases he : adaptive precision 3 (fun x => (adapter (mkParams m l h) x).getD 0) 0 z with
    | ok v => simp [eq_comm]
    | throw e => simp
    | ub => simp
  · intro x hx
    rw [adapter_eq m l h x (rad_pos m l x hm hl (uIcc_nonneg hz hx))]
    rfl

theorem integral_getD (m l h z : ℝ) (hm : 0 ≤ m) (hl : l ≤ 1) (hz : 0 ≤ z) : ∫ x in (0 : ℝ)..z, (adapter (mkParams m l h) x).getD 0 = los m l z := by
  unfold los
  refine intervalIntegral.integral_congr fun x hx => ?_
  exact getD_eq m l h x hm hl (uIcc_nonneg hz hx)

theorem getD_anti (m l h z : ℝ) (hm : 0 ≤ m) (hl : l ≤ 1) : AntitoneOn (fun x => (adapter (mkParams m l h) x).getD 0) (Icc 0 z) := by
  intro x hx y hy hxy
  simp only [getD_eq m l h x hm hl hx.1, getD_eq m l h y hm hl hy.1]
  exact inv_anti m l z hm hl hx hy hxy

/-! ## The distances -/

/-- **C136 (bounds).** Whatever the precision, the comoving distance is at most the one of the Hubble law, and at least this divided by the Hubble parameter at the redshift. -/
theorem C136_bounds (c z m l h precision d : ℝ) (isZero : ℝ → Bool) (hc : 0 < c) (hh : 0 < h) (hm : 0 ≤ m) (hl : l ≤ 1) (hz : 0 ≤ z) (hz0 : isZero z = false)
    (hd : comovingDistance (codeEnv c isZero precision) z (mkParams m l h) = some d) :
    c * 1000 / h * (z / Real.sqrt (m * (1 + z) ^ 3 + (1 - m - l) * (1 + z) ^ 2 + l)) ≤ d ∧ d ≤ c * 1000 / h * z := by
  obtain ⟨v, hv, rfl⟩ := (comoving_iff c z m l h precision d isZero hz0 hz hh.ne' hm hl).1 hd
  have hD : 0 ≤ c * 1000 / h := by positivity
  have := C135_between (lo := inv m l z) (hi := 1) 3 hv hz (fun x hx => by
    rw [getD_eq m l h x hm hl hx.1]
    exact ⟨inv_anti m l z hm hl hx ⟨hz, le_rfl⟩ hx.2, inv_le_one m l x hm hl hx.1⟩)
  rw [sub_zero, mul_one] at this
  refine ⟨mul_le_mul_of_nonneg_left (le_trans (le_of_eq ?_) this.1) hD, mul_le_mul_of_nonneg_left this.2 hD⟩
  rw [inv, rad, mul_one_div]

/-- **C136 (error).** The comoving distance differs from the exact one by less than four percent of the distance of the Hubble law. -/
theorem C136_error (c z m l h precision d : ℝ) (isZero : ℝ → Bool) (hc : 0 < c) (hh : 0 < h) (hm : 0 ≤ m) (hl : l ≤ 1) (hz : 0 ≤ z) (hz0 : isZero z = false)
    (hd : comovingDistance (codeEnv c isZero precision) z (mkParams m l h) = some d) :
    ∃ e, comovingDistance (exactEnv c) z (mkParams m l h) = some e ∧
      |d - e| ≤ 5 / 128 * (c * 1000 / h * z) * (1 - 1 / Real.sqrt (m * (1 + z) ^ 3 + (1 - m - l) * (1 + z) ^ 2 + l)) := by
  obtain ⟨v, hv, rfl⟩ := (comoving_iff c z m l h precision d isZero hz0 hz hh.ne' hm hl).1 hd
  refine ⟨_, C54_comoving c z m l h hh.ne' (fun x hx => rad_pos m l x hm hl (uIcc_nonneg hz hx)), ?_⟩
  show |c * 1000 / h * v - c * 1000 / h * los m l z| ≤ 5 / 128 * (c * 1000 / h * z) * (1 - inv m l z)
  have hD : 0 ≤ c * 1000 / h := by positivity
  have := C135_monotone_partial 3 hv hz (.inr (getD_anti m l h z hm hl))
  rw [integral_getD m l h z hm hl hz, getD_eq m l h z hm hl hz, getD_eq m l h 0 hm hl le_rfl, inv_zero, sub_zero, abs_sub_comm (inv m l z),
    abs_of_nonneg (sub_nonneg.mpr (inv_le_one m l z hm hl hz))] at this
  rw [← mul_sub, abs_mul, abs_of_nonneg hD]
  have := mul_le_mul_of_nonneg_left this hD
  norm_num at this ⊢
  linarith

/-- **C136 (there is a result).** As long as the Hubble parameter is not too large for the precision, the integration ends with a result. -/
theorem C136_defined (c z m l h precision : ℝ) (isZero : ℝ → Bool) (hh : h ≠ 0) (hm : 0 ≤ m) (hl : l ≤ 1) (hz : 0 ≤ z) (hp : 0 ≤ precision)
    (he : 15 / 16 * (Real.sqrt (m * (1 + z) ^ 3 + (1 - m - l) * (1 + z) ^ 2 + l) - 1) ≤ precision * 2 ^ 29) :
    ∃ d, comovingDistance (codeEnv c isZero precision) z (mkParams m l h) = some d := by
  by_cases hz0 : isZero z = true
  · exact ⟨0, by unfold comovingDistance; rw [if_pos (by simp [codeEnv, hz0])]⟩
  have hz0' : isZero z = false := by simpa using hz0
  have hs : 0 < Real.sqrt (rad m l z) := Real.sqrt_pos.2 (rad_pos m l z hm hl hz)
  obtain ⟨v, hv, _⟩ := C135_defined (f := fun x => (adapter (mkParams m l h) x).getD 0) (a := 0) (b := z) (precision := precision) (lo := inv m l z) 3 29 (by omega) (by omega) (by omega) hz hp
    (inv_pos m l z hm hl hz).le (.inr (getD_anti m l h z hm hl)) (fun x hx => by rw [getD_eq m l h x hm hl hx.1]; exact inv_anti m l z hm hl hx ⟨hz, le_rfl⟩ hx.2) (by
      rw [getD_eq m l h z hm hl hz, getD_eq m l h 0 hm hl le_rfl, inv_zero, abs_sub_comm, abs_of_nonneg (sub_nonneg.mpr (inv_le_one m l z hm hl hz)), inv]
      change 15 / 16 * (Real.sqrt (rad m l z) - 1) ≤ _ at he
      have := mul_le_mul_of_nonneg_left he (one_div_pos.mpr hs).le
      have e1 : 1 / Real.sqrt (rad m l z) * (15 / 16 * (Real.sqrt (rad m l z) - 1)) = 15 / 16 * (1 - 1 / Real.sqrt (rad m l z)) := by field_simp
      rw [e1] at this
      linarith)
  exact ⟨_, (comoving_iff c z m l h precision _ isZero hz0' hz hh hm hl).2 ⟨v, hv, rfl⟩⟩

/-- **C136 (the usual precision).** With densities that add up to at most 1 and the default precision there is a result up to redshift 13. -/
theorem C136_default (c z m l h : ℝ) (isZero : ℝ → Bool) (hh : h ≠ 0) (hm : 0 ≤ m) (hl : 0 ≤ l) (hml : m + l ≤ 1) (hz : 0 ≤ z) (hz13 : z ≤ 13) :
    ∃ d, comovingDistance (codeEnv c isZero (1 / 10000000)) z (mkParams m l h) = some d := by
  refine C136_defined c z m l h _ isZero hh hm (by linarith) hz (by norm_num) ?_
  have h1 : m * (1 + z) ^ 3 + (1 - m - l) * (1 + z) ^ 2 + l ≤ (53 : ℝ) ^ 2 := by
    have u1 : (1 + z) ^ 2 ≤ 14 ^ 2 := pow_le_pow_left₀ (by linarith) (by linarith) 2
    have u2 : (1 + z) ^ 3 ≤ 14 ^ 3 := pow_le_pow_left₀ (by linarith) (by linarith) 3
    have p1 := mul_le_mul_of_nonneg_left u2 hm
    have p2 := mul_le_mul_of_nonneg_left u1 (show 0 ≤ 1 - m - l by linarith)
    linarith
  have h2 := Real.sqrt_le_sqrt h1
  rw [Real.sqrt_sq (by norm_num)] at h2
  norm_num
  linarith

/-! ## Flat and open models: fourth order -/

theorem inv_deriv (m l x : ℝ) (hr : 0 < rad m l x) :
    HasDerivAt (inv m l) (-(1 / 2) * inv m l x ^ 3 * (3 * m * (1 + x) ^ 2 + 2 * (1 - m - l) * (1 + x))) x := by
  have d0 : HasDerivAt (fun x : ℝ => 1 + x) 1 x := (hasDerivAt_id x).const_add 1
  have d1 : HasDerivAt (rad m l) (3 * m * (1 + x) ^ 2 + 2 * (1 - m - l) * (1 + x)) x := by
    have := (((d0.pow 3).const_mul m).add ((d0.pow 2).const_mul (1 - m - l))).add_const l
    refine (this.congr_deriv ?_)
    norm_num
    ring
  have hs : 0 < Real.sqrt (rad m l x) := Real.sqrt_pos.2 hr
  have d2 := (d1.sqrt hr.ne').inv hs.ne'
  have e : inv m l = (fun x => Real.sqrt (rad m l x))⁻¹ := by
    funext y
    simp [inv]
  rw [e]
  refine d2.congr_deriv ?_
  simp only [Pi.inv_apply]
  field_simp

/-- The inverse Hubble parameter has four derivatives, and the last one is at most 1275. -/
theorem inv_smooth (m l z : ℝ) (hm : 0 ≤ m) (hl : 0 ≤ l) (hml : m + l ≤ 1) :
    ∃ f1 f2 f3 f4, Quadrature.Smooth (inv m l) f1 f2 f3 f4 0 z 1275 := by
  set k := 1 - m - l with hk
  have hk0 : 0 ≤ k := by rw [hk]; linarith
  let g1 : ℝ → ℝ := fun x => 3 * m * (1 + x) ^ 2 + 2 * k * (1 + x)
  let g2 : ℝ → ℝ := fun x => 6 * m * (1 + x) + 2 * k
  have d0 : ∀ x : ℝ, HasDerivAt (fun x : ℝ => 1 + x) 1 x := fun x => (hasDerivAt_id x).const_add 1
  have e1 : ∀ x, HasDerivAt g1 (g2 x) x := fun x => ((((d0 x).pow 2).const_mul (3 * m)).add ((d0 x).const_mul (2 * k))).congr_deriv (by norm_num [g2]; ring)
  have e2 : ∀ x, HasDerivAt g2 (6 * m) x := fun x => (((d0 x).const_mul (6 * m)).add_const (2 * k)).congr_deriv (by ring)
  have df : ∀ x ∈ Icc 0 z, HasDerivAt (inv m l) (-(1 / 2) * inv m l x ^ 3 * g1 x) x := fun x hx => inv_deriv m l x (rad_pos m l x hm (by linarith) hx.1)
  refine ⟨fun x => -(1 / 2) * inv m l x ^ 3 * g1 x, fun x => 3 / 4 * inv m l x ^ 5 * g1 x ^ 2 - 1 / 2 * inv m l x ^ 3 * g2 x,
    fun x => -(15 / 8) * inv m l x ^ 7 * g1 x ^ 3 + 9 / 4 * inv m l x ^ 5 * (g1 x * g2 x) - 1 / 2 * inv m l x ^ 3 * (6 * m),
    fun x => 105 / 16 * inv m l x ^ 9 * g1 x ^ 4 - 45 / 4 * inv m l x ^ 7 * (g1 x ^ 2 * g2 x) + 9 / 4 * inv m l x ^ 5 * g2 x ^ 2 + 3 * inv m l x ^ 5 * (g1 x * (6 * m)), ?_⟩
  refine ⟨fun x hx => (df x hx).hasDerivWithinAt, fun x hx => ?_, fun x hx => ?_, fun x hx => ?_, fun x hx => ?_⟩
  · refine ((((df x hx).pow 3).const_mul (-(1 / 2))).mul (e1 x)).hasDerivWithinAt.congr_deriv ?_
    norm_num
    ring
  · refine (((((df x hx).pow 5).const_mul (3 / 4)).mul ((e1 x).pow 2)).sub ((((df x hx).pow 3).const_mul (1 / 2)).mul (e2 x))).hasDerivWithinAt.congr_deriv ?_
    norm_num
    ring
  · refine ((((((df x hx).pow 7).const_mul (-(15 / 8))).mul ((e1 x).pow 3)).add ((((df x hx).pow 5).const_mul (9 / 4)).mul ((e1 x).mul (e2 x)))).sub
      (((((df x hx).pow 3).const_mul (1 / 2))).mul_const (6 * m))).hasDerivWithinAt.congr_deriv ?_
    norm_num
    ring
  · have hx0 := hx.1
    have hi := inv_pos m l x hm (by linarith) hx0
    have hi1 := inv_le_one m l x hm (by linarith) hx0
    have hr := rad_pos m l x hm (by linarith) hx0
    have hsq : inv m l x ^ 2 * rad m l x = 1 := by
      rw [inv, div_pow, Real.sq_sqrt hr.le, one_pow, one_div, inv_mul_cancel₀ hr.ne']
    have a1 : g1 x ≤ 3 * rad m l x := by
      have : 3 * rad m l x - g1 x = 3 * m * x * (1 + x) ^ 2 + k * (1 + x) * (1 + 3 * x) + 3 * l := by simp only [g1, rad, hk]; ring
      have : 0 ≤ 3 * m * x * (1 + x) ^ 2 + k * (1 + x) * (1 + 3 * x) + 3 * l := by positivity
      linarith
    have a2 : g2 x ≤ 6 * rad m l x := by
      have : 6 * rad m l x - g2 x = 6 * m * (1 + x) * (x * (2 + x)) + 2 * k * (3 * (1 + x) ^ 2 - 1) + 6 * l := by simp only [g2, rad, hk]; ring
      have : 0 ≤ 6 * m * (1 + x) * (x * (2 + x)) + 2 * k * (3 * (1 + x) ^ 2 - 1) + 6 * l := by
        have h3 : 0 ≤ 3 * (1 + x) ^ 2 - 1 := by nlinarith
        have := mul_nonneg hk0 h3
        have : 0 ≤ 6 * m * (1 + x) * (x * (2 + x)) := by positivity
        linarith
      linarith
    have a3 : 6 * m ≤ 6 * rad m l x := by
      have : rad m l x - m = m * (x * (3 + 3 * x + x ^ 2)) + k * (1 + x) ^ 2 + l := by simp only [rad, hk]; ring
      have : 0 ≤ m * (x * (3 + 3 * x + x ^ 2)) + k * (1 + x) ^ 2 + l := by positivity
      linarith
    have p1 : 0 ≤ g1 x := by simp only [g1]; positivity
    have p2 : 0 ≤ g2 x := by simp only [g2]; positivity
    set i := inv m l x with hid
    -- in units of the square of the Hubble parameter
    have b1 : i ^ 2 * g1 x ≤ 3 := by
      have := mul_le_mul_of_nonneg_left a1 (sq_nonneg i)
      linarith
    have b2 : i ^ 2 * g2 x ≤ 6 := by
      have := mul_le_mul_of_nonneg_left a2 (sq_nonneg i)
      linarith
    have b3 : i ^ 2 * (6 * m) ≤ 6 := by
      have := mul_le_mul_of_nonneg_left a3 (sq_nonneg i)
      linarith
    have q1 : 0 ≤ i ^ 2 * g1 x := by positivity
    have q2 : 0 ≤ i ^ 2 * g2 x := by positivity
    have q3 : 0 ≤ i ^ 2 * (6 * m) := by positivity
    generalize hA : i ^ 2 * g1 x = A at *
    generalize hB : i ^ 2 * g2 x = B at *
    generalize hC : i ^ 2 * (6 * m) = C at *
    have hval : 105 / 16 * i ^ 9 * g1 x ^ 4 - 45 / 4 * i ^ 7 * (g1 x ^ 2 * g2 x) + 9 / 4 * i ^ 5 * g2 x ^ 2 + 3 * i ^ 5 * (g1 x * (6 * m)) =
        i * (105 / 16 * A ^ 4 - 45 / 4 * (A ^ 2 * B) + 9 / 4 * B ^ 2 + 3 * (A * C)) := by
      rw [← hA, ← hB, ← hC]; ring
    rw [hval, abs_mul, abs_of_pos hi]
    have t1 : A ^ 4 ≤ 3 ^ 4 := pow_le_pow_left₀ q1 b1 4
    have t2 : A ^ 2 * B ≤ 3 ^ 2 * 6 := mul_le_mul (pow_le_pow_left₀ q1 b1 2) b2 q2 (by norm_num)
    have t3 : B ^ 2 ≤ 6 ^ 2 := pow_le_pow_left₀ q2 b2 2
    have t4 : A * C ≤ 3 * 6 := mul_le_mul b1 b3 q3 (by norm_num)
    have s1 : 0 ≤ A ^ 4 := by positivity
    have s2 : 0 ≤ A ^ 2 * B := by positivity
    have s3 : 0 ≤ B ^ 2 := by positivity
    have s4 : 0 ≤ A * C := by positivity
    have hb : |105 / 16 * A ^ 4 - 45 / 4 * (A ^ 2 * B) + 9 / 4 * B ^ 2 + 3 * (A * C)| ≤ 1275 := by
      rw [abs_le]
      constructor <;> linarith
    calc i * _ ≤ 1 * 1275 := mul_le_mul hi1 hb (abs_nonneg _) zero_le_one
      _ = 1275 := one_mul _

/-- **C136 (error, fourth order).** In flat and open models the error is of fourth order: with 16 steps or more it is less than `1275 / 12 (z / 16)⁴` of the distance of the Hubble law. -/
theorem C136_error_smooth (c z m l h precision d : ℝ) (isZero : ℝ → Bool) (hc : 0 < c) (hh : 0 < h) (hm : 0 ≤ m) (hl : 0 ≤ l) (hml : m + l ≤ 1) (hz : 0 ≤ z) (hz0 : isZero z = false)
    (hd : comovingDistance (codeEnv c isZero precision) z (mkParams m l h) = some d) :
    ∃ e, comovingDistance (exactEnv c) z (mkParams m l h) = some e ∧ |d - e| ≤ 1275 / 12 * (z / 16) ^ 4 * (c * 1000 / h * z) := by
  have hl1 : l ≤ 1 := by linarith
  obtain ⟨v, hv, rfl⟩ := (comoving_iff c z m l h precision d isZero hz0 hz hh.ne' hm hl1).1 hd
  refine ⟨_, C54_comoving c z m l h hh.ne' (fun x hx => rad_pos m l x hm hl1 (uIcc_nonneg hz hx)), ?_⟩
  show |c * 1000 / h * v - c * 1000 / h * los m l z| ≤ _
  have hD : 0 ≤ c * 1000 / h := by positivity
  obtain ⟨f1, f2, f3, f4, hs⟩ := inv_smooth m l z hm hl hml
  have hs' : Quadrature.Smooth (fun x => (adapter (mkParams m l h) x).getD 0) f1 f2 f3 f4 0 z 1275 :=
    ⟨fun x hx => (hs.d1 x hx).congr (fun y hy => getD_eq m l h y hm hl1 hy.1) (getD_eq m l h x hm hl1 hx.1), hs.d2, hs.d3, hs.d4, hs.bound⟩
  have := C135_smooth_partial 3 hv hz hs'
  rw [integral_getD m l h z hm hl1 hz, sub_zero] at this
  rw [← mul_sub, abs_mul, abs_of_nonneg hD]
  have := mul_le_mul_of_nonneg_left this hD
  norm_num at this ⊢
  linarith

/-- **C136 (the distance modulus).** In a flat model with the default precision, the luminosity distance up to redshift 13 is positive and the distance modulus has a value. -/
theorem C136_modulus (c z m h : ℝ) (isZero : ℝ → Bool) (hc : 0 < c) (hh : 0 < h) (hm : 0 ≤ m) (hm1 : m ≤ 1) (h0 : isZero 0 = true) (hz : 0 < z) (hz0 : isZero z = false) (hz13 : z ≤ 13) :
    ∃ d mu, comovingDistance (codeEnv c isZero (1 / 10000000)) z (mkParams m (1 - m) h) = some d ∧ 0 < d ∧
      luminousDistance (codeEnv c isZero (1 / 10000000)) z (mkParams m (1 - m) h) = some ((1 + z) * d) ∧
      distanceModulus (codeEnv c isZero (1 / 10000000)) z (mkParams m (1 - m) h) = some mu ∧ (1 + z) * d = 10 * 10 ^ (mu / 5) := by
  obtain ⟨d, hd⟩ := C136_default c z m (1 - m) h isZero hh.ne' hm (by linarith) (by linarith) hz.le hz13
  have hb := (C136_bounds c z m (1 - m) h _ d isZero hc hh hm (by linarith) hz.le hz0 hd).1
  have hs : 0 < Real.sqrt (rad m (1 - m) z) := Real.sqrt_pos.2 (rad_pos m (1 - m) z hm (by linarith) hz.le)
  have hpos : 0 < d := by
    refine lt_of_lt_of_le ?_ hb
    change 0 < c * 1000 / h * (z / Real.sqrt (rad m (1 - m) z))
    positivity
  have ht : transverseDistance (codeEnv c isZero (1 / 10000000)) z (mkParams m (1 - m) h) = some d := by
    rw [C54_flat (codeEnv c isZero (1 / 10000000)) z m (1 - m) h (by show isZero (1 - m - (1 - m)) = true; rw [show (1 - m - (1 - m)) = (0 : ℝ) by ring]; exact h0)]
    exact hd
  have hlum : luminousDistance (codeEnv c isZero (1 / 10000000)) z (mkParams m (1 - m) h) = some ((1 + z) * d) := by
    unfold luminousDistance
    rw [if_neg (by simp [codeEnv, hz0]), ht]
    rfl
  have hl0 : 0 < (1 + z) * d := by positivity
  have hmod : distanceModulus (codeEnv c isZero (1 / 10000000)) z (mkParams m (1 - m) h) = some (5 * Real.logb 10 ((1 + z) * d / 10)) := by
    unfold distanceModulus
    rw [hlum]
    show (do let x ← log10? ((1 + z) * d / 10); return 5 * x) = _
    rw [log10?, if_pos (by positivity)]
    rfl
  refine ⟨d, _, hd, hpos, hlum, hmod, ?_⟩
  rw [show 5 * Real.logb 10 ((1 + z) * d / 10) / 5 = Real.logb 10 ((1 + z) * d / 10) by ring, Real.rpow_logb (by norm_num) (by norm_num) (by positivity)]
  ring

/-- The parameters of `CosmologicalParameters.h` 52 and redshift 1. -/
example : ∃ d e, comovingDistance (codeEnv 299792458 (fun x => decide (x = 0)) (1 / 10000000)) 1 (mkParams (3089 / 10000) (6911 / 10000) (6774 / 100)) = some d ∧
    comovingDistance (exactEnv 299792458) 1 (mkParams (3089 / 10000) (6911 / 10000) (6774 / 100)) = some e ∧ |d - e| ≤ 17 / 10000 * (299792458 * 1000 / (6774 / 100)) := by
  obtain ⟨d, hd⟩ := C136_default 299792458 1 (3089 / 10000) (6911 / 10000) (6774 / 100) (fun x => decide (x = 0)) (by norm_num) (by norm_num) (by norm_num) (by norm_num) (by norm_num) (by norm_num)
  obtain ⟨e, he, hb⟩ := C136_error_smooth 299792458 1 (3089 / 10000) (6911 / 10000) (6774 / 100) _ d _ (by norm_num) (by norm_num) (by norm_num) (by norm_num) (by norm_num) (by norm_num) (by simp) hd
  refine ⟨d, e, hd, he, hb.trans ?_⟩
  norm_num

end Alexandria.Physics
