import Mathlib.Analysis.SpecialFunctions.Integrals.Basic
import Mathlib.Analysis.SpecialFunctions.Trigonometric.DerivHyp
import Mathlib.MeasureTheory.Integral.IntervalIntegral.FundThmCalculus
import Mathlib.Analysis.SpecialFunctions.Trigonometric.Bounds
import Mathlib.Tactic.FieldSimp
import Mathlib.Tactic.Linarith
import Mathlib.Tactic.Positivity
import Verif.Physics.Model

/-!
# C54: cosmological distances
-/

namespace Alexandria.Physics

/-! ## Specification -/

/-- The square of the dimensionless Hubble parameter, from the two densities. -/
noncomputable def rad (m l z : ℝ) : ℝ := m * (1 + z) ^ 3 + (1 - m - l) * (1 + z) ^ 2 + l

open Classical in
/-- The exact integral of a function that is finite everywhere between the limits. -/
noncomputable def exactIntegral (f : ℝ → Option ℝ) (a b : ℝ) : Option ℝ :=
  if ∀ x ∈ Set.uIcc a b, (f x).isSome = true then some (∫ x in a..b, (f x).getD 0) else none

open Classical in
/-- Exact comparisons and integrals. -/
noncomputable def exactEnv (c : ℝ) : Env := ⟨c, fun x => decide (x = 0), exactIntegral⟩

/-! ## Any integration scheme -/

theorem hubbleParameter_eq (z m l h : ℝ) : hubbleParameter z (mkParams m l h) = if rad m l z < 0 then none else some (Real.sqrt (rad m l z)) := by
  have : m * ((1 + z) * (1 + z) * (1 + z)) + (1 - m - l) * ((1 + z) * (1 + z)) + l = rad m l z := by unfold rad; ring
  show sqrt? (m * ((1 + z) * (1 + z) * (1 + z)) + (1 - m - l) * ((1 + z) * (1 + z)) + l) = _
  rw [this]
  rfl

/-- The Hubble parameter is 1 at redshift 0, for all parameters. -/
theorem C54_hubble_zero (m l h : ℝ) : hubbleParameter 0 (mkParams m l h) = some 1 := by
  have : rad m l 0 = 1 := by unfold rad; ring
  rw [hubbleParameter_eq, this, if_neg (by norm_num), Real.sqrt_one]

/-- The square of the Hubble parameter. -/
theorem C54_hubble (z m l h e : ℝ) : hubbleParameter z (mkParams m l h) = some e ↔ 0 ≤ e ∧ e ^ 2 = m * (1 + z) ^ 3 + (1 - m - l) * (1 + z) ^ 2 + l := by
  rw [hubbleParameter_eq]
  constructor
  · intro he
    split at he
    · cases he
    · rename_i hr
      cases he
      exact ⟨Real.sqrt_nonneg _, Real.sq_sqrt (not_lt.1 hr)⟩
  · rintro ⟨h1, h2⟩
    have hr : rad m l z = e ^ 2 := by rw [h2]; rfl
    rw [hr, if_neg (not_lt.2 (sq_nonneg e)), Real.sqrt_sq h1]

theorem hubbleDistance_eq (env : Env) (m l h : ℝ) (hh : h ≠ 0) : hubbleDistance env (mkParams m l h) = some (env.cLight * 1000 / h) := by
  show div? (env.cLight * 1000) h = _
  rw [div?, if_neg hh]

/-- At redshift 0 the comoving distances are 0. -/
theorem C54_zero (env : Env) (h0 : env.isZero 0 = true) (m l h : ℝ) : comovingDistance env 0 (mkParams m l h) = some 0 := by
  rw [comovingDistance, if_pos h0]

/-- Also for a test with a tolerance. -/
example : comovingDistance ⟨299.8, fun x => decide (|x| ≤ 1 / 100), fun _ _ _ => none⟩ 0 (mkParams 0.3 0.7 70) = some 0 := C54_zero _ (by simp) _ _ _

/-- In a flat model the transverse distance is the comoving one. -/
theorem C54_flat (env : Env) (z m l h : ℝ) (hk : env.isZero (1 - m - l) = true) : transverseDistance env z (mkParams m l h) = comovingDistance env z (mkParams m l h) := by
  unfold transverseDistance
  cases hc : comovingDistance env z (mkParams m l h) with
  | none => rfl
  | some d =>
    show (if env.isZero (mkParams m l h).omegaK = true then _ else _) = _
    rw [if_pos (by exact hk)]
    rfl

/-- The transverse distance in a curved model. -/
theorem transverse_eq (env : Env) (z m l h d : ℝ) (hh : h ≠ 0) (hc0 : env.cLight ≠ 0) (hk : env.isZero (1 - m - l) = false) (hk0 : 1 - m - l ≠ 0)
    (hc : comovingDistance env z (mkParams m l h) = some d) :
    transverseDistance env z (mkParams m l h) =
      some (if 1 - m - l > 0 then env.cLight * 1000 / h / Real.sqrt |1 - m - l| * Real.sinh (d / (env.cLight * 1000 / h / Real.sqrt |1 - m - l|))
        else env.cLight * 1000 / h / Real.sqrt |1 - m - l| * Real.sin (d / (env.cLight * 1000 / h / Real.sqrt |1 - m - l|))) := by
  have hs : Real.sqrt |1 - m - l| ≠ 0 := Real.sqrt_ne_zero'.2 (abs_pos.2 hk0)
  have hr : env.cLight * 1000 / h / Real.sqrt |1 - m - l| ≠ 0 := div_ne_zero (div_ne_zero (mul_ne_zero hc0 (by norm_num)) hh) hs
  unfold transverseDistance
  rw [hc]
  show (if env.isZero (mkParams m l h).omegaK = true then _ else _) = _
  rw [if_neg (by rw [show (mkParams m l h).omegaK = 1 - m - l from rfl, hk]; simp), hubbleDistance_eq env m l h hh]
  show (do let s ← sqrt? |1 - m - l|; let r ← div? (env.cLight * 1000 / h) s; let q ← div? d r; if 1 - m - l > 0 then return r * Real.sinh q else return r * Real.sin q) = _
  rw [sqrt?, if_neg (not_lt.2 (abs_nonneg _))]
  show (do let r ← div? (env.cLight * 1000 / h) (Real.sqrt |1 - m - l|); let q ← div? d r; if 1 - m - l > 0 then return r * Real.sinh q else return r * Real.sin q) = _
  rw [div?, if_neg hs]
  show (do let q ← div? d (env.cLight * 1000 / h / Real.sqrt |1 - m - l|); if 1 - m - l > 0 then return env.cLight * 1000 / h / Real.sqrt |1 - m - l| * Real.sinh q else return env.cLight * 1000 / h / Real.sqrt |1 - m - l| * Real.sin q) = _
  rw [div?, if_neg hr]
  by_cases h1 : 1 - m - l > 0
  · rw [if_pos h1]
    show (if 1 - m - l > 0 then _ else _) = _
    rw [if_pos h1]; rfl
  · rw [if_neg h1]
    show (if 1 - m - l > 0 then _ else _) = _
    rw [if_neg h1]; rfl

/-- In an open model the transverse distance is at least the comoving one, in a closed model at most. -/
theorem C54_curved (env : Env) (z m l h d : ℝ) (hh : 0 < h) (hc0 : 0 < env.cLight) (hd : 0 ≤ d) (hc : comovingDistance env z (mkParams m l h) = some d) :
    (0 < 1 - m - l → ∃ t, transverseDistance env z (mkParams m l h) = some t ∧ d ≤ t) ∧
    (1 - m - l < 0 → ∃ t, transverseDistance env z (mkParams m l h) = some t ∧ t ≤ d) := by
  cases hk : env.isZero (1 - m - l) with
  | true =>
    rw [C54_flat env z m l h hk]
    exact ⟨fun _ => ⟨d, hc, le_refl _⟩, fun _ => ⟨d, hc, le_refl _⟩⟩
  | false =>
    have key : ∀ hk0 : 1 - m - l ≠ 0, 0 < env.cLight * 1000 / h / Real.sqrt |1 - m - l| := fun hk0 => by
      have := Real.sqrt_pos.2 (abs_pos.2 hk0)
      positivity
    constructor
    · intro h1
      have hr := key (ne_of_gt h1)
      refine ⟨_, transverse_eq env z m l h d (ne_of_gt hh) (ne_of_gt hc0) hk (ne_of_gt h1) hc, ?_⟩
      rw [if_pos h1]
      generalize env.cLight * 1000 / h / Real.sqrt |1 - m - l| = r at hr
      have h2 : d / r ≤ Real.sinh (d / r) := Real.self_le_sinh_iff.2 (div_nonneg hd (le_of_lt hr))
      calc d = r * (d / r) := by field_simp
        _ ≤ r * Real.sinh (d / r) := mul_le_mul_of_nonneg_left h2 (le_of_lt hr)
    · intro h1
      have hr := key (ne_of_lt h1)
      refine ⟨_, transverse_eq env z m l h d (ne_of_gt hh) (ne_of_gt hc0) hk (ne_of_lt h1) hc, ?_⟩
      rw [if_neg (not_lt.2 (le_of_lt h1))]
      generalize env.cLight * 1000 / h / Real.sqrt |1 - m - l| = r at hr
      have h2 : Real.sin (d / r) ≤ d / r := Real.sin_le (div_nonneg hd (le_of_lt hr))
      calc r * Real.sin (d / r) ≤ r * (d / r) := mul_le_mul_of_nonneg_left h2 (le_of_lt hr)
        _ = d := by field_simp

/-- The luminosity distance, for redshifts that are not taken for 0. -/
theorem C54_luminous_partial (env : Env) (z : ℝ) (p : Params) (hz : env.isZero z = false) :
    luminousDistance env z p = (transverseDistance env z p).map fun t => (1 + z) * t := by
  rw [luminousDistance, if_neg (by rw [hz]; simp)]
  cases transverseDistance env z p <;> rfl

/-- The distance modulus at redshift 0 is 0. -/
theorem C54_modulus_zero (env : Env) (h0 : env.isZero 0 = true) (p : Params) : distanceModulus env 0 p = some 0 := by
  rw [distanceModulus, luminousDistance, if_pos h0]
  show (do let l ← log10? (10 / 10); return 5 * l) = some (0 : ℝ)
  rw [log10?, if_pos (by norm_num)]
  show some (5 * Real.logb 10 (10 / 10)) = some (0 : ℝ)
  norm_num

/-- The luminosity distance is recovered from the modulus. -/
theorem C54_modulus (env : Env) (z : ℝ) (p : Params) (d : ℝ) (hd : luminousDistance env z p = some d) (hpos : 0 < d) :
    ∃ μ, distanceModulus env z p = some μ ∧ d = (10 : ℝ) ^ (μ / 5 + 1) := by
  refine ⟨5 * Real.logb 10 (d / 10), ?_, ?_⟩
  · rw [distanceModulus, hd]
    show (do let l ← log10? (d / 10); return 5 * l) = _
    rw [log10?, if_pos (by positivity)]
    rfl
  · rw [mul_div_cancel_left₀ _ (by norm_num : (5 : ℝ) ≠ 0), Real.rpow_add (by norm_num), Real.rpow_logb (by norm_num) (by norm_num) (by positivity), Real.rpow_one]
    field_simp

/-- Distances are inversely proportional to the Hubble constant, which does not change the volume element. -/
theorem C54_scaling (env : Env) (z m l h k : ℝ) (hh : h ≠ 0) (hk : k ≠ 0) (hc : env.cLight ≠ 0) :
    comovingDistance env z (mkParams m l (k * h)) = (comovingDistance env z (mkParams m l h)).map (fun d => d / k) ∧
    transverseDistance env z (mkParams m l (k * h)) = (transverseDistance env z (mkParams m l h)).map (fun d => d / k) ∧
    volumeElement env z (mkParams m l (k * h)) = volumeElement env z (mkParams m l h) := by
  have hH : env.cLight * 1000 / (k * h) = env.cLight * 1000 / h / k := by field_simp
  have hadapter : adapter (mkParams m l (k * h)) = adapter (mkParams m l h) := by
    funext x
    unfold adapter
    rw [hubbleParameter_eq, hubbleParameter_eq]
  have hcom : comovingDistance env z (mkParams m l (k * h)) = (comovingDistance env z (mkParams m l h)).map (fun d => d / k) := by
    unfold comovingDistance
    rw [hubbleDistance_eq env m l _ (mul_ne_zero hk hh), hubbleDistance_eq env m l h hh, hadapter, hH]
    by_cases hz : env.isZero z = true
    · rw [if_pos hz, if_pos hz]; simp
    · rw [if_neg hz, if_neg hz]
      cases env.integrate (adapter (mkParams m l h)) 0 z with
      | none => rfl
      | some i => show some _ = some _; congr 1; ring
  have htra : transverseDistance env z (mkParams m l (k * h)) = (transverseDistance env z (mkParams m l h)).map (fun d => d / k) := by
    cases hz : env.isZero (1 - m - l) with
    | true => rw [C54_flat env z m l _ hz, C54_flat env z m l _ hz]; exact hcom
    | false =>
      cases hd : comovingDistance env z (mkParams m l h) with
      | none =>
        rw [hd] at hcom
        unfold transverseDistance
        rw [hcom, hd]
        rfl
      | some d =>
        rw [hd] at hcom
        by_cases hk0 : 1 - m - l = 0
        · have hn : ∀ (h' d' : ℝ), h' ≠ 0 → comovingDistance env z (mkParams m l h') = some d' → transverseDistance env z (mkParams m l h') = none := by
            intro h' d' hh' hd'
            unfold transverseDistance
            rw [hd']
            show (if env.isZero (mkParams m l h').omegaK = true then _ else _) = _
            rw [if_neg (by rw [show (mkParams m l h').omegaK = 1 - m - l from rfl, hz]; simp), hubbleDistance_eq env m l h' hh']
            show (do let s ← sqrt? |1 - m - l|; let r ← div? (env.cLight * 1000 / h') s; let q ← div? d' r; if 1 - m - l > 0 then return r * Real.sinh q else return r * Real.sin q) = _
            rw [hk0, abs_zero, sqrt?, if_neg (lt_irrefl _), Real.sqrt_zero]
            show (do let r ← div? (env.cLight * 1000 / h') 0; let q ← div? d' r; if (0 : ℝ) > 0 then return r * Real.sinh q else return r * Real.sin q) = _
            rw [div?, if_pos rfl]
            rfl
          rw [hn _ _ (mul_ne_zero hk hh) hcom, hn _ _ hh hd]
          rfl
        · rw [transverse_eq env z m l _ _ (mul_ne_zero hk hh) hc hz hk0 hcom, transverse_eq env z m l _ _ hh hc hz hk0 hd, hH]
          have hs : Real.sqrt |1 - m - l| ≠ 0 := Real.sqrt_ne_zero'.2 (abs_pos.2 hk0)
          generalize hr : env.cLight * 1000 / h = r
          have hr0 : r ≠ 0 := by rw [← hr]; exact div_ne_zero (mul_ne_zero hc (by norm_num)) hh
          have hq : d / k / (r / k / Real.sqrt |1 - m - l|) = d / (r / Real.sqrt |1 - m - l|) := by field_simp
          simp only [Option.map_some]
          rw [hq]
          split <;> congr 1 <;> ring
  refine ⟨hcom, htra, ?_⟩
  unfold volumeElement
  rw [hubbleDistance_eq env m l _ (mul_ne_zero hk hh), hubbleDistance_eq env m l h hh, htra, hH, hubbleParameter_eq, hubbleParameter_eq]
  have hr0 : env.cLight * 1000 / h ≠ 0 := div_ne_zero (mul_ne_zero hc (by norm_num)) hh
  generalize env.cLight * 1000 / h = r at hr0
  by_cases hr : rad m l z < 0
  · rw [if_pos hr]; rfl
  · rw [if_neg hr]
    cases transverseDistance env z (mkParams m l h) with
    | none => rfl
    | some d =>
      show div? (d / k * (d / k)) (Real.sqrt (rad m l z) * (r / k) * (r / k)) = div? (d * d) (Real.sqrt (rad m l z) * r * r)
      unfold div?
      by_cases he : Real.sqrt (rad m l z) = 0
      · rw [he]; simp
      · rw [if_neg (by positivity), if_neg (by positivity)]
        congr 1
        field_simp

/-! ## The exact integral -/

/-- With matter and at most the critical density of dark energy, the Hubble parameter is at least 1. -/
theorem rad_ge_one (m l z : ℝ) (hm : 0 ≤ m) (hl : l ≤ 1) (hz : 0 ≤ z) : 1 ≤ rad m l z := by
  have h1 : rad m l z = 1 + (m * z * (1 + z) ^ 2 + (1 - l) * (z * (2 + z))) := by unfold rad; ring
  have h2 : 0 ≤ m * z * (1 + z) ^ 2 := by positivity
  have h3 : 0 ≤ (1 - l) * (z * (2 + z)) := mul_nonneg (by linarith) (by positivity)
  rw [h1]
  linarith

theorem rad_continuous (m l : ℝ) : Continuous (rad m l) := by
  unfold rad
  fun_prop

theorem adapter_eq (m l h x : ℝ) (hx : 0 < rad m l x) : adapter (mkParams m l h) x = some (1 / Real.sqrt (rad m l x)) := by
  unfold adapter
  rw [hubbleParameter_eq, if_neg (not_lt.2 (le_of_lt hx))]
  show div? 1 (Real.sqrt (rad m l x)) = _
  rw [div?, if_neg (Real.sqrt_ne_zero'.2 hx)]

/-- The line of sight integral. -/
noncomputable def los (m l z : ℝ) : ℝ := ∫ x in (0 : ℝ)..z, 1 / Real.sqrt (rad m l x)

theorem integrand_cont (m l z : ℝ) (hr : ∀ x ∈ Set.uIcc 0 z, 0 < rad m l x) : ContinuousOn (fun x => 1 / Real.sqrt (rad m l x)) (Set.uIcc 0 z) := by
  refine ContinuousOn.div continuousOn_const ?_ fun x hx => Real.sqrt_ne_zero'.2 (hr x hx)
  exact (Real.continuous_sqrt.comp (rad_continuous m l)).continuousOn

theorem exact_adapter (m l h z : ℝ) (hr : ∀ x ∈ Set.uIcc 0 z, 0 < rad m l x) : exactIntegral (adapter (mkParams m l h)) 0 z = some (los m l z) := by
  rw [exactIntegral, if_pos (fun x hx => by rw [adapter_eq m l h x (hr x hx)]; rfl)]
  congr 1
  unfold los
  refine intervalIntegral.integral_congr fun x hx => ?_
  show (adapter (mkParams m l h) x).getD 0 = _
  rw [adapter_eq m l h x (hr x hx)]
  rfl

/-- The comoving distance is the Hubble distance times the integral of the inverse Hubble parameter. -/
theorem C54_comoving (c z m l h : ℝ) (hh : h ≠ 0) (hr : ∀ x ∈ Set.uIcc 0 z, 0 < rad m l x) :
    comovingDistance (exactEnv c) z (mkParams m l h) = some (c * 1000 / h * ∫ x in (0 : ℝ)..z, 1 / Real.sqrt (m * (1 + x) ^ 3 + (1 - m - l) * (1 + x) ^ 2 + l)) := by
  show _ = some (c * 1000 / h * los m l z)
  unfold comovingDistance
  by_cases hz : z = 0
  · rw [if_pos (by simp [exactEnv, hz]), hz]
    simp [los]
  · rw [if_neg (by simp [exactEnv, hz]), hubbleDistance_eq _ m l h hh]
    show (do let i ← exactIntegral (adapter (mkParams m l h)) 0 z; return c * 1000 / h * i) = _
    rw [exact_adapter m l h z hr]
    rfl

theorem uIcc_nonneg {z x : ℝ} (hz : 0 ≤ z) (hx : x ∈ Set.uIcc 0 z) : 0 ≤ x := by
  rw [Set.uIcc_of_le hz] at hx
  exact hx.1

theorem rad_pos (m l x : ℝ) (hm : 0 ≤ m) (hl : l ≤ 1) (hx : 0 ≤ x) : 0 < rad m l x := lt_of_lt_of_le one_pos (rad_ge_one m l x hm hl hx)

/-- The comoving distance is positive, at most the one of the Hubble law, and grows with the redshift. -/
theorem C54_monotone (c z z' m l h : ℝ) (hc : 0 < c) (hh : 0 < h) (hm : 0 ≤ m) (hl : l ≤ 1) (hz : 0 ≤ z) (hz' : z < z') :
    ∃ d d', comovingDistance (exactEnv c) z (mkParams m l h) = some d ∧ comovingDistance (exactEnv c) z' (mkParams m l h) = some d' ∧ 0 ≤ d ∧ d < d' ∧
      d' - d ≤ c * 1000 / h * (z' - z) := by
  have h0 : (0 : ℝ) ≤ z' := hz.trans (le_of_lt hz')
  refine ⟨_, _, C54_comoving c z m l h (ne_of_gt hh) (fun x hx => rad_pos m l x hm hl (uIcc_nonneg hz hx)),
    C54_comoving c z' m l h (ne_of_gt hh) (fun x hx => rad_pos m l x hm hl (uIcc_nonneg h0 hx)), ?_⟩
  show 0 ≤ c * 1000 / h * los m l z ∧ c * 1000 / h * los m l z < c * 1000 / h * los m l z' ∧ c * 1000 / h * los m l z' - c * 1000 / h * los m l z ≤ c * 1000 / h * (z' - z)
  have hD : 0 < c * 1000 / h := by positivity
  have hi : ∀ a b : ℝ, 0 ≤ a → 0 ≤ b → IntervalIntegrable (fun x => 1 / Real.sqrt (rad m l x)) MeasureTheory.volume a b := by
    intro a b ha hb
    apply ContinuousOn.intervalIntegrable
    refine ContinuousOn.div continuousOn_const (Real.continuous_sqrt.comp (rad_continuous m l)).continuousOn fun x hx => Real.sqrt_ne_zero'.2 (rad_pos m l x hm hl ?_)
    rcases le_total a b with hab | hab
    · rw [Set.uIcc_of_le hab] at hx; exact ha.trans hx.1
    · rw [Set.uIcc_of_ge hab] at hx; exact hb.trans hx.1
  have hsub : los m l z' - los m l z = ∫ x in z..z', 1 / Real.sqrt (rad m l x) := by
    unfold los
    rw [intervalIntegral.integral_interval_sub_left (hi 0 z' (le_refl _) h0) (hi 0 z (le_refl _) hz)]
  have hpos : 0 < los m l z' - los m l z := by
    rw [hsub]
    refine intervalIntegral.intervalIntegral_pos_of_pos_on (hi z z' hz h0) (fun x hx => ?_) hz'
    exact div_pos one_pos (Real.sqrt_pos.2 (rad_pos m l x hm hl (hz.trans (le_of_lt hx.1))))
  have hle : los m l z' - los m l z ≤ z' - z := by
    rw [hsub]
    have := intervalIntegral.integral_mono_on (le_of_lt hz') (hi z z' hz h0) (g := fun _ => (1 : ℝ)) (intervalIntegrable_const) (fun x hx => by
      have h1 := rad_ge_one m l x hm hl (hz.trans hx.1)
      rw [div_le_one (Real.sqrt_pos.2 (by linarith))]
      rw [show (1 : ℝ) = Real.sqrt 1 from Real.sqrt_one.symm]
      exact Real.sqrt_le_sqrt h1)
    simpa using this
  have hnn : 0 ≤ los m l z := by
    unfold los
    refine intervalIntegral.integral_nonneg hz fun x _ => ?_
    positivity
  refine ⟨mul_nonneg (le_of_lt hD) hnn, mul_lt_mul_of_pos_left (by linarith) hD, ?_⟩
  rw [← mul_sub]
  exact mul_le_mul_of_nonneg_left hle (le_of_lt hD)

theorem los_deriv (m l z : ℝ) (hr : ∀ x ∈ Set.uIcc 0 z, 0 < rad m l x) : HasDerivAt (los m l) (1 / Real.sqrt (rad m l z)) z := by
  have hz := hr z Set.right_mem_uIcc
  have hcont : ContinuousAt (fun x => 1 / Real.sqrt (rad m l x)) z :=
    ContinuousAt.div continuousAt_const (Real.continuous_sqrt.comp (rad_continuous m l)).continuousAt (Real.sqrt_ne_zero'.2 hz)
  refine intervalIntegral.integral_hasDerivAt_right (integrand_cont m l z hr).intervalIntegrable ?_ hcont
  exact (Measurable.div measurable_const (Real.continuous_sqrt.comp (rad_continuous m l)).measurable).stronglyMeasurable.stronglyMeasurableAtFilter

/-- Without matter and with the critical density of dark energy, distances follow the Hubble law. -/
theorem C54_deSitter (c z h : ℝ) (hh : h ≠ 0) : comovingDistance (exactEnv c) z (mkParams 0 1 h) = some (c * 1000 / h * z) := by
  have hr : ∀ x, rad 0 1 x = 1 := by intro x; unfold rad; ring
  have := C54_comoving c z 0 1 h hh (fun x _ => by rw [hr]; exact one_pos)
  rw [this]
  show some (c * 1000 / h * los 0 1 z) = _
  unfold los
  simp only [hr]
  simp

/-- In the empty model the comoving distance is the logarithm of the redshift. -/
theorem C54_empty (c z h : ℝ) (hh : h ≠ 0) (hz : -1 < z) : comovingDistance (exactEnv c) z (mkParams 0 0 h) = some (c * 1000 / h * Real.log (1 + z)) := by
  have hr : ∀ x, rad 0 0 x = (1 + x) ^ 2 := by intro x; unfold rad; ring
  have hx1 : ∀ x ∈ Set.uIcc 0 z, 0 < 1 + x := by
    intro x hx
    rcases le_total 0 z with h0 | h0
    · have := uIcc_nonneg h0 hx; linarith
    · rw [Set.uIcc_of_ge h0] at hx; linarith [hx.1]
  have := C54_comoving c z 0 0 h hh (fun x hx => by rw [hr]; exact pow_pos (hx1 x hx) 2)
  rw [this]
  show some (c * 1000 / h * los 0 0 z) = _
  have : los 0 0 z = Real.log (1 + z) := by
    unfold los
    have h1 : ∫ x in (0 : ℝ)..z, 1 / Real.sqrt (rad 0 0 x) = ∫ x in (0 : ℝ)..z, (fun y => 1 / y) (1 + x) := by
      refine intervalIntegral.integral_congr fun x hx => ?_
      show 1 / Real.sqrt (rad 0 0 x) = 1 / (1 + x)
      rw [hr, Real.sqrt_sq (le_of_lt (hx1 x hx))]
    rw [h1, intervalIntegral.integral_comp_add_left (fun y => 1 / y) 1, integral_one_div_of_pos (by norm_num) (by linarith)]
    simp
  rw [this]

theorem deriv_eq (c z m l h : ℝ) (hr : ∀ x ∈ Set.uIcc 0 z, 0 < rad m l x) : HasDerivAt (fun x => c * 1000 / h * los m l x) (c * 1000 / h * (1 / Real.sqrt (rad m l z))) z :=
  (los_deriv m l z hr).const_mul _

/-- The comoving distance grows with the redshift by the Hubble distance over the Hubble parameter. -/
theorem C54_derivative (c z m l h : ℝ) (hh : h ≠ 0) (hm : 0 ≤ m) (hl : l ≤ 1) (hz : 0 < z) :
    ∃ D : ℝ → ℝ, (∀ x, 0 ≤ x → comovingDistance (exactEnv c) x (mkParams m l h) = some (D x)) ∧
      ∃ dh e, hubbleDistance (exactEnv c) (mkParams m l h) = some dh ∧ hubbleParameter z (mkParams m l h) = some e ∧ HasDerivAt D (dh / e) z := by
  refine ⟨fun x => c * 1000 / h * los m l x, fun x hx => C54_comoving c x m l h hh fun y hy => rad_pos m l y hm hl (uIcc_nonneg hx hy), c * 1000 / h, Real.sqrt (rad m l z),
    hubbleDistance_eq (exactEnv c) m l h hh, ?_, ?_⟩
  · rw [hubbleParameter_eq, if_neg (not_lt.2 (le_of_lt (rad_pos m l z hm hl (le_of_lt hz))))]
  · have := deriv_eq c z m l h fun y hy => rad_pos m l y hm hl (uIcc_nonneg (le_of_lt hz) hy)
    rwa [mul_one_div] at this

/-- In a flat model the volume element is the derivative of a third of the cube of the comoving distance in units of the Hubble distance. -/
theorem C54_volume (c z m h : ℝ) (hc : c ≠ 0) (hh : h ≠ 0) (hm : 0 ≤ m) (hz : 0 < z) :
    ∃ D : ℝ → ℝ, (∀ x, 0 ≤ x → comovingDistance (exactEnv c) x (mkParams m (1 - m) h) = some (D x)) ∧
      ∃ dh v, hubbleDistance (exactEnv c) (mkParams m (1 - m) h) = some dh ∧ volumeElement (exactEnv c) z (mkParams m (1 - m) h) = some v ∧
        HasDerivAt (fun x => (D x / dh) ^ 3 / 3) v z := by
  have hl : 1 - m ≤ 1 := by linarith
  have hr := rad_pos m (1 - m) z hm hl (le_of_lt hz)
  have hD : c * 1000 / h ≠ 0 := div_ne_zero (mul_ne_zero hc (by norm_num)) hh
  have hs : Real.sqrt (rad m (1 - m) z) ≠ 0 := Real.sqrt_ne_zero'.2 hr
  have hcom : ∀ x, 0 ≤ x → comovingDistance (exactEnv c) x (mkParams m (1 - m) h) = some (c * 1000 / h * los m (1 - m) x) :=
    fun x hx => C54_comoving c x m (1 - m) h hh fun y hy => rad_pos m (1 - m) y hm hl (uIcc_nonneg hx hy)
  refine ⟨fun x => c * 1000 / h * los m (1 - m) x, hcom, c * 1000 / h, los m (1 - m) z ^ 2 / Real.sqrt (rad m (1 - m) z), hubbleDistance_eq (exactEnv c) m _ h hh, ?_, ?_⟩
  · unfold volumeElement
    rw [hubbleDistance_eq (exactEnv c) m _ h hh, hubbleParameter_eq, if_neg (not_lt.2 (le_of_lt hr)), C54_flat _ _ _ _ _ (by simp [exactEnv]), hcom z (le_of_lt hz)]
    show div? (c * 1000 / h * los m (1 - m) z * (c * 1000 / h * los m (1 - m) z)) (Real.sqrt (rad m (1 - m) z) * (c * 1000 / h) * (c * 1000 / h)) = _
    generalize c * 1000 / h = r at hD
    rw [div?, if_neg (by positivity)]
    congr 1
    field_simp
  · generalize c * 1000 / h = r at hD
    have hfun : (fun x => (r * los m (1 - m) x / r) ^ 3 / 3) = fun x => los m (1 - m) x ^ 3 / 3 := by
      funext x
      rw [mul_div_cancel_left₀ _ hD]
    rw [hfun]
    have h1 := ((los_deriv m (1 - m) z fun y hy => rad_pos m (1 - m) y hm hl (uIcc_nonneg (le_of_lt hz) hy)).pow 3).div_const 3
    refine HasDerivAt.congr_deriv h1 ?_
    push_cast
    ring

/-- In the empty model the transverse distance is the one of Milne. -/
theorem C54_milne (c z h : ℝ) (hc : c ≠ 0) (hh : h ≠ 0) (hz : -1 < z) :
    transverseDistance (exactEnv c) z (mkParams 0 0 h) = some (c * 1000 / h * (((1 + z) - 1 / (1 + z)) / 2)) := by
  have hD : c * 1000 / h ≠ 0 := div_ne_zero (mul_ne_zero hc (by norm_num)) hh
  rw [transverse_eq (exactEnv c) z 0 0 h _ hh hc (by simp [exactEnv]) (by norm_num) (C54_empty c z h hh hz), if_pos (by norm_num)]
  have h1 : Real.sqrt |1 - 0 - 0| = 1 := by norm_num
  show some (c * 1000 / h / Real.sqrt |1 - 0 - 0| * Real.sinh (c * 1000 / h * Real.log (1 + z) / (c * 1000 / h / Real.sqrt |1 - 0 - 0|))) = _
  rw [h1, div_one, mul_div_cancel_left₀ _ hD, Real.sinh_eq, Real.exp_neg, Real.exp_log (by linarith), one_div]

/-- Without dark energy and curvature. -/
theorem C54_einstein_deSitter (c z h : ℝ) (hh : h ≠ 0) (hz : 0 ≤ z) : comovingDistance (exactEnv c) z (mkParams 1 0 h) = some (2 * (c * 1000 / h) * (1 - 1 / Real.sqrt (1 + z))) := by
  have hr : ∀ x, rad 1 0 x = (1 + x) ^ 3 := by intro x; unfold rad; ring
  have hx1 : ∀ x ∈ Set.uIcc 0 z, 0 < 1 + x := fun x hx => by have := uIcc_nonneg hz hx; linarith
  have := C54_comoving c z 1 0 h hh (fun x hx => by rw [hr]; exact pow_pos (hx1 x hx) 3)
  rw [this]
  show some (c * 1000 / h * los 1 0 z) = _
  have hF : ∀ x ∈ Set.uIcc 0 z, HasDerivAt (fun y => -2 * (Real.sqrt (1 + y))⁻¹) (1 / Real.sqrt (rad 1 0 x)) x := by
    intro x hx
    have hp := hx1 x hx
    have hs : Real.sqrt (1 + x) ≠ 0 := Real.sqrt_ne_zero'.2 hp
    have h1 : HasDerivAt (fun y : ℝ => 1 + y) 1 x := (hasDerivAt_id x).const_add 1
    have h2 := ((h1.sqrt (ne_of_gt hp)).inv hs).const_mul (-2)
    refine HasDerivAt.congr_deriv h2 ?_
    have h3 : Real.sqrt (rad 1 0 x) = Real.sqrt (1 + x) ^ 3 := by
      rw [hr]
      have : (1 + x) ^ 3 = (Real.sqrt (1 + x) ^ 3) ^ 2 := by
        rw [← pow_mul, show 3 * 2 = 2 * 3 from rfl, pow_mul, Real.sq_sqrt (le_of_lt hp)]
      rw [this, Real.sqrt_sq (by positivity)]
    rw [h3]
    field_simp
  have hlos : los 1 0 z = 2 * (1 - 1 / Real.sqrt (1 + z)) := by
    unfold los
    rw [intervalIntegral.integral_eq_sub_of_hasDerivAt hF (integrand_cont 1 0 z fun x hx => by rw [hr]; exact pow_pos (hx1 x hx) 3).intervalIntegrable]
    simp
    ring
  rw [hlos]
  congr 1
  ring

/-- The light of distant sources: the expected luminosity distance at every redshift. -/
def C54_full : Prop := ∀ (c z m l h : ℝ), 0 < c → 0 < h → 0 ≤ m → l ≤ 1 → 0 ≤ z →
  luminousDistance (exactEnv c) z (mkParams m l h) = (transverseDistance (exactEnv c) z (mkParams m l h)).map fun t => (1 + z) * t

/-- At redshift 0 the luminosity distance is 10, as documented, and the transverse one 0. -/
theorem C54_violated : ¬ C54_full := by
  intro hf
  have := hf 300 0 0 1 70 (by norm_num) (by norm_num) (by norm_num) (by norm_num) (by norm_num)
  rw [luminousDistance, if_pos (by simp [exactEnv]), C54_flat _ _ _ _ _ (by simp [exactEnv]), C54_zero _ (by simp [exactEnv])] at this
  simp at this

/-- The luminosity distance is not continuous there: it is small for small redshifts. -/
theorem C54_violated_jump (ε : ℝ) (hε : 0 < ε) (c h : ℝ) (hc : 0 < c) (hh : 0 < h) :
    ∃ z > 0, ∃ d, luminousDistance (exactEnv c) z (mkParams 0 1 h) = some d ∧ 0 < d ∧ d < ε ∧ luminousDistance (exactEnv c) 0 (mkParams 0 1 h) = some 10 := by
  have hD : 0 < c * 1000 / h := by positivity
  let z := min 1 (ε / (4 * (c * 1000 / h)))
  have hz0 : 0 < z := lt_min one_pos (by positivity)
  refine ⟨z, hz0, (1 + z) * (c * 1000 / h * z), ?_, by positivity, ?_, ?_⟩
  · rw [C54_luminous_partial _ _ _ (by simp [exactEnv, ne_of_gt hz0]), C54_flat _ _ _ _ _ (by simp [exactEnv]), C54_deSitter c z h (ne_of_gt hh)]
    rfl
  · have h1 : z ≤ 1 := min_le_left _ _
    have h2 : z ≤ ε / (4 * (c * 1000 / h)) := min_le_right _ _
    have h3 : c * 1000 / h * z ≤ ε / 4 := by
      rw [le_div_iff₀ (by positivity)] at h2
      linarith
    have h4 : 0 ≤ c * 1000 / h * z := by positivity
    nlinarith
  · rw [luminousDistance, if_pos (by simp [exactEnv])]

/-! ## Examples -/

/-- The parameters of `CosmologicalParameters.h` 52 fulfil the hypotheses. -/
example : ∃ d d', comovingDistance (exactEnv 299792458) 1 (mkParams 0.3089 0.6911 67.74) = some d ∧ comovingDistance (exactEnv 299792458) 2 (mkParams 0.3089 0.6911 67.74) = some d' ∧ d < d' := by
  obtain ⟨d, d', h1, h2, _, h3, _⟩ := C54_monotone 299792458 1 2 0.3089 0.6911 67.74 (by norm_num) (by norm_num) (by norm_num) (by norm_num) (by norm_num) (by norm_num)
  exact ⟨d, d', h1, h2, h3⟩

/-- A closed model. -/
example : ∃ d t, comovingDistance (exactEnv 300) 3 (mkParams 1 1 70) = some d ∧ transverseDistance (exactEnv 300) 3 (mkParams 1 1 70) = some t ∧ t ≤ d := by
  obtain ⟨_, d', _, h2, _, h3, _⟩ := C54_monotone 300 0 3 1 1 70 (by norm_num) (by norm_num) (by norm_num) (by norm_num) (by norm_num) (by norm_num)
  obtain ⟨t, ht, hle⟩ := (C54_curved (exactEnv 300) 3 1 1 70 d' (by norm_num) (by norm_num [exactEnv]) (by linarith) h2).2 (by norm_num)
  exact ⟨d', t, h2, ht, hle⟩

/-- An open model without matter: twice the redshift factor. -/
example : transverseDistance (exactEnv 300) 1 (mkParams 0 0 100) = some 2250 := by
  rw [C54_milne 300 1 100 (by norm_num) (by norm_num) (by norm_num)]
  norm_num

example : comovingDistance (exactEnv 300) 3 (mkParams 1 0 100) = some 3000 := by
  rw [C54_einstein_deSitter 300 3 100 (by norm_num) (by norm_num)]
  have : Real.sqrt (1 + 3) = 2 := by rw [show (1 + 3 : ℝ) = 2 ^ 2 by norm_num]; exact Real.sqrt_sq (by norm_num)
  rw [this]
  norm_num

example : ∃ μ, distanceModulus (exactEnv 300) 1 (mkParams 0 1 300) = some μ ∧ (2000 : ℝ) = 10 ^ (μ / 5 + 1) :=
  C54_modulus _ _ _ _ (by
    rw [C54_luminous_partial _ _ _ (by simp [exactEnv]), C54_flat _ _ _ _ _ (by simp [exactEnv]), C54_deSitter 300 1 300 (by norm_num)]
    norm_num) (by norm_num)

end Alexandria.Physics
