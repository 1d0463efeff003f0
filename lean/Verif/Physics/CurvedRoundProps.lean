import Verif.Physics.CurvedRoundLemmas

/-!
# C169: transverse distance, luminosity distance and distance modulus in floating point arithmetic
-/

namespace Alexandria.Physics

open Set MathUtils

/-- What is demanded of the C library: results that are right up to a few units in the last place. -/
structure Spec.Accurate (lib : MathLib) : Prop where
  sinh : ∀ x, |lib.sinh x - Real.sinh x| ≤ 1 / 2 ^ 50 * |Real.sinh x|
  sin : ∀ x, |x| ≤ 1 → |lib.sin x - Real.sin x| ≤ 1 / 2 ^ 50 * |Real.sin x|
  log10 : ∀ x, 0 < x → |lib.log10 x - Real.logb 10 x| ≤ 1 / 2 ^ 50 * |Real.logb 10 x|

/-- What is demanded of the comparison with 0: it holds for 0, and for no number that is not small. -/
structure Spec.Tolerance (isZero : ℝ → Bool) : Prop where
  zero : isZero 0 = true
  small : ∀ x, isZero x = true → |x| ≤ 1 / 10 ^ 12

variable {R : Rounding ℝ} {u : ℝ} {lib : MathLib}

/-! ## The steps -/

theorem hubbleDistance_close (hu : 0 ≤ u) (hu2 : u ≤ 1 / 2 ^ 53) (hr : ∀ x, |R.rnd x - x| ≤ u * |x|) (c h : ℝ) (hc : 0 < c) (hh : 0 < h) :
    |R.rnd (R.rnd (c * 1000) / h) - c * 1000 / h| ≤ 3 / 10 ^ 16 * |c * 1000 / h| := by
  have cD := ((((Close.refl u (c * 1000)).rnd hu hr).div hu h).rnd hu hr).1
  rw [abs_of_pos (by positivity : 0 < c * 1000), abs_of_pos hh] at cD
  have hp : (1 + u) ^ (0 + 1 + 1) - 1 ≤ 9 / 8 * (2 / 2 ^ 53) := by have := pow_rounding hu hu2 2 (by norm_num); exact_mod_cast this
  have hD : 0 < c * 1000 / h := by positivity
  rw [abs_of_pos hD]
  exact cD.trans (mul_le_mul_of_nonneg_right (hp.trans (by norm_num)) hD.le)

theorem curved_steps (hu : 0 ≤ u) (hu2 : u ≤ 1 / 2 ^ 53) (hr : ∀ x, |R.rnd x - x| ≤ u * |x|) {D D' a d : ℝ} (hD : 0 < D) (ha : 0 < a) (hD' : |D' - D| ≤ 3 / 10 ^ 16 * |D|) :
    0 < R.rnd a ∧ 0 < R.rnd (D' / R.rnd a) ∧ |R.rnd (D' / R.rnd a) - D / a| ≤ 7 / 10 ^ 16 * |D / a| ∧
      ∃ Y, R.rnd (d / R.rnd (D' / R.rnd a)) = a * Y ∧ |Y - d / D| ≤ 1 / 10 ^ 15 * |d / D| := by
  have hu3 : u ≤ 12 / 10 ^ 17 := hu2.trans (by norm_num)
  have h1 : |R.rnd a - a| ≤ u * a := by have := hr a; rwa [abs_of_pos ha] at this
  obtain ⟨s0, s1⟩ := rel_div ha hu (hu3.trans (by norm_num)) hD' h1
  have s2 := rel_mono (rel_rnd (R := R) hu hr s1) (q := 7 / 10 ^ 16) (by norm_num at hu3 ⊢; nlinarith)
  have hDa : 0 < D / a := by positivity
  have s3 := s2
  rw [abs_of_pos hDa] at s3
  obtain ⟨r0, r1⟩ := rel_div (x' := d) (x := d) (p := 0) hDa (by norm_num) (by norm_num) (by simp) s3
  have r2 := rel_mono (rel_rnd (R := R) hu hr r1) (q := 1 / 10 ^ 15) (by norm_num at hu3 ⊢; nlinarith)
  refine ⟨s0, r0, s2, R.rnd (d / R.rnd (D' / R.rnd a)) / a, by field_simp, ?_⟩
  have e1 : d / (D / a) = a * (d / D) := by field_simp
  rw [e1] at r2
  have e2 : R.rnd (d / R.rnd (D' / R.rnd a)) / a - d / D = (R.rnd (d / R.rnd (D' / R.rnd a)) - a * (d / D)) / a := by field_simp
  rw [e2, abs_div, abs_of_pos ha, div_le_iff₀ ha]
  rw [abs_mul, abs_of_pos ha] at r2
  linarith

theorem last_step (hu : 0 ≤ u) (hu2 : u ≤ 1 / 2 ^ 53) (hr : ∀ x, |R.rnd x - x| ≤ u * |x|) {r r' S' S : ℝ} (h1 : |r' - r| ≤ 7 / 10 ^ 16 * |r|) (h2 : |S' - S| ≤ 1 / 2 ^ 50 * |S|) :
    |R.rnd (r' * S') - r * S| ≤ 2 / 10 ^ 15 * |r * S| := by
  have hu3 : u ≤ 12 / 10 ^ 17 := hu2.trans (by norm_num)
  exact rel_mono (rel_rnd (R := R) hu hr (rel_mul h1 (rel_mono h2 (q := 9 / 10 ^ 16) (by norm_num)))) (by norm_num at hu3 ⊢; nlinarith)

/-- In terms of the Hubble distance. -/
theorem scaled {D t x q : ℝ} (hD : 0 < D) (h : |t - D * x| ≤ q * |D * x|) : |t / D - x| ≤ q * |x| := by
  have e : t / D - x = (t - D * x) / D := by field_simp
  rw [e, abs_div, abs_of_pos hD, div_le_iff₀ hD]
  rw [abs_mul, abs_of_pos hD] at h
  linarith

/-- The parts of the error. -/
theorem bend_error {a a' y Y x z δ t : ℝ} (hy : 0 ≤ y) (ha : 0 ≤ a) (ha1 : a ≤ 1) (ha' : 0 ≤ a') (hz : 0 ≤ z) (hz13 : z ≤ 13) (hyz : y ≤ z) (hlog : a * y ≤ Real.log (1 + z))
    (hk : |a' ^ 2 - a ^ 2| ≤ 1 / 10 ^ 15) (hδ : δ ≤ 5 / 128) (hx : |x - y| ≤ (δ + 2 / 10 ^ 7) * z) (hY : |Y - x| ≤ 1 / 10 ^ 15 * |x|) (ht : |t - bend a' Y| ≤ 2 / 10 ^ 15 * |bend a' Y|) :
    |t - bend a y| ≤ 2 * (1 + z) * (δ + 3 / 10 ^ 7) * z := by
  have haa : |a' - a| ≤ 1 / 10 ^ 7 := by
    have h1 : |a' ^ 2 - a ^ 2| ≤ (1 / 10 ^ 7) ^ 2 := hk.trans (by norm_num)
    have := sqrt_sub_le (sq_nonneg a') (sq_nonneg a) (by norm_num) h1
    rwa [Real.sqrt_sq ha', Real.sqrt_sq ha] at this
  have hx0 : |x| ≤ 21 / 20 * z := by
    have := abs_add_le (x - y) y
    rw [sub_add_cancel, abs_of_nonneg hy] at this
    nlinarith
  have hYy : |Y - y| ≤ (δ + 2 / 10 ^ 7 + 2 / 10 ^ 15) * z := by
    have := abs_add_le (Y - x) (x - y)
    rw [sub_add_sub_cancel] at this
    norm_num at hY hx ⊢
    linarith
  have hYy' : |Y - y| ≤ 6 / 10 := by
    refine hYy.trans ?_
    have : (δ + 2 / 10 ^ 7 + 2 / 10 ^ 15) * z ≤ (5 / 128 + 2 / 10 ^ 7 + 2 / 10 ^ 15) * z := mul_le_mul_of_nonneg_right (by linarith) hz
    norm_num at this ⊢
    linarith
  have hYa : |Y| ≤ y + 6 / 10 := by
    have := abs_add_le (Y - y) y
    rw [sub_add_cancel, abs_of_nonneg hy] at this
    linarith
  have hYz : |Y| ≤ 11 / 10 * z := by
    have := abs_add_le (Y - x) x
    rw [sub_add_cancel] at this
    norm_num at hY
    linarith
  have hC := cosh_bound hy ha ha1 ha' hz hz13 hyz le_rfl (by linarith) (by linarith [(abs_le.mp haa).2]) hlog (M := y + 6 / 10)
  have b1 := bend_lip ha' (y := y) (y' := Y) (M := y + 6 / 10) (by rw [abs_of_nonneg hy]; linarith) hYa
  have b2 := bend_abs ha' hYa
  have b1' := b1.trans (mul_le_mul_of_nonneg_right hC (abs_nonneg _))
  have b2' := b2.trans (mul_le_mul hC hYz (abs_nonneg _) (by linarith))
  have hC1 := cosh_bound hy ha ha1 ha' hz hz13 hyz (by linarith) hy (by linarith [(abs_le.mp haa).2]) hlog (M := y)
  have hC2 := cosh_bound hy ha ha1 ha hz hz13 hyz (by linarith) hy (by norm_num) hlog (M := y)
  have hy3 : y ^ 3 ≤ 169 * z := by
    have h1 : y ^ 2 ≤ 169 := by nlinarith
    calc y ^ 3 = y ^ 2 * y := by ring
      _ ≤ 169 * z := mul_le_mul h1 hyz hy (by norm_num)
  have b3 : |bend a' y - bend a y| ≤ 1 / 10 ^ 15 / 2 * (169 * z) * (2 * (1 + z)) := by
    have hy30 := pow_nonneg hy 3
    rcases le_total a a' with h | h
    · have hk1 := (le_abs_self _).trans hk
      refine (bend_sub ha h hy).trans ?_
      refine mul_le_mul ?_ hC1 (Real.cosh_pos _).le (by positivity)
      exact mul_le_mul (by linarith) hy3 hy30 (by norm_num)
    · have hk1 := (neg_le_abs _).trans hk
      rw [abs_sub_comm]
      refine (bend_sub ha' h hy).trans ?_
      refine mul_le_mul ?_ hC2 (Real.cosh_pos _).le (by positivity)
      exact mul_le_mul (by linarith) hy3 hy30 (by norm_num)
  have b4 := mul_le_mul_of_nonneg_left hYy (show 0 ≤ 2 * (1 + z) by linarith)
  have t1 := abs_add_le (t - bend a' Y) (bend a' Y - bend a' y + (bend a' y - bend a y))
  have t2 := abs_add_le (bend a' Y - bend a' y) (bend a' y - bend a y)
  rw [show t - bend a' Y + (bend a' Y - bend a' y + (bend a' y - bend a y)) = t - bend a y by ring] at t1
  have hzz : 0 ≤ (1 + z) * z := by positivity
  norm_num at ht b2' b3 b4 ⊢
  nlinarith

theorem flat_error {a y x z δ e : ℝ} (hy : 0 ≤ y) (ha : 0 ≤ a) (ha1 : a ≤ 1) (hz : 0 ≤ z) (hz13 : z ≤ 13) (hyz : y ≤ z) (hlog : a * y ≤ Real.log (1 + z)) (hk : a ^ 2 ≤ 2 / 10 ^ 12) (hδ0 : 0 ≤ δ)
    (he : e ≤ 22 / 10 ^ 8) (hx : |x - y| ≤ (δ + e) * z) : |x - bend a y| ≤ 2 * (1 + z) * (δ + 3 / 10 ^ 7) * z := by
  have hC2 := cosh_bound hy ha ha1 ha hz hz13 hyz (by linarith) hy (by norm_num) hlog (M := y)
  have hy3 : y ^ 3 ≤ 169 * z := by
    have h1 : y ^ 2 ≤ 169 := by nlinarith
    calc y ^ 3 = y ^ 2 * y := by ring
      _ ≤ 169 * z := mul_le_mul h1 hyz hy (by norm_num)
  have b3 : |bend a y - y| ≤ 2 / 10 ^ 12 / 2 * (169 * z) * (2 * (1 + z)) := by
    have hy30 := pow_nonneg hy 3
    have h0 : bend 0 y = y := by simp [bend]
    have h1 := bend_sub le_rfl ha hy
    rw [h0] at h1
    refine h1.trans ?_
    refine mul_le_mul ?_ hC2 (Real.cosh_pos _).le (by positivity)
    refine mul_le_mul ?_ hy3 hy30 (by norm_num)
    norm_num at hk ⊢
    linarith
  have t1 := abs_add_le (x - y) (y - bend a y)
  rw [sub_add_sub_cancel, abs_sub_comm y] at t1
  have hzz : 0 ≤ (1 + z) * z := by positivity
  have hzz2 : 0 ≤ z * z := by positivity
  have h5 := mul_nonneg hδ0 hz
  have h6 := mul_nonneg hδ0 hzz2
  have h7 := mul_le_mul_of_nonneg_right he hz
  norm_num at b3 h7 ⊢
  nlinarith

/-! ## The transverse distance -/

/-- The transverse distance, in terms of the Hubble distance. -/
theorem transverse_error (hu : 0 ≤ u) (hu2 : u ≤ 1 / 2 ^ 53) (hr : ∀ x, |R.rnd x - x| ≤ u * |x|) (hlib : Spec.Accurate lib) (c m l h z t : ℝ) (isZero : ℝ → Bool) (htol : Spec.Tolerance isZero)
    (hc : 0 < c) (hh : 0 < h) (hm : 0 ≤ m) (hl : 0 ≤ l) (hml : m + l ≤ 1) (hz : 0 ≤ z) (hz13 : z ≤ 13) (hz0 : isZero z = false)
    (ht : machineTransverse R lib c isZero z (machineParams R m l h) = some t) :
    |t / (c * 1000 / h) - bend (Real.sqrt (1 - m - l)) (los m l z)| ≤ 2 * (1 + z) * (Spec.integrationError z + 3 / 10 ^ 7) * z := by
  have hl1 : l ≤ 1 := by linarith
  have hD : 0 < c * 1000 / h := by positivity
  have hk0 : 0 ≤ 1 - m - l := by linarith
  set y := los m l z with hyd
  have hy : 0 ≤ y := los_nonneg m l z hz
  have hyz : y ≤ z := los_le m l z hm hl1 hz
  have hlog : Real.sqrt (1 - m - l) * y ≤ Real.log (1 + z) := los_log m l z hm hl hml hz
  have ha := Real.sqrt_nonneg (1 - m - l)
  have ha1 : Real.sqrt (1 - m - l) ≤ 1 := Real.sqrt_le_iff.2 ⟨by norm_num, by linarith⟩
  have hasq : Real.sqrt (1 - m - l) ^ 2 = 1 - m - l := Real.sq_sqrt hk0
  have hK := omegaK_close hu hu2 hr m l h hm hl hml
  have hDd : machineHubbleDistance R c (machineParams R m l h) = some (R.rnd (R.rnd (c * 1000) / h)) := if_neg hh.ne'
  have hDc := hubbleDistance_close hu hu2 hr c h hc hh
  unfold machineTransverse at ht
  cases hd : machineComoving R c isZero (1 / 10000000) z (machineParams R m l h) with
  | none => rw [hd] at ht; cases ht
  | some d =>
    have hcl := comoving_close hu hu2 hr c _ m l h z d isZero hc hh hm hl hml hz hz13 hz0 hd
    rw [hd, hDd] at ht
    generalize (machineParams R m l h).omegaK = k at *
    generalize R.rnd (R.rnd (c * 1000) / h) = D' at *
    generalize c * 1000 / h = D at *
    generalize hA : Real.sqrt (1 - m - l) = a at *
    have hδ := integrationError_le z
    have hδ0 := integrationError_nonneg z
    have hx : |d / D - y| ≤ (Spec.integrationError z + 2 / 10 ^ 7) * z := by
      have e : d / D - y = (d - D * y) / D := by field_simp
      rw [e, abs_div, abs_of_pos hD, div_le_iff₀ hD]
      linarith
    generalize Spec.integrationError z = δ at *
    replace ht : (if isZero k = true then some d else do
        let s ← machineSqrt? R |k|
        let r ← machineDiv? R D' s
        let q ← machineDiv? R d r
        if k > 0 then some (R.rnd (r * lib.sinh q)) else some (R.rnd (r * lib.sin q))) = some t := ht
    have hKk := abs_le.mp hK
    by_cases hz' : isZero k = true
    · rw [if_pos hz'] at ht
      rw [← Option.some.inj ht]
      have h1 := (abs_le.mp (htol.small k hz')).2
      refine flat_error hy ha ha1 hz hz13 hyz hlog ?_ hδ0 (by norm_num) hx
      rw [hasq]
      norm_num at h1 hKk ⊢
      linarith
    · rw [if_neg hz'] at ht
      have hk : k ≠ 0 := fun e => hz' (e ▸ htol.zero)
      have hak : 0 < |k| := abs_pos.mpr hk
      have hsq : 0 < Real.sqrt |k| := Real.sqrt_pos.2 hak
      obtain ⟨s0, r0, r1, Y, hY1, hY2⟩ := curved_steps (d := d) hu hu2 hr hD hsq hDc
      rw [machineSqrt?, if_neg (not_lt.mpr hak.le)] at ht
      replace ht : (do
        let r ← machineDiv? R D' (R.rnd (Real.sqrt |k|))
        let q ← machineDiv? R d r
        if k > 0 then some (R.rnd (r * lib.sinh q)) else some (R.rnd (r * lib.sin q))) = some t := ht
      rw [machineDiv?, if_neg s0.ne'] at ht
      replace ht : (do
        let q ← machineDiv? R d (R.rnd (D' / R.rnd (Real.sqrt |k|)))
        if k > 0 then some (R.rnd (R.rnd (D' / R.rnd (Real.sqrt |k|)) * lib.sinh q)) else some (R.rnd (R.rnd (D' / R.rnd (Real.sqrt |k|)) * lib.sin q))) = some t := ht
      rw [machineDiv?, if_neg r0.ne'] at ht
      replace ht : (if k > 0 then some (R.rnd (R.rnd (D' / R.rnd (Real.sqrt |k|)) * lib.sinh (R.rnd (d / R.rnd (D' / R.rnd (Real.sqrt |k|))))))
        else some (R.rnd (R.rnd (D' / R.rnd (Real.sqrt |k|)) * lib.sin (R.rnd (d / R.rnd (D' / R.rnd (Real.sqrt |k|))))))) = some t := ht
      rw [hY1] at ht
      have hsq2 : Real.sqrt |k| ^ 2 = |k| := Real.sq_sqrt hak.le
      by_cases hpos : k > 0
      · rw [if_pos hpos] at ht
        have t1 := last_step hu hu2 hr r1 (hlib.sinh (Real.sqrt |k| * Y))
        rw [Option.some.inj ht] at t1
        have e1 : D / Real.sqrt |k| * Real.sinh (Real.sqrt |k| * Y) = D * bend (Real.sqrt |k|) Y := by
          rw [bend, if_neg hsq.ne']; ring
        rw [e1] at t1
        refine bend_error hy ha ha1 hsq.le hz hz13 hyz hlog ?_ hδ hx hY2 (scaled hD t1)
        rw [hsq2, abs_of_pos hpos, hasq]
        exact hK
      · rw [if_neg hpos] at ht
        have hkn : k < 0 := lt_of_le_of_ne (not_lt.mp hpos) hk
        have hk15 : |k| ≤ 1 / 10 ^ 15 := by rw [abs_of_neg hkn]; linarith
        have hx0 : |d / D| ≤ 21 / 20 * z := by
          have := abs_add_le (d / D - y) y
          rw [sub_add_cancel, abs_of_nonneg hy] at this
          norm_num at hx ⊢
          nlinarith
        have hYx : |Y| ≤ 11 / 10 * z := by
          have := abs_add_le (Y - d / D) (d / D)
          rw [sub_add_cancel] at this
          norm_num at hY2
          linarith
        have hs7 : Real.sqrt |k| ≤ 1 / 10 ^ 7 := by
          rw [Real.sqrt_le_iff]
          exact ⟨by norm_num, hk15.trans (by norm_num)⟩
        have hq1 : |Real.sqrt |k| * Y| ≤ 1 := by
          rw [abs_mul, abs_of_pos hsq]
          have := mul_le_mul hs7 hYx (abs_nonneg _) (by norm_num)
          norm_num at this ⊢
          linarith
        have t1 := last_step hu hu2 hr r1 (hlib.sin _ hq1)
        rw [Option.some.inj ht] at t1
        have n1 := sin_near hq1
        -- the sine is the argument
        have n2 : |Real.sin (Real.sqrt |k| * Y) / Real.sqrt |k| - Y| ≤ 1 / 10 ^ 12 * z := by
          have e1 : Real.sin (Real.sqrt |k| * Y) / Real.sqrt |k| - Y = (Real.sin (Real.sqrt |k| * Y) - Real.sqrt |k| * Y) / Real.sqrt |k| := by field_simp
          rw [e1, abs_div, abs_of_pos hsq, div_le_iff₀ hsq]
          refine n1.trans ?_
          rw [abs_mul, abs_of_pos hsq]
          have hY3 : |Y| ^ 3 ≤ (11 / 10 * 13) ^ 2 * (11 / 10 * z) := by
            have h1 : |Y| ^ 2 ≤ (11 / 10 * 13) ^ 2 := pow_le_pow_left₀ (abs_nonneg _) (hYx.trans (by linarith)) 2
            calc |Y| ^ 3 = |Y| ^ 2 * |Y| := by ring
              _ ≤ _ := mul_le_mul h1 hYx (abs_nonneg _) (by norm_num)
          have e2 : (Real.sqrt |k| * |Y|) ^ 3 / 4 = |k| * |Y| ^ 3 / 4 * Real.sqrt |k| := by
            generalize Real.sqrt |k| = w at *
            rw [← hsq2]; ring
          rw [e2]
          refine mul_le_mul_of_nonneg_right ?_ hsq.le
          have h2 := mul_le_mul hk15 hY3 (pow_nonneg (abs_nonneg _) 3) (by norm_num)
          norm_num at h2 ⊢
          linarith
        have e3 : D / Real.sqrt |k| * Real.sin (Real.sqrt |k| * Y) = D * (Real.sin (Real.sqrt |k| * Y) / Real.sqrt |k|) := by ring
        rw [e3] at t1
        have t2 := scaled hD t1
        generalize Real.sin (Real.sqrt |k| * Y) / Real.sqrt |k| = S at *
        have hS : |S| ≤ 6 / 5 * z := by
          have := abs_add_le (S - Y) Y
          rw [sub_add_cancel] at this
          norm_num at n2
          linarith
        refine flat_error (e := 21 / 10 ^ 8) hy ha ha1 hz hz13 hyz hlog ?_ hδ0 (by norm_num) ?_
        · rw [hasq]
          norm_num at hKk ⊢
          linarith
        · have w1 := abs_add_le (t / D - S) (S - Y + (Y - d / D + (d / D - y)))
          have w2 := abs_add_le (S - Y) (Y - d / D + (d / D - y))
          have w3 := abs_add_le (Y - d / D) (d / D - y)
          rw [show t / D - S + (S - Y + (Y - d / D + (d / D - y))) = t / D - y by ring] at w1
          norm_num at t2 n2 hY2 hx ⊢
          linarith

/-- **C169 (transverse distance).** In flat and open models up to redshift 13, on doubles: the computed transverse distance differs from the exact one by at most `2 (1 + z)` times the error of the comoving
distance, which is the one of the integration and `3e-7` of the distance of the Hubble law. This also holds where the curvature is rounded to the other sign, or taken for 0. -/
theorem C169_transverse (hu : 0 ≤ u) (hu2 : u ≤ 1 / 2 ^ 53) (hr : ∀ x, |R.rnd x - x| ≤ u * |x|) (hlib : Spec.Accurate lib) (c m l h z t : ℝ) (isZero : ℝ → Bool) (htol : Spec.Tolerance isZero)
    (hc : 0 < c) (hh : 0 < h) (hm : 0 ≤ m) (hl : 0 ≤ l) (hml : m + l ≤ 1) (hz : 0 ≤ z) (hz13 : z ≤ 13) (hz0 : isZero z = false)
    (ht : machineTransverse R lib c isZero z (machineParams R m l h) = some t) :
    ∃ e, transverseDistance (exactEnv c) z (mkParams m l h) = some e ∧ |t - e| ≤ 2 * (1 + z) * (Spec.integrationError z + 3 / 10 ^ 7) * (c * 1000 / h * z) := by
  refine ⟨_, exact_transverse c z m l h hc hh hm hl hml hz, ?_⟩
  have h1 := transverse_error hu hu2 hr hlib c m l h z t isZero htol hc hh hm hl hml hz hz13 hz0 ht
  have hD : 0 < c * 1000 / h := by positivity
  generalize c * 1000 / h = D at *
  generalize bend (Real.sqrt (1 - m - l)) (los m l z) = b at *
  have e : t - D * b = D * (t / D - b) := by field_simp
  rw [e, abs_mul, abs_of_pos hD]
  have := mul_le_mul_of_nonneg_left h1 hD.le
  linarith

/-- **C169 (there is a result).** The transverse distance has a value in flat and open models up to redshift 13. -/
theorem C169_defined (hu : 0 ≤ u) (hu2 : u ≤ 1 / 2 ^ 53) (hr : ∀ x, |R.rnd x - x| ≤ u * |x|) (c m l h z : ℝ) (isZero : ℝ → Bool) (htol : Spec.Tolerance isZero)
    (hc : 0 < c) (hh : 0 < h) (hm : 0 ≤ m) (hl : 0 ≤ l) (hml : m + l ≤ 1) (hz : 0 ≤ z) (hz13 : z ≤ 13) : ∃ t, machineTransverse R lib c isZero z (machineParams R m l h) = some t := by
  obtain ⟨d, hd⟩ := C166_default hu hu2 hr c m l h z isZero hh.ne' hm hl hml hz hz13
  have hDd : machineHubbleDistance R c (machineParams R m l h) = some (R.rnd (R.rnd (c * 1000) / h)) := if_neg hh.ne'
  have hD : 0 < c * 1000 / h := by positivity
  have hDc := hubbleDistance_close hu hu2 hr c h hc hh
  unfold machineTransverse
  rw [hd, hDd]
  generalize (machineParams R m l h).omegaK = k at *
  generalize R.rnd (R.rnd (c * 1000) / h) = D' at *
  generalize c * 1000 / h = D at *
  show ∃ t, (if isZero k = true then some d else do
        let s ← machineSqrt? R |k|
        let r ← machineDiv? R D' s
        let q ← machineDiv? R d r
        if k > 0 then some (R.rnd (r * lib.sinh q)) else some (R.rnd (r * lib.sin q))) = some t
  by_cases hz' : isZero k = true
  · exact ⟨d, if_pos hz'⟩
  · rw [if_neg hz']
    have hk : k ≠ 0 := fun e => hz' (e ▸ htol.zero)
    have hak : 0 < |k| := abs_pos.mpr hk
    have hsq : 0 < Real.sqrt |k| := Real.sqrt_pos.2 hak
    obtain ⟨s0, r0, _⟩ := curved_steps (d := d) hu hu2 hr hD hsq hDc
    rw [machineSqrt?, if_neg (not_lt.mpr hak.le)]
    show ∃ t, (do
        let r ← machineDiv? R D' (R.rnd (Real.sqrt |k|))
        let q ← machineDiv? R d r
        if k > 0 then some (R.rnd (r * lib.sinh q)) else some (R.rnd (r * lib.sin q))) = some t
    rw [machineDiv?, if_neg s0.ne']
    show ∃ t, (do
        let q ← machineDiv? R d (R.rnd (D' / R.rnd (Real.sqrt |k|)))
        if k > 0 then some (R.rnd (R.rnd (D' / R.rnd (Real.sqrt |k|)) * lib.sinh q)) else some (R.rnd (R.rnd (D' / R.rnd (Real.sqrt |k|)) * lib.sin q))) = some t
    rw [machineDiv?, if_neg r0.ne']
    by_cases hpos : k > 0
    · exact ⟨_, if_pos hpos⟩
    · exact ⟨_, if_neg hpos⟩

/-! ## The luminosity distance -/

theorem bend_bounds (m l z : ℝ) (hm : 0 ≤ m) (hl : 0 ≤ l) (hml : m + l ≤ 1) (hz : 0 ≤ z) (hz13 : z ≤ 13) :
    z * inv m l z ≤ bend (Real.sqrt (1 - m - l)) (los m l z) ∧ bend (Real.sqrt (1 - m - l)) (los m l z) ≤ 2 * (1 + z) * z := by
  have hl1 : l ≤ 1 := by linarith
  have hy : 0 ≤ los m l z := los_nonneg m l z hz
  have hyz : los m l z ≤ z := los_le m l z hm hl1 hz
  have ha := Real.sqrt_nonneg (1 - m - l)
  have ha1 : Real.sqrt (1 - m - l) ≤ 1 := Real.sqrt_le_iff.2 ⟨by norm_num, by linarith⟩
  have hC := cosh_bound hy ha ha1 ha hz hz13 hyz (by linarith) hy (by norm_num) (los_log m l z hm hl hml hz) (M := los m l z)
  have h1 := bend_abs ha (abs_of_nonneg hy).le
  rw [abs_of_nonneg hy] at h1
  exact ⟨(le_los m l z hm hl1 hz).trans (le_bend ha hy), (le_abs_self _).trans (h1.trans (mul_le_mul hC hyz hy (by linarith)))⟩

theorem luminous_error (hu : 0 ≤ u) (hu2 : u ≤ 1 / 2 ^ 53) (hr : ∀ x, |R.rnd x - x| ≤ u * |x|) (hlib : Spec.Accurate lib) (c m l h z L : ℝ) (isZero : ℝ → Bool) (htol : Spec.Tolerance isZero)
    (hc : 0 < c) (hh : 0 < h) (hm : 0 ≤ m) (hl : 0 ≤ l) (hml : m + l ≤ 1) (hz : 0 ≤ z) (hz13 : z ≤ 13) (hz0 : isZero z = false)
    (hL : machineLuminous R lib c isZero z (machineParams R m l h) = some L) :
    |L / (c * 1000 / h) - (1 + z) * bend (Real.sqrt (1 - m - l)) (los m l z)| ≤ (1 + z) * (2 * (1 + z) * (Spec.integrationError z + 4 / 10 ^ 7) * z) := by
  obtain ⟨t, ht⟩ := C169_defined (lib := lib) hu hu2 hr c m l h z isZero htol hc hh hm hl hml hz hz13
  unfold machineLuminous at hL
  rw [hz0, ht] at hL
  replace hL : some (R.rnd (R.rnd (1 + z) * t)) = some L := hL
  have h1 := transverse_error hu hu2 hr hlib c m l h z t isZero htol hc hh hm hl hml hz hz13 hz0 ht
  obtain ⟨b0, b1⟩ := bend_bounds m l z hm hl hml hz hz13
  have hb : 0 ≤ z * inv m l z := mul_nonneg hz (inv_pos m l z hm (by linarith) hz).le
  have hD : 0 < c * 1000 / h := by positivity
  generalize c * 1000 / h = D at *
  generalize bend (Real.sqrt (1 - m - l)) (los m l z) = b at *
  have hz1 : 0 < 1 + z := by linarith
  have h2 := rel_rnd (R := R) hu hr (rel_mul (hr (1 + z)) (show |t - t| ≤ 0 * |t| by simp))
  rw [Option.some.inj hL] at h2
  have hu3 : u ≤ 12 / 10 ^ 17 := hu2.trans (by norm_num)
  have h3 := rel_mono h2 (q := 3 / 10 ^ 16) (by norm_num at hu3 ⊢; nlinarith)
  have e1 : (1 + z) * t = D * ((1 + z) * (t / D)) := by field_simp
  rw [e1] at h3
  have h4 := scaled hD h3
  generalize t / D = x at *
  rw [abs_mul, abs_of_pos hz1] at h4
  have hδ := integrationError_le z
  have hδ0 := integrationError_nonneg z
  generalize Spec.integrationError z = δ at *
  have hx : |x| ≤ 3 * (1 + z) * z := by
    have := abs_add_le (x - b) b
    rw [sub_add_cancel, abs_of_nonneg (hb.trans b0)] at this
    have hzz : 0 ≤ (1 + z) * z := by positivity
    have := mul_le_mul_of_nonneg_right hδ hzz
    norm_num at h1
    linarith
  have h5 := abs_add_le (L / D - (1 + z) * x) ((1 + z) * x - (1 + z) * b)
  rw [sub_add_sub_cancel, ← mul_sub, abs_mul, abs_of_pos hz1] at h5
  have h6 := mul_le_mul_of_nonneg_left h1 hz1.le
  have h7 := mul_le_mul_of_nonneg_left hx hz1.le
  have h8 : 0 ≤ (1 + z) * ((1 + z) * z) := by positivity
  norm_num at h4 h6 ⊢
  linarith

theorem exact_luminous (c z m l h : ℝ) (hc : 0 < c) (hh : 0 < h) (hm : 0 ≤ m) (hl : 0 ≤ l) (hml : m + l ≤ 1) (hz : 0 < z) :
    luminousDistance (exactEnv c) z (mkParams m l h) = some ((1 + z) * (c * 1000 / h * bend (Real.sqrt (1 - m - l)) (los m l z))) := by
  unfold luminousDistance
  rw [if_neg (by simp [exactEnv, hz.ne']), exact_transverse c z m l h hc hh hm hl hml hz.le]
  rfl

theorem pos_of_not_zero {isZero : ℝ → Bool} (htol : Spec.Tolerance isZero) {z : ℝ} (hz : 0 ≤ z) (hz0 : isZero z = false) : 0 < z :=
  lt_of_le_of_ne hz fun e => by rw [← e, htol.zero] at hz0; cases hz0

/-- **C169 (luminosity distance).** The luminosity distance has a value on doubles, which differs from the exact one by at most `2 (1 + z)²` times the error of the comoving distance. -/
theorem C169_luminous (hu : 0 ≤ u) (hu2 : u ≤ 1 / 2 ^ 53) (hr : ∀ x, |R.rnd x - x| ≤ u * |x|) (hlib : Spec.Accurate lib) (c m l h z : ℝ) (isZero : ℝ → Bool) (htol : Spec.Tolerance isZero)
    (hc : 0 < c) (hh : 0 < h) (hm : 0 ≤ m) (hl : 0 ≤ l) (hml : m + l ≤ 1) (hz : 0 ≤ z) (hz13 : z ≤ 13) (hz0 : isZero z = false) :
    ∃ L e, machineLuminous R lib c isZero z (machineParams R m l h) = some L ∧ luminousDistance (exactEnv c) z (mkParams m l h) = some e ∧
      |L - e| ≤ (1 + z) * (2 * (1 + z) * (Spec.integrationError z + 4 / 10 ^ 7) * (c * 1000 / h * z)) := by
  obtain ⟨t, ht⟩ := C169_defined (lib := lib) hu hu2 hr c m l h z isZero htol hc hh hm hl hml hz hz13
  have hL : machineLuminous R lib c isZero z (machineParams R m l h) = some (R.rnd (R.rnd (1 + z) * t)) := by
    unfold machineLuminous
    rw [hz0, ht]
    rfl
  refine ⟨_, _, hL, exact_luminous c z m l h hc hh hm hl hml (pos_of_not_zero htol hz hz0), ?_⟩
  have h1 := luminous_error hu hu2 hr hlib c m l h z _ isZero htol hc hh hm hl hml hz hz13 hz0 hL
  have hD : 0 < c * 1000 / h := by positivity
  generalize R.rnd (R.rnd (1 + z) * t) = L at *
  generalize c * 1000 / h = D at *
  generalize bend (Real.sqrt (1 - m - l)) (los m l z) = b at *
  have e : L - (1 + z) * (D * b) = D * (L / D - (1 + z) * b) := by field_simp
  rw [e, abs_mul, abs_of_pos hD]
  have := mul_le_mul_of_nonneg_left h1 hD.le
  linarith

/-! ## The distance modulus -/

/-- The relative error of the distances: the one of the integration compared with the distance, which is at least the one of the Hubble law divided by the Hubble parameter. -/
noncomputable def Spec.relativeError (m l z : ℝ) : ℝ := 2 * (1 + z) * (Spec.integrationError z + 4 / 10 ^ 7) * Real.sqrt (m * (1 + z) ^ 3 + (1 - m - l) * (1 + z) ^ 2 + l)

theorem relativeError_nonneg (m l z : ℝ) (hz : 0 ≤ z) : 0 ≤ Spec.relativeError m l z := by
  have := integrationError_nonneg z
  unfold Spec.relativeError
  positivity

theorem error_relative (m l z : ℝ) (hm : 0 ≤ m) (hl : 0 ≤ l) (hml : m + l ≤ 1) (hz : 0 ≤ z) (hz13 : z ≤ 13) :
    2 * (1 + z) * (Spec.integrationError z + 4 / 10 ^ 7) * z ≤ Spec.relativeError m l z * bend (Real.sqrt (1 - m - l)) (los m l z) := by
  have h1 := mul_le_mul_of_nonneg_left (bend_bounds m l z hm hl hml hz hz13).1 (relativeError_nonneg m l z hz)
  refine le_trans (le_of_eq ?_) h1
  have hs : Real.sqrt (rad m l z) ≠ 0 := (Real.sqrt_pos.2 (rad_pos m l z hm (by linarith) hz)).ne'
  have e : Spec.relativeError m l z = 2 * (1 + z) * (Spec.integrationError z + 4 / 10 ^ 7) * Real.sqrt (rad m l z) := rfl
  rw [e, inv]
  field_simp

theorem logb_near {x y η : ℝ} (hy : 0 < y) (hη : η ≤ 501 / 1000) (h : |x - y| ≤ η * y) : 0 < x ∧ |Real.logb 10 x - Real.logb 10 y| ≤ 97 / 100 * η := by
  have h1 := abs_le.mp h
  have hη0 : 0 ≤ η := by
    have := (abs_nonneg _).trans h
    by_contra hc
    push Not at hc
    nlinarith
  have hx : 499 / 1000 * y ≤ x := by nlinarith
  have hx0 : 0 < x := by linarith
  refine ⟨hx0, ?_⟩
  have hl10 : (2079 / 1000 : ℝ) ≤ Real.log 10 := by
    have a1 : Real.log (2 ^ 3) ≤ Real.log 10 := Real.log_le_log (by norm_num) (by norm_num)
    rw [Real.log_pow] at a1
    have := Real.log_two_gt_d9
    norm_num at a1 this ⊢
    linarith
  have e : Real.logb 10 x - Real.logb 10 y = Real.log (x / y) / Real.log 10 := by
    rw [Real.log_div hx0.ne' hy.ne', Real.logb, Real.logb]
    ring
  have hl0 : 0 < Real.log 10 := by linarith
  have u1 : Real.log (x / y) ≤ η := by
    have := Real.log_le_sub_one_of_pos (div_pos hx0 hy)
    have h3 : x / y ≤ 1 + η := by rw [div_le_iff₀ hy]; linarith
    linarith
  have u2 : -(2005 / 1000 * η) ≤ Real.log (x / y) := by
    have := Real.one_sub_inv_le_log_of_pos (div_pos hx0 hy)
    refine le_trans ?_ this
    rw [inv_div]
    have h3 : y / x ≤ 1 + 2005 / 1000 * η := by
      rw [div_le_iff₀ hx0]
      nlinarith
    linarith
  rw [e, abs_div, abs_of_pos hl0, div_le_iff₀ hl0]
  have h4 := mul_le_mul_of_nonneg_left hl10 hη0
  rw [abs_le]
  constructor <;> nlinarith

/-- **C169 (distance modulus).** As long as the relative error of the distances is at most one half, the distance modulus has a value on doubles, and this differs from the exact one by at most five times the
relative error and by rounding in the last digits. -/
theorem C169_modulus (hu : 0 ≤ u) (hu2 : u ≤ 1 / 2 ^ 53) (hr : ∀ x, |R.rnd x - x| ≤ u * |x|) (hlib : Spec.Accurate lib) (c m l h z : ℝ) (isZero : ℝ → Bool) (htol : Spec.Tolerance isZero)
    (hc : 0 < c) (hh : 0 < h) (hm : 0 ≤ m) (hl : 0 ≤ l) (hml : m + l ≤ 1) (hz : 0 ≤ z) (hz13 : z ≤ 13) (hz0 : isZero z = false) (hη : Spec.relativeError m l z ≤ 1 / 2) :
    ∃ μ e, machineModulus R lib c isZero z (machineParams R m l h) = some μ ∧ distanceModulus (exactEnv c) z (mkParams m l h) = some e ∧
      |μ - e| ≤ 5 * Spec.relativeError m l z + 1 / 10 ^ 14 * (1 + |e|) := by
  have hzp := pos_of_not_zero htol hz hz0
  obtain ⟨L, e, hL, he, herr⟩ := C169_luminous hu hu2 hr hlib c m l h z isZero htol hc hh hm hl hml hz hz13 hz0
  have hrel := error_relative m l z hm hl hml hz hz13
  have hη0 := relativeError_nonneg m l z hz
  obtain ⟨b0, _⟩ := bend_bounds m l z hm hl hml hz hz13
  have hb : 0 < bend (Real.sqrt (1 - m - l)) (los m l z) := lt_of_lt_of_le (mul_pos hzp (inv_pos m l z hm (by linarith) hz)) b0
  rw [exact_luminous c z m l h hc hh hm hl hml hzp] at he
  have he' := Option.some.inj he
  have hD : 0 < c * 1000 / h := by positivity
  have hu3 : u ≤ 12 / 10 ^ 17 := hu2.trans (by norm_num)
  have heL := exact_luminous c z m l h hc hh hm hl hml hzp
  rw [he'] at heL
  generalize Spec.relativeError m l z = η at *
  generalize Spec.integrationError z = δ at *
  generalize bend (Real.sqrt (1 - m - l)) (los m l z) = b at *
  generalize c * 1000 / h = D at *
  have hz1 : 0 < 1 + z := by linarith
  have hepos : 0 < e := by rw [← he']; positivity
  have h1 : |L - e| ≤ η * e := by
    refine herr.trans ?_
    have := mul_le_mul_of_nonneg_left hrel (mul_pos hz1 hD).le
    rw [← he']
    linarith
  have h2 : |L / 10 - e / 10| ≤ η * |e / 10| := by
    rw [← sub_div, abs_div, abs_of_pos (by positivity : 0 < e / 10), show |(10 : ℝ)| = 10 by norm_num]
    linarith
  have h3 := rel_mono (rel_rnd (R := R) hu hr h2) (q := η + 2 / 10 ^ 16) (by norm_num at hu3 ⊢; nlinarith)
  have he10 : 0 < e / 10 := by positivity
  rw [abs_of_pos he10] at h3
  obtain ⟨p1, p2⟩ := logb_near he10 (by norm_num; linarith) h3
  have hl := hlib.log10 _ p1
  refine ⟨R.rnd (5 * lib.log10 (R.rnd (L / 10))), 5 * Real.logb 10 (e / 10), ?_, ?_, ?_⟩
  · unfold machineModulus
    rw [hL]
    show (do let l ← machineLog10? lib (R.rnd (L / 10)); return R.rnd (5 * l)) = _
    rw [machineLog10?, if_pos p1]
    rfl
  · unfold distanceModulus
    rw [heL]
    show (do let l ← log10? (e / 10); return 5 * l) = _
    rw [log10?, if_pos he10]
    rfl
  · have h5 : |5 * lib.log10 (R.rnd (L / 10)) - 5 * Real.logb 10 (R.rnd (L / 10))| ≤ 1 / 2 ^ 50 * |5 * Real.logb 10 (R.rnd (L / 10))| := by
      rw [← mul_sub, abs_mul, abs_mul, show |(5 : ℝ)| = 5 by norm_num]
      linarith
    have h6 := rel_mono (rel_rnd (R := R) hu hr h5) (q := 11 / 10 ^ 16) (by norm_num at hu3 ⊢; nlinarith)
    rw [abs_mul, show |(5 : ℝ)| = 5 by norm_num] at h6
    rw [abs_mul, show |(5 : ℝ)| = 5 by norm_num]
    generalize R.rnd (5 * lib.log10 (R.rnd (L / 10))) = μ at *
    generalize Real.logb 10 (R.rnd (L / 10)) = x at *
    generalize Real.logb 10 (e / 10) = y at *
    have h7 := abs_add_le (x - y) y
    rw [sub_add_cancel] at h7
    have h8 := abs_add_le (μ - 5 * x) (5 * x - 5 * y)
    rw [sub_add_sub_cancel, ← mul_sub, abs_mul, show |(5 : ℝ)| = 5 by norm_num] at h8
    have h9 := abs_nonneg y
    norm_num at h6 p2 hη ⊢
    linarith

/-- **C169 (distance modulus at 0).** At a redshift that is taken for 0 the distance modulus is 0. -/
theorem C169_modulus_zero (h1 : R.rnd 1 = 1) (hlib : Spec.Accurate lib) (c z : ℝ) (p : Params) (isZero : ℝ → Bool) (hz0 : isZero z = true) : machineModulus R lib c isZero z p = some 0 := by
  have h2 := hlib.log10 1 one_pos
  rw [Real.logb_one, abs_zero, mul_zero, sub_zero] at h2
  have h3 : lib.log10 1 = 0 := abs_nonpos_iff.mp h2
  unfold machineModulus machineLuminous
  rw [if_pos hz0]
  show (do let l ← machineLog10? lib (R.rnd (10 / 10)); return R.rnd (5 * l)) = _
  rw [div_self (by norm_num), h1, machineLog10?, if_pos one_pos, h3]
  show some (R.rnd (5 * 0)) = _
  rw [mul_zero, R.zero]

/-! ## The volume element -/

theorem hubble_close (hu : 0 ≤ u) (hu2 : u ≤ 1 / 2 ^ 53) (hr : ∀ x, |R.rnd x - x| ≤ u * |x|) (m l h z : ℝ) (hm : 0 ≤ m) (hl : 0 ≤ l) (hml : m + l ≤ 1) (hz : 0 ≤ z) (hz13 : z ≤ 13) :
    ∃ E, machineHubble R z (machineParams R m l h) = some E ∧ |E - Real.sqrt (rad m l z)| ≤ 1 / 10 ^ 10 * Real.sqrt (rad m l z) := by
  obtain ⟨v, hv, herr⟩ := adapter_close hu hu2 hr m l h z hm hl hml (by linarith) (by linarith)
  have hu3 : u ≤ 12 / 10 ^ 17 := hu2.trans (by norm_num)
  have hsp : 0 < Real.sqrt (rad m l z) := Real.sqrt_pos.2 (rad_pos m l z hm (by linarith) hz)
  have hsq : Real.sqrt (rad m l z) ≤ 53 := by
    have h1 : rad m l z ≤ (53 : ℝ) ^ 2 := by
      have u1 : (1 + z) ^ 2 ≤ 14 ^ 2 := pow_le_pow_left₀ (by linarith) (by linarith) 2
      have u2 : (1 + z) ^ 3 ≤ 14 ^ 3 := pow_le_pow_left₀ (by linarith) (by linarith) 3
      have p1 := mul_le_mul_of_nonneg_left u2 hm
      have p2 := mul_le_mul_of_nonneg_left u1 (show 0 ≤ 1 - m - l by linarith)
      unfold rad
      linarith
    have h2 := Real.sqrt_le_sqrt h1
    rwa [Real.sqrt_sq (by norm_num)] at h2
  have hi : 1 / 53 ≤ inv m l z := one_div_le_one_div_of_le hsp hsq
  have hip : 0 < inv m l z := by linarith
  unfold machineAdapter at hv
  cases hE : machineHubble R z (machineParams R m l h) with
  | none => rw [hE] at hv; cases hv
  | some E =>
    rw [hE] at hv
    replace hv : machineDiv? R 1 E = some v := hv
    by_cases hE0 : E = 0
    · rw [machineDiv?, if_pos hE0] at hv; cases hv
    · rw [machineDiv?, if_neg hE0] at hv
      have hv' := Option.some.inj hv
      refine ⟨E, rfl, ?_⟩
      have h1 := hr (1 / E)
      rw [hv'] at h1
      have h2 := abs_add_le (1 / E - v) v
      have h3 := abs_add_le (v - inv m l z) (inv m l z)
      have h4 := abs_add_le (1 / E - v) (v - inv m l z)
      rw [sub_add_cancel, abs_sub_comm] at h2
      rw [sub_add_cancel, abs_of_pos hip] at h3
      rw [sub_add_sub_cancel, abs_sub_comm (1 / E) v] at h4
      have h5 : u * |1 / E| ≤ 12 / 10 ^ 17 * |1 / E| := mul_le_mul_of_nonneg_right hu3 (abs_nonneg _)
      have h6 : |1 / E - inv m l z| ≤ 9 / 10 ^ 11 * inv m l z := by
        generalize 1 / E = w at *
        norm_num at herr h5 hi ⊢
        linarith
      have h7 := (rel_inv hip (by norm_num) h6).2
      rw [one_div_one_div, show 1 / inv m l z = Real.sqrt (rad m l z) by rw [inv, one_div_one_div]] at h7
      exact h7.trans (mul_le_mul_of_nonneg_right (by norm_num) hsp.le)

theorem exact_volume (c z m l h : ℝ) (hc : 0 < c) (hh : 0 < h) (hm : 0 ≤ m) (hl : 0 ≤ l) (hml : m + l ≤ 1) (hz : 0 ≤ z) :
    volumeElement (exactEnv c) z (mkParams m l h) = some (c * 1000 / h * bend (Real.sqrt (1 - m - l)) (los m l z) * (c * 1000 / h * bend (Real.sqrt (1 - m - l)) (los m l z)) /
      (Real.sqrt (rad m l z) * (c * 1000 / h) * (c * 1000 / h))) := by
  have hrp := rad_pos m l z hm (by linarith) hz
  have hsp : 0 < Real.sqrt (rad m l z) := Real.sqrt_pos.2 hrp
  have hD : 0 < c * 1000 / h := by positivity
  unfold volumeElement
  rw [hubbleDistance_eq _ m l h hh.ne', hubbleParameter_eq, if_neg (not_lt.mpr hrp.le), exact_transverse c z m l h hc hh hm hl hml hz]
  show div? _ (Real.sqrt (rad m l z) * (c * 1000 / h) * (c * 1000 / h)) = _
  rw [div?, if_neg (by positivity)]

/-- **C169 (volume element).** As long as the relative error of the distances is at most one half, the comoving volume element has a value on doubles, whose relative error is at most five halves of this and `1e-9`. -/
theorem C169_volume (hu : 0 ≤ u) (hu2 : u ≤ 1 / 2 ^ 53) (hr : ∀ x, |R.rnd x - x| ≤ u * |x|) (hlib : Spec.Accurate lib) (c m l h z : ℝ) (isZero : ℝ → Bool) (htol : Spec.Tolerance isZero)
    (hc : 0 < c) (hh : 0 < h) (hm : 0 ≤ m) (hl : 0 ≤ l) (hml : m + l ≤ 1) (hz : 0 ≤ z) (hz13 : z ≤ 13) (hz0 : isZero z = false) (hη : Spec.relativeError m l z ≤ 1 / 2) :
    ∃ V e, machineVolumeElement R lib c isZero z (machineParams R m l h) = some V ∧ volumeElement (exactEnv c) z (mkParams m l h) = some e ∧
      |V - e| ≤ (5 / 2 * Spec.relativeError m l z + 1 / 10 ^ 9) * e := by
  obtain ⟨t, ht⟩ := C169_defined (lib := lib) hu hu2 hr c m l h z isZero htol hc hh hm hl hml hz hz13
  obtain ⟨E, hE, hEc⟩ := hubble_close hu hu2 hr m l h z hm hl hml hz hz13
  have hzp := pos_of_not_zero htol hz hz0
  have hrel := error_relative m l z hm hl hml hz hz13
  have hη0 := relativeError_nonneg m l z hz
  obtain ⟨b0, _⟩ := bend_bounds m l z hm hl hml hz hz13
  have hb : 0 < bend (Real.sqrt (1 - m - l)) (los m l z) := lt_of_lt_of_le (mul_pos hzp (inv_pos m l z hm (by linarith) hz)) b0
  have herr := transverse_error hu hu2 hr hlib c m l h z t isZero htol hc hh hm hl hml hz hz13 hz0 ht
  have hD : 0 < c * 1000 / h := by positivity
  have hDc := hubbleDistance_close hu hu2 hr c h hc hh
  have hDd : machineHubbleDistance R c (machineParams R m l h) = some (R.rnd (R.rnd (c * 1000) / h)) := if_neg hh.ne'
  have hsp : 0 < Real.sqrt (rad m l z) := Real.sqrt_pos.2 (rad_pos m l z hm (by linarith) hz)
  have hu3 : u ≤ 12 / 10 ^ 17 := hu2.trans (by norm_num)
  have hV := exact_volume c z m l h hc hh hm hl hml hz
  unfold machineVolumeElement
  rw [hDd, hE, ht, hV]
  have hδ0 := integrationError_nonneg z
  generalize Spec.relativeError m l z = η at *
  generalize Spec.integrationError z = δ at *
  generalize bend (Real.sqrt (1 - m - l)) (los m l z) = b at *
  generalize R.rnd (R.rnd (c * 1000) / h) = D' at *
  generalize c * 1000 / h = D at *
  generalize Real.sqrt (rad m l z) = S at *
  show ∃ V e, machineDiv? R (R.rnd (t * t)) (R.rnd (R.rnd (E * D') * D')) = some V ∧ _
  have t1 : |t - D * b| ≤ η * |D * b| := by
    have e1 : t - D * b = D * (t / D - b) := by field_simp
    rw [e1, abs_mul, abs_mul, abs_of_pos hD, abs_of_pos hb]
    have h1 : |t / D - b| ≤ η * b := by
      refine (herr.trans ?_).trans hrel
      have : 0 ≤ (1 + z) * z := by positivity
      norm_num
      linarith
    have := mul_le_mul_of_nonneg_left h1 hD.le
    linarith
  have q1 : η * η ≤ 1 / 2 * η := mul_le_mul_of_nonneg_right hη hη0
  have q2 : u * (η + η + η * η) ≤ u * 2 := mul_le_mul_of_nonneg_left (by linarith) hu
  have t2 := rel_mono (rel_rnd (R := R) hu hr (rel_mul t1 t1)) (q := 5 / 2 * η + 1 / 10 ^ 15) (by norm_num at hu3 ⊢; linarith)
  have hEc' : |E - S| ≤ 1 / 10 ^ 10 * |S| := by rw [abs_of_pos hsp]; exact hEc
  have s1 := rel_mono (rel_rnd (R := R) hu hr (rel_mul hEc' hDc)) (q := 2 / 10 ^ 10) (by norm_num at hu3 ⊢; nlinarith)
  have s2 := rel_mono (rel_rnd (R := R) hu hr (rel_mul s1 hDc)) (q := 3 / 10 ^ 10) (by norm_num at hu3 ⊢; nlinarith)
  have hden : 0 < S * D * D := by positivity
  rw [abs_of_pos hden] at s2
  obtain ⟨d0, d1⟩ := rel_div hden (by norm_num) (by norm_num) t2 s2
  have d2 := rel_mono (rel_rnd (R := R) hu hr d1) (q := 5 / 2 * η + 1 / 10 ^ 9) (by norm_num at hu3 ⊢; nlinarith)
  refine ⟨_, _, if_neg d0.ne', rfl, ?_⟩
  rwa [abs_of_pos (show 0 < D * b * (D * b) / (S * D * D) by positivity)] at d2

/-! ## An open model -/

/-- The C library without rounding. -/
noncomputable def exactLib : MathLib := ⟨Real.sinh, Real.sin, Real.logb 10⟩

theorem exactLib_accurate : Spec.Accurate exactLib where
  sinh x := by
    show |Real.sinh x - Real.sinh x| ≤ _
    rw [sub_self, abs_zero]; positivity
  sin x _ := by
    show |Real.sin x - Real.sin x| ≤ _
    rw [sub_self, abs_zero]; positivity
  log10 x _ := by
    show |Real.logb 10 x - Real.logb 10 x| ≤ _
    rw [sub_self, abs_zero]; positivity

theorem equality_tolerance : Spec.Tolerance (fun x => decide (x = 0)) where
  zero := by simp
  small x hx := by
    have : x = 0 := by simpa using hx
    rw [this, abs_zero]; norm_num

theorem double_rounding (x : ℝ) : |(RealBinary.rounding 53 (by decide)).rnd x - x| ≤ (1 / 2 ^ 53) * |x| := by
  have := RealBinary.rnd_err 53 x
  rw [mul_comm, one_div_pow] at this
  exact this

theorem integrationError_one : Spec.integrationError 1 ≤ 17 / 10000 := (min_le_right _ _).trans (by norm_num)

theorem relativeError_open : Spec.relativeError (3 / 10) (6 / 10) 1 ≤ 13 / 1000 := by
  have h1 := integrationError_one
  have h0 := integrationError_nonneg 1
  have h2 : Real.sqrt (3 / 10 * (1 + 1) ^ 3 + (1 - 3 / 10 - 6 / 10) * (1 + 1) ^ 2 + 6 / 10) ≤ 185 / 100 := Real.sqrt_le_iff.2 ⟨by norm_num, by norm_num⟩
  unfold Spec.relativeError
  calc _ ≤ 2 * (1 + 1) * (17 / 10000 + 4 / 10 ^ 7) * (185 / 100 : ℝ) := mul_le_mul (by linarith) h2 (Real.sqrt_nonneg _) (by norm_num)
    _ ≤ _ := by norm_num

/-- Doubles, in an open model with 30 percent matter and 60 percent dark energy: the transverse and the luminosity distance at redshift 1. -/
example : ∃ t e L f, machineTransverse (RealBinary.rounding 53 (by decide)) exactLib 299792458 (fun x => decide (x = 0)) 1
      (machineParams (RealBinary.rounding 53 (by decide)) (3 / 10) (6 / 10) 70) = some t ∧ transverseDistance (exactEnv 299792458) 1 (mkParams (3 / 10) (6 / 10) 70) = some e ∧
    machineLuminous (RealBinary.rounding 53 (by decide)) exactLib 299792458 (fun x => decide (x = 0)) 1
      (machineParams (RealBinary.rounding 53 (by decide)) (3 / 10) (6 / 10) 70) = some L ∧ luminousDistance (exactEnv 299792458) 1 (mkParams (3 / 10) (6 / 10) 70) = some f ∧
    |t - e| ≤ 1 / 100 * (299792458 * 1000 / 70) ∧ |L - f| ≤ 2 / 100 * (299792458 * 1000 / 70) := by
  obtain ⟨t, ht⟩ := C169_defined (lib := exactLib) (by norm_num) le_rfl double_rounding 299792458 (3 / 10) (6 / 10) 70 1 _ equality_tolerance (by norm_num) (by norm_num) (by norm_num) (by norm_num)
    (by norm_num) (by norm_num) (by norm_num)
  obtain ⟨e, he, hb⟩ := C169_transverse (by norm_num) le_rfl double_rounding exactLib_accurate 299792458 (3 / 10) (6 / 10) 70 1 t _ equality_tolerance (by norm_num) (by norm_num) (by norm_num)
    (by norm_num) (by norm_num) (by norm_num) (by norm_num) (by simp) ht
  obtain ⟨L, f, hL, hf, hc⟩ := C169_luminous (by norm_num) le_rfl double_rounding exactLib_accurate 299792458 (3 / 10) (6 / 10) 70 1 _ equality_tolerance (by norm_num) (by norm_num) (by norm_num)
    (by norm_num) (by norm_num) (by norm_num) (by norm_num) (by simp)
  have h1 := integrationError_one
  refine ⟨t, e, L, f, ht, he, hL, hf, hb.trans ?_, hc.trans ?_⟩ <;> · norm_num; linarith

/-- The distance modulus and the volume element of the same model. -/
example : ∃ μ e V f, machineModulus (RealBinary.rounding 53 (by decide)) exactLib 299792458 (fun x => decide (x = 0)) 1
      (machineParams (RealBinary.rounding 53 (by decide)) (3 / 10) (6 / 10) 70) = some μ ∧ distanceModulus (exactEnv 299792458) 1 (mkParams (3 / 10) (6 / 10) 70) = some e ∧
    machineVolumeElement (RealBinary.rounding 53 (by decide)) exactLib 299792458 (fun x => decide (x = 0)) 1
      (machineParams (RealBinary.rounding 53 (by decide)) (3 / 10) (6 / 10) 70) = some V ∧ volumeElement (exactEnv 299792458) 1 (mkParams (3 / 10) (6 / 10) 70) = some f ∧
    |μ - e| ≤ 7 / 100 + 1 / 10 ^ 14 * |e| ∧ |V - f| ≤ 4 / 100 * f := by
  have hη := relativeError_open
  obtain ⟨μ, e, hμ, he, hb⟩ := C169_modulus (by norm_num) le_rfl double_rounding exactLib_accurate 299792458 (3 / 10) (6 / 10) 70 1 _ equality_tolerance (by norm_num) (by norm_num) (by norm_num)
    (by norm_num) (by norm_num) (by norm_num) (by norm_num) (by simp) (hη.trans (by norm_num))
  obtain ⟨V, f, hV, hf, hc⟩ := C169_volume (by norm_num) le_rfl double_rounding exactLib_accurate 299792458 (3 / 10) (6 / 10) 70 1 _ equality_tolerance (by norm_num) (by norm_num) (by norm_num)
    (by norm_num) (by norm_num) (by norm_num) (by norm_num) (by simp) (hη.trans (by norm_num))
  refine ⟨μ, e, V, f, hμ, he, hV, hf, hb.trans ?_, ?_⟩
  · norm_num at hη ⊢
    linarith
  · have hf0 : 0 ≤ f := by
      by_contra hn
      push Not at hn
      have h1 : (5 / 2 * Spec.relativeError (3 / 10) (6 / 10) 1 + 1 / 10 ^ 9) * f < 0 := mul_neg_of_pos_of_neg (by have := relativeError_nonneg (3 / 10) (6 / 10) 1 zero_le_one; positivity) hn
      linarith [abs_nonneg (V - f)]
    exact hc.trans (mul_le_mul_of_nonneg_right (by norm_num at hη ⊢; linarith) hf0)

/-- The distance modulus at redshift 0. -/
example : machineModulus (RealBinary.rounding 53 (by decide)) exactLib 299792458 (fun x => decide (x = 0)) 0 (machineParams (RealBinary.rounding 53 (by decide)) (3 / 10) (6 / 10) 70) = some 0 :=
  C169_modulus_zero (RealBinary.rnd_of_rep (by decide) ⟨1, 0, by norm_num, by norm_num⟩) exactLib_accurate _ _ _ _ (by simp)

end Alexandria.Physics
