import Verif.MathUtils.InverseRoundModel
import Verif.Common.Close
import Verif.Common.Binary
import Mathlib.Tactic.FieldSimp
import Mathlib.Tactic.LinearCombination
import Mathlib.Analysis.Real.Sqrt

/-! # Quadratic equations in floating point arithmetic (C131) -/

namespace Alexandria.MathUtils

section
variable {K : Type} [Field K] [LinearOrder K] [IsStrictOrderedRing K] {R : Rounding K} {u : K} {sqrt : K → K} {a b c y : K}

/-- The quotients are right up to two roundings, the discriminant up to four. -/
theorem discr_close (hu : 0 ≤ u) (hr : ∀ x, |R.rnd x - x| ≤ u * |x|) (a b c y : K) :
    Close u 1 |b / (2 * a)| (R.rnd (b / (2 * a))) (b / (2 * a)) ∧
    Close u 4 (|(y - c) / a| + |b / (2 * a)| * |b / (2 * a)|)
      (R.rnd (R.rnd (R.rnd (y - c) / a) + R.rnd (R.rnd (b / (2 * a)) * R.rnd (b / (2 * a)))))
      ((y - c) / a + b / (2 * a) * (b / (2 * a))) := by
  have h1 : Close u 1 |b / (2 * a)| (R.rnd (b / (2 * a))) (b / (2 * a)) := (Close.refl u _).rnd hu hr
  have h2 : Close u 1 |y - c| (R.rnd (y - c)) (y - c) := (Close.refl u _).rnd hu hr
  have h3 := ((h2.div hu a).rnd hu hr).mono hu (show 2 ≤ 3 by omega)
  rw [← abs_div] at h3
  exact ⟨h1, (h3.add ((h1.mul hu h1).rnd hu hr)).rnd hu hr⟩

/-- What the function does when the leading coefficient is not zero. -/
theorem machineSolve_eq (ha : R.rnd a = a) (ha0 : a ≠ 0) (sqrt : K → K) (b c y : K) :
    machineSolve R sqrt a b c y =
      if R.rnd (R.rnd (R.rnd (y - c) / a) + R.rnd (R.rnd (b / (2 * a)) * R.rnd (b / (2 * a)))) < 0 then .throw .notFinite
      else .ok (R.rnd (-sqrt (R.rnd (R.rnd (R.rnd (y - c) / a) + R.rnd (R.rnd (b / (2 * a)) * R.rnd (b / (2 * a))))) - R.rnd (b / (2 * a))),
        R.rnd (sqrt (R.rnd (R.rnd (R.rnd (y - c) / a) + R.rnd (R.rnd (b / (2 * a)) * R.rnd (b / (2 * a))))) - R.rnd (b / (2 * a)))) := by
  have h2 : R.rnd (2 * a) = 2 * a := by
    have := R.twice a
    rwa [ha] at this
  have h3 : (2 : K) * a ≠ 0 := mul_ne_zero two_ne_zero ha0
  rw [machineSolve, if_pos ha0, h2, div?, if_neg h3, div?, if_neg ha0]
  rfl

/-- **C131** (partial): where the two terms of the discriminant do not cancel beyond their rounding errors the function returns two numbers, the smaller
one first. -/
theorem C131_defined_partial (hu : 0 ≤ u) (hr : ∀ x, |R.rnd x - x| ≤ u * |x|) (hs : ∀ x, 0 ≤ x → 0 ≤ sqrt x) (ha : R.rnd a = a) (ha0 : a ≠ 0)
    (hd : ((1 + u) ^ 4 - 1) * (|(y - c) / a| + (b / (2 * a)) ^ 2) ≤ (y - c) / a + (b / (2 * a)) ^ 2) :
    ∃ x1 x2, machineSolve R sqrt a b c y = .ok (x1, x2) ∧ x1 ≤ x2 := by
  rw [machineSolve_eq ha ha0]
  have h := (discr_close hu hr a b c y).2.1
  rw [← abs_mul, abs_mul_self, ← sq (b / (2 * a))] at h
  have h1 := (abs_le.mp h).1
  have h2 : 0 ≤ R.rnd (R.rnd (R.rnd (y - c) / a) + R.rnd (R.rnd (b / (2 * a)) * R.rnd (b / (2 * a)))) := by linarith
  rw [if_neg (not_lt.mpr h2)]
  refine ⟨_, _, rfl, R.mono _ _ ?_⟩
  linarith [hs _ h2]

/-- **C131** (partial): the numbers that are returned solve the equation up to the rounding of its terms. -/
theorem C131_residual_partial (hu : 0 ≤ u) (hu6 : (1 + u) ^ 6 ≤ 2) (hr : ∀ x, |R.rnd x - x| ≤ u * |x|)
    (hs : ∀ x, 0 ≤ x → 0 ≤ sqrt x ∧ |sqrt x ^ 2 - x| ≤ ((1 + u) ^ 2 - 1) * x) (ha : R.rnd a = a) (ha0 : a ≠ 0) (x1 x2 : K)
    (h : machineSolve R sqrt a b c y = .ok (x1, x2)) :
    x1 ≤ x2 ∧ ∀ x, x = x1 ∨ x = x2 → |a * x ^ 2 + b * x + c - y| ≤ 13 * ((1 + u) ^ 6 - 1) * (|y - c| + b ^ 2 / (4 * |a|)) := by
  rw [machineSolve_eq ha ha0] at h
  obtain ⟨hq, hd⟩ := discr_close hu hr a b c y
  rw [← abs_mul, abs_mul_self] at hd
  generalize R.rnd (R.rnd (R.rnd (y - c) / a) + R.rnd (R.rnd (b / (2 * a)) * R.rnd (b / (2 * a)))) = d' at h hd
  generalize R.rnd (b / (2 * a)) = q' at h hq
  by_cases hd0 : d' < 0
  · rw [if_pos hd0] at h; cases h
  rw [if_neg hd0] at h
  obtain ⟨h1, h2⟩ := hs d' (not_lt.mp hd0)
  have e1 : R.rnd (-sqrt d' - q') = x1 := congrArg (fun r => match r with | Outcome.ok p => p.1 | _ => 0) h
  have e2 : R.rnd (sqrt d' - q') = x2 := congrArg (fun r => match r with | Outcome.ok p => p.2 | _ => 0) h
  refine ⟨by rw [← e1, ← e2]; exact R.mono _ _ (by linarith), ?_⟩
  generalize sqrt d' = s at h1 h2 e1 e2
  set q := b / (2 * a) with hqd
  set T := (y - c) / a with hT
  have hp4 := one_le_pow_u hu 4
  -- the square of the root
  have hd1 : |d' - (T + q * q)| ≤ ((1 + u) ^ 4 - 1) * (|T| + q * q) := hd.1
  have hd2 : d' ≤ (1 + u) ^ 4 * (|T| + q * q) := (le_abs_self _).trans hd.abs_le
  have hM : 0 ≤ |T| + q * q := hd.nonneg
  have hsq : |s ^ 2 - (T + q * q)| ≤ ((1 + u) ^ 6 - 1) * (|T| + q * q) := by
    have h3 := abs_add_le (s ^ 2 - d') (d' - (T + q * q))
    rw [sub_add_sub_cancel] at h3
    have h4 : ((1 + u) ^ 2 - 1) * d' ≤ ((1 + u) ^ 2 - 1) * ((1 + u) ^ 4 * (|T| + q * q)) :=
      mul_le_mul_of_nonneg_left hd2 (by linarith [one_le_pow_u hu 2])
    calc _ ≤ _ := h3
      _ ≤ ((1 + u) ^ 2 - 1) * ((1 + u) ^ 4 * (|T| + q * q)) + ((1 + u) ^ 4 - 1) * (|T| + q * q) := add_le_add (h2.trans h4) hd1
      _ = _ := by ring
  have hTle : T ≤ |T| := le_abs_self T
  have hs2 : s ^ 2 ≤ 2 * (|T| + q * q) := by
    have h3 := (abs_le.mp hsq).2
    have h4 : (1 + u) ^ 6 * (|T| + q * q) ≤ 2 * (|T| + q * q) := mul_le_mul_of_nonneg_right hu6 hM
    linarith
  have key : ∀ t x, (t = s ∨ t = -s) → x = R.rnd (t - q') → |a * x ^ 2 + b * x + c - y| ≤ 13 * ((1 + u) ^ 6 - 1) * (|y - c| + b ^ 2 / (4 * |a|)) := by
    intro t x ht hx
    have ht2 : t ^ 2 = s ^ 2 := by rcases ht with rfl | rfl <;> ring
    have h3 := ((((Close.refl u t).mono hu (show 0 ≤ 1 by omega)).sub hq).rnd hu hr).add ((Close.refl u q).mono hu (show 0 ≤ 1 + 1 by omega))
    rw [← hx, sub_add_cancel] at h3
    have h4 := (h3.mul hu h3).1
    have h5 : (|t| + |q| + |q|) * (|t| + |q| + |q|) ≤ 12 * (|T| + q * q) := by
      have e3 : |t| * |t| = s ^ 2 := by rw [abs_mul_abs_self, ← sq, ht2]
      have e4 : |q| * |q| = q * q := abs_mul_abs_self q
      nlinarith [sq_nonneg (|t| - 2 * |q|), abs_nonneg T]
    have h6 : |(x + q) * (x + q) - t * t| ≤ ((1 + u) ^ 6 - 1) * (12 * (|T| + q * q)) := by
      refine h4.trans (mul_le_mul ?_ h5 (by positivity) (by linarith [one_le_pow_u hu 6]))
      have := pow_le_pow_right₀ (by linarith : (1 : K) ≤ 1 + u) (show 1 + 1 + (1 + 1) ≤ 6 by omega)
      linarith
    have h7 : |(x + q) * (x + q) - (T + q * q)| ≤ 13 * ((1 + u) ^ 6 - 1) * (|T| + q * q) := by
      have h8 := abs_add_le ((x + q) * (x + q) - t * t) (s ^ 2 - (T + q * q))
      rw [← ht2, show (x + q) * (x + q) - t * t + (t ^ 2 - (T + q * q)) = (x + q) * (x + q) - (T + q * q) by ring, ht2] at h8
      linarith
    have e5 : a * x ^ 2 + b * x + c - y = a * ((x + q) * (x + q) - (T + q * q)) := by
      rw [hqd, hT]
      field_simp
      ring
    have e6 : |y - c| + b ^ 2 / (4 * |a|) = |a| * (|T| + q * q) := by
      have h0 : |a| ≠ 0 := abs_ne_zero.mpr ha0
      have : q * q = b ^ 2 / (4 * |a| ^ 2) := by
        rw [hqd, sq_abs]
        field_simp
        ring
      rw [this, hT, abs_div]
      field_simp
    rw [e5, e6, abs_mul]
    calc _ ≤ _ := mul_le_mul_of_nonneg_left h7 (abs_nonneg a)
      _ = _ := by ring
  rintro x (rfl | rfl)
  · exact key (-s) _ (Or.inr rfl) e1.symm
  · exact key s _ (Or.inl rfl) e2.symm

/-- **C131** (partial): a linear equation is solved up to two roundings; an equation without unknown is refused. -/
theorem C131_linear_partial (hu : 0 ≤ u) (hr : ∀ x, |R.rnd x - x| ≤ u * |x|) (sqrt : K → K) (b c y : K) :
    (b ≠ 0 → ∃ x, machineSolve R sqrt 0 b c y = .ok (x, x) ∧ |x - (y - c) / b| ≤ ((1 + u) ^ 2 - 1) * |(y - c) / b|) ∧
    machineSolve R sqrt 0 0 c y = .throw .elements := by
  refine ⟨fun hb => ⟨R.rnd (R.rnd (y - c) / b), ?_, ?_⟩, ?_⟩
  · rw [machineSolve, if_neg (by simp), if_pos hb, div?, if_neg hb]; rfl
  · have h2 : Close u 1 |y - c| (R.rnd (y - c)) (y - c) := (Close.refl u _).rnd hu hr
    have h3 := ((h2.div hu b).rnd hu hr).1
    rwa [← abs_div] at h3
  · rw [machineSolve, if_neg (by simp), if_neg (by simp)]

end

/-! ## Doubles -/

/-- The whole claim: an equation between doubles that has a solution is given numbers. -/
def C131_full (sqrt : ℚ → ℚ) : Prop :=
  ∀ a b c y : ℚ, Binary.rnd 53 a = a → Binary.rnd 53 b = b → Binary.rnd 53 c = c → Binary.rnd 53 y = y → a ≠ 0 → (∃ x, a * x ^ 2 + b * x + c = y) →
    ∃ r, machineSolve (Binary.rounding 53 (by decide)) sqrt a b c y = .ok r

/-- **C131** is violated: `361 x² + 38 x + 1 = 0` has the solution `-1/19`, the function takes the root of a negative number. -/
theorem C131_violated (sqrt : ℚ → ℚ) : ¬ C131_full sqrt := by
  intro h
  obtain ⟨r, hr⟩ := h 361 38 1 0 (by decide +kernel) (by decide +kernel) (by decide +kernel) (by decide +kernel) (by norm_num) ⟨-1 / 19, by norm_num⟩
  rw [machineSolve_eq (R := Binary.rounding 53 (by decide)) (by decide +kernel) (by norm_num), if_pos (by decide +kernel)] at hr
  cases hr

/-- The claim that a solution is found up to half of its size. -/
def C131_accurate (sqrt : ℚ → ℚ) : Prop :=
  ∀ a b c y x1 x2 : ℚ, Binary.rnd 53 a = a → Binary.rnd 53 b = b → Binary.rnd 53 c = c → Binary.rnd 53 y = y →
    machineSolve (Binary.rounding 53 (by decide)) sqrt a b c y = .ok (x1, x2) → ∀ x, a * x ^ 2 + b * x + c = y → |x1 - x| ≤ |x| / 2 ∨ |x2 - x| ≤ |x| / 2

/-- **C131**: also this is violated: of `x² + 2^56 x + 2^56 = 1`, whose solutions are `-1` and `1 - 2^56`, the first is lost to `0`. -/
theorem C131_accurate_violated (sqrt : ℚ → ℚ) (hs : sqrt (2 ^ 110) = 2 ^ 55) : ¬ C131_accurate sqrt := by
  intro h
  have e : machineSolve (Binary.rounding 53 (by decide)) sqrt 1 (2 ^ 56) (2 ^ 56) 1 = .ok (-2 ^ 56, 0) := by
    rw [machineSolve_eq (R := Binary.rounding 53 (by decide)) (by decide +kernel) (by norm_num),
      show (Binary.rounding 53 (by decide)).rnd ((Binary.rounding 53 (by decide)).rnd ((Binary.rounding 53 (by decide)).rnd (1 - 2 ^ 56) / 1) +
        (Binary.rounding 53 (by decide)).rnd ((Binary.rounding 53 (by decide)).rnd (2 ^ 56 / (2 * 1)) * (Binary.rounding 53 (by decide)).rnd (2 ^ 56 / (2 * 1)))) =
        2 ^ 110 by decide +kernel, if_neg (by norm_num), hs]
    decide +kernel
  have := h 1 (2 ^ 56) (2 ^ 56) 1 _ _ (by decide +kernel) (by decide +kernel) (by decide +kernel) (by decide +kernel) e (-1) (by norm_num)
  norm_num at this

/-- There are functions as `C131_residual_partial` wants them on the rational numbers. -/
theorem exists_sqrt (u : ℚ) (hu : 0 < u) : ∃ sqrt : ℚ → ℚ, ∀ x, 0 ≤ x → 0 ≤ sqrt x ∧ |sqrt x ^ 2 - x| ≤ ((1 + u) ^ 2 - 1) * x := by
  have h : ∀ x : ℚ, ∃ t, 0 ≤ x → 0 ≤ t ∧ |t ^ 2 - x| ≤ ((1 + u) ^ 2 - 1) * x := by
    intro x
    by_cases hx : 0 < x
    · have hx' : (0 : ℝ) < x := by exact_mod_cast hx
      have hs := Real.sqrt_pos.mpr hx'
      have hu' : (0 : ℝ) < u := by exact_mod_cast hu
      obtain ⟨t, h1, h2⟩ := exists_rat_btwn (show Real.sqrt x < (1 + u) * Real.sqrt x by nlinarith)
      have h3 : (x : ℝ) < t ^ 2 := by
        have := Real.sq_sqrt hx'.le
        nlinarith
      have h4 : (t : ℝ) ^ 2 < (1 + u) ^ 2 * x := by
        have := Real.sq_sqrt hx'.le
        have h5 : (t : ℝ) ^ 2 < ((1 + u) * Real.sqrt x) ^ 2 := by
          refine pow_lt_pow_left₀ h2 (hs.le.trans h1.le) (by norm_num)
        rwa [mul_pow, this] at h5
      refine ⟨t, fun _ => ⟨by exact_mod_cast hs.le.trans h1.le, ?_⟩⟩
      have h3' : x < t ^ 2 := by exact_mod_cast h3
      have h4' : t ^ 2 < (1 + u) ^ 2 * x := by exact_mod_cast h4
      rw [abs_of_pos (by linarith)]
      linarith
    · refine ⟨0, fun h => ?_⟩
      have : x = 0 := le_antisymm (not_lt.mp hx) h
      simp [this]
  choose f hf using h
  exact ⟨f, hf⟩

/-- The hypotheses hold for doubles. -/
example : ∃ sqrt : ℚ → ℚ, ∃ x1 x2, machineSolve (Binary.rounding 53 (by decide)) sqrt 1 1 (-1) 0 = .ok (x1, x2) ∧ x1 ≤ x2 ∧
    |1 * x2 ^ 2 + 1 * x2 + -1 - 0| ≤ 13 * ((1 + (1 / 2) ^ 53) ^ 6 - 1) * (|0 - -1| + 1 ^ 2 / (4 * |1|)) := by
  obtain ⟨sqrt, hs⟩ := exists_sqrt ((1 / 2) ^ 53) (by positivity)
  have hr : ∀ x, |(Binary.rounding 53 (by decide)).rnd x - x| ≤ (1 / 2) ^ 53 * |x| := fun x => by rw [mul_comm]; exact Binary.rnd_err 53 x
  obtain ⟨x1, x2, h1, h2⟩ := C131_defined_partial (R := Binary.rounding 53 (by decide)) (sqrt := sqrt) (a := 1) (b := 1) (c := -1) (y := 0) (by positivity) hr
    (fun x hx => (hs x hx).1) (by decide +kernel) (by norm_num) (by norm_num)
  exact ⟨sqrt, x1, x2, h1, h2, (C131_residual_partial (by positivity) (by norm_num) hr hs (by decide +kernel) (by norm_num) x1 x2 h1).2 x2 (Or.inr rfl)⟩

end Alexandria.MathUtils
