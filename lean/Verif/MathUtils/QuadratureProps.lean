import Mathlib.Analysis.SpecialFunctions.Trigonometric.Deriv
import Mathlib.Analysis.SpecialFunctions.Pow.Deriv
import Verif.MathUtils.QuadratureLemmas

/-!
# C135: the numerical integration and the integral

`SimpsonsRule` and `AdaptativeIntegration` (`NumericModel.lean`) over the real numbers, compared to the integral of the function.
-/

namespace Alexandria.MathUtils

open Set Quadrature

theorem eight_le (order : Nat) (h : 3 ≤ order) : 8 ≤ 2 ^ order := by
  calc 8 = 2 ^ 3 := rfl
    _ ≤ 2 ^ order := Nat.pow_le_pow_right (by omega) h

/-- A result of the direct evaluation is the rule. -/
theorem simpson_ok {f : ℝ → ℝ} {a b v : ℝ} {order : Int} (h : simpson f a b order = .ok v) : ∃ k : Nat, order = k ∧ 3 ≤ k ∧ k < 31 ∧ v = Spec.rule f a b (2 ^ k) := by
  by_cases h1 : order < 3
  · rw [simpson, if_pos h1] at h; cases h
  by_cases h2 : order ≥ 31
  · rw [simpson, if_neg h1, if_pos h2] at h; cases h
  obtain ⟨k, rfl⟩ := Int.eq_ofNat_of_zero_le (show 0 ≤ order by omega)
  have := C41_rule f a b k (by omega) (by omega)
  rw [show ((k : Nat) : Int) = Int.ofNat k from rfl] at *
  rw [this] at h
  cases h
  exact ⟨k, rfl, by simpa using h1, by simpa using h2, rfl⟩

/-- A result of the adaptive integration is the rule for an order above the initial one. -/
theorem adaptive_ok {f : ℝ → ℝ} {a b v precision : ℝ} {order : Int} (h : adaptive precision order f a b = .ok v) :
    ∃ m k : Nat, order = m ∧ 3 ≤ m ∧ m ≤ k ∧ k + 1 < 31 ∧ v = Spec.rule f a b (2 ^ (k + 1)) ∧ Spec.Close precision (Spec.rule f a b (2 ^ k)) v := by
  by_cases h1 : order < 3
  · rw [C94_throws f a b precision order h1] at h; cases h
  obtain ⟨m, rfl⟩ := Int.eq_ofNat_of_zero_le (show 0 ≤ order by omega)
  have hm : 3 ≤ m := by simpa using h1
  by_cases h2 : m ≤ 30
  · rw [adaptive] at h
    rw [show (m : Int) = ((m : Nat) : Int) from rfl, C41_rule f a b m hm (by omega)] at h
    simp only [Outcome.bind_ok] at h
    rcases adaptiveLoop_spec f a b precision 31 m hm h2 (by omega) with ⟨k, q1, q2, q3, q4, _⟩ | ⟨q, _⟩
    · rw [q3] at h
      cases h
      exact ⟨m, k, rfl, hm, q1, q2, rfl, q4⟩
    · rw [q] at h; cases h
  · rw [adaptive, simpson, if_neg (by omega), if_pos (by omega)] at h
    cases h

/-- What one expects: the result differs from the integral by at most the given part of it. -/
def C135_full : Prop := ∀ (f : ℝ → ℝ) (a b precision v : ℝ), (∀ n : Nat, ContDiff ℝ n f) → a ≤ b → 0 < precision → adaptive precision 3 f a b = .ok v →
  |v - ∫ x in a..b, f x| ≤ precision * |∫ x in a..b, f x|

/-- **C135 (direct evaluation, smooth functions).** The rule is of fourth order. -/
theorem C135_simpson {f f1 f2 f3 f4 : ℝ → ℝ} {a b M v : ℝ} (order : Nat) (hv : simpson f a b order = .ok v) (hab : a ≤ b) (h : Smooth f f1 f2 f3 f4 a b M) :
    |v - ∫ x in a..b, f x| ≤ M * (b - a) / 12 * ((b - a) / 2 ^ order) ^ 4 := by
  obtain ⟨k, hk, h3, _, rfl⟩ := simpson_ok hv
  have hk' : order = k := by exact_mod_cast hk
  subst hk'
  have := smooth_error h hab (2 ^ order) (eight_le order h3)
  push_cast at this
  linarith

/-- **C135 (direct evaluation, monotone functions).** Also without any derivative: monotone functions. -/
theorem C135_simpson_monotone {f : ℝ → ℝ} {a b v : ℝ} (order : Nat) (hv : simpson f a b order = .ok v) (hab : a ≤ b) (h : MonotoneOn f (Icc a b) ∨ AntitoneOn f (Icc a b)) :
    |v - ∫ x in a..b, f x| ≤ 5 / 8 * ((b - a) / 2 ^ order) * |f b - f a| := by
  obtain ⟨k, hk, h3, _, rfl⟩ := simpson_ok hv
  have hk' : order = k := by exact_mod_cast hk
  subst hk'
  have ht : 0 ≤ 5 / 8 * ((b - a) / (2 : ℝ) ^ order) := by
    have : 0 ≤ (b - a) / (2 : ℝ) ^ order := div_nonneg (by linarith) (by positivity)
    linarith
  rcases h with h | h
  · have := monotone_error h hab (2 ^ order) (eight_le order h3)
    push_cast at this
    exact this.trans (mul_le_mul_of_nonneg_left (le_abs_self _) ht)
  · have := antitone_error h hab (2 ^ order) (eight_le order h3)
    push_cast at this
    exact this.trans (mul_le_mul_of_nonneg_left (by rw [abs_sub_comm]; exact le_abs_self _) ht)

theorem pow_order_le {m k : Nat} (h : m ≤ k) : (2 : ℝ) ^ (m + 1) ≤ 2 ^ (k + 1) := pow_le_pow_right₀ (by norm_num) (by omega)

/-- **C135 (smooth functions).** The error of the adaptive integration of a function with a bounded fourth derivative. -/
theorem C135_smooth_partial {f f1 f2 f3 f4 : ℝ → ℝ} {a b M v precision : ℝ} (order : Nat) (hv : adaptive precision order f a b = .ok v) (hab : a ≤ b)
    (h : Smooth f f1 f2 f3 f4 a b M) : |v - ∫ x in a..b, f x| ≤ M * (b - a) / 12 * ((b - a) / 2 ^ (order + 1)) ^ 4 := by
  obtain ⟨m, k, hm, h3, hk, hk2, rfl, _⟩ := adaptive_ok hv
  have hm' : order = m := by exact_mod_cast hm
  subst hm'
  have := smooth_error h hab (2 ^ (k + 1)) (eight_le _ (by omega))
  push_cast at this
  have hd : ((b - a) / (2 : ℝ) ^ (k + 1)) ^ 4 ≤ ((b - a) / (2 : ℝ) ^ (order + 1)) ^ 4 :=
    pow_le_pow_left₀ (div_nonneg (by linarith) (by positivity)) (div_le_div_of_nonneg_left (by linarith) (by positivity) (pow_order_le hk)) 4
  have hM : 0 ≤ M * (b - a) / 12 := by have := mul_nonneg (h.nonneg hab) (sub_nonneg.mpr hab); linarith
  have := mul_le_mul_of_nonneg_left hd hM
  linarith

/-- **C135 (monotone functions).** -/
theorem C135_monotone_partial {f : ℝ → ℝ} {a b v precision : ℝ} (order : Nat) (hv : adaptive precision order f a b = .ok v) (hab : a ≤ b)
    (h : MonotoneOn f (Icc a b) ∨ AntitoneOn f (Icc a b)) : |v - ∫ x in a..b, f x| ≤ 5 / 8 * ((b - a) / 2 ^ (order + 1)) * |f b - f a| := by
  obtain ⟨m, k, hm, h3, hk, hk2, rfl, _⟩ := adaptive_ok hv
  have hm' : order = m := by exact_mod_cast hm
  subst hm'
  have := C135_simpson_monotone (k + 1) (C41_rule f a b (k + 1) (by omega) hk2) hab h
  refine this.trans (mul_le_mul_of_nonneg_right (mul_le_mul_of_nonneg_left ?_ (by norm_num)) (abs_nonneg _))
  exact div_le_div_of_nonneg_left (by linarith) (by positivity) (pow_order_le hk)

/-- **C135 (bounds).** The result lies between the bounds of the function times the length of the interval. -/
theorem C135_between {f : ℝ → ℝ} {a b v precision lo hi : ℝ} (order : Nat) (hv : adaptive precision order f a b = .ok v) (hab : a ≤ b)
    (h : ∀ x ∈ Icc a b, lo ≤ f x ∧ f x ≤ hi) : (b - a) * lo ≤ v ∧ v ≤ (b - a) * hi := by
  obtain ⟨m, k, hm, h3, hk, hk2, rfl, _⟩ := adaptive_ok hv
  exact rule_between hab h _ (eight_le _ (by omega))

/-- **C135 (there is a result).** For positive monotone functions that do not vary too much for the precision, there is a result. -/
theorem C135_defined {f : ℝ → ℝ} {a b precision lo : ℝ} (order k0 : Nat) (h3 : 3 ≤ order) (hk : order ≤ k0) (hk2 : k0 + 1 < 31) (hab : a ≤ b) (hp : 0 ≤ precision) (hlo : 0 ≤ lo)
    (h : MonotoneOn f (Icc a b) ∨ AntitoneOn f (Icc a b)) (hf : ∀ x ∈ Icc a b, lo ≤ f x) (hv : 15 / 16 * |f b - f a| ≤ precision * lo * 2 ^ k0) :
    ∃ v, adaptive precision order f a b = .ok v ∧ ∃ k, order ≤ k ∧ k ≤ k0 ∧ simpson f a b (k + 1 : Nat) = .ok v := by
  have e1 := C135_simpson_monotone k0 (C41_rule f a b k0 (by omega) (by omega)) hab h
  have e2 := C135_simpson_monotone (k0 + 1) (C41_rule f a b (k0 + 1) (by omega) hk2) hab h
  have hfa : ∀ x ∈ Icc a b, lo ≤ f x ∧ f x ≤ max (f a) (f b) := by
    intro x hx
    refine ⟨hf x hx, ?_⟩
    rcases h with h | h
    · exact (h hx ⟨hab, le_rfl⟩ hx.2).trans (le_max_right _ _)
    · exact (h ⟨le_rfl, hab⟩ hx hx.1).trans (le_max_left _ _)
  have hb := (rule_between hab hfa (2 ^ k0) (eight_le k0 (by omega))).1
  have hpow : (0 : ℝ) < 2 ^ k0 := by positivity
  have hc : Spec.Close precision (Spec.rule f a b (2 ^ k0)) (Spec.rule f a b (2 ^ (k0 + 1))) := by
    rw [Spec.Close]
    have hw : (b - a) * lo ≤ |Spec.rule f a b (2 ^ k0)| := hb.trans (le_abs_self _)
    have hw' := mul_le_mul_of_nonneg_left hw hp
    have e3 : (b - a) / (2 : ℝ) ^ (k0 + 1) = (b - a) / 2 ^ k0 / 2 := by rw [pow_succ]; field_simp
    rw [e3] at e2
    have e4 : (b - a) / (2 : ℝ) ^ k0 * (15 / 16 * |f b - f a|) ≤ (b - a) / 2 ^ k0 * (precision * lo * 2 ^ k0) :=
      mul_le_mul_of_nonneg_left hv (div_nonneg (by linarith) hpow.le)
    have e5 : (b - a) / (2 : ℝ) ^ k0 * (precision * lo * 2 ^ k0) = precision * ((b - a) * lo) := by field_simp
    rw [e5] at e4
    rw [abs_le] at e1 e2
    rw [abs_le]
    constructor <;> linarith [e1.1, e1.2, e2.1, e2.2]
  obtain ⟨k, q1, q2, q3, _⟩ := C94_adaptive f a b precision order h3 k0 hk hk2 hc
  exact ⟨_, q3, k, q1, q2, C41_rule f a b (k + 1) (by omega) (by omega)⟩

/-- The samples may all be zero: the integral of `sin² (16 π x)` from 0 to 1 is taken for 0. -/
theorem C135_violated : ¬ C135_full := by
  intro hfull
  set f : ℝ → ℝ := fun x => Real.sin (16 * Real.pi * x) ^ 2 with hf
  have hz : ∀ k, 3 ≤ k → k ≤ 4 → Spec.rule f 0 1 (2 ^ k) = 0 := by
    intro k h3 h4
    rw [Spec.rule]
    refine mul_eq_zero_of_right _ (Finset.sum_eq_zero fun i _ => mul_eq_zero_of_right _ ?_)
    have : ∃ j : Nat, 16 * Real.pi * (0 + (i : ℝ) * ((1 - 0) / ((2 ^ k : Nat) : ℝ))) = j * Real.pi := by
      rcases (show k = 3 ∨ k = 4 by omega) with rfl | rfl
      · exact ⟨2 * i, by push_cast; ring⟩
      · exact ⟨i, by push_cast; ring⟩
    obtain ⟨j, hj⟩ := this
    simp only [hf]
    rw [hj, Real.sin_nat_mul_pi]
    norm_num
  have hc : Spec.Close (1 / 2) (Spec.rule f 0 1 (2 ^ 3)) (Spec.rule f 0 1 (2 ^ (3 + 1))) := by
    rw [hz 3 (by omega) (by omega), hz (3 + 1) (by omega) (by omega), Spec.Close]
    norm_num
  obtain ⟨k, k1, k2, hk, _⟩ := C94_adaptive f 0 1 (1 / 2) 3 (by omega) 3 (by omega) (by omega) hc
  have hk3 : k = 3 := by omega
  subst hk3
  rw [hz (3 + 1) (by omega) (by omega)] at hk
  have hcd : ∀ n : Nat, ContDiff ℝ n f := fun n => by rw [hf]; fun_prop
  have hI : ∫ x in (0 : ℝ)..1, f x = 1 / 2 := by
    rw [intervalIntegral.integral_eq_sub_of_hasDerivAt (f := fun x => x / 2 - Real.sin (16 * Real.pi * x) * Real.cos (16 * Real.pi * x) / (32 * Real.pi)) (f' := f) ?_
      ((hcd 0).continuous.intervalIntegrable _ _)]
    · have : 16 * Real.pi * 1 = (16 : Nat) * Real.pi := by push_cast; ring
      rw [this, Real.sin_nat_mul_pi]
      simp
    · intro x _
      have d0 : HasDerivAt (fun x : ℝ => 16 * Real.pi * x) (16 * Real.pi) x := by simpa using (hasDerivAt_id x).const_mul (16 * Real.pi)
      have := ((hasDerivAt_id x).div_const 2).sub ((d0.sin.mul d0.cos).div_const (32 * Real.pi))
      refine this.congr_deriv ?_
      have hpi := Real.pi_ne_zero
      simp only [hf]
      field_simp
      have := Real.sin_sq_add_cos_sq (16 * Real.pi * x)
      linear_combination (-32 : ℝ) * this
  have := hfull f 0 1 (1 / 2) 0 hcd (by norm_num) (by norm_num) hk
  rw [hI] at this
  norm_num at this

/-- The fourth power: its fourth derivative is 24. -/
theorem smooth_pow4 (a b : ℝ) : Smooth (fun x => x ^ 4) (fun x => 4 * x ^ 3) (fun x => 12 * x ^ 2) (fun x => 24 * x) (fun _ => 24) a b 24 := by
  have p : ∀ (n : Nat) (x : ℝ), HasDerivWithinAt (fun x : ℝ => x ^ n) (n * x ^ (n - 1)) (Icc a b) x := fun n x => (hasDerivAt_pow n x).hasDerivWithinAt
  refine ⟨fun x _ => (p 4 x).congr_deriv (by norm_num), fun x _ => ((p 3 x).const_mul 4).congr_deriv (by norm_num; ring), fun x _ => ((p 2 x).const_mul 12).congr_deriv (by norm_num; ring),
    fun x _ => (((hasDerivAt_id x).const_mul 24).hasDerivWithinAt).congr_deriv (by norm_num), fun x _ => by norm_num⟩

/-- An instance of the hypotheses: the fourth power from 0 to 2 with a precision of a tenth. -/
example : ∃ v, adaptive (1 / 10) (3 : Nat) (fun x : ℝ => x ^ 4) 0 2 = .ok v ∧ |v - 32 / 5| ≤ 1 / 512 := by
  have hk : ∃ v, adaptive (1 / 10) (3 : Nat) (fun x : ℝ => x ^ 4) 0 2 = .ok v := by
    have hc : Spec.Close (1 / 10) (Spec.rule (fun x : ℝ => x ^ 4) 0 2 (2 ^ 3)) (Spec.rule (fun x : ℝ => x ^ 4) 0 2 (2 ^ (3 + 1))) := by
      rw [Spec.Close, Spec.rule, Spec.rule]
      norm_num [Finset.sum_range_succ, abs_le]
    obtain ⟨k, _, _, hk, _⟩ := C94_adaptive (fun x : ℝ => x ^ 4) 0 2 (1 / 10) 3 (by omega) 3 (by omega) (by omega) hc
    exact ⟨_, hk⟩
  obtain ⟨v, hv⟩ := hk
  refine ⟨v, hv, ?_⟩
  have := C135_smooth_partial 3 hv (by norm_num) (smooth_pow4 0 2)
  rw [integral_pow] at this
  norm_num at this
  norm_num
  linarith

end Alexandria.MathUtils
