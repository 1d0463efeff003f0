import Verif.MathUtils.NumericModel
import Mathlib.Algebra.BigOperators.Intervals
import Mathlib.Algebra.Order.Field.Basic
import Mathlib.Algebra.Order.Ring.Abs
import Mathlib.Analysis.Calculus.MeanValue
import Mathlib.Analysis.SpecialFunctions.Integrals.Basic
import Mathlib.Tactic.FieldSimp
import Mathlib.Tactic.Linarith
import Mathlib.Tactic.Ring

/-!
# Simpson's rule (C41), adaptive integration (C94) and finite differences (C95)
-/

namespace Alexandria.MathUtils

section
variable {K : Type} [Field K] [LinearOrder K]

/-- The extended rule on `N` steps: the samples weighted with 1, except for three at each end. -/
def Spec.rule (f : K → K) (a b : K) (N : Nat) : K :=
  (b - a) / N * (∑ i ∈ Finset.range (N + 1), (if i = 0 ∨ i = N then 3 / 8 else if i = 1 ∨ i + 1 = N then 7 / 6 else if i = 2 ∨ i + 2 = N then 23 / 24 else 1) * f (a + i * ((b - a) / N)))

theorem sumFrom_eq (g : Nat → K) : ∀ (fuel i : Nat) (s : K), sumFrom g fuel i s = s + ∑ j ∈ Finset.Ico i (i + fuel), g j := by
  intro fuel
  induction fuel with
  | zero => intro i s; simp [sumFrom]
  | succ fuel ih =>
    intro i s
    rw [sumFrom, ih, Finset.sum_eq_sum_Ico_succ_bot (show i < i + (fuel + 1) by omega), show i + 1 + fuel = i + (fuel + 1) by omega, add_assoc]

/-- The sum of the rule without the step. -/
def inner (g : Nat → K) (N : Nat) : K :=
  ∑ i ∈ Finset.Ico 3 (N - 2), g i + 3 / 8 * (g 0 + g N) + 7 / 6 * (g 1 + g (N - 1)) + 23 / 24 * (g 2 + g (N - 2))

theorem inner_eq (g : Nat → K) (N : Nat) (hN : 6 ≤ N) :
    ∑ i ∈ Finset.range (N + 1), (if i = 0 ∨ i = N then (3 : K) / 8 else if i = 1 ∨ i + 1 = N then 7 / 6 else if i = 2 ∨ i + 2 = N then 23 / 24 else 1) * g i = inner g N := by
  obtain ⟨n, rfl⟩ := Nat.exists_eq_add_of_le hN
  rw [show 6 + n + 1 = (n + 1) + 3 + 3 by omega, Finset.sum_range_succ, Finset.sum_range_succ, Finset.sum_range_succ, ← Finset.sum_range_add_sum_Ico _ (show 3 ≤ n + 1 + 3 by omega),
    Finset.sum_range_succ, Finset.sum_range_succ, Finset.sum_range_succ, Finset.sum_range_zero]
  have hmid : ∑ i ∈ Finset.Ico 3 (n + 1 + 3), (if i = 0 ∨ i = 6 + n then (3 : K) / 8 else if i = 1 ∨ i + 1 = 6 + n then 7 / 6 else if i = 2 ∨ i + 2 = 6 + n then 23 / 24 else 1) * g i =
      ∑ i ∈ Finset.Ico 3 (n + 1 + 3), g i := by
    refine Finset.sum_congr rfl fun i hi => ?_
    rw [Finset.mem_Ico] at hi
    rw [if_neg (by omega), if_neg (by omega), if_neg (by omega), one_mul]
  rw [hmid, inner, show 6 + n - 2 = n + 1 + 3 by omega, show 6 + n - 1 = n + 1 + 3 + 1 by omega, show 6 + n = n + 1 + 3 + 2 by omega]
  simp only [show ¬ (1 = n + 1 + 3 + 2) by omega, show ¬ (0 + 1 = n + 1 + 3 + 2) by omega, show ¬ (2 = n + 1 + 3 + 2) by omega, show ¬ (n + 1 + 3 = n + 1 + 3 + 2) by omega,
    show ¬ (n + 1 + 3 = 0) by omega, show ¬ (n + 1 + 3 = 1) by omega, show ¬ (n + 1 + 3 = 2) by omega, show ¬ (n + 1 + 3 + 1 = n + 1 + 3 + 2) by omega,
    show ¬ (n + 1 + 3 + 1 = 0) by omega, show ¬ (1 + 1 = n + 1 + 3 + 2) by omega, show ¬ (2 + 1 = n + 1 + 3 + 2) by omega, true_or, or_true, or_false, false_or, if_true, if_false,
    show (1 : Nat) ≠ 0 by omega, show (2 : Nat) ≠ 0 by omega, show (2 : Nat) ≠ 1 by omega]
  ring

theorem simpson_eq [IsStrictOrderedRing K] (f : K → K) (a b : K) (order : Nat) (h1 : 3 ≤ order) (h2 : order < 31) :
    simpson f a b order = .ok ((b - a) / (2 ^ order : Nat) * inner (fun i => f (a + (i : K) * ((b - a) / (2 ^ order : Nat)))) (2 ^ order)) := by
  rw [simpson, if_neg (by omega), if_neg (by omega)]
  simp only [Int.toNat_natCast]
  have hN : 8 ≤ 2 ^ order := by
    calc 8 = 2 ^ 3 := rfl
      _ ≤ 2 ^ order := Nat.pow_le_pow_right (by omega) h1
  generalize 2 ^ order = N at hN
  have hN0 : (N : K) ≠ 0 := by
    have : (0 : K) < N := by exact_mod_cast (show 0 < N by omega)
    exact this.ne'
  generalize hh : (b - a) / (N : K) = h
  have hb : b = a + N * h := by rw [← hh]; field_simp; ring
  rw [sumFrom_eq, show 3 + (N - 2 - 3) = N - 2 by omega, inner]
  simp only [Nat.cast_zero, zero_mul, add_zero, Nat.cast_one, one_mul, zero_add]
  rw [Nat.cast_sub (show 1 ≤ N by omega), Nat.cast_sub (show 2 ≤ N by omega), hb]
  congr 1
  rw [show a + N * h - h = a + ((N : K) - (1 : Nat)) * h by push_cast; ring, show a + N * h - 2 * h = a + ((N : K) - (2 : Nat)) * h by push_cast; ring]
  push_cast
  ring

/-- **C41 (the rule).** From order 3 on, the direct evaluation is the rule on `2^order` steps: all samples have weight 1, except for the three at each end. -/
theorem C41_rule [IsStrictOrderedRing K] (f : K → K) (a b : K) (order : Nat) (h1 : 3 ≤ order) (h2 : order < 31) :
    simpson f a b order = .ok (Spec.rule f a b (2 ^ order)) := by
  rw [simpson_eq f a b order h1 h2, Spec.rule, inner_eq]
  calc 6 ≤ 2 ^ 3 := by decide
    _ ≤ 2 ^ order := Nat.pow_le_pow_right (by omega) h1

theorem sum_even_odd (g : Nat → K) (n : Nat) : ∑ i ∈ Finset.range (2 * n), g i = ∑ i ∈ Finset.range n, (g (2 * i) + g (2 * i + 1)) := by
  induction n with
  | zero => simp
  | succ n ih =>
    rw [show 2 * (n + 1) = 2 * n + 1 + 1 by omega, Finset.sum_range_succ, Finset.sum_range_succ, ih, Finset.sum_range_succ, add_assoc]

/-- **C41 (refinement).** Refining the direct evaluation of the order before gives the direct evaluation. -/
theorem C41_refine [IsStrictOrderedRing K] (f : K → K) (a b : K) (order : Nat) (h1 : 3 ≤ order) (h2 : order + 1 < 31) :
    ∃ v, simpson f a b order = .ok v ∧ simpsonRefine f a b v (order + 1 : Nat) = simpson f a b (order + 1 : Nat) := by
  refine ⟨_, simpson_eq f a b order h1 (by omega), ?_⟩
  rw [simpson_eq f a b (order + 1) (by omega) h2, simpsonRefine, if_neg (by omega), if_neg (by omega)]
  simp only [Int.toNat_natCast]
  have hN : 8 ≤ 2 ^ order := by
    calc 8 = 2 ^ 3 := rfl
      _ ≤ 2 ^ order := Nat.pow_le_pow_right (by omega) h1
  rw [show 2 ^ (order + 1) = 2 * 2 ^ order by rw [pow_succ]; ring]
  generalize 2 ^ order = n at hN
  have hN0 : (n : K) ≠ 0 := by
    have : (0 : K) < n := by exact_mod_cast (show 0 < n by omega)
    exact this.ne'
  generalize hh : (b - a) / ((2 * n : Nat) : K) = h
  have hh2 : (b - a) / (n : K) = 2 * h := by
    rw [← hh]; push_cast; field_simp
  have hb : b = a + ((2 * n : Nat) : K) * h := by rw [← hh]; push_cast; field_simp; ring
  rw [hh2, sumFrom_eq, show 2 * n / 2 - 1 - 1 = n - 2 by omega, show 1 + (n - 2) = n - 1 by omega]
  congr 1
  let g : Nat → K := fun i => f (a + (i : K) * h)
  have e1 : ∀ i : Nat, f (a + (i : K) * (2 * h)) = g (2 * i) := by
    intro i
    simp only [g]
    congr 1
    push_cast
    ring
  simp only [e1]
  have e2 : ∀ i, f (a + ((i : Nat) : K) * h) = g i := fun _ => rfl
  have f1 : f (a + h) = g 1 := by simp [g]
  have f2 : f (a + 2 * h) = g 2 := by simp [g]
  have f4 : f (a + 4 * h) = g 4 := by simp [g]
  have l1 : f (b - h) = g (2 * n - 1) := by
    simp only [g]
    rw [Nat.cast_sub (by omega), hb]
    congr 1
    push_cast
    ring
  have l2 : f (b - 2 * h) = g (2 * n - 2) := by
    simp only [g]
    rw [Nat.cast_sub (by omega), hb]
    congr 1
    push_cast
    ring
  have l4 : f (b - 4 * h) = g (2 * n - 4) := by
    simp only [g]
    rw [Nat.cast_sub (by omega), hb]
    congr 1
    push_cast
    ring
  simp only [e2, f1, f2, f4, l1, l2, l4, inner]
  obtain ⟨m, rfl⟩ := Nat.exists_eq_add_of_le hN
  -- split the long sum into even and odd samples
  have s0 : ∑ i ∈ Finset.Ico 3 (2 * (8 + m) - 2), g i = ∑ i ∈ Finset.range (2 * (7 + m)), g i - (g 0 + g 1 + g 2) := by
    rw [show 2 * (8 + m) - 2 = 2 * (7 + m) by omega, ← Finset.sum_range_add_sum_Ico _ (show 3 ≤ 2 * (7 + m) by omega)]
    simp only [Finset.sum_range_succ, Finset.sum_range_zero]
    ring
  have s1 : ∑ j ∈ Finset.Ico 1 (8 + m - 1), g (2 * j + 1) = ∑ j ∈ Finset.range (7 + m), g (2 * j + 1) - g 1 := by
    rw [show 8 + m - 1 = 7 + m by omega, ← Finset.sum_range_add_sum_Ico _ (show 1 ≤ 7 + m by omega)]
    simp only [Finset.sum_range_succ, Finset.sum_range_zero]
    ring
  have s2 : ∑ j ∈ Finset.Ico 3 (8 + m - 2), g (2 * j) = ∑ j ∈ Finset.range (7 + m), g (2 * j) - (g 0 + g 2 + g 4 + g (2 * (8 + m) - 4)) := by
    rw [show 8 + m - 2 = 6 + m by omega, show 7 + m = 6 + m + 1 by omega, Finset.sum_range_succ, ← Finset.sum_range_add_sum_Ico _ (show 3 ≤ 6 + m by omega),
      show 2 * (8 + m) - 4 = 2 * (6 + m) by omega]
    simp only [Finset.sum_range_succ, Finset.sum_range_zero]
    ring
  rw [s0, s1, s2, sum_even_odd, Finset.sum_add_distrib, show 2 * (8 + m - 1) = 2 * (8 + m) - 2 by omega, show 2 * (8 + m - 2) = 2 * (8 + m) - 4 by omega]
  ring

theorem sum_cubic (c0 c1 c2 c3 : K) [CharZero K] (n : Nat) : ∑ i ∈ Finset.range n, (c0 + c1 * (i : K) + c2 * (i : K) ^ 2 + c3 * (i : K) ^ 3) =
    c0 * n + c1 * (n * (n - 1) / 2) + c2 * (n * (n - 1) * (2 * n - 1) / 6) + c3 * (n * (n - 1) / 2) ^ 2 := by
  induction n with
  | zero => simp
  | succ n ih =>
    rw [Finset.sum_range_succ, ih]
    push_cast
    field_simp
    ring

/-- **C41 (cubics).** The rule is exact for polynomials of degree at most 3, at every order. -/
theorem C41_cubic [IsStrictOrderedRing K] (c0 c1 c2 c3 a b : K) (order : Nat) (h1 : 3 ≤ order) (h2 : order < 31) :
    simpson (fun x => c0 + c1 * x + c2 * x ^ 2 + c3 * x ^ 3) a b order =
      .ok ((c0 * b + c1 * b ^ 2 / 2 + c2 * b ^ 3 / 3 + c3 * b ^ 4 / 4) - (c0 * a + c1 * a ^ 2 / 2 + c2 * a ^ 3 / 3 + c3 * a ^ 4 / 4)) := by
  rw [simpson_eq _ a b order h1 h2]
  have hN : 8 ≤ 2 ^ order := by
    calc 8 = 2 ^ 3 := rfl
      _ ≤ 2 ^ order := Nat.pow_le_pow_right (by omega) h1
  generalize 2 ^ order = N at hN
  have hN0 : (N : K) ≠ 0 := by
    have : (0 : K) < N := by exact_mod_cast (show 0 < N by omega)
    exact this.ne'
  generalize hh : (b - a) / (N : K) = h
  have hb : b = a + N * h := by rw [← hh]; field_simp; ring
  congr 1
  rw [inner]
  have e : ∀ i : Nat, c0 + c1 * (a + (i : K) * h) + c2 * (a + (i : K) * h) ^ 2 + c3 * (a + (i : K) * h) ^ 3 =
      (c0 + c1 * a + c2 * a ^ 2 + c3 * a ^ 3) + (c1 * h + 2 * c2 * a * h + 3 * c3 * a ^ 2 * h) * (i : K) + (c2 * h ^ 2 + 3 * c3 * a * h ^ 2) * (i : K) ^ 2 + c3 * h ^ 3 * (i : K) ^ 3 := by
    intro i; ring
  simp only [e]
  have hs := sum_cubic (c0 + c1 * a + c2 * a ^ 2 + c3 * a ^ 3) (c1 * h + 2 * c2 * a * h + 3 * c3 * a ^ 2 * h) (c2 * h ^ 2 + 3 * c3 * a * h ^ 2) (c3 * h ^ 3) (N - 2)
  rw [← Finset.sum_range_add_sum_Ico _ (show 3 ≤ N - 2 by omega)] at hs
  rw [eq_sub_of_add_eq' hs]
  simp only [Finset.sum_range_succ, Finset.sum_range_zero]
  rw [Nat.cast_sub (show 2 ≤ N by omega), Nat.cast_sub (show 1 ≤ N by omega), hb]
  push_cast
  field_simp
  ring

/-- **C41 (refused).** Smaller orders are refused. -/
theorem C41_throws (f : K → K) (a b v : K) (order : Int) : (order < 3 → simpson f a b order = .throw .elements) ∧ (order < 4 → simpsonRefine f a b v order = .throw .elements) :=
  ⟨fun h => by rw [simpson, if_pos h], fun h => by rw [simpsonRefine, if_pos h]⟩

end

/-- **C41 (integral).** Over the real numbers: the rule gives the integral of a polynomial of degree at most 3. -/
theorem C41_integral (c0 c1 c2 c3 a b : ℝ) (order : Nat) (h1 : 3 ≤ order) (h2 : order < 31) :
    simpson (fun x => c0 + c1 * x + c2 * x ^ 2 + c3 * x ^ 3) a b order = .ok (∫ x in a..b, c0 + c1 * x + c2 * x ^ 2 + c3 * x ^ 3) := by
  rw [C41_cubic _ _ _ _ _ _ _ h1 h2]
  congr 1
  have hd : ∀ x ∈ Set.uIcc a b, HasDerivAt (fun x : ℝ => c0 * x + c1 * x ^ 2 / 2 + c2 * x ^ 3 / 3 + c3 * x ^ 4 / 4) (c0 + c1 * x + c2 * x ^ 2 + c3 * x ^ 3) x := by
    intro x _
    have := ((((hasDerivAt_id x).const_mul c0).add (((hasDerivAt_pow 2 x).const_mul c1).div_const 2)).add (((hasDerivAt_pow 3 x).const_mul c2).div_const 3)).add
      (((hasDerivAt_pow 4 x).const_mul c3).div_const 4)
    refine this.congr_deriv ?_
    simp
    ring
  rw [intervalIntegral.integral_eq_sub_of_hasDerivAt hd ((by fun_prop : Continuous fun x : ℝ => c0 + c1 * x + c2 * x ^ 2 + c3 * x ^ 3).intervalIntegrable _ _)]

example : simpson (fun x : ℚ => x ^ 3) 0 2 3 = .ok 4 ∧ simpson (fun x : ℚ => x ^ 4) 0 2 3 ≠ .ok (32 / 5) ∧
    (simpson (fun x : ℚ => x ^ 4) 0 2 3).bind (fun v => simpsonRefine (fun x : ℚ => x ^ 4) 0 2 v 4) = simpson (fun x : ℚ => x ^ 4) 0 2 4 := by decide +kernel

/-! ## Adaptive integration -/

section
variable {K : Type} [Field K] [LinearOrder K] [IsStrictOrderedRing K]

/-- The second of two values differs from the first by at most the given part of the first. -/
def Spec.Close (precision w v : K) : Prop := |v - w| ≤ precision * |w|

theorem notPrecise_iff {precision w v : K} : ¬ notPrecise precision (v - w) w ↔ Spec.Close precision w v := by
  rw [notPrecise, Spec.Close]
  by_cases h : w = 0
  · rw [if_pos h, h]
    simp
  · rw [if_neg h, abs_div, gt_iff_lt, not_lt, div_le_iff₀ (abs_pos.mpr h)]

theorem refine_rule (f : K → K) (a b : K) (m : Nat) (h1 : 3 ≤ m) (h2 : m + 1 < 31) :
    simpsonRefine f a b (Spec.rule f a b (2 ^ m)) ((m : Int) + 1) = .ok (Spec.rule f a b (2 ^ (m + 1))) := by
  obtain ⟨v, hv, h⟩ := C41_refine f a b m h1 h2
  rw [C41_rule f a b m h1 (by omega)] at hv
  cases hv
  rw [C41_rule f a b (m + 1) (by omega) h2] at h
  exact_mod_cast h

theorem adaptiveLoop_spec (f : K → K) (a b precision : K) : ∀ (fuel m : Nat), 3 ≤ m → m ≤ 30 → 31 ≤ fuel + m →
    (∃ k, m ≤ k ∧ k + 1 < 31 ∧ adaptiveLoop f a b precision fuel m (Spec.rule f a b (2 ^ m)) = .ok (Spec.rule f a b (2 ^ (k + 1))) ∧
      Spec.Close precision (Spec.rule f a b (2 ^ k)) (Spec.rule f a b (2 ^ (k + 1))) ∧
      ∀ j, m ≤ j → j < k → ¬ Spec.Close precision (Spec.rule f a b (2 ^ j)) (Spec.rule f a b (2 ^ (j + 1)))) ∨
    (adaptiveLoop f a b precision fuel m (Spec.rule f a b (2 ^ m)) = .ub ∧
      ∀ j, m ≤ j → j + 1 < 31 → ¬ Spec.Close precision (Spec.rule f a b (2 ^ j)) (Spec.rule f a b (2 ^ (j + 1)))) := by
  intro fuel
  induction fuel with
  | zero => intro m h1 h2 h3; omega
  | succ fuel ih =>
    intro m h1 h2 h3
    rw [adaptiveLoop]
    by_cases hm : m = 30
    · right
      subst hm
      constructor
      · rw [simpsonRefine, if_neg (by decide), if_pos (by decide)]
        rfl
      · intro j hj1 hj2; omega
    · rw [refine_rule f a b m h1 (by omega)]
      simp only [Outcome.bind_ok, Outcome.pure_eq]
      by_cases hc : notPrecise precision (Spec.rule f a b (2 ^ (m + 1)) - Spec.rule f a b (2 ^ m)) (Spec.rule f a b (2 ^ m))
      · rw [if_pos hc]
        have hnc : ¬ Spec.Close precision (Spec.rule f a b (2 ^ m)) (Spec.rule f a b (2 ^ (m + 1))) := fun h => (notPrecise_iff.mpr h) hc
        have := ih (m + 1) (by omega) (by omega) (by omega)
        push_cast at this
        rcases this with ⟨k, k1, k2, k3, k4, k5⟩ | ⟨k1, k2⟩
        · left
          refine ⟨k, by omega, k2, k3, k4, ?_⟩
          intro j hj1 hj2
          by_cases hj : j = m
          · subst hj; exact hnc
          · exact k5 j (by omega) hj2
        · right
          refine ⟨k1, ?_⟩
          intro j hj1 hj2
          by_cases hj : j = m
          · subst hj; exact hnc
          · exact k2 j (by omega) hj2
      · rw [if_neg hc]
        left
        exact ⟨m, le_refl _, by omega, rfl, notPrecise_iff.mp hc, fun j hj1 hj2 => by omega⟩

/-- **C94 (result).** If from the initial order on (and below 2^30 steps) some two successive orders agree within the relative precision, the result is the rule for the
higher one of the first two that do. -/
theorem C94_adaptive (f : K → K) (a b precision : K) (order : Nat) (h1 : 3 ≤ order) (k0 : Nat) (hk : order ≤ k0) (hk2 : k0 + 1 < 31)
    (hc : Spec.Close precision (Spec.rule f a b (2 ^ k0)) (Spec.rule f a b (2 ^ (k0 + 1)))) :
    ∃ k, order ≤ k ∧ k ≤ k0 ∧ adaptive precision order f a b = .ok (Spec.rule f a b (2 ^ (k + 1))) ∧
      Spec.Close precision (Spec.rule f a b (2 ^ k)) (Spec.rule f a b (2 ^ (k + 1))) ∧
      ∀ j, order ≤ j → j < k → ¬ Spec.Close precision (Spec.rule f a b (2 ^ j)) (Spec.rule f a b (2 ^ (j + 1))) := by
  rw [adaptive, C41_rule f a b order h1 (by omega)]
  simp only [Outcome.bind_ok]
  rcases adaptiveLoop_spec f a b precision 31 order h1 (by omega) (by omega) with ⟨k, q1, q2, q3, q4, q5⟩ | ⟨_, q⟩
  · refine ⟨k, q1, ?_, q3, q4, q5⟩
    by_contra hlt
    exact q5 k0 hk (by omega) hc
  · exact absurd hc (q k0 hk hk2)

/-- **C94 (no agreement).** If no two successive orders agree, the number of steps overflows its type. -/
theorem C94_overflow (f : K → K) (a b precision : K) (order : Nat) (h1 : 3 ≤ order) (h2 : order ≤ 30)
    (hc : ∀ k, order ≤ k → k + 1 < 31 → ¬ Spec.Close precision (Spec.rule f a b (2 ^ k)) (Spec.rule f a b (2 ^ (k + 1)))) :
    adaptive precision order f a b = .ub := by
  rw [adaptive, C41_rule f a b order h1 (by omega)]
  simp only [Outcome.bind_ok]
  rcases adaptiveLoop_spec f a b precision 31 order h1 h2 (by omega) with ⟨k, q1, q2, _, q4, _⟩ | ⟨q, _⟩
  · exact absurd q4 (hc k q1 q2)
  · exact q

/-- A negative precision is never reached. -/
example : adaptive (-1) 3 (fun x : ℚ => 1 + 0 * x + 0 * x ^ 2 + 0 * x ^ 3) 0 1 = .ub := by
  refine C94_overflow _ _ _ _ 3 (le_refl _) (by decide) fun k hk hk2 => ?_
  have e : ∀ k, 3 ≤ k → k < 31 → Spec.rule (fun x : ℚ => 1 + 0 * x + 0 * x ^ 2 + 0 * x ^ 3) 0 1 (2 ^ k) = 1 := by
    intro k k1 k2
    have h := C41_cubic (1 : ℚ) 0 0 0 0 1 k k1 k2
    rw [C41_rule _ 0 1 k k1 k2] at h
    injection h with h
    rw [h]
    norm_num
  rw [e k hk (by omega), e (k + 1) (by omega) hk2, Spec.Close]
  norm_num

/-- **C94 (cubics).** Polynomials of degree at most 3 are integrated exactly, after one refinement. -/
theorem C94_cubic (c0 c1 c2 c3 a b precision : K) (hp : 0 ≤ precision) (order : Nat) (h1 : 3 ≤ order) (h2 : order + 1 < 31) :
    adaptive precision order (fun x => c0 + c1 * x + c2 * x ^ 2 + c3 * x ^ 3) a b =
      .ok ((c0 * b + c1 * b ^ 2 / 2 + c2 * b ^ 3 / 3 + c3 * b ^ 4 / 4) - (c0 * a + c1 * a ^ 2 / 2 + c2 * a ^ 3 / 3 + c3 * a ^ 4 / 4)) := by
  have e : ∀ k, 3 ≤ k → k < 31 → Spec.rule (fun x => c0 + c1 * x + c2 * x ^ 2 + c3 * x ^ 3) a b (2 ^ k) =
      (c0 * b + c1 * b ^ 2 / 2 + c2 * b ^ 3 / 3 + c3 * b ^ 4 / 4) - (c0 * a + c1 * a ^ 2 / 2 + c2 * a ^ 3 / 3 + c3 * a ^ 4 / 4) := by
    intro k k1 k2
    have h := C41_cubic c0 c1 c2 c3 a b k k1 k2
    rw [C41_rule _ a b k k1 k2] at h
    injection h
  obtain ⟨k, q1, q2, q3, _⟩ := C94_adaptive (fun x => c0 + c1 * x + c2 * x ^ 2 + c3 * x ^ 3) a b precision order h1 order (le_refl _) h2 (by
    rw [e order h1 (by omega), e (order + 1) (by omega) h2, Spec.Close, sub_self, abs_zero]
    exact mul_nonneg hp (abs_nonneg _))
  rw [q3, e (k + 1) (by omega) (by omega)]

/-- **C94 (refused).** Initial orders below 3 are refused. -/
theorem C94_throws (f : K → K) (a b precision : K) (order : Int) (h : order < 3) : adaptive precision order f a b = .throw .elements := by
  rw [adaptive, simpson, if_pos h]
  rfl

/-- For a polynomial of degree 4 the first two orders are not equal, but agree within a tenth. -/
example : adaptive (1 / 10) 3 (fun x : ℚ => x ^ 4) 0 2 = simpson (fun x : ℚ => x ^ 4) 0 2 4 := by decide +kernel

/-! ## Finite differences -/

/-- **C95 (step).** The step is positive: for every monotone rounding that leaves `x` and 0 alone, and every next number after `x` whose distance does not vanish by rounding. -/
theorem C95_step (round next : K → K) (hm : Monotone round) (h0 : round 0 = 0) (h x : K) (hh : 0 ≤ h) (hx : round x = x) (hn : 0 < round (next x - x)) :
    0 < guessH round next h x := by
  rw [guessH]
  have e1 : x ≤ round (x + h) := by
    calc x = round x := hx.symm
      _ ≤ round (x + h) := hm (by linarith)
  have e2 : 0 ≤ round (round (x + h) - x) := by
    rw [← h0]
    exact hm (by linarith)
  by_cases hz : round (round (x + h) - x) = 0
  · rw [if_pos hz]; exact hn
  · rw [if_neg hz]; exact lt_of_le_of_ne e2 (Ne.symm hz)

/-- **C95 (polynomials).** For every step other than 0, the first derivative of linear functions and the second derivative of cubic ones are exact. -/
theorem C95_exact (c0 c1 c2 c3 x h : K) (hh : h ≠ 0) :
    derivative (fun x => c0 + c1 * x) x h = c1 ∧ derivative2nd (fun x => c0 + c1 * x + c2 * x ^ 2 + c3 * x ^ 3) x h = 2 * c2 + 6 * c3 * x := by
  constructor
  · rw [derivative]
    field_simp
    ring
  · rw [derivative2nd]
    field_simp
    ring

end

/-- **C95 (first derivative).** For a differentiable function the result is its derivative at a point less than the step above `x`. -/
theorem C95_derivative (f f' : ℝ → ℝ) (x h : ℝ) (hh : 0 < h) (hf : ∀ t, x ≤ t → t ≤ x + h → HasDerivAt f (f' t) t) :
    ∃ t, x < t ∧ t < x + h ∧ derivative f x h = f' t := by
  have hlt : x < x + h := by linarith
  obtain ⟨c, hc, he⟩ := exists_hasDerivAt_eq_slope f f' hlt (fun t ht => (hf t ht.1 ht.2).continuousAt.continuousWithinAt) (fun t ht => hf t ht.1.le ht.2.le)
  refine ⟨c, hc.1, hc.2, ?_⟩
  rw [he, derivative, add_sub_cancel_left]

/-- **C95 (second derivative).** For a function that is twice differentiable the result is its second derivative at a point less than the step from `x`. -/
theorem C95_derivative2nd (f f' f'' : ℝ → ℝ) (x h : ℝ) (hh : 0 < h) (hf : ∀ t, x - h ≤ t → t ≤ x + h → HasDerivAt f (f' t) t)
    (hf' : ∀ t, x - h ≤ t → t ≤ x + h → HasDerivAt f' (f'' t) t) :
    ∃ t, x - h < t ∧ t < x + h ∧ derivative2nd f x h = f'' t := by
  have hlt : x - h < x := by linarith
  have hd : ∀ t ∈ Set.Icc (x - h) x, HasDerivAt (fun t => f (t + h) - f t) (f' (t + h) - f' t) t := by
    intro t ht
    exact ((hf (t + h) (by linarith [ht.1]) (by linarith [ht.2])).comp_add_const t h).sub (hf t ht.1 (by linarith [ht.2]))
  obtain ⟨c, hc, he⟩ := exists_hasDerivAt_eq_slope (fun t => f (t + h) - f t) (fun t => f' (t + h) - f' t) hlt
    (fun t ht => (hd t ht).continuousAt.continuousWithinAt) (fun t ht => hd t ⟨ht.1.le, ht.2.le⟩)
  have hlt2 : c < c + h := by linarith
  obtain ⟨d, hd2, he2⟩ := exists_hasDerivAt_eq_slope f' f'' hlt2
    (fun t ht => (hf' t (by linarith [ht.1, hc.1]) (by linarith [ht.2, hc.2])).continuousAt.continuousWithinAt)
    (fun t ht => hf' t (by linarith [ht.1, hc.1]) (by linarith [ht.2, hc.2]))
  refine ⟨d, by linarith [hd2.1, hc.1], by linarith [hd2.2, hc.2], ?_⟩
  rw [he2, derivative2nd]
  have he' : f' (c + h) - f' c = (f (x + h) - f x - (f (x - h + h) - f (x - h))) / (x - (x - h)) := he
  rw [he', sub_add_cancel]
  have : h ≠ 0 := hh.ne'
  rw [add_sub_cancel_left, sub_sub_cancel, div_div]
  congr 1
  ring

example : ∃ t : ℝ, 1 < t ∧ t < 1 + 1 / 2 ∧ derivative (fun x => x ^ 2) 1 (1 / 2) = 2 * t :=
  C95_derivative (fun x => x ^ 2) (fun x => 2 * x) 1 (1 / 2) (by norm_num) fun t _ _ => by simpa using hasDerivAt_pow 2 t

end Alexandria.MathUtils
