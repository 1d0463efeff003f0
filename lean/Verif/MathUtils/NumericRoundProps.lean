import Verif.MathUtils.NumericRoundModel
import Verif.MathUtils.NumericProps
import Verif.Common.Close
import Verif.Common.Binary

/-! # Simpson's rule in floating point arithmetic (C134) -/

namespace Alexandria.MathUtils

section
variable {K : Type} [Field K] [LinearOrder K]

/-- The weights of the samples of the direct rule on `N` steps. -/
def Spec.simpsonWeight (N i : Nat) : K := if i = 0 ∨ i = N then 3 / 8 else if i = 1 ∨ i + 1 = N then 7 / 6 else if i = 2 ∨ i + 2 = N then 23 / 24 else 1

/-- What the refinement adds to half of the value before, divided by the step: the new samples, and corrections at the ends. `c` is the sign of the negative correction. -/
def Spec.added (c : K) (g : Nat → K) (N : Nat) : K :=
  ∑ j ∈ Finset.Ico 1 (N / 2 - 1), g (2 * j + 1) + 7 / 6 * (g 1 + g (N - 1)) + c * (5 / 24) * (g 2 + g (N - 2)) + 1 / 24 * (g 4 + g (N - 4))

variable [IsStrictOrderedRing K] {R : Rounding K} {u : K}

theorem machineSumFrom_close (hu : 0 ≤ u) (hr : ∀ x, |R.rnd x - x| ≤ u * |x|) (g : Nat → K) : ∀ (fuel i k : Nat) (A s' s : K), Close u k A s' s →
    Close u (k + fuel) (A + ∑ j ∈ Finset.Ico i (i + fuel), |g j|) (machineSumFrom R g fuel i s') (s + ∑ j ∈ Finset.Ico i (i + fuel), g j) := by
  intro fuel
  induction fuel with
  | zero => intro i k A s' s h; simpa [machineSumFrom] using h
  | succ fuel ih =>
    intro i k A s' s h
    have h1 := (h.add ((Close.refl u (g i)).mono hu (by omega : 0 ≤ k))).rnd hu hr
    have h2 := ih (i + 1) (k + 1) _ _ _ h1
    rw [machineSumFrom, Finset.sum_eq_sum_Ico_succ_bot (show i < i + (fuel + 1) by omega), Finset.sum_eq_sum_Ico_succ_bot (show i < i + (fuel + 1) by omega),
      show i + (fuel + 1) = i + 1 + fuel by omega, show k + (fuel + 1) = k + 1 + fuel by omega, ← add_assoc A, ← add_assoc s]
    exact h2

/-- Weighted samples at both ends. -/
theorem pair_close (hu : 0 ≤ u) (hr : ∀ x, |R.rnd x - x| ≤ u * |x|) (p q : K) (hp : 0 < p) (hq : 0 < q) (y z : K) :
    Close u 3 (p / q * (|y| + |z|)) (R.rnd (R.rnd (p * R.rnd (y + z)) / q)) (p / q * (y + z)) := by
  have h1 := ((((((Close.refl u y).add (Close.refl u z)).rnd hu hr).scale hu p).rnd hu hr).div hu q).rnd hu hr
  rw [abs_of_pos hp, abs_of_pos hq] at h1
  rw [div_mul_eq_mul_div, div_mul_eq_mul_div]
  exact h1

/-- The nodes that the code uses: some next to the upper end are computed from there, the fourth one only when refining. -/
def nodes (R : Rounding K) (fourth : Bool) (a b h : K) (N i : Nat) : K :=
  if i = 0 then a else if i = N then b
  else if i + 1 = N ∨ i + 2 = N ∨ (fourth = true ∧ i + 4 = N) then R.rnd (b - R.rnd (((N - i : Nat) : K) * h))
  else R.rnd (a + R.rnd ((i : K) * h))

theorem step_close (hu : 0 ≤ u) (hr : ∀ x, |R.rnd x - x| ≤ u * |x|) (a b : K) (N : Nat) : Close u 2 (|b - a| / N) (R.rnd (R.rnd (b - a) / N)) ((b - a) / N) := by
  have := (((Close.refl u (b - a)).rnd hu hr).div hu (N : K)).rnd hu hr
  rwa [Nat.abs_cast] at this

theorem mul_step_le (a b : K) {N i : Nat} (hN : 0 < N) (hi : i ≤ N) : (i : K) * (|b - a| / N) ≤ |a| + |b| := by
  have h0 : (0 : K) < N := by exact_mod_cast hN
  have h1 : (i : K) ≤ N := by exact_mod_cast hi
  calc (i : K) * (|b - a| / N) ≤ N * (|b - a| / N) := mul_le_mul_of_nonneg_right h1 (div_nonneg (abs_nonneg _) h0.le)
    _ = |b - a| := by field_simp
    _ ≤ |a| + |b| := by have := abs_sub b a; linarith

theorem nodes_close (hu : 0 ≤ u) (hr : ∀ x, |R.rnd x - x| ≤ u * |x|) (fourth : Bool) (a b : K) {N i : Nat} (hN : 0 < N) (hi : i ≤ N) :
    |nodes R fourth a b (R.rnd (R.rnd (b - a) / N)) N i - (a + i * ((b - a) / N))| ≤ ((1 + u) ^ 4 - 1) * (2 * (|a| + |b|)) := by
  have h0 : (N : K) ≠ 0 := by exact_mod_cast hN.ne'
  have hs := step_close hu hr a b N
  have hA := abs_nonneg a
  have hB := abs_nonneg b
  have key : Close u 4 (2 * (|a| + |b|)) (nodes R fourth a b (R.rnd (R.rnd (b - a) / N)) N i) (a + i * ((b - a) / N)) := by
    unfold nodes
    by_cases h1 : i = 0
    · rw [if_pos h1, h1, Nat.cast_zero, zero_mul, add_zero]
      exact ((Close.refl u a).mono hu (by omega)).monoA hu (by linarith)
    rw [if_neg h1]
    by_cases h2 : i = N
    · rw [if_pos h2, h2, mul_div_cancel₀ _ h0, add_sub_cancel]
      exact ((Close.refl u b).mono hu (by omega)).monoA hu (by linarith)
    rw [if_neg h2]
    by_cases h3 : i + 1 = N ∨ i + 2 = N ∨ (fourth = true ∧ i + 4 = N)
    · rw [if_pos h3]
      have h4 := (((Close.refl u b).mono hu (by omega : 0 ≤ 3)).sub ((hs.scale hu ((N - i : Nat) : K)).rnd hu hr)).rnd hu hr
      rw [Nat.abs_cast] at h4
      have e : b - ((N - i : Nat) : K) * ((b - a) / N) = a + i * ((b - a) / N) := by
        rw [Nat.cast_sub hi, sub_mul, mul_div_cancel₀ _ h0]; ring
      rw [e] at h4
      exact h4.monoA hu (by have := mul_step_le a b hN (Nat.sub_le N i); linarith)
    · rw [if_neg h3]
      have h4 := (((Close.refl u a).mono hu (by omega : 0 ≤ 3)).add ((hs.scale hu (i : K)).rnd hu hr)).rnd hu hr
      rw [Nat.abs_cast] at h4
      exact h4.monoA hu (by have := mul_step_le a b hN hi; linarith)
  exact key.1

theorem pow_ge {m order : Nat} (h : m ≤ order) : 2 ^ m ≤ 2 ^ order := Nat.pow_le_pow_right (by omega) h

/-- The loop only sees its own indices. -/
theorem machineSumFrom_congr (g g' : Nat → K) : ∀ (fuel i : Nat) (s : K), (∀ j, i ≤ j → j < i + fuel → g j = g' j) → machineSumFrom R g fuel i s = machineSumFrom R g' fuel i s := by
  intro fuel
  induction fuel with
  | zero => intro i s _; rfl
  | succ fuel ih =>
    intro i s h
    rw [machineSumFrom, machineSumFrom, h i (by omega) (by omega), ih _ _ fun j h1 h2 => h j (by omega) (by omega)]

/-- **C134 (direct evaluation).** The value is the rule for samples at nodes that are right up to four roundings, and is itself right up to `2^order + 1` roundings of the weighted samples. -/
theorem C134_direct (hu : 0 ≤ u) (hr : ∀ x, |R.rnd x - x| ≤ u * |x|) (f : K → K) (a b : K) (order : Nat) (h1 : 3 ≤ order) (h2 : order < 31) :
    ∃ (x : Nat → K) (v : K), x 0 = a ∧ x (2 ^ order) = b ∧
      (∀ i ≤ 2 ^ order, |x i - (a + i * ((b - a) / (2 ^ order : Nat)))| ≤ ((1 + u) ^ 4 - 1) * (2 * (|a| + |b|))) ∧
      machineSimpson R f a b order = .ok v ∧
      |v - (b - a) / (2 ^ order : Nat) * ∑ i ∈ Finset.range (2 ^ order + 1), Spec.simpsonWeight (2 ^ order) i * f (x i)| ≤
        ((1 + u) ^ (2 ^ order + 1) - 1) * (|b - a| / (2 ^ order : Nat) * ∑ i ∈ Finset.range (2 ^ order + 1), Spec.simpsonWeight (2 ^ order) i * |f (x i)|) := by
  have hN : 8 ≤ 2 ^ order := pow_ge h1
  rw [machineSimpson, if_neg (by omega), if_neg (by omega)]
  simp only [Int.toNat_natCast]
  generalize 2 ^ order = N at hN
  have hs := step_close hu hr a b N
  have hid : R.rnd (R.rnd (R.rnd (b - a) / N)) = R.rnd (R.rnd (b - a) / N) := R.idem _
  have hnode := fun i (hi : i ≤ N) => nodes_close hu hr false a b (by omega : 0 < N) hi
  generalize R.rnd (R.rnd (b - a) / (N : K)) = h at hs hid hnode
  refine ⟨nodes R false a b h N, _, by simp [nodes], by simp [nodes, show N ≠ 0 by omega], hnode, rfl, ?_⟩
  have e0 : nodes R false a b h N 0 = a := by simp [nodes]
  have eN : nodes R false a b h N N = b := by simp [nodes, show N ≠ 0 by omega]
  have e1 : nodes R false a b h N 1 = R.rnd (a + h) := by
    rw [nodes, if_neg (by omega), if_neg (by omega), if_neg (by simp; omega), Nat.cast_one, one_mul, hid]
  have e2 : nodes R false a b h N 2 = R.rnd (a + R.rnd (2 * h)) := by
    rw [nodes, if_neg (by omega), if_neg (by omega), if_neg (by simp; omega)]; norm_num
  have eN1 : nodes R false a b h N (N - 1) = R.rnd (b - h) := by
    rw [nodes, if_neg (by omega), if_neg (by omega), if_pos (by omega), show N - (N - 1) = 1 by omega, Nat.cast_one, one_mul, hid]
  have eN2 : nodes R false a b h N (N - 2) = R.rnd (b - R.rnd (2 * h)) := by
    rw [nodes, if_neg (by omega), if_neg (by omega), if_pos (by omega), show N - (N - 2) = 2 by omega]; norm_num
  have eloop : machineSumFrom R (fun i => f (R.rnd (a + R.rnd ((i : K) * h)))) (N - 2 - 3) 3 0 =
      machineSumFrom R (fun i => f (nodes R false a b h N i)) (N - 2 - 3) 3 0 := by
    refine machineSumFrom_congr _ _ _ _ _ fun j hj1 hj2 => ?_
    show f (R.rnd (a + R.rnd ((j : K) * h))) = f (nodes R false a b h N j)
    rw [nodes, if_neg (by omega), if_neg (by omega), if_neg (by simp; omega)]
  rw [eloop, ← e1, ← e2, ← eN1, ← eN2]
  have h3 := machineSumFrom_close hu hr (fun i => f (nodes R false a b h N i)) (N - 2 - 3) 3 0 0 0 0 (Close.zero u)
  rw [show 3 + (N - 2 - 3) = N - 2 by omega, zero_add, zero_add, zero_add] at h3
  have p1 : Close u 2 (3 / 8 * (|f (nodes R false a b h N 0)| + |f (nodes R false a b h N N)|)) (R.rnd (375 / 1000 * R.rnd (f a + f b)))
      (3 / 8 * (f (nodes R false a b h N 0) + f (nodes R false a b h N N))) := by
    have := ((((Close.refl u (f a)).add (Close.refl u (f b))).rnd hu hr).scale hu (375 / 1000)).rnd hu hr
    rw [abs_of_pos (by norm_num), show (375 : K) / 1000 = 3 / 8 by norm_num] at this
    rw [e0, eN, show (375 : K) / 1000 = 3 / 8 by norm_num]
    exact this
  have p2 := pair_close hu hr 7 6 (by norm_num) (by norm_num) (f (nodes R false a b h N 1)) (f (nodes R false a b h N (N - 1)))
  have p3 := pair_close hu hr 23 24 (by norm_num) (by norm_num) (f (nodes R false a b h N 2)) (f (nodes R false a b h N (N - 2)))
  have h4 := (h3.add (p1.mono hu (by omega : 2 ≤ N - 2 - 3))).rnd hu hr
  have h5 := (h4.add (p2.mono hu (by omega : 3 ≤ N - 2 - 3 + 1))).rnd hu hr
  have h6 := (h5.add (p3.mono hu (by omega : 3 ≤ N - 2 - 3 + 1 + 1))).rnd hu hr
  have h7 := (h6.mul hu hs).rnd hu hr
  rw [show N - 2 - 3 + 1 + 1 + 1 + 2 + 1 = N + 1 by omega] at h7
  have q1 := inner_eq (fun i => f (nodes R false a b h N i)) N (by omega)
  have q2 := inner_eq (fun i => |f (nodes R false a b h N i)|) N (by omega)
  simp only [Spec.simpsonWeight]
  rw [q1, q2, mul_comm _ (inner _ N), mul_comm _ (inner _ N)]
  exact h7.1

/-- **C134 (refinement).** The value is half of the value before plus the contribution of new samples, at nodes that are right up to four roundings, and is right up to
`2^order / 2 + 5` roundings of the weighted samples and of the value before. -/
theorem C134_refine (hu : 0 ≤ u) (hr : ∀ x, |R.rnd x - x| ≤ u * |x|) (f : K → K) (a b prev : K) (order : Nat) (h1 : 4 ≤ order) (h2 : order < 31) :
    ∃ (x : Nat → K) (v : K),
      (∀ i ≤ 2 ^ order, |x i - (a + i * ((b - a) / (2 ^ order : Nat)))| ≤ ((1 + u) ^ 4 - 1) * (2 * (|a| + |b|))) ∧
      machineRefine R f a b prev order = .ok v ∧
      |v - ((b - a) / (2 ^ order : Nat) * Spec.added (-1) (fun i => f (x i)) (2 ^ order) + prev / 2)| ≤
        ((1 + u) ^ (2 ^ order / 2 + 5) - 1) * (|b - a| / (2 ^ order : Nat) * Spec.added 1 (fun i => |f (x i)|) (2 ^ order) + |prev| / 2) := by
  have hN : 16 ≤ 2 ^ order := pow_ge h1
  have hev : 2 ^ order % 2 = 0 := by
    obtain ⟨m, rfl⟩ := Nat.exists_eq_add_of_le h1
    rw [show 4 + m = (3 + m) + 1 by omega, pow_succ, Nat.mul_mod_left]
  rw [machineRefine, if_neg (by omega), if_neg (by omega)]
  simp only [Int.toNat_natCast]
  generalize 2 ^ order = N at hN hev
  have hs := step_close hu hr a b N
  have hid : R.rnd (R.rnd (R.rnd (b - a) / N)) = R.rnd (R.rnd (b - a) / N) := R.idem _
  have hnode := fun i (hi : i ≤ N) => nodes_close hu hr true a b (by omega : 0 < N) hi
  generalize R.rnd (R.rnd (b - a) / (N : K)) = h at hs hid hnode
  refine ⟨nodes R true a b h N, _, hnode, rfl, ?_⟩
  have e1 : nodes R true a b h N 1 = R.rnd (a + h) := by
    rw [nodes, if_neg (by omega), if_neg (by omega), if_neg (by simp; omega), Nat.cast_one, one_mul, hid]
  have e2 : nodes R true a b h N 2 = R.rnd (a + R.rnd (2 * h)) := by
    rw [nodes, if_neg (by omega), if_neg (by omega), if_neg (by simp; omega)]; norm_num
  have e4 : nodes R true a b h N 4 = R.rnd (a + R.rnd (4 * h)) := by
    rw [nodes, if_neg (by omega), if_neg (by omega), if_neg (by simp; omega)]; norm_num
  have eN1 : nodes R true a b h N (N - 1) = R.rnd (b - h) := by
    rw [nodes, if_neg (by omega), if_neg (by omega), if_pos (by omega), show N - (N - 1) = 1 by omega, Nat.cast_one, one_mul, hid]
  have eN2 : nodes R true a b h N (N - 2) = R.rnd (b - R.rnd (2 * h)) := by
    rw [nodes, if_neg (by omega), if_neg (by omega), if_pos (by omega), show N - (N - 2) = 2 by omega]; norm_num
  have eN4 : nodes R true a b h N (N - 4) = R.rnd (b - R.rnd (4 * h)) := by
    rw [nodes, if_neg (by omega), if_neg (by omega), if_pos (by simp; omega), show N - (N - 4) = 4 by omega]; norm_num
  have eloop : machineSumFrom R (fun j => f (R.rnd (a + R.rnd (((2 * j + 1 : Nat) : K) * h)))) (N / 2 - 1 - 1) 1 0 =
      machineSumFrom R (fun j => f (nodes R true a b h N (2 * j + 1))) (N / 2 - 1 - 1) 1 0 := by
    refine machineSumFrom_congr _ _ _ _ _ fun j hj1 hj2 => ?_
    show f (R.rnd (a + R.rnd (((2 * j + 1 : Nat) : K) * h))) = f (nodes R true a b h N (2 * j + 1))
    rw [nodes, if_neg (by omega), if_neg (by omega), if_neg (by simp; omega)]
  rw [eloop, ← e1, ← e2, ← e4, ← eN1, ← eN2, ← eN4]
  have h3 := machineSumFrom_close hu hr (fun j => f (nodes R true a b h N (2 * j + 1))) (N / 2 - 1 - 1) 1 0 0 0 0 (Close.zero u)
  rw [show 1 + (N / 2 - 1 - 1) = N / 2 - 1 by omega, zero_add, zero_add, zero_add] at h3
  have p2 := pair_close hu hr 7 6 (by norm_num) (by norm_num) (f (nodes R true a b h N 1)) (f (nodes R true a b h N (N - 1)))
  have p3 := pair_close hu hr 5 24 (by norm_num) (by norm_num) (f (nodes R true a b h N 2)) (f (nodes R true a b h N (N - 2)))
  have p4 : Close u 2 (1 / 24 * (|f (nodes R true a b h N 4)| + |f (nodes R true a b h N (N - 4))|))
      (R.rnd (R.rnd (f (nodes R true a b h N 4) + f (nodes R true a b h N (N - 4))) / 24)) (1 / 24 * (f (nodes R true a b h N 4) + f (nodes R true a b h N (N - 4)))) := by
    have := ((((Close.refl u (f (nodes R true a b h N 4))).add (Close.refl u (f (nodes R true a b h N (N - 4))))).rnd hu hr).div hu 24).rnd hu hr
    rw [abs_of_pos (by norm_num : (0 : K) < 24)] at this
    rw [one_div_mul_eq_div, one_div_mul_eq_div]
    exact this
  have p5 : Close u 1 (|prev| / 2) (R.rnd (prev / 2)) (prev / 2) := by
    have := ((Close.refl u prev).div hu 2).rnd hu hr
    rwa [abs_of_pos (by norm_num : (0 : K) < 2)] at this
  have h4 := (h3.add (p2.mono hu (by omega : 3 ≤ N / 2 - 1 - 1))).rnd hu hr
  have h5 := (h4.sub (p3.mono hu (by omega : 3 ≤ N / 2 - 1 - 1 + 1))).rnd hu hr
  have h6 := (h5.add (p4.mono hu (by omega : 2 ≤ N / 2 - 1 - 1 + 1 + 1))).rnd hu hr
  have h7 := (h6.mul hu hs).rnd hu hr
  have h8 := (h7.add (p5.mono hu (by omega : 1 ≤ N / 2 - 1 - 1 + 1 + 1 + 1 + 2 + 1))).rnd hu hr
  rw [show N / 2 - 1 - 1 + 1 + 1 + 1 + 2 + 1 + 1 = N / 2 + 5 by omega] at h8
  have q1 : Spec.added (-1) (fun i => f (nodes R true a b h N i)) N = ∑ j ∈ Finset.Ico 1 (N / 2 - 1), f (nodes R true a b h N (2 * j + 1)) +
      7 / 6 * (f (nodes R true a b h N 1) + f (nodes R true a b h N (N - 1))) - 5 / 24 * (f (nodes R true a b h N 2) + f (nodes R true a b h N (N - 2))) +
      1 / 24 * (f (nodes R true a b h N 4) + f (nodes R true a b h N (N - 4))) := by
    simp only [Spec.added]; ring
  have q2 : Spec.added 1 (fun i => |f (nodes R true a b h N i)|) N = ∑ j ∈ Finset.Ico 1 (N / 2 - 1), |f (nodes R true a b h N (2 * j + 1))| +
      7 / 6 * (|f (nodes R true a b h N 1)| + |f (nodes R true a b h N (N - 1))|) + 5 / 24 * (|f (nodes R true a b h N 2)| + |f (nodes R true a b h N (N - 2))|) +
      1 / 24 * (|f (nodes R true a b h N 4)| + |f (nodes R true a b h N (N - 4))|) := by
    simp only [Spec.added]; ring
  rw [q1, q2, mul_comm ((b - a) / (N : K)), mul_comm (|b - a| / (N : K))]
  exact h8.1

end

/-- A double sees the integral of `x^2` over the unit interval up to rounding. -/
example : (machineSimpson (Binary.rounding 53 (by decide)) (fun x : ℚ => Binary.rnd 53 (x * x)) 0 (1 / 5) 3).bind
      (fun v => if |v - 1 / 375| ≤ 1 / 10 ^ 17 ∧ v ≠ 1 / 375 then .ok true else .ok false) = .ok true ∧
    (machineRefine (Binary.rounding 53 (by decide)) (fun x : ℚ => Binary.rnd 53 (x * x)) 0 (1 / 5) (1 / 375) 4).bind
      (fun v => if |v - 1 / 375| ≤ 1 / 10 ^ 17 then .ok true else .ok false) = .ok true := by decide +kernel

end Alexandria.MathUtils
