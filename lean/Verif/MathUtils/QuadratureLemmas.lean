import Mathlib.Analysis.Calculus.MeanValue
import Mathlib.Analysis.SpecialFunctions.Integrals.Basic
import Mathlib.MeasureTheory.Integral.IntervalIntegral.FundThmCalculus
import Mathlib.Algebra.BigOperators.Intervals
import Mathlib.Tactic.FieldSimp
import Mathlib.Tactic.Linarith
import Mathlib.Tactic.Positivity
import Mathlib.Tactic.NormNum
import Verif.MathUtils.NumericProps

/-!
# Lemmas on quadrature

Taylor's theorem with the derivatives given one by one, the errors of the rules for one step, and the decomposition of the rule of `SimpsonsRule` into them.
-/

namespace Alexandria.MathUtils.Quadrature

open Set

/-- `f` has the four derivatives on the interval, and the last one is at most `M`. -/
structure Smooth (f f1 f2 f3 f4 : ℝ → ℝ) (a b M : ℝ) : Prop where
  d1 : ∀ x ∈ Icc a b, HasDerivWithinAt f (f1 x) (Icc a b) x
  d2 : ∀ x ∈ Icc a b, HasDerivWithinAt f1 (f2 x) (Icc a b) x
  d3 : ∀ x ∈ Icc a b, HasDerivWithinAt f2 (f3 x) (Icc a b) x
  d4 : ∀ x ∈ Icc a b, HasDerivWithinAt f3 (f4 x) (Icc a b) x
  bound : ∀ x ∈ Icc a b, |f4 x| ≤ M

theorem Smooth.mono {f f1 f2 f3 f4 : ℝ → ℝ} {a b a' b' M : ℝ} (h : Smooth f f1 f2 f3 f4 a b M) (ha : a ≤ a') (hb : b' ≤ b) : Smooth f f1 f2 f3 f4 a' b' M := by
  have hs : Icc a' b' ⊆ Icc a b := Icc_subset_Icc ha hb
  exact ⟨fun x hx => (h.d1 x (hs hx)).mono hs, fun x hx => (h.d2 x (hs hx)).mono hs, fun x hx => (h.d3 x (hs hx)).mono hs, fun x hx => (h.d4 x (hs hx)).mono hs,
    fun x hx => h.bound x (hs hx)⟩

theorem Smooth.cont {f f1 f2 f3 f4 : ℝ → ℝ} {a b M : ℝ} (h : Smooth f f1 f2 f3 f4 a b M) : ContinuousOn f (Icc a b) := fun x hx => (h.d1 x hx).continuousWithinAt

/-- The reflected function. -/
theorem Smooth.reflect {f f1 f2 f3 f4 : ℝ → ℝ} {a b M : ℝ} (h : Smooth f f1 f2 f3 f4 a b M) :
    Smooth (fun x => f (-x)) (fun x => -f1 (-x)) (fun x => f2 (-x)) (fun x => -f3 (-x)) (fun x => f4 (-x)) (-b) (-a) M := by
  have hm : ∀ {x}, x ∈ Icc (-b) (-a) → -x ∈ Icc a b := fun {x} hx => ⟨by linarith [hx.2], by linarith [hx.1]⟩
  have key : ∀ {g g' : ℝ → ℝ}, (∀ x ∈ Icc a b, HasDerivWithinAt g (g' x) (Icc a b) x) → ∀ x ∈ Icc (-b) (-a), HasDerivWithinAt (fun x => g (-x)) (-g' (-x)) (Icc (-b) (-a)) x := by
    intro g g' hg x hx
    have h1 : HasDerivWithinAt (fun x : ℝ => -x) (-1) (Icc (-b) (-a)) x := (hasDerivAt_neg x).hasDerivWithinAt
    have h2 := HasDerivWithinAt.scomp (h := fun x : ℝ => -x) (t' := Icc a b) x (hg (-x) (hm hx)) h1 (fun y hy => hm hy)
    simpa [Function.comp_def] using h2
  refine ⟨key h.d1, ?_, key h.d3, ?_, fun x hx => h.bound _ (hm hx)⟩
  · exact fun x hx => (key h.d2 x hx).neg.congr_deriv (by simp)
  · exact fun x hx => (key h.d4 x hx).neg.congr_deriv (by simp)

/-- A function that vanishes on the left and whose derivative grows at most like a power. -/
theorem grow {G G' : ℝ → ℝ} {c b M : ℝ} (n : Nat) (hd : ∀ x ∈ Icc c b, HasDerivWithinAt G (G' x) (Icc c b) x) (h0 : G c = 0)
    (hb : ∀ x ∈ Icc c b, |G' x| ≤ M * (x - c) ^ n / n.factorial) : ∀ x ∈ Icc c b, |G x| ≤ M * (x - c) ^ (n + 1) / (n + 1).factorial := by
  have hB : ∀ x, HasDerivAt (fun x : ℝ => M * (x - c) ^ (n + 1) / (n + 1).factorial) (M * (x - c) ^ n / n.factorial) x := by
    intro x
    have h1 := ((((hasDerivAt_id x).sub_const c).pow (n + 1)).const_mul M).div_const ((n + 1).factorial : ℝ)
    refine h1.congr_deriv ?_
    have hn : (n.factorial : ℝ) ≠ 0 := by positivity
    have hn1 : (n : ℝ) + 1 ≠ 0 := by positivity
    rw [Nat.factorial_succ]
    push_cast
    simp only [id, Nat.add_sub_cancel, mul_one]
    field_simp
  intro x hx
  have := image_norm_le_of_norm_deriv_right_le_deriv_boundary (f := G) (f' := G') (a := c) (b := b) (fun x hx => (hd x hx).continuousWithinAt)
    (fun x hx => (hd x ⟨hx.1, hx.2.le⟩).mono_of_mem_nhdsWithin (Icc_mem_nhdsGE_of_mem hx)) (by rw [h0]; simp) hB (fun x hx => hb x ⟨hx.1, hx.2.le⟩) hx
  simpa [Real.norm_eq_abs] using this

/-- Taylor's theorem to the right. -/
theorem taylor_right {f f1 f2 f3 f4 : ℝ → ℝ} {c b M : ℝ} (h : Smooth f f1 f2 f3 f4 c b M) (y : ℝ) (hy : y ∈ Icc c b) :
    |f y - (f c + f1 c * (y - c) + f2 c * (y - c) ^ 2 / 2 + f3 c * (y - c) ^ 3 / 6)| ≤ M * (y - c) ^ 4 / 24 := by
  have dl : ∀ x, HasDerivWithinAt (fun x : ℝ => x - c) 1 (Icc c b) x := fun x => ((hasDerivAt_id x).sub_const c).hasDerivWithinAt
  have g3 := grow (G := fun x => f3 x - f3 c) (G' := f4) (M := M) (c := c) (b := b) 0 (fun x hx => by simpa using (h.d4 x hx).sub_const (f3 c)) (by simp)
    (fun x hx => by simpa using h.bound x hx)
  have g2 := grow (G := fun x => f2 x - (f2 c + f3 c * (x - c))) (G' := fun x => f3 x - f3 c) (M := M) (c := c) (b := b) 1
    (fun x hx => by
      have := (h.d3 x hx).sub (((dl x).const_mul (f3 c)).const_add (f2 c))
      exact this.congr_deriv (by ring)) (by simp) g3
  have g1 := grow (G := fun x => f1 x - (f1 c + f2 c * (x - c) + f3 c * (x - c) ^ 2 / 2)) (G' := fun x => f2 x - (f2 c + f3 c * (x - c))) (M := M) (c := c) (b := b) 2
    (fun x hx => by
      have := (h.d2 x hx).sub ((((dl x).const_mul (f2 c)).const_add (f1 c)).add ((((dl x).pow 2).const_mul (f3 c)).div_const 2))
      exact this.congr_deriv (by simp; ring)) (by simp) g2
  have g0 := grow (G := fun x => f x - (f c + f1 c * (x - c) + f2 c * (x - c) ^ 2 / 2 + f3 c * (x - c) ^ 3 / 6))
    (G' := fun x => f1 x - (f1 c + f2 c * (x - c) + f3 c * (x - c) ^ 2 / 2)) (M := M) (c := c) (b := b) 3
    (fun x hx => by
      have := (h.d1 x hx).sub (((((dl x).const_mul (f1 c)).const_add (f c)).add ((((dl x).pow 2).const_mul (f2 c)).div_const 2)).add ((((dl x).pow 3).const_mul (f3 c)).div_const 6))
      exact this.congr_deriv (by simp; ring)) (by simp) g1
  have := g0 y hy
  norm_num [Nat.factorial] at this
  exact this

/-- Taylor's theorem in both directions. -/
theorem taylor {f f1 f2 f3 f4 : ℝ → ℝ} {a b M : ℝ} (h : Smooth f f1 f2 f3 f4 a b M) (c y : ℝ) (hc : c ∈ Icc a b) (hy : y ∈ Icc a b) :
    |f y - (f c + f1 c * (y - c) + f2 c * (y - c) ^ 2 / 2 + f3 c * (y - c) ^ 3 / 6)| ≤ M * (y - c) ^ 4 / 24 := by
  rcases le_total c y with hcy | hcy
  · exact taylor_right (h.mono hc.1 le_rfl) y ⟨hcy, hy.2⟩
  · have := taylor_right (h.reflect.mono (a' := -c) (b' := -a) (by linarith [hc.2]) le_rfl) (-y) ⟨by linarith, by linarith [hy.1]⟩
    simp only [neg_neg] at this
    convert this using 2 <;> ring

theorem Smooth.nonneg {f f1 f2 f3 f4 : ℝ → ℝ} {a b M : ℝ} (h : Smooth f f1 f2 f3 f4 a b M) (hab : a ≤ b) : 0 ≤ M :=
  (abs_nonneg _).trans (h.bound a ⟨le_rfl, hab⟩)

/-- The integral and the integral of the Taylor polynomial. -/
theorem integral_close {f f1 f2 f3 f4 : ℝ → ℝ} {a b M : ℝ} (h : Smooth f f1 f2 f3 f4 a b M) (c u v : ℝ) (hc : c ∈ Icc a b) (hu : a ≤ u) (huv : u ≤ v) (hv : v ≤ b) :
    |(∫ y in u..v, f y) - ((f c * (v - c) + f1 c * (v - c) ^ 2 / 2 + f2 c * (v - c) ^ 3 / 6 + f3 c * (v - c) ^ 4 / 24) -
      (f c * (u - c) + f1 c * (u - c) ^ 2 / 2 + f2 c * (u - c) ^ 3 / 6 + f3 c * (u - c) ^ 4 / 24))| ≤ M / 120 * ((v - c) ^ 5 - (u - c) ^ 5) := by
  have hs : uIcc u v ⊆ Icc a b := by rw [uIcc_of_le huv]; exact Icc_subset_Icc hu hv
  have hfc : ContinuousOn f (uIcc u v) := h.cont.mono hs
  let p : ℝ → ℝ := fun y => f c + f1 c * (y - c) + f2 c * (y - c) ^ 2 / 2 + f3 c * (y - c) ^ 3 / 6
  have hpc : Continuous p := by unfold p; fun_prop
  have dl : ∀ x : ℝ, HasDerivAt (fun x : ℝ => x - c) 1 x := fun x => (hasDerivAt_id x).sub_const c
  have ip : ∫ y in u..v, p y = (f c * (v - c) + f1 c * (v - c) ^ 2 / 2 + f2 c * (v - c) ^ 3 / 6 + f3 c * (v - c) ^ 4 / 24) -
      (f c * (u - c) + f1 c * (u - c) ^ 2 / 2 + f2 c * (u - c) ^ 3 / 6 + f3 c * (u - c) ^ 4 / 24) := by
    refine intervalIntegral.integral_eq_sub_of_hasDerivAt (f := fun y => f c * (y - c) + f1 c * (y - c) ^ 2 / 2 + f2 c * (y - c) ^ 3 / 6 + f3 c * (y - c) ^ 4 / 24) ?_
      (hpc.intervalIntegrable _ _)
    intro x _
    have := ((((dl x).const_mul (f c)).add ((((dl x).pow 2).const_mul (f1 c)).div_const 2)).add ((((dl x).pow 3).const_mul (f2 c)).div_const 6)).add
      ((((dl x).pow 4).const_mul (f3 c)).div_const 24)
    exact this.congr_deriv (by simp [p]; ring)
  have hbc : Continuous (fun y : ℝ => M * (y - c) ^ 4 / 24) := by fun_prop
  have ib : ∫ y in u..v, M * (y - c) ^ 4 / 24 = M / 120 * ((v - c) ^ 5 - (u - c) ^ 5) := by
    rw [intervalIntegral.integral_eq_sub_of_hasDerivAt (f := fun y => M * (y - c) ^ 5 / 120) (f' := fun y => M * (y - c) ^ 4 / 24) ?_ (hbc.intervalIntegrable _ _)]
    · ring
    · intro x _
      exact ((((dl x).pow 5).const_mul M).div_const 120).congr_deriv (by simp; ring)
  rw [← ip, ← intervalIntegral.integral_sub hfc.intervalIntegrable (hpc.intervalIntegrable _ _), ← ib, ← Real.norm_eq_abs]
  refine intervalIntegral.norm_integral_le_of_norm_le huv ?_ (hbc.intervalIntegrable _ _)
  refine Filter.Eventually.of_forall fun t ht => ?_
  rw [Real.norm_eq_abs]
  exact taylor h c t hc ⟨hu.trans ht.1.le, ht.2.trans hv⟩

/-- The error of the integral of the cubic through four points over the interval in the middle. -/
theorem inner_error {f f1 f2 f3 f4 : ℝ → ℝ} {a b M : ℝ} (h : Smooth f f1 f2 f3 f4 a b M) (x t : ℝ) (ht : 0 ≤ t) (hx : a ≤ x) (hx' : x + 3 * t ≤ b) :
    |t * (-f x + 13 * f (x + t) + 13 * f (x + 2 * t) - f (x + 3 * t)) / 24 - ∫ y in (x + t)..(x + 2 * t), f y| ≤ 241 / 11520 * M * t ^ 5 := by
  set c := x + 3 / 2 * t with hcd
  have hc : c ∈ Icc a b := ⟨by linarith, by linarith⟩
  have hi := integral_close h c (x + t) (x + 2 * t) hc (by linarith) (by linarith) (by linarith)
  have r : ∀ k : ℝ, 0 ≤ k → k ≤ 3 → |t * (f (x + k * t) - (f c + f1 c * (x + k * t - c) + f2 c * (x + k * t - c) ^ 2 / 2 + f3 c * (x + k * t - c) ^ 3 / 6))| ≤
      t * (M * (x + k * t - c) ^ 4 / 24) := by
    intro k h0 h3
    rw [abs_mul, abs_of_nonneg ht]
    exact mul_le_mul_of_nonneg_left (taylor h c _ hc ⟨by nlinarith, by nlinarith⟩) ht
  have r0 := r 0 (by norm_num) (by norm_num)
  have r1 := r 1 (by norm_num) (by norm_num)
  have r2 := r 2 (by norm_num) (by norm_num)
  have r3 := r 3 (by norm_num) (by norm_num)
  rw [abs_le] at r0 r1 r2 r3
  rw [abs_le] at hi
  have e0 : x + 0 * t = x := by ring
  have e1 : x + 1 * t = x + t := by ring
  rw [e0] at r0
  rw [e1] at r1
  have d0 : x - c = -(3 / 2) * t := by rw [hcd]; ring
  have d1 : x + t - c = -(1 / 2) * t := by rw [hcd]; ring
  have d2 : x + 2 * t - c = 1 / 2 * t := by rw [hcd]; ring
  have d3 : x + 3 * t - c = 3 / 2 * t := by rw [hcd]; ring
  rw [d0] at r0
  rw [d1] at r1 hi
  rw [d2] at r2 hi
  rw [d3] at r3
  clear_value c
  rw [abs_le]
  constructor
  · linarith [hi.2, r0.2, r1.1, r2.1, r3.2]
  · linarith [hi.1, r0.1, r1.2, r2.2, r3.1]

/-- The error of the integral of the parabola through three points over the first interval. -/
theorem left_error {f f1 f2 f3 f4 : ℝ → ℝ} {a b M : ℝ} (h : Smooth f f1 f2 f3 f4 a b M) (t : ℝ) (ht : 0 ≤ t) (hx' : a + 2 * t ≤ b) :
    |t * (5 * f a + 8 * f (a + t) - f (a + 2 * t)) / 12 - (∫ y in a..(a + t), f y) + t ^ 4 / 24 * f3 a| ≤ 11 / 120 * M * t ^ 5 := by
  have hc : a ∈ Icc a b := ⟨le_rfl, by linarith⟩
  have hi := integral_close h a a (a + t) hc le_rfl (by linarith) (by linarith)
  have r : ∀ k : ℝ, 0 ≤ k → k ≤ 2 → |t * (f (a + k * t) - (f a + f1 a * (a + k * t - a) + f2 a * (a + k * t - a) ^ 2 / 2 + f3 a * (a + k * t - a) ^ 3 / 6))| ≤
      t * (M * (a + k * t - a) ^ 4 / 24) := by
    intro k h0 h3
    rw [abs_mul, abs_of_nonneg ht]
    exact mul_le_mul_of_nonneg_left (taylor h a _ hc ⟨by nlinarith, by nlinarith⟩) ht
  have r1 := r 1 (by norm_num) (by norm_num)
  have r2 := r 2 (by norm_num) (by norm_num)
  rw [abs_le] at r1 r2
  rw [abs_le] at hi
  have e1 : a + 1 * t = a + t := by ring
  rw [e1] at r1
  have d1 : a + t - a = t := by ring
  have d2 : a + 2 * t - a = 2 * t := by ring
  rw [d1] at r1 hi
  rw [d2] at r2
  rw [sub_self] at hi
  rw [abs_le]
  constructor
  · linarith [hi.2, r1.1, r2.2]
  · linarith [hi.1, r1.2, r2.1]

/-- The error for the last interval. -/
theorem right_error {f f1 f2 f3 f4 : ℝ → ℝ} {a b M : ℝ} (h : Smooth f f1 f2 f3 f4 a b M) (t : ℝ) (ht : 0 ≤ t) (hx' : a + 2 * t ≤ b) :
    |t * (5 * f b + 8 * f (b - t) - f (b - 2 * t)) / 12 - (∫ y in (b - t)..b, f y) - t ^ 4 / 24 * f3 b| ≤ 11 / 120 * M * t ^ 5 := by
  have := left_error h.reflect t ht (by linarith)
  rw [intervalIntegral.integral_comp_neg (fun y => f y)] at this
  have e1 : -(-b + t) = b - t := by ring
  have e2 : -(-b + 2 * t) = b - 2 * t := by ring
  simp only [e1, e2, neg_neg] at this
  convert this using 2
  ring

theorem third_close {f f1 f2 f3 f4 : ℝ → ℝ} {a b M : ℝ} (h : Smooth f f1 f2 f3 f4 a b M) (hab : a ≤ b) : |f3 b - f3 a| ≤ M * (b - a) := by
  have := grow (G := fun x => f3 x - f3 a) (G' := f4) (M := M) (c := a) (b := b) 0 (fun x hx => by simpa using (h.d4 x hx).sub_const (f3 a)) (by simp)
    (fun x hx => by simpa using h.bound x hx) b ⟨hab, le_rfl⟩
  simpa using this

/-! ## Sums of the samples -/

theorem sum_split (g : Nat → ℝ) (n : Nat) :
    ∑ i ∈ Finset.range (n + 7), g i = ∑ i ∈ Finset.Ico 3 (n + 4), g i + (g 0 + g (n + 6)) + (g 1 + g (n + 5)) + (g 2 + g (n + 4)) := by
  rw [show n + 7 = n + 4 + 1 + 1 + 1 by omega, Finset.sum_range_succ, Finset.sum_range_succ, Finset.sum_range_succ, ← Finset.sum_range_add_sum_Ico _ (show 3 ≤ n + 4 by omega),
    Finset.sum_range_succ, Finset.sum_range_succ, Finset.sum_range_succ, Finset.sum_range_zero]
  ring

/-- The rule is the trapezoidal rule with corrections at the ends. -/
theorem inner_trapezoid (g : Nat → ℝ) (N : Nat) (hN : 6 ≤ N) :
    inner g N = ∑ i ∈ Finset.range N, (g i + g (i + 1)) / 2 - (3 * (g 0 - g 1) - (g 1 - g 2)) / 24 - (3 * (g N - g (N - 1)) - (g (N - 1) - g (N - 2))) / 24 := by
  obtain ⟨n, rfl⟩ := Nat.exists_eq_add_of_le' hN
  have h1 : ∀ m : Nat, ∑ i ∈ Finset.range m, (g i + g (i + 1)) / 2 = ∑ i ∈ Finset.range (m + 1), g i - (g 0 + g m) / 2 := by
    intro m
    induction m with
    | zero => simp
    | succ m ih => rw [Finset.sum_range_succ, ih, Finset.sum_range_succ _ (m + 1)]; ring
  rw [h1, inner, sum_split, show n + 6 - 1 = n + 5 by omega, show n + 6 - 2 = n + 4 by omega]
  ring

/-- The rule is the sum of cubic and parabolic rules for one step. -/
theorem inner_pieces (g : Nat → ℝ) (n : Nat) :
    inner g (n + 6) = (5 * g 0 + 8 * g 1 - g 2) / 12 + ∑ i ∈ Finset.range (n + 4), (-g i + 13 * g (i + 1) + 13 * g (i + 2) - g (i + 3)) / 24 +
      (5 * g (n + 6) + 8 * g (n + 5) - g (n + 4)) / 12 := by
  have h1 : ∀ m : Nat, ∑ i ∈ Finset.range m, (-g i + 13 * g (i + 1) + 13 * g (i + 2) - g (i + 3)) / 24 =
      ∑ i ∈ Finset.range (m + 3), g i - (25 * (g 0 + g (m + 2)) + 12 * (g 1 + g (m + 1)) - (g 2 + g m)) / 24 := by
    intro m
    induction m with
    | zero => simp [Finset.sum_range_succ]; ring
    | succ m ih => rw [Finset.sum_range_succ, ih, Finset.sum_range_succ _ (m + 3)]; ring_nf
  rw [h1, inner, sum_split, show n + 6 - 1 = n + 5 by omega, show n + 6 - 2 = n + 4 by omega]
  ring

theorem inner_mono (g g' : Nat → ℝ) (N : Nat) (hN : 6 ≤ N) (h : ∀ i ≤ N, g i ≤ g' i) : inner g N ≤ inner g' N := by
  have hs : ∑ i ∈ Finset.Ico 3 (N - 2), g i ≤ ∑ i ∈ Finset.Ico 3 (N - 2), g' i := Finset.sum_le_sum fun i hi => h i (by have := (Finset.mem_Ico.mp hi).2; omega)
  rw [inner, inner]
  linarith [h 0 (by omega), h N le_rfl, h 1 (by omega), h (N - 1) (by omega), h 2 (by omega), h (N - 2) (by omega)]

theorem inner_const (c : ℝ) (N : Nat) (hN : 6 ≤ N) : inner (fun _ => c) N = N * c := by
  rw [inner_trapezoid _ N hN]
  simp

theorem rule_eq (f : ℝ → ℝ) (a b : ℝ) (N : Nat) (hN : 6 ≤ N) : Spec.rule f a b N = (b - a) / N * inner (fun i => f (a + i * ((b - a) / N))) N := by
  rw [Spec.rule, inner_eq _ N hN]

/-! ## The composite rule -/

/-- The integral as a sum over the steps. -/
theorem integral_sum (f : ℝ → ℝ) (a t : ℝ) (N : Nat) (h : ∀ i < N, IntervalIntegrable f MeasureTheory.volume (a + i * t) (a + (i + 1 : Nat) * t)) :
    ∫ y in a..(a + N * t), f y = ∑ i ∈ Finset.range N, ∫ y in (a + i * t)..(a + (i + 1 : Nat) * t), f y := by
  have := intervalIntegral.sum_integral_adjacent_intervals (f := f) (μ := MeasureTheory.volume) (a := fun i : Nat => a + i * t) (n := N) h
  rw [this]
  simp

theorem smooth_error {f f1 f2 f3 f4 : ℝ → ℝ} {a b M : ℝ} (h : Smooth f f1 f2 f3 f4 a b M) (hab : a ≤ b) (N : Nat) (hN : 8 ≤ N) :
    |Spec.rule f a b N - ∫ y in a..b, f y| ≤ M * (b - a) * ((b - a) / N) ^ 4 / 12 := by
  obtain ⟨n, rfl⟩ := Nat.exists_eq_add_of_le' (show 6 ≤ N by omega)
  have hN0 : (0 : ℝ) < (n + 6 : Nat) := by positivity
  rw [rule_eq f a b _ (by omega)]
  set t := (b - a) / (n + 6 : Nat) with htd
  have ht : 0 ≤ t := div_nonneg (by linarith) hN0.le
  have hb : b = a + (n + 6 : Nat) * t := by rw [htd]; field_simp; ring
  have hM := h.nonneg hab
  have node : ∀ i : Nat, i ≤ n + 6 → a + i * t ∈ Icc a b := by
    intro i hi
    have : (i : ℝ) ≤ (n + 6 : Nat) := by exact_mod_cast hi
    constructor
    · have : 0 ≤ (i : ℝ) * t := by positivity
      linarith
    · rw [hb]; have := mul_le_mul_of_nonneg_right this ht; linarith
  have hint : ∀ i : Nat, i < n + 6 → IntervalIntegrable f MeasureTheory.volume (a + i * t) (a + (i + 1 : Nat) * t) := by
    intro i hi
    refine ContinuousOn.intervalIntegrable (h.cont.mono ?_)
    exact (convex_Icc a b).ordConnected.uIcc_subset (node i hi.le) (node (i + 1) hi)
  have hsum : ∫ y in a..b, f y = ∑ i ∈ Finset.range (n + 6), ∫ y in (a + i * t)..(a + (i + 1 : Nat) * t), f y := by
    rw [← integral_sum f a t (n + 6) hint, ← hb]
  rw [hsum, Finset.sum_range_succ, Finset.sum_range_succ', inner_pieces]
  have hl := left_error h t ht (by have := (node 2 (by omega)).2; push_cast at this; exact this)
  have hr := right_error h t ht (by have := (node 2 (by omega)).2; push_cast at this; exact this)
  have h3 := third_close h hab
  have hm : |∑ i ∈ Finset.range (n + 4), (t * (-f (a + i * t) + 13 * f (a + i * t + t) + 13 * f (a + i * t + 2 * t) - f (a + i * t + 3 * t)) / 24 - ∫ y in (a + i * t + t)..(a + i * t + 2 * t), f y)| ≤
      (n + 4 : Nat) * (241 / 11520 * M * t ^ 5) := by
    refine (Finset.abs_sum_le_sum_abs _ _).trans ?_
    calc _ ≤ ∑ i ∈ Finset.range (n + 4), 241 / 11520 * M * t ^ 5 := by
          refine Finset.sum_le_sum fun i hi => ?_
          have hi' := Finset.mem_range.mp hi
          refine inner_error h (a + i * t) t ht (node i (by omega)).1 ?_
          have := (node (i + 3) (by omega)).2
          push_cast at this
          linarith
      _ = _ := by rw [Finset.sum_const, Finset.card_range, nsmul_eq_mul]
  rw [Finset.sum_sub_distrib] at hm
  have e1 : ∀ i : Nat, a + i * t + t = a + (i + 1 : Nat) * t := fun i => by push_cast; ring
  have e2 : ∀ i : Nat, a + i * t + 2 * t = a + (i + 2 : Nat) * t := fun i => by push_cast; ring
  have e3 : ∀ i : Nat, a + i * t + 3 * t = a + (i + 3 : Nat) * t := fun i => by push_cast; ring
  simp only [e1, e2, e3] at hm
  have hm' : ∑ i ∈ Finset.range (n + 4), t * (-f (a + i * t) + 13 * f (a + (i + 1 : Nat) * t) + 13 * f (a + (i + 2 : Nat) * t) - f (a + (i + 3 : Nat) * t)) / 24 =
      t * ∑ i ∈ Finset.range (n + 4), (-f (a + i * t) + 13 * f (a + (i + 1 : Nat) * t) + 13 * f (a + (i + 2 : Nat) * t) - f (a + (i + 3 : Nat) * t)) / 24 := by
    rw [Finset.mul_sum]
    exact Finset.sum_congr rfl fun i _ => by ring
  rw [hm'] at hm
  have b1 : b - t = a + (n + 5 : Nat) * t := by rw [hb]; push_cast; ring
  have b2 : b - 2 * t = a + (n + 4 : Nat) * t := by rw [hb]; push_cast; ring
  rw [b1, b2] at hr
  have b0 : f b = f (a + (n + 6 : Nat) * t) := by rw [← hb]
  rw [b0] at hr
  have i0 : ∫ y in (a + (n + 5 : Nat) * t)..b, f y = ∫ y in (a + (n + 5 : Nat) * t)..(a + (n + 5 + 1 : Nat) * t), f y := by rw [← hb]
  rw [i0] at hr
  simp only [Nat.cast_zero, zero_mul, add_zero, zero_add, Nat.cast_one, one_mul, Nat.cast_ofNat] at *
  have hba : b - a = ((n : ℝ) + 6) * t := by rw [hb]; push_cast; ring
  rw [hba] at h3 ⊢
  have h3' : |t ^ 4 / 24 * (f3 b - f3 a)| ≤ t ^ 4 / 24 * (M * (((n : ℝ) + 6) * t)) := by
    rw [abs_mul, abs_of_nonneg (by positivity)]
    exact mul_le_mul_of_nonneg_left h3 (by positivity)
  have hfin : 11 / 120 * M * t ^ 5 + 11 / 120 * M * t ^ 5 + ((n : ℝ) + 4) * (241 / 11520 * M * t ^ 5) + t ^ 4 / 24 * (M * (((n : ℝ) + 6) * t)) ≤ M * (((n : ℝ) + 6) * t) * t ^ 4 / 12 := by
    have hn : (2 : ℝ) ≤ n := by exact_mod_cast (show 2 ≤ n by omega)
    have : 0 ≤ M * t ^ 5 := by positivity
    nlinarith
  push_cast at hm hm' hl hr ⊢
  have e4 : ∀ i : Nat, a + ((i : ℝ) + 1 + 1) * t = a + ((i : ℝ) + 2) * t := fun i => by ring
  simp only [e4]
  rw [abs_le] at hl hr hm h3' ⊢
  constructor
  · linarith [hl.1, hr.1, hm.1, h3'.1]
  · linarith [hl.2, hr.2, hm.2, h3'.2]

theorem antitone_error {f : ℝ → ℝ} {a b : ℝ} (h : AntitoneOn f (Icc a b)) (hab : a ≤ b) (N : Nat) (hN : 8 ≤ N) :
    |Spec.rule f a b N - ∫ y in a..b, f y| ≤ 5 / 8 * ((b - a) / N) * (f a - f b) := by
  have hN0 : (0 : ℝ) < N := by exact_mod_cast (show 0 < N by omega)
  rw [rule_eq f a b _ (by omega)]
  set t := (b - a) / N with htd
  have ht : 0 ≤ t := div_nonneg (by linarith) hN0.le
  have hb : b = a + N * t := by rw [htd]; field_simp; ring
  have node : ∀ i : Nat, i ≤ N → a + i * t ∈ Icc a b := by
    intro i hi
    have : (i : ℝ) ≤ N := by exact_mod_cast hi
    constructor
    · have : 0 ≤ (i : ℝ) * t := by positivity
      linarith
    · rw [hb]; have := mul_le_mul_of_nonneg_right this ht; linarith
  have hle : ∀ i : Nat, a + i * t ≤ a + (i + 1 : Nat) * t := fun i => by push_cast; linarith
  have hint : ∀ i : Nat, i < N → IntervalIntegrable f MeasureTheory.volume (a + i * t) (a + (i + 1 : Nat) * t) := by
    intro i hi
    refine AntitoneOn.intervalIntegrable (h.mono ?_)
    exact (convex_Icc a b).ordConnected.uIcc_subset (node i hi.le) (node (i + 1) hi)
  have hsum : ∫ y in a..b, f y = ∑ i ∈ Finset.range N, ∫ y in (a + i * t)..(a + (i + 1 : Nat) * t), f y := by
    rw [← integral_sum f a t N hint, ← hb]
  have hdec : ∀ i j : Nat, i ≤ j → j ≤ N → f (a + j * t) ≤ f (a + i * t) := by
    intro i j hij hj
    refine h (node i (by omega)) (node j hj) ?_
    have : (i : ℝ) ≤ j := by exact_mod_cast hij
    linarith [mul_le_mul_of_nonneg_right this ht]
  have hstep : ∀ i < N, |t * ((f (a + i * t) + f (a + (i + 1 : Nat) * t)) / 2) - ∫ y in (a + i * t)..(a + (i + 1 : Nat) * t), f y| ≤
      t / 2 * (f (a + i * t) - f (a + (i + 1 : Nat) * t)) := by
    intro i hi
    have u1 : ∫ y in (a + i * t)..(a + (i + 1 : Nat) * t), f y ≤ ∫ y in (a + i * t)..(a + (i + 1 : Nat) * t), f (a + i * t) := by
      refine intervalIntegral.integral_mono_on (hle i) (hint i hi) intervalIntegrable_const fun y hy => ?_
      exact h (node i hi.le) ⟨(node i hi.le).1.trans hy.1, hy.2.trans (node (i + 1) hi).2⟩ hy.1
    have u2 : ∫ y in (a + i * t)..(a + (i + 1 : Nat) * t), f (a + (i + 1 : Nat) * t) ≤ ∫ y in (a + i * t)..(a + (i + 1 : Nat) * t), f y := by
      refine intervalIntegral.integral_mono_on (hle i) intervalIntegrable_const (hint i hi) fun y hy => ?_
      exact h ⟨(node i hi.le).1.trans hy.1, hy.2.trans (node (i + 1) hi).2⟩ (node (i + 1) hi) hy.2
    rw [intervalIntegral.integral_const, smul_eq_mul, show a + (i + 1 : Nat) * t - (a + i * t) = t by push_cast; ring] at u1 u2
    rw [abs_le]
    constructor <;> linarith
  have htr : |∑ i ∈ Finset.range N, (t * ((f (a + i * t) + f (a + (i + 1 : Nat) * t)) / 2) - ∫ y in (a + i * t)..(a + (i + 1 : Nat) * t), f y)| ≤ t / 2 * (f a - f b) := by
    refine (Finset.abs_sum_le_sum_abs _ _).trans ((Finset.sum_le_sum fun i hi => hstep i (Finset.mem_range.mp hi)).trans ?_)
    rw [← Finset.mul_sum, Finset.sum_range_sub' (fun i : Nat => f (a + i * t)) N, ← hb]
    simp
  rw [Finset.sum_sub_distrib, ← Finset.mul_sum, ← hsum] at htr
  rw [inner_trapezoid _ N (by omega)]
  have c1 : |t * ((3 * (f (a + (0 : Nat) * t) - f (a + (1 : Nat) * t)) - (f (a + (1 : Nat) * t) - f (a + (2 : Nat) * t))) / 24 +
      (3 * (f (a + N * t) - f (a + (N - 1 : Nat) * t)) - (f (a + (N - 1 : Nat) * t) - f (a + (N - 2 : Nat) * t))) / 24)| ≤ t * ((f a - f b) / 8) := by
    rw [abs_mul, abs_of_nonneg ht]
    refine mul_le_mul_of_nonneg_left ?_ ht
    have e0 : f a = f (a + (0 : Nat) * t) := by simp
    have eN : f b = f (a + N * t) := by rw [← hb]
    have q1 := hdec 0 1 (by omega) (by omega)
    have q2 := hdec 1 2 (by omega) (by omega)
    have q3 := hdec 2 (N - 2) (by omega) (by omega)
    have q4 := hdec (N - 2) (N - 1) (by omega) (by omega)
    have q5 := hdec (N - 1) N (by omega) (by omega)
    rw [e0, eN, abs_le]
    generalize f (a + (0 : Nat) * t) = y0, f (a + (1 : Nat) * t) = y1, f (a + (2 : Nat) * t) = y2, f (a + (N - 2 : Nat) * t) = y3, f (a + (N - 1 : Nat) * t) = y4,
      f (a + N * t) = y5 at *
    constructor <;> linarith
  rw [abs_le] at htr c1 ⊢
  constructor
  · linarith [htr.1, c1.2]
  · linarith [htr.2, c1.1]

theorem rule_neg (f : ℝ → ℝ) (a b : ℝ) (N : Nat) : Spec.rule (fun x => -f x) a b N = -Spec.rule f a b N := by
  rw [Spec.rule, Spec.rule, ← mul_neg, ← Finset.sum_neg_distrib]
  congr 1
  exact Finset.sum_congr rfl fun i _ => by ring

theorem monotone_error {f : ℝ → ℝ} {a b : ℝ} (h : MonotoneOn f (Icc a b)) (hab : a ≤ b) (N : Nat) (hN : 8 ≤ N) :
    |Spec.rule f a b N - ∫ y in a..b, f y| ≤ 5 / 8 * ((b - a) / N) * (f b - f a) := by
  have := antitone_error (f := fun x => -f x) (fun x hx y hy hxy => neg_le_neg (h hx hy hxy)) hab N hN
  rw [rule_neg, intervalIntegral.integral_neg, show -Spec.rule f a b N - -(∫ y in a..b, f y) = -(Spec.rule f a b N - ∫ y in a..b, f y) by ring, abs_neg] at this
  linarith

theorem rule_between {f : ℝ → ℝ} {a b lo hi : ℝ} (hab : a ≤ b) (h : ∀ x ∈ Icc a b, lo ≤ f x ∧ f x ≤ hi) (N : Nat) (hN : 8 ≤ N) :
    (b - a) * lo ≤ Spec.rule f a b N ∧ Spec.rule f a b N ≤ (b - a) * hi := by
  have hN0 : (0 : ℝ) < N := by exact_mod_cast (show 0 < N by omega)
  rw [rule_eq f a b _ (by omega)]
  set t := (b - a) / N with htd
  have ht : 0 ≤ t := div_nonneg (by linarith) hN0.le
  have hb : b - a = t * N := by rw [htd]; field_simp
  have node : ∀ i : Nat, i ≤ N → a + i * t ∈ Icc a b := by
    intro i hi
    have : (i : ℝ) ≤ N := by exact_mod_cast hi
    constructor
    · have : 0 ≤ (i : ℝ) * t := by positivity
      linarith
    · have := mul_le_mul_of_nonneg_right this ht; linarith
  rw [hb]
  constructor
  · rw [mul_assoc, ← inner_const lo N (by omega)]
    exact mul_le_mul_of_nonneg_left (inner_mono _ _ N (by omega) fun i hi => (h _ (node i hi)).1) ht
  · rw [mul_assoc, ← inner_const hi N (by omega)]
    exact mul_le_mul_of_nonneg_left (inner_mono _ _ N (by omega) fun i hi => (h _ (node i hi)).2) ht

end Alexandria.MathUtils.Quadrature
