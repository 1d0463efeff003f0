import Verif.MathUtils.AdaptiveRoundProps
import Verif.MathUtils.PolyRoundProps
import Verif.MathUtils.QuadratureProps
import Verif.MathUtils.SamplerProps
import Verif.MathUtils.SplineProps
import Verif.MathUtils.SplineRoundProps
import Verif.MathUtils.SolveRoundProps

/-! # Cases that meet all hypotheses of the theorems: polynomials, integrals, draws and splines -/

namespace Alexandria.MathUtils.Examples3

open Alexandria.NdArray (Heap Nd)
open Alexandria.NdArray.Spec (Valid)

/-- Rounding to `double`. -/
def R : Rounding ℚ := Binary.rounding 53 (by decide)

theorem unit_nonneg : (0 : ℚ) ≤ (1 / 2) ^ 53 := by positivity

theorem err (x : ℚ) : |R.rnd x - x| ≤ (1 / 2) ^ 53 * |x| := by rw [mul_comm]; exact Binary.rnd_err 53 x

theorem nat (i : Nat) (hi : i ≤ 4) : R.rnd (i : ℚ) = i := Binary.rnd_of_rep (by decide) (Binary.rep_nat (hi.trans (by decide)))

example := C130_eval unit_nonneg err [1 / 3, 2, 5] (1 / 7)
example := C130_derivative unit_nonneg err [1 / 3, 2, 5] (fun i hi => nat i (by simp at hi; omega)) (1 / 7)
example := C130_integral unit_nonneg err [1 / 3, 2, 5] (fun i hi => nat i (by simp at hi; omega)) 0 (1 / 7)
example := C130_product unit_nonneg err [1 / 3, 2, 5] [1, 1 / 7] (by simp)
example := C131_linear_partial unit_nonneg err id 3 1 2

example (v : ℝ) (hv : simpson (fun x : ℝ => x ^ 3) 0 2 (3 : Nat) = .ok v) := C135_simpson_monotone 3 hv (by norm_num) (.inl fun _ ha _ _ h => pow_le_pow_left₀ ha.1 h 3)
example := C135_defined (f := fun x : ℝ => 1 + x) (a := 0) (b := 2) (precision := 1 / 10) (lo := 1) 3 5 (by decide) (by decide) (by decide) (by norm_num) (by norm_num) (by norm_num)
  (.inl fun _ _ _ _ h => by linarith) (fun x hx => by linarith [hx.1]) (by norm_num)
example : ∃ v, adaptive (1 / 10) (3 : Nat) (fun x : ℝ => 1 + x) 0 2 = .ok v ∧ |v - ∫ x in (0 : ℝ)..2, (1 + x)| ≤ 5 / 8 * ((2 - 0) / 2 ^ (3 + 1)) * |(1 + 2 : ℝ) - (1 + 0)| ∧
    (2 - 0) * 1 ≤ v ∧ v ≤ (2 - 0) * 3 := by
  obtain ⟨v, hv, -⟩ := C135_defined (f := fun x : ℝ => 1 + x) (a := 0) (b := 2) (precision := 1 / 10) (lo := 1) 3 5 (by decide) (by decide) (by decide) (by norm_num) (by norm_num) (by norm_num)
    (.inl fun _ _ _ _ h => by linarith) (fun x hx => by linarith [hx.1]) (by norm_num)
  exact ⟨v, hv, C135_monotone_partial 3 hv (by norm_num) (.inl fun _ _ _ _ h => by linarith),
    C135_between (lo := 1) (hi := 3) 3 hv (by norm_num) fun x hx => ⟨by linarith [hx.1], by linarith [hx.2]⟩⟩

/-! ## Draws -/

def axes : List (Axis ℝ Nat) := [.cont [0, 1], .cont [0, 3]]
def dens (is : List Nat) : ℝ := [0, 1, 2, 1].getD (Spec.flat [2, 2] is) 0

theorem setup : Spec.Setup [] [[0, 1, 2, 1]] [2, 2] [0, 1, 2, 1] ⟨0, 0, [2, 2], [2, 1], [], 4⟩ axes :=
  ⟨rfl, by decide, by simp [axes], by simp [axes, Spec.AxisOk], rfl⟩

theorem dens_nonneg (is : List Nat) : 0 ≤ dens is := by
  unfold dens
  generalize Spec.flat [2, 2] is = k
  match k with
  | 0 => simp
  | 1 => simp
  | 2 => simp
  | 3 => simp
  | k + 4 => simp

theorem isSqrt : Spec.IsSqrt Real.sqrt := fun x hx => ⟨Real.sqrt_nonneg x, Real.mul_self_sqrt hx⟩

theorem unif (k : Nat) : (0 : ℝ) ≤ (fun _ => 1 / 3) k ∧ (fun _ : Nat => (1 / 3 : ℝ)) k ≤ 1 := by norm_num

theorem reads (is : List Nat) (h : Valid (axes.map Axis.size) is) : NdArray.at' [[0, 1, 2, 1]] ⟨0, 0, [2, 2], [2, 1], [], 4⟩ is.reverse = .ok (dens is) :=
  made_read (h := []) (sizes := [2, 2]) (data := [0, 1, 2, 1]) setup.1 rfl h

example := C105_draw_partial Real.sqrt isSqrt (fun _ => 1 / 3) unif axes _ _ _ _ _ setup dens reads fun is _ => dens_nonneg is
example := C105_returns Real.sqrt isSqrt (fun _ => 1 / 3) unif axes _ _ _ _ _ setup dens reads (fun is _ => dens_nonneg is) (.inl (by simp [axes]))
example (s : Sampler ℝ Nat) := C105_refused Real.sqrt (fun _ => 1 / 3) [[0, 1, 2, 1]] axes (by decide) ⟨0, 0, [4], [1], [], 4⟩ (by decide) 3 2 0 (by decide) s
example := C105_grid [] axes (by simp [axes]) (by simp [axes, Spec.AxisOk]) (by decide) [0, 1, 2, 1] rfl
example := C105_indexed [] ([.cont [0, 1]] : List (Axis ℚ Nat)) (by simp [Spec.AxisOk]) 3 (by decide) (by decide) [[1, 2, 3], [4, 5, 6]] rfl (by simp)

/-! ## Splines -/

example := C35_spline (-10 : ℚ) 10 [0, 1, 3, 4] [0, 2, 0, 5] true rfl (by decide +kernel) (by decide) (fun _ => by decide +kernel)
example : ∃ F, interpolate (-10 : ℚ) 10 [0, 1, 3, 4] [0, 2, 0, 5] .cubicSpline true = .ok F ∧ eval F 3 = .ok 0 := by
  obtain ⟨F, cs, hF, -⟩ := C35_spline (-10 : ℚ) 10 [0, 1, 3, 4] [0, 2, 0, 5] true rfl (by decide +kernel) (by decide) (fun _ => by decide +kernel)
  exact ⟨F, hF, C35_nodes (-10 : ℚ) 10 [0, 1, 3, 4] [0, 2, 0, 5] true rfl (by decide +kernel) (by decide) (fun _ => by decide +kernel) F hF 2 3 0 rfl rfl⟩

theorem table : Spec.Table [(1 : ℚ), 2, 4] [1, 3, 2] 4 3 1 :=
  ⟨rfl, by decide, by norm_num, by
    intro i a a' h1 h2
    match i with
    | 0 => simp at h1 h2; subst h1 h2; norm_num
    | 1 => simp at h1 h2; subst h1 h2; norm_num
    | i + 2 => simp at h2, by decide +kernel, by decide +kernel⟩

theorem unit_small : ((1 / 2) ^ 53 : ℚ) ≤ 1 / 1000 := by norm_num

example := C146_values_partial unit_nonneg unit_small err (-10) 10 _ _ true table (fun _ => by decide +kernel)
example := C146_nodes_partial unit_nonneg unit_small err (-10) 10 _ _ true table (fun _ => by decide +kernel)
example := C146_double_partial 53 (by decide) (-10) 10 _ _ true table (fun _ => by decide +kernel)

end Alexandria.MathUtils.Examples3
