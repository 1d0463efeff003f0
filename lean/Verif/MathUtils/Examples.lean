import Verif.MathUtils.ApproxProps
import Verif.MathUtils.CumulativeExactProps
import Verif.MathUtils.CumulativeProps
import Verif.MathUtils.CumulativeRoundProps
import Verif.MathUtils.InverseProps
import Verif.MathUtils.LinearProps
import Verif.MathUtils.LinearRoundProps
import Verif.MathUtils.SimpleExactProps
import Verif.MathUtils.SimpleProps
import Verif.MathUtils.DatasetProps

/-! # Cases that meet all hypotheses of the theorems: cumulatives, inverses and interpolation -/

namespace Alexandria.MathUtils.Examples

/-- Rounding to `double`. -/
def R : Rounding ℚ := Binary.rounding 53 (by decide)

theorem half : R.rnd (1 / 2) = 1 / 2 := Binary.rounding_half 53 (by decide)

theorem pos (v : ℚ) (hv : 0 < v) : 0 < R.rnd v := by
  show 0 < Binary.rnd 53 v
  rw [Binary.rnd_of_pos hv]; exact Binary.rndPos_pos (by decide) hv

/-! ## Interpolation -/

example := C142_linear (0 : ℚ) 5 [1, 2, 4] (fun t => t * t) true (by decide +kernel) (by decide) (fun _ => by decide +kernel)
example := C142_superposition (0 : ℚ) 5 [1, 2, 4] [5, 7, 0] [1, 0, 3] 2 3 true rfl rfl (by decide +kernel) (by decide) (fun _ => by decide +kernel)
example := C34_segments (0 : ℚ) 5 [1, 2, 2, 4] [5, 7, 0, 1] true rfl (by decide +kernel) (by decide) (fun _ => ⟨by norm_num, by decide +kernel⟩)
example := C34_linear (0 : ℚ) 5 [1, 2, 4] [5, 7, 0] true rfl (by decide +kernel) (by decide) (fun _ => by decide +kernel)
example := C34_repeated (0 : ℚ) 5 [(1, 5)] [(4, 0)] (2, 7) .linear true (fun _ => Or.inl (by simp))
example := C123_monotone_partial R half pos 0 5 [1, 2, 4] [5, 7, 0] true rfl (by decide +kernel) (by decide) (fun _ => by decide +kernel) (by decide +kernel)
example := C123_simple_partial R half pos 0 5 [1, 2, 4] [5, 7, 0] true rfl (by decide +kernel) (by decide) (fun _ => by decide +kernel)
example := C123_error 53 (by decide) 0 5 [1, 2, 4] [5, 7, 1 / 3] true rfl (by decide +kernel) (by decide) (fun _ => by decide +kernel)
example := C36_exact (3 / 2 : ℚ) [0, 1, 1, 3] [5, 7, 9, 1] true rfl (by decide +kernel) 2 rfl 0 1 1 3 5 7 9 1 rfl rfl rfl rfl rfl rfl rfl rfl
example := C36_segments_partial (3 / 2 : ℚ) [0, 1, 1, 3] [5, 7, 9, 1] true rfl (by decide +kernel) 2 rfl 0 1 1 3 5 7 9 1 rfl rfl rfl rfl rfl rfl rfl rfl (by norm_num) (fun _ => by norm_num)
example := C36_nodes_partial [0, 1, (3 : ℚ)] [5, 7, 1] false rfl (by decide +kernel) 1 1 7 rfl rfl
example := C161_vectors [1, 2, 4] [5, 7, (0 : ℚ)] [(1, 5), (2, 7), (4, 0)] (by decide +kernel) 0 5 0 .linear true 1 5
example := C161_nodes (0 : ℚ) 5 [(1, 5), (2, 7), (4, 0)] .cubicSpline true (by decide +kernel) (by decide) (fun _ => by decide +kernel)

/-! ## Cumulatives -/

example := C92_same_tray [((0 : ℚ), 1), (1, 9), (2, 9), (3, 9), (4, 10)] (4, 10) rfl (by norm_num) (1 / 2) (by norm_num) (by norm_num) (by decide +kernel)
example := (C39_fromPdf [0, 1, (3 : ℚ)] [1, 2, 4]).2 rfl
example := C39_minimal_partial [0, 1, 3, (4 : ℚ)] [1, 2, 4, 1] rfl (by decide) (by decide +kernel) (by decide +kernel) (by decide +kernel) (1 / 2) (by norm_num) (by norm_num)
example := C39_single ((3 : ℚ), 7) (1 / 2) (by norm_num) (by norm_num)
example := C91_findValue [((0 : ℚ), 1), (1, 2), (2, 2), (3, 2), (4, 4)] (4, 4) rfl (by norm_num) (1 / 2) (by norm_num) (by norm_num)
example := C91_normalize [((0 : ℚ), 1), (1, 2), (2, 2), (3, 2), (4, 4)] (4, 4) rfl (by norm_num)
example := C92_centered_partial [((0 : ℚ), 1), (1, 2), (2, 2), (3, 2), (4, 4)] (by decide +kernel) (by decide +kernel) (4, 4) rfl (by norm_num) (1 / 2) (by norm_num) (by norm_num)

theorem good : Spec.Good R [((0 : ℚ), 7), (1, 25), (3, 32)] := ⟨by decide +kernel, by decide +kernel, by decide +kernel⟩

example := C121_normalize R half _ good (3, 32) rfl (by norm_num)
example := C121_findValue R [((0 : ℚ), 7), (1, 25), (3, 32)] (3, 32) rfl (by norm_num) (by decide +kernel) (1 / 2) (by norm_num) (by norm_num)
example := C121_centered_partial R half _ (by decide +kernel) good (3, 32) rfl (1 / 2) (by norm_num) (by norm_num)
example := C121_minimal_partial R _ (by decide) (by decide +kernel) good (3, 32) rfl (1 / 2) (by norm_num) (by norm_num) (by decide +kernel)
example := C121_sum_error 53 (by decide) [0, 1, 2] [1 / 3, 2 / 3, 0] rfl (by decide +kernel)

/-! ## Inverses -/

example := C38_continuous_partial Real.sqrt Spec.isSqrt_real [0, 1, 2, 4] [1, 2, 2, 0] rfl 0 4 rfl rfl (by norm_num) (by norm_num) (1 / 3) (by norm_num) (by norm_num)
example := C38_close Real.sqrt Spec.isSqrt_real [0, 1, 2, 4] [1, 2, 2, 0] rfl 0 4 rfl rfl (by norm_num) (by norm_num) (1 / 3) (by norm_num) (by norm_num)
example := C38_falling Real.sqrt Spec.isSqrt_real [0, 1, 2, 4] [3, 2, 2, 0] rfl 0 4 rfl rfl (by norm_num) (by norm_num) (by norm_num) (1 / 3) (by norm_num) (by norm_num)
example := C93_none Real.sqrt 1 0 1 0 one_ne_zero (by norm_num)
example := C38_discrete ["a", "b", "c"] [1, 0, (3 : ℚ)] rfl (by decide +kernel) (by decide +kernel) (1 / 2) (by norm_num) (by norm_num)
example := C38_mass_integral (0, 1) [(1, 2), (2, 2), (4, 0)] (by norm_num) 3 (by norm_num)

end Alexandria.MathUtils.Examples
