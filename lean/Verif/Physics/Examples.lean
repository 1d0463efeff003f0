import Verif.Physics.DistanceProps
import Verif.Physics.Props

/-! # Cases that meet all hypotheses of the theorems about distances -/

namespace Alexandria.Physics.Examples

example : ∃ d, comovingDistance (codeEnv 300 (fun x => decide (x = 0)) (1 / 100)) 1 (mkParams (1 / 4) (3 / 4) 70) = some d ∧
    d ≤ 300 * 1000 / 70 * 1 ∧ ∃ e, comovingDistance (exactEnv 300) 1 (mkParams (1 / 4) (3 / 4) 70) = some e ∧
      |d - e| ≤ 5 / 128 * (300 * 1000 / 70 * 1) * (1 - 1 / Real.sqrt (1 / 4 * (1 + 1) ^ 3 + (1 - 1 / 4 - 3 / 4) * (1 + 1) ^ 2 + 3 / 4)) := by
  have hs : Real.sqrt (1 / 4 * (1 + 1) ^ 3 + (1 - 1 / 4 - 3 / 4) * (1 + 1) ^ 2 + 3 / 4) ≤ 2 := by
    rw [Real.sqrt_le_left (by norm_num)]; norm_num
  obtain ⟨d, hd⟩ := C136_defined 300 1 (1 / 4) (3 / 4) 70 (1 / 100) (fun x => decide (x = 0)) (by norm_num) (by norm_num) (by norm_num) (by norm_num) (by norm_num)
    (by calc _ ≤ 15 / 16 * ((2 : ℝ) - 1) := by gcongr
          _ ≤ _ := by norm_num)
  exact ⟨d, hd, (C136_bounds 300 1 (1 / 4) (3 / 4) 70 (1 / 100) d _ (by norm_num) (by norm_num) (by norm_num) (by norm_num) (by norm_num) (by simp) hd).2,
    C136_error 300 1 (1 / 4) (3 / 4) 70 (1 / 100) d _ (by norm_num) (by norm_num) (by norm_num) (by norm_num) (by norm_num) (by simp) hd⟩

example := C54_scaling (exactEnv 300) 1 (1 / 4) (3 / 4) 70 2 (by norm_num) (by norm_num) (by norm_num [exactEnv])
example := C54_derivative 300 1 (1 / 4) (3 / 4) 70 (by norm_num) (by norm_num) (by norm_num) (by norm_num)
example := C54_volume 300 1 (1 / 4) 70 (by norm_num) (by norm_num) (by norm_num) (by norm_num)

end Alexandria.Physics.Examples
