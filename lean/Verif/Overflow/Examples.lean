import Verif.Overflow.Props
import Verif.Overflow.SolveProps
import Verif.KdTree.OverflowProps
import Verif.KdTree.Props

/-! # Cases that meet all hypotheses of the theorems about numbers that are too large, and trees -/

namespace Alexandria.Overflow.Examples

example := C156_step Binary.double Binary.doubleMax (n := 3) (by decide) (by decide +kernel) (by decide +kernel) (vmin := 1) (vmax := 8) (by norm_num)
example := C156_distance Binary.double Binary.doubleMax (by decide +kernel) (root := id) (fun _ h => h) ![1, 2] ![4, 9]
example := C156_bmu Binary.double Binary.doubleMax (by decide +kernel) (root := id) (fun _ h => h) 3 1 [![1], ![2], ![7]] (by decide) (by decide) ![3]
example := C131_finite_iff Binary.double Binary.doubleMax (fun _ => 2) (a := 3) (by decide +kernel) (by norm_num) 6 0 9 (-3) 1

theorem solvable : Spec.Solvable Binary.double Binary.doubleMax (fun _ => 2) 3 6 0 9 :=
  ⟨fun _ => by unfold Spec.Within; decide +kernel, by unfold Spec.Within; decide +kernel, by unfold Spec.Within; decide +kernel, by unfold Spec.Within; decide +kernel,
    by unfold Spec.Within; decide +kernel, by decide +kernel, by unfold Spec.Within; decide +kernel, by unfold Spec.Within; decide +kernel⟩

example := C131_no_overflow Binary.double Binary.doubleMax (fun _ => 2) (a := 3) (by decide +kernel) (by norm_num) (by decide +kernel) 6 0 9 solvable

/-- A tree of the points 0, 3 and 7 in doubles. -/
example := KdTree.C01_machine (Binary.rounding 53 (by decide)) 1 1 (by decide) (by decide) (fun (x : ℚ) _ => x) (KdTree.exampleSorter ℚ) [0, 3, 7] (by
  intro p hp i _
  simp only [List.mem_cons, List.not_mem_nil, or_false] at hp
  rcases hp with rfl | rfl | rfl <;> (clear! i; decide +kernel))

end Alexandria.Overflow.Examples
