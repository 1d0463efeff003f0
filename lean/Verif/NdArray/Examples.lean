import Verif.NdArray.ConsecutiveProps
import Verif.NdArray.PrintProps
import Verif.NdArray.Props2
import Verif.NdArray.Props3
import Verif.NdArray.RoundProps

/-! # Cases that meet all hypotheses of the theorems about arrays -/

namespace Alexandria.NdArray.Examples

open Alexandria.NdArray.Spec

/-- An array of shape 2×3. -/
def heap : Heap ℚ := [[1, 2, 3, 4, 5, 6]]
def a : Nd := ⟨0, 0, [2, 3], [3, 1], [], 6⟩

theorem made : mkData [] [2, 3] [1, 2, 3, 4, 5, (6 : ℚ)] = .ok (heap, a) := rfl

theorem wf : WF a := mkData_wf made (by decide) (by decide)

def f (c : List Nat) : ℚ := c.getD 0 0 * 3 + c.getD 1 0 + 1

theorem reads (c : List Nat) (hv : Valid a.shape c) : at' heap a c = .ok (f c) := by
  have hm : c ∈ allCoords [2, 3] := mem_allCoords.2 hv
  clear hv
  revert c; decide +kernel

/-- The second row, and an array of shape 2×2 with a right slice of another. -/
def row : Nd := ⟨0, 3, [3], [1], [], 3⟩

theorem sliced : slices a [.left 1] = .ok row := by decide +kernel

/-- Rounding to `double`. -/
def R : Rounding ℚ := Binary.rounding 53 (by decide)

theorem unit_nonneg : (0 : ℚ) ≤ (1 / 2) ^ 53 := by positivity

theorem err (x : ℚ) : |R.rnd x - x| ≤ (1 / 2) ^ 53 * |x| := by rw [mul_comm]; exact Binary.rnd_err 53 x

example := C62_sum_axis heap a f (by decide) reads (by decide) (-1) 1 3 ⟨.inr rfl, rfl⟩ (by decide)
example := C64_trapz heap a f [0, 1, 3] (by decide) reads (by decide) (-1) 1 3 ⟨.inr rfl, rfl⟩ (by decide) (by decide)
example := C63_argmax heap a wf [1, 2, 3, 4, 5, 6] (by decide +kernel) (by simp)
example := C133_sum unit_nonneg err heap a f (by decide) reads (by decide) (-1) 1 3 ⟨.inr rfl, rfl⟩ (by decide)
example := C133_sum_ge (R := R) heap a f (by decide) reads (by decide) (-1) 1 3 ⟨.inr rfl, rfl⟩ (by decide) (by
  intro c hv
  have hm : c ∈ allCoords [2, 3] := mem_allCoords.2 hv
  clear hv
  revert c; decide +kernel)
example := C133_sum_all unit_nonneg err heap a [1, 2, 3, 4, 5, 6] (by decide +kernel)
example := C133_trapz unit_nonneg err heap a f [0, 1, 3] (by decide) reads (by decide) (-1) 1 3 ⟨.inr rfl, rfl⟩ (by decide) (by decide) rfl
example := C07_copy_equal_partial [] heap [2, 3] _ a made (by decide) (by simp)
example := C61_equality heap a row wf (slices_wf wf sliced) [1, 2, 3, 4, 5, 6] [4, 5, 6] (by decide +kernel) (by decide +kernel)
example := C05_keeps_iff [] heap [2, 3] _ a row [.left 1] [3, 1] made (by decide) (by simp) (by decide +kernel) sliced (by simp) rfl (by decide)

/-! Two arrays of numbers. -/

def heap2 : Heap Nat := [[1, 2, 3, 4], [5, 6, 7, 8]]
def x : Nd := ⟨0, 0, [2, 2], [2, 1], [], 4⟩
def y₀ : Nd := ⟨1, 0, [1, 2, 2], [4, 2, 1], [], 4⟩
def y : Nd := ⟨1, 1, [1, 2], [4, 2], [], 2⟩

theorem made_x : mkData [] [2, 2] [1, 2, 3, 4] = .ok ([[1, 2, 3, 4]], x) := by decide +kernel
theorem made_y : mkData [[1, 2, 3, 4]] [1, 2, 2] [5, 6, 7, 8] = .ok (heap2, y₀) := by decide +kernel
theorem sliced_y : slices y₀ [.right 1] = .ok y := by decide +kernel
theorem wf_x : WF x := mkData_wf made_x (by decide) (by decide)
theorem wf_y : WF y := slices_wf (mkData_wf made_y (by decide) (by decide)) sliced_y

example := C06_concatenate_rows_partial 0 [] _ heap2 2 1 [2] [1, 2, 3, 4] [6, 8] x y made_x rfl rfl (by decide) wf_y (by decide) (by decide)
example := C148_text (fun n : Nat => n.repr.toList) heap2 y wf_y [6, 8] (by decide) 2 (by decide)
example := C148_shown (fun n : Nat => n.repr.toList) heap2 y (by decide) (by decide) [6, 8] (by decide) 2 (by decide)
example := C148_concatenated (fun n : Nat => n.repr.toList) 0 [] _ heap2 2 [2] [1, 2, 3, 4] x [(y, [6, 8])] made_x rfl (by
  intro p hp
  simp only [List.mem_cons, List.not_mem_nil, or_false] at hp
  subst hp
  exact ⟨rfl, by decide, wf_y, by decide⟩) (by decide) 4 (by decide)
example := C148_same_partial (fun n : Nat => List.replicate n 'x') (fun m n h => by simpa using congrArg List.length h) (fun n h => by simp at h) heap2 heap2 y y wf_y wf_y [6, 8] [6, 8]
  (by decide) (by decide) (by decide) 2 (by decide) (by decide) rfl

end Alexandria.NdArray.Examples
