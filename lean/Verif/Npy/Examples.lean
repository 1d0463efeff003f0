import Verif.Npy.FormatProps
import Verif.Npy.MmapProps
import Verif.Npy.Props
import Verif.Npy.AnyProps

/-! # Cases that meet all hypotheses of the theorems about files of arrays -/

namespace Alexandria.Npy.Examples

open Alexandria.Str Spec

theorem safe : ∀ n ∈ ["x", "flux"], SafeName n.toList := by
  simp only [List.mem_cons, List.not_mem_nil, or_false]
  rintro n (rfl | rfl) <;> exact ⟨by decide, by decide, by decide, by decide⟩

def heap : NdArray.Heap (Fin 256) := [[1, 2, 3, 4]]
def a : NdArray.Nd := ⟨0, 0, [2, 2], [2, 1], ["x", "flux"], 4⟩

theorem made : NdArray.mkAttrs [] [2] ["x", "flux"] [(1 : Fin 256), 2, 3, 4] = .ok (heap, a) := rfl

def file : Str.Bytes := match writeNpy byteElem heap a with | .ok b => b | _ => []

theorem written : writeNpy byteElem heap a = .ok file := rfl

example := Mmap.C113_mapped_partial byteElem [2] ["x", "flux"] [1, 2, 3, 4] heap a file ['z'] .readwrite 0 made written safe (by simp) (by decide) (by decide) (by decide +kernel) (by decide) (.inl rfl)
example := C76_truncated_data_reads_zeros_partial byteElem [] [2] ["x", "flux"] [1, 2, 3] 0 (by decide) safe (by simp) 1 rfl (by decide) (by decide) (by decide +kernel)

end Alexandria.Npy.Examples
