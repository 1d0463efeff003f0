import Verif.Table.CommentProps
import Verif.Table.ConfigProps
import Verif.Table.ReaderProps
import Verif.Table.SharedProps

/-! # Cases that meet all hypotheses of the theorems about readers of tables -/

namespace Alexandria.Table.Examples

/-- A text with a column, two rows, and a comment between them. -/
def text : Str.Bytes := "# Column: a int\n1\n# x\n2\n".toList

def info : Info := [⟨['a'], .scalar .i32, [], []⟩]

/-- A reader that has read the description of the columns and the first row. -/
def r : Reader := { info := some info, stream := { pos := 18 } }

theorem left_r : left text r.comment r.stream = [['2']] := by decide +kernel

theorem rows_r : List.Forall₂ (fun l x => parseRow noFmt info l = .ok x) (left text r.comment r.stream) [⟨[.scalar .i32 2], info⟩] := by
  rw [left_r]; exact .cons rfl .nil

theorem names_ok : Spec.Names [(['a'] : Str.Bytes)] := by
  refine ⟨?_, by simp⟩
  intro n hn
  rw [List.mem_singleton.1 hn]
  exact ⟨by simp, (hasVertical_iff _).1 (by decide)⟩

example := C42_refines_partial noFmt text (by decide) [.hasMoreRows, .skip 1, .read (-1)] r info rfl (by decide)
example := C42_text_partial noFmt text (by decide) {} rfl info (by decide +kernel) [.read 1, .rowsLeft, .read (-1)]
example := C42_chunks_partial noFmt text (by decide) r info rfl (by decide) _ rows_r [1] (by decide) rfl
example := C42_skip_partial noFmt text (by decide) r info rfl (by decide) _ rows_r 1
example := C96_rows_partial noFmt text (by decide) [.read 1, .rowsLeft] r (by decide) info rfl (by decide)
example := C150_here text (by decide) {} rfl (by decide)
example := C96_columns text (by decide) {} (by decide) rfl (by decide)
example := C150_columns text {} rfl rfl info (by decide +kernel)
example := C150_plain "# x\n1\n2\n".toList { names := [['a']], types := [.scalar .i32] } rfl rfl names_ok (by simp) rfl (by decide +kernel) (by decide +kernel) ['1'] [['2']] (by decide +kernel)
example := C158_shared noFmt text ['#'] (by decide) (fun _ => info) [(0, .read 1), (1, .rowsLeft)] { readers := fun _ => { info := some info } } (by decide) (fun _ _ => ⟨rfl, rfl⟩)
example := C158_rows noFmt text ['#'] (by decide) (fun _ => info) [(0, 1), (1, 1)] { readers := fun _ => { info := some info } } (by decide) (fun _ _ => ⟨rfl, rfl⟩) (by decide) (by decide +kernel) (by
  have e : left text ['#'] {} = [['1'], ['2']] := by decide +kernel
  intro l hl i _
  rw [e] at hl
  simp only [List.mem_cons, List.not_mem_nil, or_false] at hl
  rcases hl with rfl | rfl
  · exact ⟨⟨[.scalar .i32 1], _⟩, by rfl⟩
  · exact ⟨⟨[.scalar .i32 2], _⟩, by rfl⟩)
example := C158_here noFmt text (by decide) 18 (by decide) [.getInfo, .read 1] {} (by decide)
example := C158_continue_partial noFmt text (by decide) r info rfl (by simp [info]) names_ok (by decide) rfl rfl (by decide) (by decide +kernel) (by decide +kernel) ['2'] [] left_r (by decide +kernel) (-1)

end Alexandria.Table.Examples
