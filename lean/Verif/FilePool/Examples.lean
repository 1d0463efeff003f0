import Verif.FilePool.PathProps
import Verif.FilePool.Props
import Verif.FilePool.CloseAllProps
import Verif.FilePool.ReuseProps

/-! # Cases that meet all hypotheses of the theorems about the pool of files -/

namespace Alexandria.FilePool.Examples

def m : Lru := { limit := 2, files := [1, 2], sorted := [2, 1] }

def ops : List MgrOp := [.open (fun _ => true) 1 true, .open (fun _ => true) 2 true, .used 1]

example := C11_limit (limit := 2) (rlim := 1024) (.inl (by decide)) (by decide) ops (m := m) (by decide)
example := C11_room (limit := 2) (rlim := 1024) (.inl (by decide)) ops (m := m) (m' := { limit := 2, files := [1], sorted := [1] }) (fun _ => true) (by decide) (by decide)
example := C12_victim (limit := 2) (rlim := 1024) (.inl (by decide)) ops (m := m) (m' := { limit := 2, files := [1, 3], sorted := [1, 3] }) (log := [1, 2, 1]) (by decide) (by decide) (fun _ => true) 3 true
  (r := .opened 3) (by decide)
example := C12_room (limit := 3) (rlim := 1024) (.inl (by decide)) ops (m := { m with limit := 3 }) (m' := { limit := 3, files := [1, 2, 3], sorted := [2, 1, 3] }) (log := [1, 2, 1]) (by decide) (by decide)
  (fun _ => true) 3 true (r := .opened 3) (by decide)

example := Paths.C153_exact Paths.someFiles 8 [] ⟨true, [.name 3, .name 7]⟩ (a := [.name 3]) (b := [.name 7]) (D := [0]) rfl (by decide) (by
  intro c c' h hc
  match c, h, hc with
  | [x], h, _ => cases h; decide
  | x :: y :: l, h, _ => simp at h)

end Alexandria.FilePool.Examples
