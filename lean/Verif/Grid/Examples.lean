import Verif.Grid.CornerProps
import Verif.Grid.Props

/-! # Cases that meet all hypotheses of the theorems about grids -/

namespace Alexandria.Grid.Examples

/-- The axes of a 2×3 grid. -/
def axes : List (Axis Nat) := [⟨"x", [1, 2]⟩, ⟨"y", [1, 4, 9]⟩]

theorem sorted : ∀ a ∈ axes, a.values.Pairwise (· < ·) ∧ a.values ≠ [] := by simp [axes]

/-- The slice of the grid at the second knot of the second axis. -/
theorem reached : ∃ g, Reach axes g ∧ g.fixed = [none, some 1] := ⟨_, Reach.byIndex (mk _) _ 1 1 Reach.new rfl, rfl⟩

example := C18_at_exact axes _ reached.choose_spec.1 [10, 11, 12, 13, 14, 15] rfl [1, 0] rfl
example := C170_corner axes sorted _ reached.choose_spec.1 [2, 5] rfl [1, 1]
example := C170_slices axes sorted _ reached.choose_spec.1 [10, 11, 12, 13, 14, 15] rfl [2, 5] rfl
example := C170_cell_partial axes sorted [10, 11, 12, 13, 14, 15] rfl [2, 5] rfl

end Alexandria.Grid.Examples
