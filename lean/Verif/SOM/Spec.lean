import Mathlib.Analysis.Convex.Basic
import Mathlib.Data.Fin.VecNotation

/-!
# Specification for the self organizing map

Independent of the model: a map is given by its sizes and a function from coordinates to weights.
-/

namespace Alexandria.SOM.Spec

/-- `(x, y)` is the best matching unit of a map of size `sx × sy`, `d` its distance: nothing is closer, and among the closest cells
it is the first one, comparing `y` and then `x`. -/
structure IsBMU {K : Type} [LinearOrder K] (sx sy : Nat) (dist : Nat → Nat → K) (x y : Nat) (d : K) : Prop where
  inX : x < sx
  inY : y < sy
  own : d = dist x y
  least : ∀ x' y', x' < sx → y' < sy → d ≤ dist x' y'
  first : ∀ x' y', x' < sx → y' < sy → (y' < y ∨ (y' = y ∧ x' < x)) → d < dist x' y'

/-- Distance of two cells on the map, squared, as real geometry has it. -/
def cellDist2 {K : Type} [Field K] (a b : Nat × Nat) : K := ((a.1 : K) - b.1) ^ 2 + ((a.2 : K) - b.2) ^ 2

/-- The disk whose radius shrinks linearly from `r` (iteration 0) to zero (iteration `n`). -/
def disk {K : Type} [Field K] [LinearOrder K] (r : K) (a b : Nat × Nat) (i n : Nat) : K :=
  if cellDist2 a b < (r * (1 - (i : K) / n)) ^ 2 then 1 else 0

/-- Two cells touch (also diagonally). -/
def Adjacent (a b : Nat × Nat) : Prop :=
  a ≠ b ∧ a.1 ≤ b.1 + 1 ∧ b.1 ≤ a.1 + 1 ∧ a.2 ≤ b.2 + 1 ∧ b.2 ≤ a.2 + 1

end Alexandria.SOM.Spec
