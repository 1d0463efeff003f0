import Verif.NdArray.Model

/-!
# Specification of n-dimensional arrays: coordinate vectors in lexicographic (row-major) order

Independent of strides and offsets.  (Only the type of slicing steps is taken from the model.)
-/

namespace Alexandria.NdArray.Spec

/-- Number of elements of a shape. -/
def card : List Nat → Nat
  | [] => 1
  | d :: ds => d * card ds

/-- Coordinates are valid for a shape if there are as many and each one is below its dimension. -/
def Valid : List Nat → List Nat → Prop
  | [], [] => True
  | d :: ds, c :: cs => c < d ∧ Valid ds cs
  | _, _ => False

/-- All valid coordinate vectors of a shape, in row-major order (last coordinate varies fastest). -/
def allCoords : List Nat → List (List Nat)
  | [] => [[]]
  | d :: ds => (List.range d).flatMap fun i => (allCoords ds).map (i :: ·)

/-- The coordinates in the parent of the element `c` of a slice. -/
def embed1 : Step → List Nat → List Nat
  | .left i, c => i :: c
  | .right i, c => c ++ [i]

/-- The coordinates in the root array of the element `c` of a chain of slices. -/
def embed : List Step → List Nat → List Nat
  | [], c => c
  | s :: ss, c => embed1 s (embed ss c)

end Alexandria.NdArray.Spec
