import Mathlib.Data.List.Basic

/-!
# Specification for grids: coordinates, cell numbers with the first axis varying fastest, slices
-/

namespace Alexandria.Grid.Spec

/-- Coordinates are in range of the axis sizes. -/
def InRange : List Nat → List Nat → Prop
  | [], [] => True
  | c :: cs, s :: ss => c < s ∧ InRange cs ss
  | _, _ => False

/-- The number of cells. -/
def total : List Nat → Nat
  | [] => 1
  | s :: ss => s * total ss

/-- The number of the cell with the given coordinates, first axis fastest. -/
def cellNo : List Nat → List Nat → Nat
  | s :: ss, c :: cs => c + s * cellNo ss cs
  | _, _ => 0

/-- All coordinates in iteration order (first axis fastest) of the part of the grid where the axes marked `some i` have the
coordinate `i`. -/
def sliceCoords : List Nat → List (Option Nat) → List (List Nat)
  | s :: ss, none :: fs => (sliceCoords ss fs).flatMap fun cs => (List.range s).map fun c => c :: cs
  | _ :: ss, some i :: fs => (sliceCoords ss fs).map fun cs => i :: cs
  | _, _ => [[]]

/-- Coordinates agree with the fixed ones. -/
def Agrees : List (Option Nat) → List Nat → Prop
  | [], [] => True
  | none :: fs, _ :: cs => Agrees fs cs
  | some i :: fs, c :: cs => c = i ∧ Agrees fs cs
  | _, _ => False

/-- The fixed coordinates put in the place of zeros. -/
def place : List (Option Nat) → List Nat → List Nat
  | some i :: fs, _ :: cs => i :: place fs cs
  | none :: fs, c :: cs => c :: place fs cs
  | _, _ => []

/-- Coordinates are zero where the axis is fixed. -/
def ZeroAtFixed : List (Option Nat) → List Nat → Prop
  | none :: fs, _ :: cs => ZeroAtFixed fs cs
  | some _ :: fs, c :: cs => c = 0 ∧ ZeroAtFixed fs cs
  | _, _ => True

instance decInRange : (cs ss : List Nat) → Decidable (InRange cs ss)
  | [], [] => .isTrue trivial
  | c :: cs, s :: ss =>
    have := decInRange cs ss
    inferInstanceAs (Decidable (c < s ∧ InRange cs ss))
  | [], _ :: _ => .isFalse id
  | _ :: _, [] => .isFalse id

instance decZeroAtFixed : (fs : List (Option Nat)) → (cs : List Nat) → Decidable (ZeroAtFixed fs cs)
  | none :: fs, _ :: cs => decZeroAtFixed fs cs
  | some _ :: fs, c :: cs =>
    have := decZeroAtFixed fs cs
    inferInstanceAs (Decidable (c = 0 ∧ ZeroAtFixed fs cs))
  | [], _ => .isTrue (by simp [ZeroAtFixed])
  | none :: _, [] => .isTrue (by simp [ZeroAtFixed])
  | some _ :: _, [] => .isTrue (by simp [ZeroAtFixed])

end Alexandria.Grid.Spec
