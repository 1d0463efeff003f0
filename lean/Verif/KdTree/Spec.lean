import Mathlib.Algebra.BigOperators.Group.Finset.Basic
import Mathlib.Algebra.Order.Field.Basic

/-!
# Specification of radius queries: the linear scan.
-/

namespace Alexandria.KdTree.Spec

variable {T K : Type} [Field K] [LinearOrder K]

/-- Squared Euclidean distance over the first `N` coordinates. -/
def dist2 (N : Nat) (getCoord : T → Nat → K) (p : T) (c : Nat → K) : K :=
  ∑ i ∈ Finset.range N, (getCoord p i - c i) ^ 2

/-- The answer of a linear scan. -/
def scan (N : Nat) (getCoord : T → Nat → K) (c : Nat → K) (r : K) (data : List T) : List T :=
  data.filter fun p => decide (dist2 N getCoord p c < r * r)

/-- The squared distance as a machine computes it: every operation is followed by the rounding `rnd`, and the terms are added from the first
dimension to the last. -/
def machineDist2 (rnd : K → K) (getCoord : T → Nat → K) (p : T) (c : Nat → K) : Nat → K
  | 0 => 0
  | n + 1 => rnd (machineDist2 rnd getCoord p c n + rnd (rnd (getCoord p n - c n) * rnd (getCoord p n - c n)))

/-- The answer of a linear scan on a machine. -/
def machineScan (rnd : K → K) (N : Nat) (getCoord : T → Nat → K) (c : Nat → K) (r : K) (data : List T) : List T :=
  data.filter fun p => decide (machineDist2 rnd getCoord p c N < rnd (r * r))

end Alexandria.KdTree.Spec
