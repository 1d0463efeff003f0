import Verif.Histogram.Model
import Verif.Common.Binary

/-!
# Statistics of histograms of floating point numbers: `getStats` with rounded arithmetic

`VarType` has `p` bits and is at least as wide as `double` in the expressions (`2.0 * max_counts` is of type `double`, so `p` is 53 in the
C++), `WeightType` has `q ≤ p` bits (`float`: 24, the default). Every operation is rounded to nearest; exponents are unbounded. The square
root is a parameter.
-/

namespace Alexandria.Histogram

/-- `getBin` (`Histogram.h` 120-123). -/
def machineCenter (p : Nat) (b : Binning Rat) (i : Nat) : Option Rat := do
  let e0 ← b.edge i
  let e1 ← b.edge (i + 1)
  return Binary.rnd p (Binary.rnd p (e1 + e0) / 2)

/-- The sums of the first loop (`ComputationImpl.icpp` 27-32): the weights are converted to `VarType`. -/
def machineSums (p : Nat) (h : Histo Rat Rat) : List Nat → Rat × Rat × Rat → Res (Rat × Rat × Rat)
  | [], acc => .ok acc
  | i :: is, (total, count, sigma) =>
    match machineCenter p h.binning i, h.counts[i]? with
    | some c, some n =>
      machineSums p h is (Binary.rnd p (total + Binary.rnd p (n * c)), Binary.rnd p (count + n),
        Binary.rnd p (sigma + Binary.rnd p (Binary.rnd p (n * c) * c)))
    | _, _ => .ub

/-- The median loop (`ComputationImpl.icpp` 42-50): the sums are of type `WeightType`. -/
def machineMedianLoop (q : Nat) (counts : List Rat) (lowI highI : Int) (low high : Rat) : Int × Int × Rat × Rat :=
  if lowI ≤ highI then
    if low < high then machineMedianLoop q counts (lowI + 1) highI (Binary.rnd q (low + counts.getD lowI.toNat 0)) high
    else machineMedianLoop q counts lowI (highI - 1) low (Binary.rnd q (high + counts.getD highI.toNat 0))
  else (lowI, highI, low, high)
termination_by (highI - lowI + 1).toNat
decreasing_by all_goals omega

/-- The median (`ComputationImpl.icpp` 54-62). -/
def machineMedian (p q : Nat) (h : Histo Rat Rat) : Int × Int × Rat × Rat → Res Rat
  | (lowI, highI, low, high) =>
    if highI ≥ 0 then
      match h.binning.edge (highI + 1).toNat, h.binning.edge ((highI + 1).toNat + 1), h.counts[lowI.toNat]?, h.counts[highI.toNat]? with
      | some e0, some e1, some cl, some ch =>
        if max cl ch = 0 then .ub
        else .ok (Binary.rnd p (e0 + Binary.rnd p (Binary.rnd p (Binary.rnd p (e1 - e0) * Binary.rnd q (high - low)) / Binary.rnd p (2 * max cl ch))))
      | _, _, _, _ => .ub
    else match machineCenter p h.binning 0 with
      | some c => .ok c
      | none => .ub

/-- What `getStats` returns, and whether its assertion holds: builds with assertions stop if it does not. -/
structure MachineStats where
  asserted : Bool
  mean : Rat
  median : Rat
  sigma : Rat
  deriving DecidableEq

/-- `getStats` (`ComputationImpl.icpp` 20-65). The assertion (line 52) compares the rounded sum of type `WeightType` with `total_count`. -/
def machineStats (p q : Nat) (sqrt : Rat → Rat) (h : Histo Rat Rat) : Res MachineStats := do
  let (total, count, sigma) ← machineSums p h ((List.range (h.right + 1 - h.left).toNat).map (· + h.left.toNat)) (0, 0, 0)
  if count = 0 then .ub
  else
    let mean := Binary.rnd p (total / count)
    let var := Binary.rnd p (Binary.rnd p (sigma / count) - Binary.rnd p (mean * mean))
    let sigma := if var > 0 then sqrt var else 0
    let loop := machineMedianLoop q h.counts h.left h.right 0 0
    let median ← machineMedian p q h loop
    return ⟨decide (Binary.rnd q (loop.2.2.1 + loop.2.2.2) = count), mean, median, sigma⟩

end Alexandria.Histogram
