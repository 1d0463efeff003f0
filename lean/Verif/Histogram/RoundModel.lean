import Verif.Histogram.Model
import Verif.Common.Binary

/-!
# Histograms of floating point numbers: `Sqrt.h`, `Scott.h` with rounded arithmetic

`VarType` is a binary floating point type of `p` bits (`double`: 53, `float`: 24), every operation is rounded to nearest; exponents are unbounded.
`WeightType` may be such a type as well.
-/

namespace Alexandria.Histogram

/-- A floating point type of `p` bits for weights: addition is rounded. -/
structure Flt (p : Nat) where
  val : Rat
  deriving DecidableEq

instance (p : Nat) : Add (Flt p) := ⟨fun a b => ⟨Binary.rnd p (a.val + b.val)⟩⟩

instance (p : Nat) : Zero (Flt p) := ⟨⟨0⟩⟩

/-- `getBinIndex` of `Sqrt` and `Scott` (`Sqrt.h` 54-58, `Scott.h` 85-89). -/
def machineIndex (p nbins : Nat) (start step stop value : Rat) : Res Int :=
  if value = stop then .ok ((nbins : Int) - 1)
  else if step = 0 then .ub
  else .ok (trunc (Binary.rnd p (Binary.rnd p (value - start) / step)))

/-- `getEdge` (`Sqrt.h` 64-66, `Scott.h` 95-97): the index is converted to the type of the step. -/
def machineUniform (p nbins : Nat) (start step stop : Rat) : Binning Rat where
  nbins := nbins
  index := machineIndex p nbins start step stop
  edge i := some (Binary.rnd p (Binary.rnd p (Binary.rnd p i * step) + start))

/-- `m_step` for a number of bins (`Sqrt.h` 49, `Scott.h` 75-79). -/
def machineStep (p nbins : Nat) (vmin vmax : Rat) : Rat := Binary.rnd p (Binary.rnd p (vmax - vmin) / Binary.rnd p nbins)

/-- `Sqrt::computeBins` (`Sqrt.h` 45-52). The root of a number of elements below 2^52 is rounded up correctly. -/
def machineSqrtBins (p : Nat) (values : List Rat) : Res (Binning Rat) :=
  match minmax values with
  | none => .ub
  | some (vmin, vmax) =>
    let nbins := ceilSqrt values.length
    .ok (machineUniform p nbins vmin (machineStep p nbins vmin vmax) vmax)

/-- `Scott::computeBins` (`Scott.h` 56-83); the number of bins that is computed from the estimate of the deviation is a parameter (`none` for a deviation of 0). -/
def machineScottBins (p : Nat) (nbins : Option Nat) (values : List Rat) : Res (Binning Rat) :=
  match minmax values with
  | none => .ub
  | some (vmin, vmax) => match nbins with
    | none =>
      let vmax := Binary.rnd p (vmax + 1 / 2)
      let vmin := Binary.rnd p (vmin - 1 / 2)
      let n := (⌈Binary.rnd p (vmax - vmin)⌉).toNat
      .ok (machineUniform p n vmin (machineStep p n vmin vmax) vmax)
    | some n => .ok (machineUniform p n vmin (machineStep p n vmin vmax) vmax)

/-- `Histogram` with `Sqrt` bins (`ComputationImpl.icpp` 98-119). -/
def machineSqrt {W : Type} [Add W] [Zero W] (p : Nat) (data : List (Rat × W)) : Res (Histo Rat W) := do
  let b ← machineSqrtBins p (data.map Prod.fst)
  histogram b data

/-- `Histogram` with `Scott` bins. -/
def machineScott {W : Type} [Add W] [Zero W] (p : Nat) (nbins : Option Nat) (data : List (Rat × W)) : Res (Histo Rat W) := do
  let b ← machineScottBins p nbins (data.map Prod.fst)
  histogram b data

end Alexandria.Histogram
