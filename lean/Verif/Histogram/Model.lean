import Verif.Common.Outcome
import Mathlib.Algebra.Order.Floor.Ring
import Mathlib.Algebra.Order.Field.Basic

/-!
# Model of `Histogram/Histogram/Histogram.h`, `_impl/ComputationImpl.icpp`, `Binning/{EdgeVector,Sqrt,Scott}.h`

`VarType` is a linearly ordered field `K` (or `Int` where integer bins are meant), `WeightType` any additive monoid for the
counting and `K` for the statistics.  Rounding, NaN and infinities are not modelled; a division by zero (NaN or a trap in
C++) is the outcome `ub`.
-/

namespace Alexandria.Histogram

inductive Err where
  | elements
  deriving DecidableEq, Repr

abbrev Res (α : Type) := Outcome Err α

/-- A `BinStrategy` (`Histogram.h` 48-127) after its bins were computed: `m_nbins`, `getBinIndex`, `getEdge`. -/
structure Binning (V : Type) where
  nbins : Nat
  index : V → Res Int
  edge : Nat → Option V

/-! ## EdgeVector -/

/-- `EdgeVector::getBinIndex` (`EdgeVector.h` 60-67). `front()`/`back()` of an empty vector are undefined. -/
def edgeIndex {V : Type} [LinearOrder V] (edges : List V) (value : V) : Res Int :=
  match edges.head?, edges.getLast? with
  | some front, some back =>
    if value < front ∨ value > back then .ok (-1)
    else
      let next := edges.findIdx (fun e => decide (e > value))
      let next := if next = edges.length then next - 1 else next
      .ok ((next : Int) - 1)
  | _, _ => .ub

/-- `EdgeVector` (`EdgeVector.h` 46-80). For an empty vector `m_edges.size() - 1` wraps around (`EdgeVector.h` 55); the theorems
exclude it. -/
def edgeVector {V : Type} [LinearOrder V] (edges : List V) : Binning V where
  nbins := edges.length - 1
  index := edgeIndex edges
  edge i := edges[i]?

/-! ## Sqrt and Scott: equal bins -/

/-- Conversion of a floating point number to an integer: truncation towards zero. -/
def trunc {K : Type} [Field K] [LinearOrder K] [IsStrictOrderedRing K] [FloorRing K] (x : K) : Int :=
  if x < 0 then -⌊-x⌋ else ⌊x⌋

/-- `getBinIndex` of `Sqrt` and `Scott` (`Sqrt.h` 54-58, `Scott.h` 85-89). -/
def uniformIndex {K : Type} [Field K] [LinearOrder K] [IsStrictOrderedRing K] [FloorRing K]
    (nbins : Nat) (start step stop value : K) : Res Int :=
  if value = stop then .ok ((nbins : Int) - 1)
  else if step = 0 then .ub
  else .ok (trunc ((value - start) / step))

/-- The common part of `Sqrt` and `Scott` (`Sqrt.h` 60-70, `Scott.h` 91-101). -/
def uniform {K : Type} [Field K] [LinearOrder K] [IsStrictOrderedRing K] [FloorRing K]
    (nbins : Nat) (start step stop : K) : Binning K where
  nbins := nbins
  index := uniformIndex nbins start step stop
  edge i := some (i * step + start)

/-- `std::minmax_element`, the least and greatest value of a non-empty list. -/
def minmax {K : Type} [LinearOrder K] : List K → Option (K × K)
  | [] => none
  | x :: xs => some (xs.foldl min x, xs.foldl max x)

/-- `std::ceil(std::sqrt(n))` for a natural number. -/
def ceilSqrt (n : Nat) : Nat := if Nat.sqrt n * Nat.sqrt n = n then Nat.sqrt n else Nat.sqrt n + 1

/-- `Sqrt::computeBins` (`Sqrt.h` 45-52); the end iterator of an empty range is dereferenced. -/
def sqrtBins {K : Type} [Field K] [LinearOrder K] [IsStrictOrderedRing K] [FloorRing K] (values : List K) :
    Res (Binning K) :=
  match minmax values with
  | none => .ub
  | some (vmin, vmax) =>
    let nbins := ceilSqrt values.length
    .ok (uniform nbins vmin ((vmax - vmin) / nbins) vmax)

/-- `Scott::computeBins` (`Scott.h` 56-83). The number `h = 3.5 sigma / n^(1/3)` is a parameter (`sigma = 0` exactly if all
values are equal, which the model tests as `vmin = vmax`). A non-positive `h` (impossible for a positive sigma) is `ub`. -/
def scottBins {K : Type} [Field K] [LinearOrder K] [IsStrictOrderedRing K] [FloorRing K] (h : K) (values : List K) :
    Res (Binning K) :=
  match minmax values with
  | none => .ub
  | some (vmin, vmax) =>
    if vmin = vmax then
      let range := (vmax + 1 / 2) - (vmin - 1 / 2)
      let nbins := (⌈range / 1⌉).toNat
      .ok (uniform nbins (vmin - 1 / 2) (range / nbins) (vmax + 1 / 2))
    else if h ≤ 0 then .ub
    else
      let range := vmax - vmin
      let nbins := (⌈range / h⌉).toNat
      .ok (uniform nbins vmin (range / nbins) vmax)

/-- `Sqrt<int>`: the same class with integer arithmetic (`Sqrt.h` 45-58): `m_step` is an integer quotient. -/
def sqrtBinsInt (values : List Int) : Res (Binning Int) :=
  match minmax values with
  | none => .ub
  | some (vmin, vmax) =>
    let nbins := ceilSqrt values.length
    let step := (vmax - vmin).tdiv nbins
    .ok {
      nbins := nbins
      index := fun value => if value = vmax then .ok ((nbins : Int) - 1) else if step = 0 then .ub
        else .ok ((value - vmin).tdiv step)
      edge := fun i => some (i * step + vmin) }

/-! ## The histogram -/

/-- `ComputationImpl` (`Histogram.h` 315-379). -/
structure Histo (V W : Type) where
  binning : Binning V
  counts : List W
  left : Int
  right : Int

/-- The counting loop (`ComputationImpl.icpp` 111-118). -/
def countLoop {V W : Type} [Add W] [Zero W] (b : Binning V) : List (V × W) → List W → Res (List W)
  | [], counts => .ok counts
  | (v, w) :: rest, counts => do
    let bin ← b.index v
    if bin ≥ 0 ∧ bin < counts.length then
      countLoop b rest (counts.set bin.toNat (counts.getD bin.toNat 0 + w))
    else countLoop b rest counts

/-- `ComputationImpl::computeBins` (`ComputationImpl.icpp` 98-119) with the constructors (`Histogram.h` 155-191): `data` pairs each
value with its weight. -/
def histogram {V W : Type} [Add W] [Zero W] (b : Binning V) (data : List (V × W)) : Res (Histo V W) := do
  let counts ← countLoop b data (List.replicate b.nbins 0)
  return ⟨b, counts, 0, (b.nbins : Int) - 1⟩

/-- `size()` (`Histogram.h` 323-325); converted to `size_t`. -/
def Histo.size {V W : Type} (h : Histo V W) : Int := h.right - h.left + 1

/-- `getCounts()` (`Histogram.h` 227-230). -/
def Histo.getCounts {V W : Type} (h : Histo V W) : List W :=
  (h.counts.drop h.left.toNat).take (h.right + 1 - h.left).toNat

/-- `getEdges()` (`Histogram.h` 86-91, 238-240). -/
def Histo.getEdges {V W : Type} (h : Histo V W) : Option (List V) :=
  (List.range (h.binning.nbins + 1)).mapM h.binning.edge

/-- `clip` (`ComputationImpl.icpp` 6-18). -/
def Histo.clip {V W : Type} [LinearOrder V] (h : Histo V W) (min max : V) : Res (Histo V W) :=
  if min > max then .throw .elements
  else do
    let minBin ← h.binning.index min
    let left := if minBin > h.left ∧ minBin ≤ h.right then minBin else h.left
    let maxBin ← h.binning.index max
    let right := if maxBin ≥ left ∧ maxBin < h.right then maxBin else h.right
    return { h with left := left, right := right }

section Stats

variable {K : Type} [Field K] [LinearOrder K]

/-- `getBin` (`Histogram.h` 120-123): the centre of a bin. -/
def Binning.center (b : Binning K) (i : Nat) : Option K := do
  let e0 ← b.edge i
  let e1 ← b.edge (i + 1)
  return (e1 + e0) / 2

/-- `getBins()` (`Histogram.h` 246-251). -/
def Histo.getBins (h : Histo K K) : Option (List K) := (List.range h.counts.length).mapM h.binning.center

/-- The sums of the first loop of `getStats` (`ComputationImpl.icpp` 27-32). -/
def sumsLoop (h : Histo K K) : List Nat → K × K × K → Res (K × K × K)
  | [], acc => .ok acc
  | i :: is, (total, count, sigma) =>
    match h.binning.center i, h.counts[i]? with
    | some c, some n => sumsLoop h is (total + n * c, count + n, sigma + n * c * c)
    | _, _ => .ub

/-- The median loop (`ComputationImpl.icpp` 44-50). Returns `(low_i, high_i, low_sum, high_sum)`. -/
def medianLoop (counts : List K) (lowI highI : Int) (low high : K) : Int × Int × K × K :=
  if lowI ≤ highI then
    if low < high then medianLoop counts (lowI + 1) highI (low + counts.getD lowI.toNat 0) high
    else medianLoop counts lowI (highI - 1) low (high + counts.getD highI.toNat 0)
  else (lowI, highI, low, high)
termination_by (highI - lowI + 1).toNat
decreasing_by all_goals omega

/-- The median (`ComputationImpl.icpp` 54-62). -/
def Histo.median (h : Histo K K) : Res K :=
  let (lowI, highI, low, high) := medianLoop h.counts h.left h.right 0 0
  if highI ≥ 0 then
    match h.binning.edge (highI + 1).toNat, h.binning.edge ((highI + 1).toNat + 1), h.counts[lowI.toNat]?,
        h.counts[highI.toNat]? with
    | some e0, some e1, some cl, some ch =>
      if max cl ch = 0 then .ub else .ok (e0 + (e1 - e0) * (high - low) / (2 * max cl ch))
    | _, _, _, _ => .ub
  else match h.binning.center 0 with
    | some c => .ok c
    | none => .ub

/-- `getStats` (`ComputationImpl.icpp` 20-65): mean, median, sigma; `sqrt` is a parameter. The assertion (line 52), that the two sums of the
median add up to the total, holds in exact arithmetic; `StatsRoundModel.lean` has it for floating point numbers. -/
def Histo.getStats (sqrt : K → K) (h : Histo K K) : Res (K × K × K) := do
  let (total, count, sigma) ← sumsLoop h ((List.range (h.right + 1 - h.left).toNat).map (· + h.left.toNat)) (0, 0, 0)
  if count = 0 then .ub
  else
    let mean := total / count
    let var := sigma / count - mean * mean
    let sigma := if var > 0 then sqrt var else 0
    let median ← h.median
    return (mean, median, sigma)

end Stats

end Alexandria.Histogram
