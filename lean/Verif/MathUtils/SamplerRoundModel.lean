import Verif.MathUtils.SamplerModel
import Verif.MathUtils.InverseRoundModel
import Verif.MathUtils.GridRoundModel
import Verif.NdArray.RoundModel

/-!
# Drawing from a density on a grid with rounding

The samplers of `SamplerModel.lean` with the result of each arithmetic operation rounded: the marginals, the inverses of the cumulatives and the interpolations. The square root is a
parameter. A discrete inverse for densities with the sum 0, in the code a vector of NaN, has the outcome `throw notFinite`. There is no overflow.
-/

namespace Alexandria.MathUtils

open NdArray (Nd Heap)

section
variable {K D : Type} [Field K] [LinearOrder K] [DecidableEq D] (R : Rounding K)

/-- The constructor of `InverseCumulative<TKnot>` (`InverseCumulative.icpp` 34-57, 135-143) with the knots of an axis. -/
def machineInv : Axis K D → List K → Res (Inv K D)
  | .cont ks, pdf => do
    let I ← machineInverse R ks pdf
    return .cont I
  | .disc ks, pdf => do
    let cdf ← machineDiscrete R pdf
    return .disc ks cdf

/-- `operator()` of `InverseCumulative<TKnot>` (`InverseCumulative.icpp` 59-121, 145-151). -/
def machineInvCall (sqrt : K → K) : Inv K D → K → Res (K ⊕ D)
  | .cont I, p => do
    let x ← machineInverseCall R sqrt I p
    return .inl x
  | .disc ks cdf, p => do
    let x ← discreteCall ks cdf p
    return .inr x

/-- `TrapzHelper::trapz` (`NdSampler.icpp` 22-42) along the last axis. -/
def machineMarginal (h : Heap K) (a : Nd) : Axis K D → Res (Heap K × Nd)
  | .cont ks => if ks.length = 1 then fromNd (NdArray.machineSumAxis R h a (-1)) else fromNd (NdArray.machineTrapz R h a ks (-1))
  | .disc _ => fromNd (NdArray.machineSumAxis R h a (-1))

/-- The constructors (`NdSampler.icpp` 54-62 and 130-152). -/
def machineSampler (h : Heap K) : List (Axis K D) → Nd → Res (Heap K × Sampler K D)
  | [], _ => .ub
  | [axis], a => do
    let vs ← fromNd (NdArray.iterate h a)
    let inv ← machineInv R axis vs
    if a.shape.length ≠ 1 then .throw .elements else return (h, .last inv)
  | axis :: axis2 :: rest, a =>
    if a.shape.length ≠ rest.length + 2 then .throw .elements
    else do
      let I ← build h (axis :: axis2 :: rest) a
      let (h1, m) ← machineMarginal R h a axis
      let (h2, sub) ← machineSampler h1 (axis2 :: rest) m
      return (h2, .node I axis sub)

/-- The loop over the rows for one axis (`NdSampler.icpp` 77-80). -/
def machineLastLoop (sqrt : K → K) (inv : Inv K D) (us : Nat → K) : Nat → Nat → Res (List (List (K ⊕ D)) × Nat)
  | 0, k => .ok ([], k)
  | n + 1, k => do
    let x ← machineInvCall R sqrt inv (us k)
    let (rows, k') ← machineLastLoop sqrt inv us n (k + 1)
    return ([x] :: rows, k')

/-- The densities at the knots for a sample of the other axes (`NdSampler.icpp` 193-198). -/
def machineDensities (I : Interp K D) (sub : List (K ⊕ D)) : List (K ⊕ D) → Res (List K)
  | [] => .ok []
  | x :: xs => do
    let y ← machineCall R false I (x :: sub)
    let ys ← machineDensities I sub xs
    return y :: ys

/-- The loop over the rows (`NdSampler.icpp` 192-203). -/
def machineNodeLoop (sqrt : K → K) (I : Interp K D) (axis : Axis K D) (us : Nat → K) : List (List (K ⊕ D)) → Nat → Res (List (List (K ⊕ D)) × Nat)
  | [], k => .ok ([], k)
  | sub :: subs, k => do
    let pdf ← machineDensities R I sub axis.knots
    let inv ← machineInv R axis pdf
    let x ← machineInvCall R sqrt inv (us k)
    let (rows, k') ← machineNodeLoop sqrt I axis us subs (k + 1)
    return ((x :: sub) :: rows, k')

/-- `draw(ndraws, rng)` (`NdSampler.icpp` 83-88, 162-167 with 64-81, 176-204). -/
def machineDraw (sqrt : K → K) (us : Nat → K) (n : Nat) : Sampler K D → Nat → Res (List (List (K ⊕ D)) × Nat)
  | .last inv, k => machineLastLoop R sqrt inv us n k
  | .node I axis sub, k => do
    let (subs, k') ← machineDraw sqrt us n sub k
    machineNodeLoop R sqrt I axis us subs k'

end

end Alexandria.MathUtils
