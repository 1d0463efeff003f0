import Verif.MathUtils.GridInterpModel
import Verif.MathUtils.InverseModel
import Verif.NdArray.Operations

/-!
# Model of `NdSampler` (`PDF/NdSampler.h`, `_impl/NdSampler.icpp`) and of `NdSamplerFromGrid.h`

The axes are those of the model of `InterpN`: continuous (`double`) or discrete.  The random number generator is the sequence `us` of the
numbers that `std::uniform_real_distribution` delivers, and the position of the next one.  A row of the output is the list of its elements; the
rows that the levels of the recursion fill one after the other are built from the back.  The square root is a parameter, rounding is not modelled.
A discrete inverse for densities with the sum 0, in the code a vector of NaN, has the outcome `throw notFinite`.
-/

namespace Alexandria.MathUtils

open NdArray (Nd Heap)

section
variable {K D : Type} [Field K] [LinearOrder K] [DecidableEq D]

/-- The two implementations of `InverseCumulative<TKnot>` (`InverseCumulative.icpp` 27-127, 129-156). -/
inductive Inv (K D : Type) where
  | cont (I : Inverse K)
  | disc (ks : List D) (cdf : List K)

/-- The constructor of `InverseCumulative<TKnot>` with the knots of an axis. -/
def mkInv : Axis K D → List K → Res (Inv K D)
  | .cont ks, pdf => do
    let I ← mkInverse ks pdf
    return .cont I
  | .disc ks, pdf => do
    let cdf ← mkDiscrete pdf
    return .disc ks cdf

/-- `operator()` of `InverseCumulative<TKnot>`. -/
def invCall (sqrt : K → K) : Inv K D → K → Res (K ⊕ D)
  | .cont I, p => do
    let x ← inverseCall sqrt I p
    return .inl x
  | .disc ks cdf, p => do
    let x ← discreteCall ks cdf p
    return .inr x

/-- `m_knots0` as arguments of the interpolator. -/
def Axis.knots : Axis K D → List (K ⊕ D)
  | .cont ks => ks.map .inl
  | .disc ks => ks.map .inr

/-- `TrapzHelper::trapz` (`NdSampler.icpp` 22-42) along the last axis; `-1` passes through a `size_t` to an `int`. -/
def marginal (h : Heap K) (a : Nd) : Axis K D → Res (Heap K × Nd)
  | .cont ks => if ks.length = 1 then fromNd (NdArray.sumAxis h a (-1)) else fromNd (NdArray.trapz h a ks (-1))
  | .disc _ => fromNd (NdArray.sumAxis h a (-1))

/-- The members of the samplers (`NdSampler.icpp` 91, 207-209). -/
inductive Sampler (K D : Type) where
  | last (inv : Inv K D)
  | node (interpolation : Interp K D) (axis : Axis K D) (sub : Sampler K D)

/-- The constructors (`NdSampler.icpp` 54-62 and 130-152). The one for one axis builds the inverse before it looks at the shape. -/
def mkSampler (h : Heap K) : List (Axis K D) → Nd → Res (Heap K × Sampler K D)
  | [], _ => .ub
  | [axis], a => do
    let vs ← fromNd (NdArray.iterate h a)
    let inv ← mkInv axis vs
    if a.shape.length ≠ 1 then .throw .elements else return (h, .last inv)
  | axis :: axis2 :: rest, a =>
    if a.shape.length ≠ rest.length + 2 then .throw .elements
    else do
      let I ← build h (axis :: axis2 :: rest) a
      let (h1, m) ← marginal h a axis
      let (h2, sub) ← mkSampler h1 (axis2 :: rest) m
      return (h2, .node I axis sub)

/-- The loop over the rows for one axis (`NdSampler.icpp` 77-80). -/
def lastLoop (sqrt : K → K) (inv : Inv K D) (us : Nat → K) : Nat → Nat → Res (List (List (K ⊕ D)) × Nat)
  | 0, k => .ok ([], k)
  | n + 1, k => do
    let x ← invCall sqrt inv (us k)
    let (rows, k') ← lastLoop sqrt inv us n (k + 1)
    return ([x] :: rows, k')

/-- The densities at the knots for a sample of the other axes (`NdSampler.icpp` 193-198). -/
def densities (I : Interp K D) (sub : List (K ⊕ D)) : List (K ⊕ D) → Res (List K)
  | [] => .ok []
  | x :: xs => do
    let y ← call false I (x :: sub)
    let ys ← densities I sub xs
    return y :: ys

/-- The loop over the rows (`NdSampler.icpp` 192-203). -/
def nodeLoop (sqrt : K → K) (I : Interp K D) (axis : Axis K D) (us : Nat → K) : List (List (K ⊕ D)) → Nat → Res (List (List (K ⊕ D)) × Nat)
  | [], k => .ok ([], k)
  | sub :: subs, k => do
    let pdf ← densities I sub axis.knots
    let inv ← mkInv axis pdf
    let x ← invCall sqrt inv (us k)
    let (rows, k') ← nodeLoop sqrt I axis us subs (k + 1)
    return ((x :: sub) :: rows, k')

/-- `draw(ndraws, rng)` (`NdSampler.icpp` 83-88, 162-167 with 64-81, 176-204). -/
def draw (sqrt : K → K) (us : Nat → K) (n : Nat) : Sampler K D → Nat → Res (List (List (K ⊕ D)) × Nat)
  | .last inv, k => lastLoop sqrt inv us n k
  | .node I axis sub, k => do
    let (subs, k') ← draw sqrt us n sub k
    nodeLoop sqrt I axis us subs k'

/-- `draw(ndraws, rng, output)` (`NdSampler.icpp` 64-81, 176-204) with an output area of `m` rows. -/
def drawInto (sqrt : K → K) (us : Nat → K) (n m : Nat) (s : Sampler K D) (k : Nat) : Res (List (List (K ⊕ D)) × Nat) :=
  if m ≠ n then .throw .elements else draw sqrt us n s k

/-- `createSamplerFromGrid` for cells that are numbers (`NdSamplerFromGrid.h` 55-61); `cells` are the elements in the order of the iteration. -/
def samplerFromGrid (h : Heap K) (axes : List (Axis K D)) (cells : List K) : Res (Heap K × Sampler K D) := do
  let (h1, a) ← fromNd (NdArray.mkData h (axes.map Axis.size).reverse cells)
  mkSampler h1 axes a

/-- The loops over the cells and their elements (`NdSamplerFromGrid.h` 92-101): `i` is `pdf_i`. -/
def cellLoop (a : Nd) : List K → Nat → Heap K → NdArray.Res (Heap K)
  | [], _, h => .ok h
  | x :: xs, i, h => do
    let c ← NdArray.unravelIndex i a.shape
    let h' ← NdArray.set' h a c x
    cellLoop a xs (i + 1) h'

/-- `createSamplerFromGrid` for cells that are vectors (`NdSamplerFromGrid.h` 81-104). The assertion is not modelled. -/
def samplerFromCells (h : Heap K) (cellAxis : Axis K D) (axes : List (Axis K D)) (cells : List (List K)) : Res (Heap K × Sampler K D) := do
  let (h1, a) := NdArray.mkZero 0 h ((axes.map Axis.size).reverse ++ [cellAxis.size])
  let h2 ← fromNd (cellLoop a cells.flatten 0 h1)
  mkSampler h2 (cellAxis :: axes) a

end

/-- `createSamplerFromGrid` without knots for the cells (`NdSamplerFromGrid.h` 114-121): the indices; the first cell of an empty grid does not
exist. -/
def samplerFromIndexed {K : Type} [Field K] [LinearOrder K] (h : Heap K) (axes : List (Axis K Nat)) (cells : List (List K)) : Res (Heap K × Sampler K Nat) :=
  match cells with
  | [] => .ub
  | cell :: _ => samplerFromCells h (.disc (List.range cell.length)) axes cells

end Alexandria.MathUtils
