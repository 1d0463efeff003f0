import Verif.MathUtils.InterpModel
import Verif.MathUtils.PolyRoundModel
import Verif.Common.Rounding

/-!
# Cubic splines with rounding

The functions of `InterpModel.lean` for splines with the result of each arithmetic operation rounded, in the order of the operators of C++. An operation is rounded by itself: contraction to
fused operations, overflow and underflow are not modelled. As there a division by zero ends the calculation, while the code goes on with numbers that are not finite.
-/

namespace Alexandria.MathUtils

section
variable {K : Type} [Field K] [LinearOrder K] (R : Rounding K)

/-- The forward loop of `splineInterpolation` (`spline.cpp` 39-51) after the values `mu[i - 1]` and `z[i - 1]`. -/
def machineForward (mu z : K) : List (K × K) → Res (List (K × K))
  | p0 :: p1 :: p2 :: l =>
    let h0 := R.rnd (p1.1 - p0.1)
    let h1 := R.rnd (p2.1 - p1.1)
    let w := R.rnd (p2.1 - p0.1)
    let g := R.rnd (R.rnd (2 * w) - R.rnd (h0 * mu))
    let s := R.rnd (R.rnd (R.rnd (p2.2 * h0) - R.rnd (p1.2 * w)) + R.rnd (p0.2 * h1))
    do
      let m ← div? h1 g
      let t ← div? (R.rnd (3 * s)) (R.rnd (h0 * h1))
      let v ← div? (R.rnd (R.rnd t - R.rnd (h0 * z))) g
      let r ← machineForward (R.rnd m) (R.rnd v) (p1 :: p2 :: l)
      return (R.rnd m, R.rnd v) :: r
  | _ => .ok []

/-- The coefficients of a polynomial in powers of `x - u`, in powers of `x` (`spline.cpp` 71-79). -/
def machineShifted (u a b c d : K) : List K :=
  let x1 := -u
  let x2 := R.rnd (x1 * x1)
  let x3 := R.rnd (x1 * x2)
  [R.rnd (R.rnd (R.rnd (a + R.rnd (b * x1)) + R.rnd (c * x2)) + R.rnd (d * x3)),
    R.rnd (R.rnd (b + R.rnd (R.rnd (2 * c) * x1)) + R.rnd (R.rnd (3 * d) * x2)),
    R.rnd (c + R.rnd (R.rnd (3 * d) * x1)), d]

/-- One function of the spline (`spline.cpp` 63, 65-66, 71-79, 84). -/
def machineSplinePiece (p q : K × K) (c c1 : K) : Res (List K) :=
  let h := R.rnd (q.1 - p.1)
  do
    let s ← div? (R.rnd (q.2 - p.2)) h
    let d ← div? (R.rnd (c1 - c)) (R.rnd (3 * h))
    return machineShifted R p.1 p.2 (R.rnd (R.rnd s - R.rnd (R.rnd (h * R.rnd (c1 + R.rnd (2 * c))) / 3))) c (R.rnd d)

/-- The backward loop of `splineInterpolation` (`spline.cpp` 59-67). -/
def machineSplineBack : List (K × K) → List (K × K) → Res (K × List (List K))
  | p :: q :: l, (mu, z) :: ms => do
    let r ← machineSplineBack (q :: l) ms
    let c := R.rnd (z - R.rnd (mu * r.1))
    let f ← machineSplinePiece R p q c r.1
    return (c, f :: r.2)
  | [_], _ => .ok (0, [])
  | _, _ => .ub

/-- `interpolate` (`interpolation.cpp` 40-85) with `splineInterpolation` (`spline.cpp` 34-95); the functions are seen as something that can be evaluated only. -/
def machineSpline (lo hi : K) (x y : List K) (extrapolate : Bool) : Res (Fn K) :=
  if x.length ≠ y.length then .throw .elements
  else match x.zip y with
    | [] => .ub
    | p :: l =>
      if l = [] ∧ extrapolate then .ok (.generic fun _ => .ok p.2)
      else do
        let r ← dedupLoop p.1 p.2 l
        let ms ← machineForward R 0 0 (p :: r)
        let s ← machineSplineBack R (p :: r) ((0, 0) :: ms)
        mkPiecewise (finalKnots lo hi extrapolate ((p :: r).map Prod.fst)) (s.2.map fun c => .generic fun t => .ok (machinePolyEval R c t))

end

end Alexandria.MathUtils
