import Verif.MathUtils.Model

/-!
# Model of `MathUtils/src/lib/interpolation/*.cpp`

As in `Model.lean` numbers are exact.  `lo` and `hi` stand for `std::numeric_limits<double>::lowest()` and `max()`.  That `int n` of the
spline overflows for more than `2 ^ 31` points is not modelled.
-/

namespace Alexandria.MathUtils

section
variable {K : Type} [Field K] [LinearOrder K]

/-- The loop of `interpolate` (`interpolation.cpp` 63-76) on the points after the given one: pairs equal to the one before are dropped,
smaller abscissae refused. -/
def dedupLoop (px py : K) : List (K × K) → Res (List (K × K))
  | [] => .ok []
  | (x, y) :: l =>
    if x = px ∧ y = py then dedupLoop x y l
    else if x < px then .throw .elements
    else do
      let r ← dedupLoop x y l
      return (x, y) :: r

/-- One function of `linearInterpolation` (`linear.cpp` 37-39). For equal abscissae the coefficients are not finite. -/
def segment (p q : K × K) : Fn K :=
  match div? (q.2 - p.2) (q.1 - p.1) with
  | .ok coef1 => .poly [p.2 - coef1 * p.1, coef1]
  | _ => .nan 2

/-- The loop of `linearInterpolation` (`linear.cpp` 36-40). -/
def segments : List (K × K) → List (Fn K)
  | p :: q :: l => segment p q :: segments (q :: l)
  | _ => []

/-- The knots for extrapolation (`linear.cpp` 43-45, `spline.cpp` 88-90). -/
def extKnots (lo hi : K) (xs : List K) : List K := (xs.set 0 lo).set (xs.length - 1) hi

/-- The knots (`linear.cpp` 42-49, `spline.cpp` 87-94). -/
def finalKnots (lo hi : K) (extrapolate : Bool) (xs : List K) : List K := if extrapolate then extKnots lo hi xs else xs

/-- `linearInterpolation` (`linear.cpp` 34-50) for at least one point. -/
def linearInterp (lo hi : K) (extrapolate : Bool) (pts : List (K × K)) : Res (Fn K) :=
  mkPiecewise (finalKnots lo hi extrapolate (pts.map Prod.fst)) (segments pts)

/-- The forward loop of `splineInterpolation` (`spline.cpp` 46-51) after the values `mu[i - 1]` and `z[i - 1]`. A division by zero here and
below ends the calculation, while the code goes on with numbers that are not finite. -/
def splineForward (mu z : K) : List (K × K) → Res (List (K × K))
  | p0 :: p1 :: p2 :: l =>
    let h0 := p1.1 - p0.1
    let h1 := p2.1 - p1.1
    let g := 2 * (p2.1 - p0.1) - h0 * mu
    do
      let mu' ← div? h1 g
      let t ← div? (3 * (p2.2 * h0 - p1.2 * (p2.1 - p0.1) + p0.2 * h1)) (h0 * h1)
      let z' ← div? (t - h0 * z) g
      let r ← splineForward mu' z' (p1 :: p2 :: l)
      return (mu', z') :: r
  | _ => .ok []

/-- The coefficients of a polynomial in powers of `x - u`, in powers of `x` (`spline.cpp` 71-79). -/
def shifted (u a b c d : K) : List K :=
  let x1 := -u
  let x2 := x1 * x1
  let x3 := x1 * x2
  [a + b * x1 + c * x2 + d * x3, b + 2 * c * x1 + 3 * d * x2, c + 3 * d * x1, d]

/-- One function of the spline (`spline.cpp` 63, 65-66, 71-79, 84). -/
def splinePiece (p q : K × K) (c c1 : K) : Res (List K) :=
  let h := q.1 - p.1
  do
    let s ← div? (q.2 - p.2) h
    let d ← div? (c1 - c) (3 * h)
    return shifted p.1 p.2 (s - h * (c1 + 2 * c) / 3) c d

/-- The backward loop of `splineInterpolation` (`spline.cpp` 59-67) over the points and the pairs of `mu` and `z`: `c[j]` and the functions
from there on. -/
def splineBack : List (K × K) → List (K × K) → Res (K × List (List K))
  | p :: q :: l, (mu, z) :: ms => do
    let r ← splineBack (q :: l) ms
    let c := z - mu * r.1
    let f ← splinePiece p q c r.1
    return (c, f :: r.2)
  | [_], _ => .ok (0, [])
  | _, _ => .ub

/-- `splineInterpolation` (`spline.cpp` 34-95) for at least one point. -/
def splineInterp (lo hi : K) (extrapolate : Bool) (pts : List (K × K)) : Res (Fn K) := do
  let ms ← splineForward 0 0 pts
  let r ← splineBack pts ((0, 0) :: ms)
  mkPiecewise (finalKnots lo hi extrapolate (pts.map Prod.fst)) (r.2.map .poly)

inductive InterpType where
  | linear
  | cubicSpline
  deriving DecidableEq, Repr

/-- `interpolate` (`interpolation.cpp` 40-85). Without points `x[0]` does not exist. -/
def interpolate (lo hi : K) (x y : List K) (type : InterpType) (extrapolate : Bool) : Res (Fn K) :=
  if x.length ≠ y.length then .throw .elements
  else match x.zip y with
    | [] => .ub
    | p :: l =>
      if l = [] ∧ extrapolate then .ok (.generic fun _ => .ok p.2)
      else do
        let r ← dedupLoop p.1 p.2 l
        match type with
          | .linear => linearInterp lo hi extrapolate (p :: r)
          | .cubicSpline => splineInterp lo hi extrapolate (p :: r)

/-- `simple_interpolation` (`interpolation.cpp` 99-131). `std::upper_bound` is the number of knots before the first one that is greater. -/
def simpleInterpolation (x : K) (xp yp : List K) (extrapolate : Bool) : Res K :=
  if xp = [] then .throw .elements
  else if xp.length ≠ yp.length then .throw .elements
  else match xp, yp with
    | [a], [b] => .ok (if extrapolate ∨ a = x then b else 0)
    | _, _ =>
      let i := (xp.takeWhile (· ≤ x)).length
      if i = 0 ∧ !extrapolate ∧ x < xp.headD 0 then .ok 0
      else
        let i := if i = 0 then 1 else i
        if i = xp.length ∧ !extrapolate ∧ xp.getLastD 0 < x then .ok 0
        else
          let i := if i = xp.length then i - 1 else i
          match xp[i]?, xp[i - 1]?, yp[i]?, yp[i - 1]? with
          | some x1, some x0, some y1, some y0 =>
            if x1 = x0 then .ok ((x1 + y1) / 2)
            else do
              let coef1 ← div? (y1 - y0) (x1 - x0)
              return y0 - coef1 * x0 + coef1 * x
          | _, _, _, _ => .ub

end

end Alexandria.MathUtils
