import Verif.MathUtils.InverseModel
import Verif.MathUtils.CumulativeRoundModel

/-!
# Model of `InverseCumulative` with rounded arithmetic

The functions of `InverseModel.lean` with every operation rounded, as on `double`. `sqrt` is the rounded square root. Overflow to infinity is not modelled;
the root of a negative number and a division by zero are the outcome `notFinite` (the function returns NaN or infinity). Assertions are not modelled.
-/

namespace Alexandria.MathUtils

section
variable {K : Type} [Field K] [LinearOrder K]

/-- `solveSquare` (`Solvers.cpp` 25-35). -/
def machineSolve (R : Rounding K) (sqrt : K → K) (a b c y : K) : Res (K × K) :=
  if a ≠ 0 then do
    let q ← div? b (R.rnd (2 * a))
    let exprb := R.rnd q
    let t ← div? (R.rnd (y - c)) a
    let d := R.rnd (R.rnd t + R.rnd (exprb * exprb))
    if d < 0 then .throw .notFinite
    else return (R.rnd (-sqrt d - exprb), R.rnd (sqrt d - exprb))
  else if b ≠ 0 then do
    let x ← div? (R.rnd (y - c)) b
    return (R.rnd x, R.rnd x)
  else .throw .elements

/-- The loop of the constructor (`InverseCumulative.icpp` 44-47). -/
def machineCdfLoop (R : Rounding K) (x0 p0 c0 : K) : List K → List K → Res (List K)
  | _, [] => .ok []
  | x1 :: xs, p1 :: ps =>
    let c1 := R.rnd (R.rnd (R.rnd (R.rnd (x1 - x0) * R.rnd (p1 + p0)) / 2) + c0)
    do
      let r ← machineCdfLoop R x1 p1 c1 xs ps
      return c1 :: r
  | [], _ :: _ => .ub

/-- The constructor (`InverseCumulative.icpp` 34-57). -/
def machineInverse (R : Rounding K) (knots pdf : List K) : Res (Inverse K) :=
  if knotsOk knots = false then .throw .elements
  else match pdf with
    | [] => .ub
    | p0 :: ps => do
      let r ← (match knots with
        | [] => if ps = [] then .ok [] else .ub
        | x0 :: xs => machineCdfLoop R x0 p0 p0 xs ps)
      let cdf := p0 :: r
      let n := trailing cdf.reverse
      return ⟨knots.take (knots.length - n), pdf, cdf.take (cdf.length - n)⟩

/-- `operator()` inside of a segment (`InverseCumulative.icpp` 74-120). -/
def machineSegment (R : Rounding K) (sqrt : K → K) (u x0 x1 cdf0 cdf1 p0 p1 : K) : Res K :=
  if p0 = p1 then do
    let intervalP ← div? (R.rnd (u - cdf0)) (R.rnd (cdf1 - cdf0))
    return R.rnd (R.rnd (R.rnd (x1 - x0) * R.rnd intervalP) + x0)
  else if x1 = x0 ∨ cdf0 = cdf1 ∨ cdf0 ≥ u then .ok x0
  else do
    let slope ← div? (R.rnd (p1 - p0)) (R.rnd (x1 - x0))
    let a := R.rnd slope
    let b := R.rnd (p0 - R.rnd (a * x0))
    let c := R.rnd (R.rnd (cdf0 - R.rnd (R.rnd (a / 2) * R.rnd (x0 * x0))) - R.rnd (b * x0))
    let s ← machineSolve R sqrt (R.rnd (a / 2)) b c u
    if s.1 ≥ R.rnd (x0 - R.rnd tol) ∧ s.1 ≤ R.rnd (x1 + R.rnd tol) then return s.1 else return s.2

/-- `operator()` (`InverseCumulative.icpp` 59-121). -/
def machineInverseCall (R : Rounding K) (sqrt : K → K) (I : Inverse K) (p : K) : Res K :=
  if p < 0 ∨ p > 1 then .throw .elements
  else match I.cdf.head?, I.cdf.getLast?, I.knots.head?, I.knots.getLast? with
    | some min, some max, some first, some last =>
      let u := R.rnd (R.rnd (p * R.rnd (max - min)) + min)
      if u ≤ min then .ok first
      else if u ≥ max then .ok last
      else
        let i := (I.cdf.takeWhile (· ≤ u)).length - 1
        match I.knots[i]?, I.knots[i + 1]?, I.cdf[i]?, I.cdf[i + 1]?, I.pdf[i]?, I.pdf[i + 1]? with
        | some x0, some x1, some cdf0, some cdf1, some p0, some p1 => machineSegment R sqrt u x0 x1 cdf0 cdf1 p0 p1
        | _, _, _, _, _, _ => .ub
    | _, _, _, _ => .ub

/-- The discrete constructor (`InverseCumulative.icpp` 135-143). -/
def machineDiscrete (R : Rounding K) (pdf : List K) : Res (List K) :=
  match pdf with
  | [] => .ok []
  | p0 :: ps =>
    let cdf := p0 :: machineSumLoop R p0 ps
    if cdf.getLastD 0 = 0 then .throw .notFinite else .ok (cdf.map fun v => R.rnd (v / cdf.getLastD 0))

end

end Alexandria.MathUtils
