import Verif.MathUtils.Model

/-!
# Model of `InverseCumulative` and `solveSquare`

`std::upper_bound` and `std::lower_bound` are linear searches here; on the increasing lists of the theorems that is the same.  The square root is
a parameter.  Assertions are not modelled.
-/

namespace Alexandria.MathUtils

section
variable {K : Type} [Field K] [LinearOrder K]

/-- `solveSquare` (`Solvers.cpp` 25-35). The root of a negative number is not finite. -/
def solveSquare (sqrt : K → K) (a b c y : K) : Res (K × K) :=
  if a ≠ 0 then do
    let exprb ← div? b (2 * a)
    let t ← div? (y - c) a
    if t + exprb * exprb < 0 then .throw .notFinite
    else
      let sr := sqrt (t + exprb * exprb)
      return (-sr - exprb, sr - exprb)
  else if b ≠ 0 then do
    let x ← div? (y - c) b
    return (x, x)
  else .throw .elements

/-- The members of the continuous `InverseCumulative` (`InverseCumulative.icpp` 124-126). -/
structure Inverse (K : Type) where
  knots : List K
  pdf : List K
  cdf : List K
  deriving DecidableEq

/-- The loop of the constructor (`InverseCumulative.icpp` 44-47) after a knot, its density and its cumulative. -/
def cdfLoop (x0 p0 c0 : K) : List K → List K → Res (List K)
  | _, [] => .ok []
  | x1 :: xs, p1 :: ps =>
    let c1 := (x1 - x0) * (p1 + p0) / 2 + c0
    do
      let r ← cdfLoop x1 p1 c1 xs ps
      return c1 :: r
  | [], _ :: _ => .ub

/-- How many elements the loop of lines 50-53 removes; the argument is the cumulative from the end. -/
def trailing : List K → Nat
  | c :: d :: r => if c = d then trailing (d :: r) + 1 else 0
  | _ => 0

/-- The constructor (`InverseCumulative.icpp` 34-57). The check of the sizes compares a size with itself. -/
def mkInverse (knots pdf : List K) : Res (Inverse K) :=
  if knotsOk knots = false then .throw .elements
  else match pdf with
    | [] => .ub
    | p0 :: ps => do
      let r ← (match knots with
        | [] => if ps = [] then .ok [] else .ub
        | x0 :: xs => cdfLoop x0 p0 p0 xs ps)
      let cdf := p0 :: r
      let n := trailing cdf.reverse
      return ⟨knots.take (knots.length - n), pdf, cdf.take (cdf.length - n)⟩

/-- The tolerance of lines 116 and 119. -/
def tol : K := 1 / 100000000

/-- `operator()` inside of a segment (`InverseCumulative.icpp` 74-120). -/
def inverseSegment (sqrt : K → K) (u x0 x1 cdf0 cdf1 p0 p1 : K) : Res K :=
  if p0 = p1 then do
    let intervalP ← div? (u - cdf0) (cdf1 - cdf0)
    return (x1 - x0) * intervalP + x0
  else if x1 = x0 ∨ cdf0 = cdf1 ∨ cdf0 ≥ u then .ok x0
  else do
    let a ← div? (p1 - p0) (x1 - x0)
    let b := p0 - a * x0
    let c := cdf0 - a / 2 * (x0 * x0) - b * x0
    let s ← solveSquare sqrt (a / 2) b c u
    if s.1 ≥ x0 - tol ∧ s.1 ≤ x1 + tol then return s.1 else return s.2

/-- `operator()` (`InverseCumulative.icpp` 59-121). -/
def inverseCall (sqrt : K → K) (I : Inverse K) (p : K) : Res K :=
  if p < 0 ∨ p > 1 then .throw .elements
  else match I.cdf.head?, I.cdf.getLast?, I.knots.head?, I.knots.getLast? with
    | some min, some max, some first, some last =>
      let u := p * (max - min) + min
      if u ≤ min then .ok first
      else if u ≥ max then .ok last
      else
        let i := (I.cdf.takeWhile (· ≤ u)).length - 1
        match I.knots[i]?, I.knots[i + 1]?, I.cdf[i]?, I.cdf[i + 1]?, I.pdf[i]?, I.pdf[i + 1]? with
        | some x0, some x1, some cdf0, some cdf1, some p0, some p1 => inverseSegment sqrt u x0 x1 cdf0 cdf1 p0 p1
        | _, _, _, _, _, _ => .ub
    | _, _, _, _ => .ub

/-- The first loop of the discrete constructor (`InverseCumulative.icpp` 137-139) after a sum. -/
def sumLoop (s : K) : List K → List K
  | [] => []
  | p :: ps => (s + p) :: sumLoop (s + p) ps

/-- The discrete constructor (`InverseCumulative.icpp` 135-143); the second loop divides the last element last. -/
def mkDiscrete (pdf : List K) : Res (List K) :=
  match pdf with
  | [] => .ok []
  | p0 :: ps =>
    let cdf := p0 :: sumLoop p0 ps
    if cdf.getLastD 0 = 0 then .throw .notFinite else .ok (cdf.map fun v => v / cdf.getLastD 0)

/-- The discrete `operator()` (`InverseCumulative.icpp` 145-151). -/
def discreteCall {D : Type} (knots : List D) (cdf : List K) (p : K) : Res D :=
  if p < 0 ∨ p > 1 then .throw .elements
  else match knots[(cdf.takeWhile (· < p)).length]? with
    | some k => .ok k
    | none => .ub

end

end Alexandria.MathUtils
