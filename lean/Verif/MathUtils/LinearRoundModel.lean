import Verif.MathUtils.InterpModel
import Verif.MathUtils.PolyRoundModel
import Verif.Common.Rounding

/-!
# Linear interpolation with rounding

The functions of `InterpModel.lean` with the result of each arithmetic operation rounded. The knots and the search in them only compare. An
operation is rounded by itself: contraction to fused operations, overflow and underflow are not modelled.
-/

namespace Alexandria.MathUtils

section
variable {K : Type} [Field K] [LinearOrder K] (R : Rounding K)

/-- The coefficients of a line (`linear.cpp` 37-38, `interpolation.cpp` 128-129). The difference of the abscissae may be rounded to zero. -/
def machineCoefs (p q : K × K) : Res (K × K) := do
  let s ← div? (R.rnd (q.2 - p.2)) (R.rnd (q.1 - p.1))
  let coef1 := R.rnd s
  return (R.rnd (p.2 - R.rnd (coef1 * p.1)), coef1)

/-- One function of `linearInterpolation` (`linear.cpp` 37-39), as something that can be evaluated only. -/
def machinePiece (p q : K × K) : Fn K :=
  match machineCoefs R p q with
  | .ok c => .generic fun t => .ok (machinePolyEval R [c.1, c.2] t)
  | _ => .nan 2

/-- The loop of `linearInterpolation` (`linear.cpp` 36-40). -/
def machinePieces : List (K × K) → List (Fn K)
  | p :: q :: l => machinePiece R p q :: machinePieces (q :: l)
  | _ => []

/-- `interpolate` (`interpolation.cpp` 40-85) with `linearInterpolation` (`linear.cpp` 34-50). -/
def machineLinear (lo hi : K) (x y : List K) (extrapolate : Bool) : Res (Fn K) :=
  if x.length ≠ y.length then .throw .elements
  else match x.zip y with
    | [] => .ub
    | p :: l =>
      if l = [] ∧ extrapolate then .ok (.generic fun _ => .ok p.2)
      else do
        let r ← dedupLoop p.1 p.2 l
        mkPiecewise (finalKnots lo hi extrapolate ((p :: r).map Prod.fst)) (machinePieces R (p :: r))

/-- The last part of `simple_interpolation` (`interpolation.cpp` 121-130). -/
def machineLineThrough (x x1 x0 y1 y0 : K) : Res K :=
  if x1 = x0 then .ok (R.rnd (R.rnd (x1 + y1) / 2))
  else do
    let c ← machineCoefs R (x0, y0) (x1, y1)
    return R.rnd (c.1 + R.rnd (c.2 * x))

/-- `simple_interpolation` (`interpolation.cpp` 99-131). -/
def machineSimple (x : K) (xp yp : List K) (extrapolate : Bool) : Res K :=
  if xp = [] then .throw .elements
  else if xp.length ≠ yp.length then .throw .elements
  else match xp, yp with
    | [a], [b] => .ok (if extrapolate ∨ a = x then b else 0)
    | _, _ =>
      let i := (xp.takeWhile (· ≤ x)).length
      if i = 0 ∧ !extrapolate ∧ x < xp.headD 0 then .ok 0
      else
        let i := if i = 0 then 1 else i
        if i = xp.length ∧ !extrapolate ∧ xp.getLastD 0 < x then .ok 0
        else
          let i := if i = xp.length then i - 1 else i
          match xp[i]?, xp[i - 1]?, yp[i]?, yp[i - 1]? with
          | some x1, some x0, some y1, some y0 => machineLineThrough R x x1 x0 y1 y0
          | _, _, _, _ => .ub

end

end Alexandria.MathUtils
