import Verif.MathUtils.GridInterpModel
import Verif.MathUtils.LinearRoundModel

/-!
# Interpolation on grids with rounding

The calls of `GridInterpModel.lean` with the result of each arithmetic operation rounded. The knots are only compared, so that there is rounding in `simple_interpolation` only.
-/

namespace Alexandria.MathUtils

section
variable {K D : Type} [Field K] [LinearOrder K] [DecidableEq D] (R : Rounding K)

mutual
/-- `operator()` (`GridInterpolation.icpp` 115-117, 180-182) with the two traits (19-48, 62-76). -/
def machineCall (extrapolate : Bool) : Interp K D → List (K ⊕ D) → Res K
  | .last (.cont ks) values, [.inl x] => machineSimple R x ks values extrapolate
  | .last (.disc ks) values, [.inr x] =>
    let i := ks.findIdx (· = x)
    match ks[i]?, values[i]? with
    | some k, some v => if k ≠ x then .ok 0 else .ok v
    | _, _ => .ub
  | .node (.cont ks) subs, .inl x :: rest =>
    match ks.head?, ks.getLast? with
    | some front, some back =>
      if (x < front ∨ x > back) ∧ !extrapolate then .ok 0
      else if ks.length = 1 then machineCallNth extrapolate subs 0 rest
      else
        let x2i := (ks.takeWhile (· < x)).length
        let x2i := if x2i = 0 then 1 else if x2i = ks.length then ks.length - 1 else x2i
        do
          let y1 ← machineCallNth extrapolate subs (x2i - 1) rest
          let y2 ← machineCallNth extrapolate subs x2i rest
          match ks[x2i - 1]?, ks[x2i]? with
          | some k1, some k2 => machineSimple R x [k1, k2] [y1, y2] extrapolate
          | _, _ => .ub
    | _, _ => .ub
  | .node (.disc ks) subs, .inr x :: rest =>
    let i := ks.findIdx (· = x)
    match ks[i]? with
    | some k => if k ≠ x then .ok 0 else machineCallNth extrapolate subs i rest
    | none => .ub
  | _, _ => .ub
/-- `(*interpolators[i])(rest...)`. -/
def machineCallNth (extrapolate : Bool) : List (Interp K D) → Nat → List (K ⊕ D) → Res K
  | [], _, _ => .ub
  | I :: _, 0, xs => machineCall extrapolate I xs
  | _ :: Is, i + 1, xs => machineCallNth extrapolate Is i xs
end

/-- The call of the function that `interpn` returns (`interpolation.icpp` 36-39): the arguments in the opposite order. -/
def machineInterpnCall (extrapolate : Bool) (I : Interp K D) (xs : List K) : Res K := machineCall R extrapolate I (xs.reverse.map .inl)

end

end Alexandria.MathUtils
