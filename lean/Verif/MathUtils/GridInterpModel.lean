import Verif.MathUtils.InterpModel
import Verif.NdArray.Model

/-!
# Model of `GridInterpolation.icpp` and of `interpn` (`interpolation.icpp`)

The types of the axes are a parameter pack.  Here an axis is continuous (knots are numbers) or discrete (knots of some type `D` with
equality), and the arguments of a call are a list; lists that the type system would refuse are given the outcome `ub`.  The array of values is
the model of `NdArray`.
-/

namespace Alexandria.MathUtils

open NdArray (Nd Heap)

inductive Axis (K D : Type) where
  | cont (ks : List K)
  | disc (ks : List D)

/-- `m_knots.size()`. -/
def Axis.size {K D : Type} : Axis K D → Nat
  | .cont ks => ks.length
  | .disc ks => ks.length

/-- `InterpN` for one axis and for several ones. -/
inductive Interp (K D : Type) where
  | last (axis : Axis K D) (values : List K)
  | node (axis : Axis K D) (subs : List (Interp K D))

/-- An exception of the array (`std::out_of_range`); its type is not distinguished here. -/
def fromNd {α : Type} : NdArray.Res α → Res α
  | .ok a => .ok a
  | .throw _ => .throw .elements
  | .ub => .ub

section
variable {K D : Type} [Field K] [LinearOrder K] [DecidableEq D]

/-- `checkOrder` (`GridInterpolation.icpp` 50-54, 78-80). `std::is_sorted` is the same loop as in `Piecewise`. -/
def checkOrder : Axis K D → Bool
  | .cont ks => knotsOk ks
  | .disc _ => true

/-- The loop of the constructor (`GridInterpolation.icpp` 163-166). -/
def buildLoop (rest : Nd → Res (Interp K D)) (values : Nd) : List Nat → Res (List (Interp K D))
  | [] => .ok []
  | i :: is => do
    let sub ← fromNd (NdArray.rslice values i)
    let I ← rest sub
    let Is ← buildLoop rest values is
    return I :: Is

/-- The constructors of `InterpN` (`GridInterpolation.icpp` 97-106, 147-167). -/
def build (h : Heap K) : List (Axis K D) → Nd → Res (Interp K D)
  | [], _ => .ub
  | [axis], values => do
    let vs ← fromNd (NdArray.iterate h values)
    if values.shape.length ≠ 1 then .throw .elements
    else if axis.size ≠ values.size then .throw .elements
    else .ok (.last axis vs)
  | axis :: axis2 :: rest, values =>
    if values.shape.length ≠ rest.length + 2 then .throw .elements
    else if checkOrder axis = false then .throw .elements
    else if axis.size ≠ values.shape.getLastD 0 then .throw .elements
    else do
      let subs ← buildLoop (build h (axis2 :: rest)) values (List.range axis.size)
      return .node axis subs

mutual
/-- `operator()` (`GridInterpolation.icpp` 115-117, 180-182) with the two traits (19-48, 62-76). -/
def call (extrapolate : Bool) : Interp K D → List (K ⊕ D) → Res K
  | .last (.cont ks) values, [.inl x] => simpleInterpolation x ks values extrapolate
  | .last (.disc ks) values, [.inr x] =>
    let i := ks.findIdx (· = x)
    match ks[i]?, values[i]? with
    | some k, some v => if k ≠ x then .ok 0 else .ok v
    | _, _ => .ub
  | .node (.cont ks) subs, .inl x :: rest =>
    match ks.head?, ks.getLast? with
    | some front, some back =>
      if (x < front ∨ x > back) ∧ !extrapolate then .ok 0
      else if ks.length = 1 then callNth extrapolate subs 0 rest
      else
        let x2i := (ks.takeWhile (· < x)).length
        let x2i := if x2i = 0 then 1 else if x2i = ks.length then ks.length - 1 else x2i
        do
          let y1 ← callNth extrapolate subs (x2i - 1) rest
          let y2 ← callNth extrapolate subs x2i rest
          match ks[x2i - 1]?, ks[x2i]? with
          | some k1, some k2 => simpleInterpolation x [k1, k2] [y1, y2] extrapolate
          | _, _ => .ub
    | _, _ => .ub
  | .node (.disc ks) subs, .inr x :: rest =>
    let i := ks.findIdx (· = x)
    match ks[i]? with
    | some k => if k ≠ x then .ok 0 else callNth extrapolate subs i rest
    | none => .ub
  | _, _ => .ub
/-- `(*interpolators[i])(rest...)`. -/
def callNth (extrapolate : Bool) : List (Interp K D) → Nat → List (K ⊕ D) → Res K
  | [], _, _ => .ub
  | I :: _, 0, xs => call extrapolate I xs
  | _ :: Is, i + 1, xs => callNth extrapolate Is i xs
end

/-- `interpn` (`interpolation.icpp` 29-34, 51-54): the axes in the opposite order. -/
def interpn (h : Heap K) (grid : List (List K)) (values : Nd) (type : InterpType) : Res (Interp K D) := do
  let I ← build h (grid.reverse.map .cont) values
  if type ≠ .linear then .throw .elements else .ok I

/-- The call of the function that `interpn` returns (`interpolation.icpp` 36-39): the arguments in the opposite order. -/
def interpnCall (extrapolate : Bool) (I : Interp K D) (xs : List K) : Res K := call extrapolate I (xs.reverse.map .inl)

end

end Alexandria.MathUtils
