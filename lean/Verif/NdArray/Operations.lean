import Verif.NdArray.Model

/-!
# Model of `NdArray/NdArray/_impl/Operations.icpp`: sum, trapz, argmax, argmin

`T` is any type with the arithmetic that the operation uses.  `auto& output_val = output.at(..)` followed by `+=` is
modelled by reading the element, accumulating, and writing it back once (nothing else reads it in between).
-/

namespace Alexandria.NdArray

variable {T : Type}

/-- `sum(array)` (`Operations.icpp` 24-27): `std::accumulate` from `T{}`. -/
def sumAll [Add T] [Zero T] (h : Heap T) (a : Nd) : Res T := do
  let l ← iterate h a
  return l.foldl (· + ·) 0

/-- Axis argument (`Operations.icpp` 31-37, 68-74): negative values count from the end. A value below `-rank` fails the
`assert` (or, without it, is converted to a huge number and throws); the model throws. -/
def normAxis (rank : Nat) (axis : Int) : Res Nat :=
  let axis' := if axis < 0 then (rank : Int) + axis else axis
  if axis' < 0 ∨ (rank : Int) ≤ axis' then .throw .outOfRange else .ok axis'.toNat

/-- Accumulation along the axis (`Operations.icpp` 57-60). -/
def sumLoop [Add T] (h : Heap T) (a : Nd) (inCoords : List Nat) (axis : Nat) : List Nat → T → Res T
  | [], acc => .ok acc
  | i :: is, acc => do
    let x ← at' h a (inCoords.set axis i)
    sumLoop h a inCoords axis is (acc + x)

/-- Accumulation of trapezoids (`Operations.icpp` 100-108); `knots[i]` is `*(kbegin + i)`. The indices run from 1. -/
def trapzLoop [Add T] [Sub T] [Mul T] [Div T] [OfNat T 2] (h : Heap T) (a : Nd) (knots : List T) (inCoords : List Nat)
    (axis : Nat) : List Nat → T → Res T
  | [], acc => .ok acc
  | i :: is, acc =>
    match knots[i]?, knots[i - 1]? with
    | some k1, some k0 => do
      let dx := k1 - k0
      let b ← at' h a (inCoords.set axis i)
      let a' ← at' h a (inCoords.set axis (i - 1))
      trapzLoop h a knots inCoords axis is (acc + ((a' + b) * dx) / 2)
    | _, _ => .ub

/-- The loop over the output elements (`Operations.icpp` 51-61 and 92-109). -/
def fillLoop (out : Nd) (val : Heap T → List Nat → T → Res T) : List Nat → Heap T → Res (Heap T)
  | [], h => .ok h
  | i :: is, h => do
    let c ← unravelIndex i out.shape
    let v0 ← at' h out c
    let v ← val h c v0
    let h' ← set' h out c v
    fillLoop out val is h'

/-- `sum(array, axis)` (`Operations.icpp` 29-64). -/
def sumAxis [Add T] [Zero T] (h : Heap T) (a : Nd) (axis : Int) : Res (Heap T × Nd) := do
  let ax ← normAxis a.shape.length axis
  if a.shape.length = 1 then
    let (h1, out) := mkZero 0 h [1]
    let s ← sumAll h1 a
    let h2 ← set' h1 out [0] s
    return (h2, out)
  else
    let (h1, out) := mkZero 0 h (a.shape.eraseIdx ax)
    let h2 ← fillLoop out
      (fun g c v0 => sumLoop g a (c.insertIdx ax 0) ax (List.range (a.shape.getD ax 0)) v0) (List.range out.size) h1
    return (h2, out)

/-- `trapz(array, kbegin, kend, axis)` (`Operations.icpp` 66-112). -/
def trapz [Add T] [Sub T] [Mul T] [Div T] [OfNat T 2] [Zero T] (h : Heap T) (a : Nd) (knots : List T) (axis : Int) :
    Res (Heap T × Nd) := do
  let ax ← normAxis a.shape.length axis
  let axisSize := a.shape.getD ax 0
  if knots.length ≠ axisSize then .throw .lengthError
  else
    let outShape := if a.shape.length = 1 then [1] else a.shape.eraseIdx ax
    let (h1, out) := mkZero 0 h outShape
    let h2 ← fillLoop out
      (fun g c v0 => trapzLoop g a knots (if a.shape.length = 1 then c else c.insertIdx ax 0) ax
        (List.range' 1 (axisSize - 1)) v0) (List.range out.size) h1
    return (h2, out)

/-- `std::max_element`: position of the first element that no other one exceeds (`first` moves only if
`*largest < *first`). For an empty range it returns the end, position 0. -/
def maxElementPos [LT T] [DecidableLT T] : List T → Nat → Nat → Option T → Nat
  | [], _, best, _ => best
  | x :: xs, i, best, none => have := best; maxElementPos xs (i + 1) i (some x)
  | x :: xs, i, best, some b => if b < x then maxElementPos xs (i + 1) i (some x) else maxElementPos xs (i + 1) best (some b)

/-- `argmax` (`Operations.icpp` 114-119). -/
def argmax [LT T] [DecidableLT T] (h : Heap T) (a : Nd) : Res (List Nat) := do
  let l ← iterate h a
  unravelIndex (maxElementPos l 0 0 none) a.shape

/-- `std::min_element`: moves only if `*first < *smallest`. -/
def minElementPos [LT T] [DecidableLT T] : List T → Nat → Nat → Option T → Nat
  | [], _, best, _ => best
  | x :: xs, i, best, none => have := best; minElementPos xs (i + 1) i (some x)
  | x :: xs, i, best, some b => if x < b then minElementPos xs (i + 1) i (some x) else minElementPos xs (i + 1) best (some b)

/-- `argmin` (`Operations.icpp` 121-126). -/
def argmin [LT T] [DecidableLT T] (h : Heap T) (a : Nd) : Res (List Nat) := do
  let l ← iterate h a
  unravelIndex (minElementPos l 0 0 none) a.shape

end Alexandria.NdArray
