import Verif.MathUtils.ModesModel
import Verif.Common.Ieee

/-!
# Model of the extraction of modes on floating point numbers

The functions of `ModesModel.lean` for the arithmetic of `double`: the operations and comparisons are those of an `Arith`, of which nothing is assumed. The instances are
rounded arithmetic on finite numbers and the arithmetic with infinities and NaN.  Operations are not contracted to fused ones.
-/

namespace Alexandria.MathUtils.FloatModes

/-- The operations and comparisons of a type of numbers. -/
structure Arith (F : Type) where
  zero : F
  one : F
  two : F
  minusOne : F
  add : F → F → F
  sub : F → F → F
  mul : F → F → F
  div : F → F → F
  lt : F → F → Bool
  le : F → F → Bool
  eq : F → F → Bool

section
variable {K : Type} [Field K] [LinearOrder K]

/-- Finite floating point numbers, where nothing overflows. -/
def Arith.rounded (R : Rounding K) : Arith K where
  zero := 0
  one := 1
  two := 2
  minusOne := -1
  add a b := R.rnd (a + b)
  sub a b := R.rnd (a - b)
  mul a b := R.rnd (a * b)
  div a b := R.rnd (a / b)
  lt a b := decide (a < b)
  le a b := decide (a ≤ b)
  eq a b := decide (a = b)

/-- Floating point numbers with infinities and NaN. The only divisors that can be 0 are areas, which are sums that start with 0 and so never are a negative 0. -/
def Arith.ieee (R : Rounding K) (M : K) : Arith (Ext K) where
  zero := .fin 0
  one := .fin 1
  two := .fin 2
  minusOne := .fin (-1)
  add := Ext.add R M
  sub := Ext.sub R M
  mul := Ext.mul R M
  div := Ext.div R M
  lt := Ext.lt
  le := Ext.le
  eq := Ext.eq

end

section
variable {F : Type} (A : Arith F)

/-- Access to an element of a vector. -/
def elem (l : List F) (i : Nat) : Res F :=
  match l[i]? with
  | some x => .ok x
  | none => .ub

/-- `ModeInfo` (`PdfModeExtraction.h` 46-73). -/
structure Mode (F : Type) where
  sample : F
  mean : F
  interp : F
  area : F
  deriving DecidableEq, Repr

/-- The loop of `findMaximumIndex` (`PdfModeExtraction.cpp` 54-60). -/
def maxIndexLoop : List F → F → Nat → Nat → Nat
  | [], _, _, maxIndex => maxIndex
  | y :: ys, mx, index, maxIndex => if A.lt mx y then maxIndexLoop ys y (index + 1) index else maxIndexLoop ys mx (index + 1) maxIndex

/-- `findMaximumIndex` (`PdfModeExtraction.cpp` 50-63). -/
def findMaximumIndex (ys : List F) : Nat := maxIndexLoop A ys A.minusOne 0 0

/-- The loop to the left in `catchPeak` (`PdfModeExtraction.cpp` 72-82), by the position. -/
def leftLoop (ys : List F) (threshold : F) : Nat → Nat → Res Nat
  | 0, mn => .ok mn
  | p + 1, mn => do
    let v ← elem ys (p + 1)
    if A.eq v A.zero then return mn
    let w ← elem ys p
    if A.lt v threshold && A.le v w then return p + 1
    leftLoop ys threshold p (p + 1)

/-- The loop to the right in `catchPeak` (`PdfModeExtraction.cpp` 84-93), by the number of positions up to and including the size (the condition of the loop). -/
def rightLoop (ys : List F) (threshold : F) : Nat → Nat → Nat → Res Nat
  | 0, _, mx => .ok mx
  | fuel + 1, p, mx =>
    if p = ys.length - 1 then .ok mx
    else do
      let v ← elem ys p
      if A.eq v A.zero then return mx
      let w ← elem ys (p + 1)
      if A.lt v threshold && A.le v w then return p
      rightLoop ys threshold fuel (p + 1) p

/-- `catchPeak` (`PdfModeExtraction.cpp` 65-96). An empty vector fails at the first access. -/
def catchPeak (ys : List F) (center : Nat) (mergeRatio : F) : Res (Nat × Nat) := do
  let peak ← elem ys center
  let threshold := A.mul (A.sub A.one mergeRatio) peak
  let mn ← leftLoop A ys threshold center 0
  let mx ← rightLoop A ys threshold (ys.length + 1 - center) center (ys.length - 1)
  return (mn, mx)

/-- The width of a sample in `avgArea` (`PdfModeExtraction.cpp` 104-111). -/
def sampleWidth (xs : List F) (i : Nat) : Res F :=
  if i = 0 then do
    let a ← elem xs 1
    let b ← elem xs 0
    return A.sub a b
  else if i = xs.length - 1 then do
    let a ← elem xs i
    let b ← elem xs (i - 1)
    return A.sub a b
  else do
    let a ← elem xs (i + 1)
    let b ← elem xs (i - 1)
    return A.div (A.sub a b) A.two

/-- The loop of `avgArea` (`PdfModeExtraction.cpp` 103-115), by the number of samples left. -/
def areaLoop (xs ys : List F) : Nat → Nat → F → F → Res (F × F)
  | 0, _, num, area => .ok (num, area)
  | fuel + 1, i, num, area => do
    let dx ← sampleWidth A xs i
    let x ← elem xs i
    let y ← elem ys i
    areaLoop xs ys fuel (i + 1) (A.add num (A.mul (A.mul x y) dx)) (A.add area (A.mul y dx))

/-- `avgArea` (`PdfModeExtraction.cpp` 99-118). -/
def avgArea (xs ys : List F) (mn mx : Nat) : Res (F × F) := do
  let r ← areaLoop A xs ys (mx + 1 - mn) mn A.zero A.zero
  return (A.div r.1 r.2, r.2)

/-- `getInterpolationAround` (`PdfModeExtraction.cpp` 120-164). -/
def interpolationAround (xs ys : List F) (i : Nat) : Res F :=
  if i ≥ xs.length then .throw .elements
  else
    let i' := if i = 0 then i + 1 else if i + 1 = xs.length then i - 1 else i
    if i' = 0 then .ub
    else do
      let x0 ← elem xs (i' - 1)
      let y0 ← elem ys (i' - 1)
      let x1 ← elem xs i'
      let y1 ← elem ys i'
      let x2 ← elem xs (i' + 1)
      let y2 ← elem ys (i' + 1)
      let denom := A.mul A.two (A.add (A.sub (A.mul (A.sub x1 x0) y2) (A.mul (A.sub x2 x0) y1)) (A.mul (A.sub x2 x1) y0))
      let num := A.add (A.sub (A.mul (A.sub (A.mul x1 x1) (A.mul x0 x0)) y2) (A.mul (A.sub (A.mul x2 x2) (A.mul x0 x0)) y1))
        (A.mul (A.sub (A.mul x2 x2) (A.mul x1 x1)) y0)
      let xmax := if !A.eq denom A.zero then A.div num denom else x1
      let front ← elem xs 0
      let back ← elem xs (xs.length - 1)
      return if A.lt xmax front then front else if A.lt back xmax then back else xmax

/-- `flatternPeak` (`PdfModeExtraction.cpp` 166-173), with the value 0; the bounds are those of `catchPeak`. -/
def flatten (ys : List F) (mn mx : Nat) : List F := ys.zipIdx.map fun p => if mn ≤ p.2 ∧ p.2 ≤ mx then A.zero else p.1

/-- The body shared by both extractions: the mode around the highest sample, and the density without it
(`PdfModeExtraction.cpp` 181-187 and 208-213, 231). -/
def extractMode (xs ys : List F) (mergeRatio : F) : Res (Mode F × List F) := do
  let peak := findMaximumIndex A ys
  let mm ← catchPeak A ys peak mergeRatio
  let ma ← avgArea A xs ys mm.1 mm.2
  let inter ← interpolationAround A xs ys peak
  let sample ← elem xs peak
  return (⟨sample, ma.1, inter, ma.2⟩, flatten A ys mm.1 mm.2)

/-- `extractNHighestModes` (`PdfModeExtraction.cpp` 175-190). -/
def highestModes (xs : List F) (mergeRatio : F) : Nat → List F → Res (List (Mode F))
  | 0, _ => .ok []
  | n + 1, ys => do
    let r ← extractMode A xs ys mergeRatio
    let rest ← highestModes xs mergeRatio n r.2
    return r.1 :: rest

/-- Where a mode is inserted (`PdfModeExtraction.cpp` 215-227). -/
def insertMode (n : Nat) (m : Mode F) (result : List (Mode F)) : List (Mode F) :=
  match result.dropWhile fun r => !A.lt r.area m.area with
  | [] => if result.length < n then result ++ [m] else result
  | rest => (result.takeWhile fun r => !A.lt r.area m.area) ++ m :: rest

/-- The loop of `extractNBigestModes` (`PdfModeExtraction.cpp` 206-233); `none` if it does not end within the fuel. The multiplication `3 * n` is exact here. -/
def biggestLoop (xs : List F) (mergeRatio : F) (n : Nat) : Nat → List F → F → Nat → List (Mode F) → Res (Option (List (Mode F)))
  | 0, _, _, _, _ => .ok none
  | fuel + 1, ys, total, loop, result => do
    let r ← extractMode A xs ys mergeRatio
    let result' := insertMode A n r.1 result
    let total' := A.sub total r.1.area
    if n ≤ result'.length then
      match result'.getLast? with
      | none => .ub
      | some b => if A.lt total' b.area ∨ loop > 3 * n then .ok (some result') else biggestLoop xs mergeRatio n fuel r.2 total' (loop + 1) result'
    else biggestLoop xs mergeRatio n fuel r.2 total' (loop + 1) result'

/-- `extractNBigestModes` (`PdfModeExtraction.cpp` 197-236). -/
def biggestModes (fuel : Nat) (xs ys : List F) (mergeRatio : F) (n : Nat) : Res (Option (List (Mode F))) := do
  if xs.length = 0 then .ub
  let t ← avgArea A xs ys 0 (xs.length - 1)
  biggestLoop A xs mergeRatio n fuel ys t.2 0 []

end

end Alexandria.MathUtils.FloatModes
