import Verif.MathUtils.InverseModel

/-!
# Model of the extraction of modes

A sampled density is the list of its abscissas and the list of its values (`std::pair` of two vectors). An access outside a vector is undefined behaviour.
Arithmetic is exact; the only result that need not be finite, the mean of a mode without area, is `none`.
-/

namespace Alexandria.MathUtils

section
variable {K : Type} [Field K] [LinearOrder K]

/-- Access to an element of a vector. -/
def elem (l : List K) (i : Nat) : Res K :=
  match l[i]? with
  | some x => .ok x
  | none => .ub

/-- `ModeInfo` (`PdfModeExtraction.h` 46-73). -/
structure ModeInfo (K : Type) where
  sample : K
  mean : Option K
  interp : K
  area : K
  deriving DecidableEq, Repr

/-- The loop of `findMaximumIndex` (`PdfModeExtraction.cpp` 54-60). -/
def maxIndexLoop : List K → K → Nat → Nat → Nat
  | [], _, _, maxIndex => maxIndex
  | y :: ys, mx, index, maxIndex => if y > mx then maxIndexLoop ys y (index + 1) index else maxIndexLoop ys mx (index + 1) maxIndex

/-- `findMaximumIndex` (`PdfModeExtraction.cpp` 50-63). -/
def findMaximumIndex (ys : List K) : Nat := maxIndexLoop ys (-1) 0 0

/-- The loop to the left in `catchPeak` (`PdfModeExtraction.cpp` 72-82), by the position. -/
def leftLoop (ys : List K) (threshold : K) : Nat → Nat → Res Nat
  | 0, mn => .ok mn
  | p + 1, mn => do
    let v ← elem ys (p + 1)
    if v = 0 then return mn
    let w ← elem ys p
    if v < threshold ∧ w ≥ v then return p + 1
    leftLoop ys threshold p (p + 1)

/-- The loop to the right in `catchPeak` (`PdfModeExtraction.cpp` 84-93), by the number of positions up to and including the size (the condition of the loop). -/
def rightLoop (ys : List K) (threshold : K) : Nat → Nat → Nat → Res Nat
  | 0, _, mx => .ok mx
  | fuel + 1, p, mx =>
    if p = ys.length - 1 then .ok mx
    else do
      let v ← elem ys p
      if v = 0 then return mx
      let w ← elem ys (p + 1)
      if v < threshold ∧ w ≥ v then return p
      rightLoop ys threshold fuel (p + 1) p

/-- `catchPeak` (`PdfModeExtraction.cpp` 65-96). An empty vector fails at the first access. -/
def catchPeak (ys : List K) (center : Nat) (mergeRatio : K) : Res (Nat × Nat) := do
  let peak ← elem ys center
  let threshold := (1 - mergeRatio) * peak
  let mn ← leftLoop ys threshold center 0
  let mx ← rightLoop ys threshold (ys.length + 1 - center) center (ys.length - 1)
  return (mn, mx)

/-- The width of a sample in `avgArea` (`PdfModeExtraction.cpp` 104-111). -/
def sampleWidth (xs : List K) (i : Nat) : Res K :=
  if i = 0 then do
    let a ← elem xs 1
    let b ← elem xs 0
    return a - b
  else if i = xs.length - 1 then do
    let a ← elem xs i
    let b ← elem xs (i - 1)
    return a - b
  else do
    let a ← elem xs (i + 1)
    let b ← elem xs (i - 1)
    return (a - b) / 2

/-- The loop of `avgArea` (`PdfModeExtraction.cpp` 103-115), by the number of samples left. -/
def areaLoop (xs ys : List K) : Nat → Nat → K → K → Res (K × K)
  | 0, _, num, area => .ok (num, area)
  | fuel + 1, i, num, area => do
    let dx ← sampleWidth xs i
    let x ← elem xs i
    let y ← elem ys i
    areaLoop xs ys fuel (i + 1) (num + x * y * dx) (area + y * dx)

/-- `avgArea` (`PdfModeExtraction.cpp` 99-118). -/
def avgArea (xs ys : List K) (mn mx : Nat) : Res (Option K × K) := do
  let r ← areaLoop xs ys (mx + 1 - mn) mn 0 0
  return (if r.2 = 0 then none else some (r.1 / r.2), r.2)

/-- `getInterpolationAround` (`PdfModeExtraction.cpp` 120-164). -/
def interpolationAround (xs ys : List K) (i : Nat) : Res K :=
  if i ≥ xs.length then .throw .elements
  else
    let i' := if i = 0 then i + 1 else if i + 1 = xs.length then i - 1 else i
    if i' = 0 then .ub
    else do
      let x0 ← elem xs (i' - 1)
      let y0 ← elem ys (i' - 1)
      let x1 ← elem xs i'
      let y1 ← elem ys i'
      let x2 ← elem xs (i' + 1)
      let y2 ← elem ys (i' + 1)
      let denom := 2 * ((x1 - x0) * y2 - (x2 - x0) * y1 + (x2 - x1) * y0)
      let num := (x1 * x1 - x0 * x0) * y2 - (x2 * x2 - x0 * x0) * y1 + (x2 * x2 - x1 * x1) * y0
      let xmax := if denom ≠ 0 then num / denom else x1
      let front ← elem xs 0
      let back ← elem xs (xs.length - 1)
      return if xmax < front then front else if xmax > back then back else xmax

/-- `flatternPeak` (`PdfModeExtraction.cpp` 166-173), with the value 0; the bounds are those of `catchPeak`. -/
def flatten (ys : List K) (mn mx : Nat) : List K := ys.zipIdx.map fun p => if mn ≤ p.2 ∧ p.2 ≤ mx then 0 else p.1

/-- The body shared by both extractions: the mode around the highest sample, and the density without it
(`PdfModeExtraction.cpp` 181-187 and 208-213, 231). -/
def extractMode (xs ys : List K) (mergeRatio : K) : Res (ModeInfo K × List K) := do
  let peak := findMaximumIndex ys
  let mm ← catchPeak ys peak mergeRatio
  let ma ← avgArea xs ys mm.1 mm.2
  let inter ← interpolationAround xs ys peak
  let sample ← elem xs peak
  return (⟨sample, ma.1, inter, ma.2⟩, flatten ys mm.1 mm.2)

/-- `extractNHighestModes` (`PdfModeExtraction.cpp` 175-190). -/
def highestModes (xs : List K) (mergeRatio : K) : Nat → List K → Res (List (ModeInfo K))
  | 0, _ => .ok []
  | n + 1, ys => do
    let r ← extractMode xs ys mergeRatio
    let rest ← highestModes xs mergeRatio n r.2
    return r.1 :: rest

/-- Where a mode is inserted (`PdfModeExtraction.cpp` 215-227). -/
def insertMode (n : Nat) (m : ModeInfo K) (result : List (ModeInfo K)) : List (ModeInfo K) :=
  match result.dropWhile fun r => ¬ r.area < m.area with
  | [] => if result.length < n then result ++ [m] else result
  | rest => (result.takeWhile fun r => ¬ r.area < m.area) ++ m :: rest

/-- The loop of `extractNBigestModes` (`PdfModeExtraction.cpp` 206-233); `none` if it does not end within the fuel. The multiplication `3 * n` is exact here. -/
def biggestLoop (xs : List K) (mergeRatio : K) (n : Nat) : Nat → List K → K → Nat → List (ModeInfo K) → Res (Option (List (ModeInfo K)))
  | 0, _, _, _, _ => .ok none
  | fuel + 1, ys, total, loop, result => do
    let r ← extractMode xs ys mergeRatio
    let result' := insertMode n r.1 result
    let total' := total - r.1.area
    if n ≤ result'.length then
      match result'.getLast? with
      | none => .ub
      | some b => if b.area > total' ∨ loop > 3 * n then .ok (some result') else biggestLoop xs mergeRatio n fuel r.2 total' (loop + 1) result'
    else biggestLoop xs mergeRatio n fuel r.2 total' (loop + 1) result'

/-- `extractNBigestModes` (`PdfModeExtraction.cpp` 197-236). -/
def biggestModes (fuel : Nat) (xs ys : List K) (mergeRatio : K) (n : Nat) : Res (Option (List (ModeInfo K))) := do
  if xs.length = 0 then .ub
  let t ← avgArea xs ys 0 (xs.length - 1)
  biggestLoop xs mergeRatio n fuel ys t.2 0 []

end

end Alexandria.MathUtils
