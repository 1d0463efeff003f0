import Verif.MathUtils.InterpModel
import Verif.MathUtils.CumulativeModel
import Verif.MathUtils.ModesModel

/-!
# The functions that take a data set

A data set (`XYDataset.h`) is the list of its points; the overloads copy it into two vectors and call the functions for vectors.
-/

namespace Alexandria.MathUtils

section
variable {K : Type} [Field K] [LinearOrder K]

/-- The loops that copy a data set into two vectors: `getXYs` (`PdfModeExtraction.cpp` 36-48), the same in `Cumulative.cpp` 57-64, 66-75 and in `interpolation.cpp` 87-96. -/
def getXYs : List (K × K) → List K × List K
  | [] => ([], [])
  | p :: l => (p.1 :: (getXYs l).1, p.2 :: (getXYs l).2)

/-- `interpolate` of a data set (`interpolation.cpp` 87-96). -/
def interpolateSet (lo hi : K) (l : List (K × K)) (type : InterpType) (extrapolate : Bool) : Res (Fn K) :=
  interpolate lo hi (getXYs l).1 (getXYs l).2 type extrapolate

/-- The constructor of `Cumulative` from a data set (`Cumulative.cpp` 57-64). It does not call the other constructor; the two vectors have the same length. -/
def cumulativeSet (l : List (K × K)) : Res (List (K × K)) := .ok ((getXYs l).1.zip (getXYs l).2)

/-- `fromPdf` of a data set (`Cumulative.cpp` 66-76). -/
def fromPdfSet (l : List (K × K)) : Res (List (K × K)) := fromPdf (getXYs l).1 (getXYs l).2

/-- `extractNHighestModes` of a data set (`PdfModeExtraction.cpp` 192-195). -/
def highestModesSet (l : List (K × K)) (mergeRatio : K) (n : Nat) : Res (List (ModeInfo K)) := highestModes (getXYs l).1 mergeRatio n (getXYs l).2

/-- `extractNBigestModes` of a data set (`PdfModeExtraction.cpp` 238-241). -/
def biggestModesSet (fuel : Nat) (l : List (K × K)) (mergeRatio : K) (n : Nat) : Res (Option (List (ModeInfo K))) :=
  biggestModes fuel (getXYs l).1 (getXYs l).2 mergeRatio n

end

end Alexandria.MathUtils
