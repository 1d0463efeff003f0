import Verif.Common.Outcome
import Verif.Common.Ieee
import Verif.MathUtils.CumulativeModel
import Verif.Histogram.Model
import Verif.SOM.Model

/-!
# Model of the behaviour with overflow and underflow

Functions of `MathUtils`, `Histogram` and `SOM` with the arithmetic of `Common/Ieee.lean`: rounding (to zero for what is too small), infinities
beyond the greatest number `M`, and NaN.  The inputs are finite.
-/

namespace Alexandria.Overflow

variable {K : Type} [Field K] [LinearOrder K] (R : Rounding K) (M : K)

/-! ## Cumulatives -/

/-- The sums of `fromPdf` (`Cumulative.cpp` 79-87). -/
def sums (total : Ext K) : List K → List (Ext K)
  | [] => []
  | p :: ps => Ext.add R M total (.fin p) :: sums (Ext.add R M total (.fin p)) ps

/-- `fromPdf` (`Cumulative.cpp` 78-90) with the check of the constructor (49-55). -/
def fromPdf (xs pdf : List K) : Outcome Unit (List (K × Ext K)) :=
  if xs.length ≠ pdf.length then .throw () else .ok (xs.zip (sums R M (.fin 0) pdf))

/-- `normalize` (`Cumulative.cpp` 92-102). -/
def normalize (c : List (K × Ext K)) : Outcome Unit (List (K × Ext K)) :=
  match c.getLast? with
  | none => .ub
  | some l => .ok (c.map fun p => (p.1, Ext.div R M p.2 l.2))

/-- `findValue` (`Cumulative.cpp` 104-138). -/
def findValue (c : List (K × Ext K)) (ratio : K) (position : MathUtils.Tray) : Outcome Unit (Ext K) :=
  if 1 < ratio ∨ ratio < 0 then .throw ()
  else match c.getLast? with
    | none => .ub
    | some l =>
      let value := Ext.mul R M l.2 (.fin ratio)
      let before := c.takeWhile fun p => p.2.lt value
      match c.dropWhile fun p => p.2.lt value with
      | [] => .ub
      | p :: rest =>
        match (before ++ (p :: rest).takeWhile fun q => q.2.eq p.2).getLast? with
        | none => .ub
        | some e => .ok (match position with
          | .begin => .fin p.1
          | .middle => Ext.half R M (Ext.add R M (.fin p.1) (.fin e.1))
          | .end' => .fin e.1)

/-- The outer loop of `findMinInterval` (`Cumulative.cpp` 156-171). -/
def minLoop (rate : Ext K) : List (K × Ext K) → List (K × Ext K) → Ext K → K → K → K × K
  | [], _, _, mn, mx => (mn, mx)
  | p1 :: l1, l2, correction, mn, mx =>
    match l2.dropWhile fun p2 => (Ext.add R M (Ext.sub R M p2.2 p1.2) correction).lt rate with
    | [] => (mn, mx)
    | p2 :: l2 =>
      if (Ext.sub R M (.fin p2.1) (.fin p1.1)).le (Ext.sub R M (.fin mx) (.fin mn)) then minLoop rate l1 (p2 :: l2) (.fin 0) p1.1 p2.1
      else minLoop rate l1 (p2 :: l2) (.fin 0) mn mx

/-- `findMinInterval` (`Cumulative.cpp` 140-174). -/
def findMinInterval (c : List (K × Ext K)) (rate : K) : Outcome Unit (K × K) :=
  if 1 < rate ∨ rate ≤ 0 then .throw ()
  else match c, c.getLast? with
    | p :: l, some last => .ok (minLoop R M (Ext.mul R M (.fin rate) last.2) (p :: l) l p.2 p.1 last.1)
    | _, _ => .ub

/-! ## Histograms -/

/-- The conversion to `ssize_t`: undefined for infinities, NaN and what does not fit. -/
def toIndex [IsStrictOrderedRing K] [FloorRing K] : Ext K → Outcome Unit Int
  | .fin a => if -2 ^ 63 ≤ Histogram.trunc a ∧ Histogram.trunc a < 2 ^ 63 then .ok (Histogram.trunc a) else .ub
  | _ => .ub

/-- `m_step` of `Sqrt` (`Sqrt.h` 49); the number of bins is converted to the type of the values. -/
def step (nbins : Nat) (vmin vmax : K) : Ext K := Ext.div R M (Ext.sub R M (.fin vmax) (.fin vmin)) (Ext.result R M nbins)

/-- `getBinIndex` of `Sqrt` (`Sqrt.h` 54-58) after `computeBins` (45-52). -/
def binIndex [IsStrictOrderedRing K] [FloorRing K] (nbins : Nat) (vmin vmax value : K) : Outcome Unit Int :=
  if value = vmax then .ok ((nbins : Int) - 1)
  else toIndex (Ext.div R M (Ext.sub R M (.fin value) (.fin vmin)) (step R M nbins vmin vmax))

/-! ## Linear interpolation -/

/-- The coefficients of a line (`linear.cpp` 37-38). -/
def coefs (p q : K × K) : Ext K × Ext K :=
  let coef1 := Ext.div R M (Ext.sub R M (.fin q.2) (.fin p.2)) (Ext.sub R M (.fin q.1) (.fin p.1))
  (Ext.sub R M (.fin p.2) (Ext.mul R M coef1 (.fin p.1)), coef1)

/-- The loop of `Polynomial::operator()` (`Polynomial.cpp` 42-45). -/
def polyLoop (x : K) : List (Ext K) → Ext K → Ext K → Ext K
  | [], result, _ => result
  | c :: cs, result, xPow => polyLoop x cs (Ext.add R M result (Ext.mul R M c xPow)) (Ext.mul R M xPow (.fin x))

/-- `Polynomial::operator()` (`Polynomial.cpp` 39-47). -/
def polyEval (c : List (Ext K)) (x : K) : Ext K := polyLoop R M x c (.fin 0) (.fin 1)

/-- One piece of `linearInterpolation` (`linear.cpp` 36-40), evaluated. -/
def line (p q : K × K) (x : K) : Ext K := polyEval R M [(coefs R M p q).1, (coefs R M p q).2] x

/-! ## Self organising maps: `SOM.findBMU` is used as it is -/

/-- `L2::distance` (`Distance.h` 56-62); `root` is the square root of finite numbers. -/
def l2 {nd : Nat} (root : K → K) (left right : Fin nd → Ext K) : Ext K :=
  match (List.finRange nd).foldl (fun r i =>
      Ext.add R M r (Ext.mul R M (Ext.sub R M (left i) (right i)) (Ext.sub R M (left i) (right i)))) (.fin 0) with
  | .fin s => .fin (root s)
  | .ninf => .nan
  | a => a

end Alexandria.Overflow
