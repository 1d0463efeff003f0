import Verif.Common.Outcome
import Verif.MathUtils.CumulativeModel
import Verif.Histogram.Model
import Verif.SOM.Model

/-!
# Model of the behaviour with NaN

The models of the components calculate with numbers.  Here the functions that compare numbers are modelled again with numbers that may be
NaN: every comparison with NaN is false and every operation with NaN gives NaN.  Infinities are not modelled and there is no rounding.
`agree` theorems in `Agree.lean` say that for numbers these are the models of the components.
-/

namespace Alexandria.NotANumber

/-- A `double` that may be NaN. -/
inductive Num (K : Type) where
  | nan
  | val (a : K)
  deriving DecidableEq, Repr

variable {K : Type}

/-- `a < b`. -/
def Num.lt [LT K] [DecidableLT K] : Num K → Num K → Bool
  | .val a, .val b => decide (a < b)
  | _, _ => false

/-- `a <= b`. -/
def Num.le [LE K] [DecidableLE K] : Num K → Num K → Bool
  | .val a, .val b => decide (a ≤ b)
  | _, _ => false

/-- `a == b`. -/
def Num.eq [DecidableEq K] : Num K → Num K → Bool
  | .val a, .val b => decide (a = b)
  | _, _ => false

instance [LT K] [DecidableLT K] : LT (Num K) := ⟨fun a b => Num.lt a b = true⟩
instance [LT K] [DecidableLT K] : DecidableLT (Num K) := fun a b => inferInstanceAs (Decidable (Num.lt a b = true))

/-- An operation. -/
def Num.op (f : K → K → K) : Num K → Num K → Num K
  | .val a, .val b => .val (f a b)
  | _, _ => .nan

instance [Add K] : Add (Num K) := ⟨Num.op (· + ·)⟩
instance [Sub K] : Sub (Num K) := ⟨Num.op (· - ·)⟩
instance [Mul K] : Mul (Num K) := ⟨Num.op (· * ·)⟩

/-! ## Polynomials and piecewise functions -/

section
variable [Field K] [LinearOrder K]

/-- The loop of `Polynomial::operator()` (`Polynomial.cpp` 42-45). -/
def polyLoop (x : Num K) : List K → Num K → Num K → Num K
  | [], result, _ => result
  | c :: cs, result, xPow => polyLoop x cs (result + .val c * xPow) (xPow * x)

/-- `Polynomial::operator()` (`Polynomial.cpp` 39-47). -/
def polyEval (c : List K) (x : Num K) : Num K := polyLoop x c (.val 0) (.val 1)

/-- Which function `Piecewise::operator()` (`Piecewise.cpp` 71-85) applies, `none` if it returns zero.  If `std::lower_bound` gives the
first knot, the index is `-1`. -/
def pieceIndex (ks : List K) (x : Num K) : Outcome Unit (Option Nat) :=
  match ks with
  | [] => .ub
  | k :: _ =>
    if x.lt (.val k) then .ok none
    else if x.eq (.val k) then .ok (some 0)
    else
      let i := (ks.takeWhile fun k => (Num.val k).lt x).length
      if i = ks.length then .ok none
      else if i = 0 then .ub
      else .ok (some (i - 1))

/-- `Piecewise::operator()` (`Piecewise.cpp` 71-85) for pieces that are polynomials. -/
def piecewiseEval (ks : List K) (fs : List (List K)) (x : Num K) : Outcome Unit (Num K) :=
  match pieceIndex ks x with
  | .ok none => .ok (.val 0)
  | .ok (some i) =>
    match fs[i]? with
    | some c => .ok (polyEval c x)
    | none => .ub
  | .throw e => .throw e
  | .ub => .ub

/-- `Differentiable::integrate` (`Differentiable.cpp` 30-33) of a polynomial. -/
def polyIntegrate (c : List K) (a b : Num K) : Num K := polyEval (MathUtils.polyIntegral c) b - polyEval (MathUtils.polyIntegral c) a

/-- The loop of `Piecewise::integrate` (`Piecewise.cpp` 114-125) after the number of knots to be skipped (109-113). -/
def integLoop (mn mx : Num K) : Nat → List K → List (List K) → Outcome Unit (Num K)
  | p + 1, _ :: ks, _ :: fs => integLoop mn mx p ks fs
  | 0, k :: l :: ks, f :: fs =>
    if mx.le (.val k) then .ok (.val 0)
    else if mn.lt (.val l) then do
      let r ← integLoop mn mx 0 (l :: ks) fs
      return polyIntegrate f (if (Num.val k).lt mn then mn else .val k) (if mx.lt (.val l) then mx else .val l) + r
    else integLoop mn mx 0 (l :: ks) fs
  | 0, [_], _ => .ok (.val 0)
  | _, _, _ => .ub

/-- `Piecewise::integrate` (`Piecewise.cpp` 96-127) for pieces that are polynomials. -/
def piecewiseIntegrate (ks : List K) (fs : List (List K)) (a b : Num K) : Outcome Unit (Num K) :=
  if a.eq b then .ok (.val 0)
  else do
    let mn := if b.lt a then b else a
    let mx := if b.lt a then a else b
    let r ← integLoop mn mx ((ks.takeWhile fun k => !(mn.lt (.val k))).length - 1) ks fs
    return (if b.lt a then .val (-1) else .val 1) * r

/-! ## Histograms -/

/-- `EdgeVector::getBinIndex` (`EdgeVector.h` 60-67). -/
def edgeIndex (edges : List K) (value : Num K) : Outcome Unit Int :=
  match edges.head?, edges.getLast? with
  | some front, some back =>
    if value.lt (.val front) || (Num.val back).lt value then .ok (-1)
    else
      let next := edges.findIdx fun e => value.lt (.val e)
      let next := if next = edges.length then next - 1 else next
      .ok ((next : Int) - 1)
  | _, _ => .ub

/-- `getBinIndex` of `Sqrt` and `Scott` (`Sqrt.h` 54-58, `Scott.h` 85-89): the conversion of NaN to an integer is undefined. -/
def uniformIndex [IsStrictOrderedRing K] [FloorRing K] (nbins : Nat) (start step stop : K) (value : Num K) : Outcome Unit Int :=
  if value.eq (.val stop) then .ok ((nbins : Int) - 1)
  else if step = 0 then .ub
  else match value - .val start with
    | .nan => .ub
    | .val d => .ok (Histogram.trunc (d / step))

/-- The loop of `computeBins` (`ComputationImpl.icpp` 110-118) over an `EdgeVector`. -/
def fill {W : Type} [Add W] (edges : List K) : List (Num K × W) → List W → Outcome Unit (List W)
  | [], counts => .ok counts
  | (x, w) :: data, counts => do
    let bin ← edgeIndex edges x
    if 0 ≤ bin ∧ bin < (counts.length : Int) then fill edges data (counts.modify bin.toNat (· + w)) else fill edges data counts

/-! ## Cumulatives -/

/-- The sums of `fromPdf` (`Cumulative.cpp` 79-87). -/
def sums (total : Num K) : List (Num K) → List (Num K)
  | [] => []
  | p :: ps => (total + p) :: sums (total + p) ps

/-- `findValue` (`Cumulative.cpp` 104-138) for a cumulative with samples at numbers: if the ordinate that is found is not equal to itself,
the iterator is decremented before it was incremented. -/
def findValue (c : List (K × Num K)) (ratio : Num K) (position : MathUtils.Tray) : Outcome Unit K :=
  if (Num.val 1).lt ratio || ratio.lt (.val 0) then .throw ()
  else match c.getLast? with
    | none => .ub
    | some l =>
      let before := c.takeWhile fun p => p.2.lt (l.2 * ratio)
      match c.dropWhile fun p => p.2.lt (l.2 * ratio) with
      | [] => .ub
      | p :: rest =>
        match (before ++ (p :: rest).takeWhile fun q => q.2.eq p.2).getLast? with
        | none => .ub
        | some e => .ok (match position with
          | .begin => p.1
          | .middle => 1 / 2 * (p.1 + e.1)
          | .end' => e.1)

/-- The outer loop of `findMinInterval` (`Cumulative.cpp` 156-171). -/
def minLoop (rate : Num K) : List (K × Num K) → List (K × Num K) → Num K → K → K → K × K
  | [], _, _, mn, mx => (mn, mx)
  | p1 :: l1, l2, correction, mn, mx =>
    match l2.dropWhile fun p2 => (p2.2 - p1.2 + correction).lt rate with
    | [] => (mn, mx)
    | p2 :: l2 =>
      if p2.1 - p1.1 ≤ mx - mn then minLoop rate l1 (p2 :: l2) (.val 0) p1.1 p2.1
      else minLoop rate l1 (p2 :: l2) (.val 0) mn mx

/-- `findMinInterval` (`Cumulative.cpp` 140-174). -/
def findMinInterval (c : List (K × Num K)) (rate : Num K) : Outcome Unit (K × K) :=
  if (Num.val 1).lt rate || rate.le (.val 0) then .throw ()
  else match c, c.getLast? with
    | p :: l, some last => .ok (minLoop (rate * last.2) (p :: l) l p.2 p.1 last.1)
    | _, _ => .ub

end

/-! ## Self organising maps: `SOM.findBMU` is used as it is -/

section
variable [Field K] [LinearOrder K] {nd : Nat}

/-- `L2::distance` (`Distance.h` 56-62); `root` is the square root of numbers. -/
def l2 (root : K → K) (left right : Fin nd → Num K) : Num K :=
  match (List.finRange nd).foldl (fun r i => r + (left i - right i) * (left i - right i)) (.val 0) with
  | .nan => .nan
  | .val s => .val (root s)

/-- The update of one cell (`SOMTrainer.h` 75-80); the factors are numbers. -/
def updateCell (nf lf : K) (s w : Fin nd → Num K) : Fin nd → Num K :=
  if nf ≠ 0 then fun j => w j + .val (nf * lf) * (s j - w j) else w

/-- The processing of one training object (`SOMTrainer.h` 57-81). -/
def trainSample (root : K → K) (big : K) (neigh : SOM.Neigh K) (i n : Nat) (lf : K) (m : SOM.Map nd (Num K)) (s : Fin nd → Num K) :
    SOM.Res (SOM.Map nd (Num K)) := do
  let (bx, by', _) ← SOM.findBMU m (fun w => l2 root w s) (.val big)
  return { m with cells := m.cells.mapIdx fun k w => updateCell (neigh (bx, by') (SOM.coords m.sx m.sy k) i n) lf s w }

/-- A list of objects, each with its iteration and learning factor (the loops of `SOMTrainer.h` 41-84 with the iterations whose learning
factor is zero left out). -/
def train (root : K → K) (big : K) (neigh : SOM.Neigh K) (n : Nat) : SOM.Map nd (Num K) → List (Nat × K × (Fin nd → Num K)) →
    SOM.Res (SOM.Map nd (Num K))
  | m, [] => .ok m
  | m, (i, lf, s) :: ss => do
    let m ← trainSample root big neigh i n lf m s
    train root big neigh n m ss

end

/-! ## KdTree -/

section
variable {T : Type} [Field K] [LinearOrder K]

/-- The comparison with which `Split` sorts (`KdTree.icpp` 57-59). -/
def kdBefore (key : T → Num K) (a b : T) : Bool := (key a).lt (key b)

/-- A tree whose points and split values are numbers or NaN. -/
inductive Tree (T K : Type) where
  | leaf (data : List T)
  | split (axis : Nat) (value : Num K) (left right : Tree T K)

/-- The loop of the squared distance (`KdTree.icpp` 36-40). -/
def squareDist (N : Nat) (getCoord : T → Nat → Num K) (entry : T) (coord : Nat → Num K) : Num K :=
  (List.range N).foldl (fun s i => s + (getCoord entry i - coord i) * (getCoord entry i - coord i)) (.val 0)

/-- `findPointsWithinRadius` (`KdTree.icpp` 33-46, 86-102). -/
def Tree.query (N : Nat) (getCoord : T → Nat → Num K) (coord : Nat → Num K) (radius : Num K) : Tree T K → List T
  | .leaf data => data.filter fun e => (squareDist N getCoord e coord).lt (radius * radius)
  | .split axis v l r =>
    if (coord axis + radius).lt v then l.query N getCoord coord radius
    else if v.lt (coord axis - radius) then r.query N getCoord coord radius
    else l.query N getCoord coord radius ++ r.query N getCoord coord radius

end

end Alexandria.NotANumber
