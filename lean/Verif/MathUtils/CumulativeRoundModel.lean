import Verif.MathUtils.CumulativeModel
import Verif.Common.Binary

/-!
# Model of `Cumulative` with rounded arithmetic

The functions of `CumulativeModel.lean` with every operation rounded, as on `double`. Overflow to infinity and NaN are not modelled.
-/

namespace Alexandria.MathUtils

section
variable {K : Type} [Field K] [LinearOrder K]

/-- The loop of `fromPdf` (`Cumulative.cpp` 83-87). -/
def machineSumLoop (R : Rounding K) (s : K) : List K → List K
  | [] => []
  | p :: ps => R.rnd (s + p) :: machineSumLoop R (R.rnd (s + p)) ps

/-- `fromPdf` (`Cumulative.cpp` 78-90). -/
def machineFromPdf (R : Rounding K) (xs pdf : List K) : Res (List (K × K)) := mkCumulative xs (machineSumLoop R 0 pdf)

/-- `normalize` (`Cumulative.cpp` 92-102). -/
def machineNormalize (R : Rounding K) (c : List (K × K)) : Res (List (K × K)) :=
  match c.getLast? with
  | none => .ub
  | some l => if l.2 = 0 then .throw .notFinite else .ok (c.map fun p => (p.1, R.rnd (p.2 / l.2)))

/-- `findValue` (`Cumulative.cpp` 104-138). -/
def machineFindValue (R : Rounding K) (c : List (K × K)) (ratio : K) (position : Tray) : Res K :=
  if ratio > 1 ∨ ratio < 0 then .throw .elements
  else match c.getLast? with
    | none => .ub
    | some l =>
      match c.dropWhile fun p => p.2 < R.rnd (l.2 * ratio) with
      | [] => .ub
      | p :: rest =>
        let e := ((p :: rest).takeWhile fun q => q.2 = p.2).getLastD p
        .ok (match position with
          | .begin => p.1
          | .middle => R.rnd (1 / 2 * R.rnd (p.1 + e.1))
          | .end' => e.1)

/-- The outer loop of `findMinInterval` (`Cumulative.cpp` 156-171). -/
def machineMinLoop (R : Rounding K) (rate : K) : List (K × K) → List (K × K) → K → K → K → K × K
  | [], _, _, mn, mx => (mn, mx)
  | p1 :: l1, l2, correction, mn, mx =>
    match l2.dropWhile fun p2 => R.rnd (R.rnd (p2.2 - p1.2) + correction) < rate with
    | [] => (mn, mx)
    | p2 :: l2 =>
      if R.rnd (p2.1 - p1.1) ≤ R.rnd (mx - mn) then machineMinLoop R rate l1 (p2 :: l2) 0 p1.1 p2.1
      else machineMinLoop R rate l1 (p2 :: l2) 0 mn mx

/-- `findMinInterval` (`Cumulative.cpp` 140-174). -/
def machineMinInterval (R : Rounding K) (c : List (K × K)) (rate : K) : Res (K × K) :=
  if rate > 1 ∨ rate ≤ 0 then .throw .elements
  else match c, c.getLast? with
    | p :: l, some last => .ok (machineMinLoop R (R.rnd (rate * last.2)) (p :: l) l p.2 p.1 last.1)
    | _, _ => .ub

/-- `findCenteredInterval` (`Cumulative.cpp` 176-188). -/
def machineCentered (R : Rounding K) (c : List (K × K)) (rate : K) : Res (K × K) :=
  if rate > 1 ∨ rate ≤ 0 then .throw .elements
  else do
    let a ← machineFindValue R c (R.rnd (1 / 2 - R.rnd (rate / 2))) .end'
    let b ← machineFindValue R c (R.rnd (1 / 2 + R.rnd (rate / 2))) .begin
    return (a, b)

end

end Alexandria.MathUtils
