import Verif.MathUtils.InverseModel

/-!
# Model of `Cumulative`

A cumulative is the list of its samples, pairs of `m_x_sampling` and `m_y_sampling`, which have equal length by the constructors; iterators are
the rests of the list.
-/

namespace Alexandria.MathUtils

section
variable {K : Type} [Field K] [LinearOrder K]

/-- The constructor from two vectors (`Cumulative.cpp` 50-55). -/
def mkCumulative (xs ys : List K) : Res (List (K × K)) := if xs.length ≠ ys.length then .throw .elements else .ok (xs.zip ys)

/-- `fromPdf` (`Cumulative.cpp` 78-90); the loop adds up from 0. -/
def fromPdf (xs pdf : List K) : Res (List (K × K)) := mkCumulative xs (sumLoop 0 pdf)

/-- `normalize` (`Cumulative.cpp` 92-102). -/
def normalize (c : List (K × K)) : Res (List (K × K)) :=
  match c.getLast? with
  | none => .ub
  | some l => if l.2 = 0 then .throw .notFinite else .ok (c.map fun p => (p.1, p.2 / l.2))

inductive Tray where
  | begin
  | middle
  | end'
  deriving DecidableEq, Repr

/-- `findValue` (`Cumulative.cpp` 104-138). -/
def findValue (c : List (K × K)) (ratio : K) (position : Tray) : Res K :=
  if ratio > 1 ∨ ratio < 0 then .throw .elements
  else match c.getLast? with
    | none => .ub
    | some l =>
      match c.dropWhile fun p => p.2 < l.2 * ratio with
      | [] => .ub
      | p :: rest =>
        let e := ((p :: rest).takeWhile fun q => q.2 = p.2).getLastD p
        .ok (match position with
          | .begin => p.1
          | .middle => 1 / 2 * (p.1 + e.1)
          | .end' => e.1)

/-- The outer loop of `findMinInterval` (`Cumulative.cpp` 156-171) with the rests of the list at both iterators, the correction, and the ends of
the interval so far. -/
def minLoop (rate : K) : List (K × K) → List (K × K) → K → K → K → K × K
  | [], _, _, mn, mx => (mn, mx)
  | p1 :: l1, l2, correction, mn, mx =>
    match l2.dropWhile fun p2 => p2.2 - p1.2 + correction < rate with
    | [] => (mn, mx)
    | p2 :: l2 =>
      if p2.1 - p1.1 ≤ mx - mn then minLoop rate l1 (p2 :: l2) 0 p1.1 p2.1
      else minLoop rate l1 (p2 :: l2) 0 mn mx

/-- `findMinInterval` (`Cumulative.cpp` 140-174). -/
def findMinInterval (c : List (K × K)) (rate : K) : Res (K × K) :=
  if rate > 1 ∨ rate ≤ 0 then .throw .elements
  else match c, c.getLast? with
    | p :: l, some last => .ok (minLoop (rate * last.2) (p :: l) l p.2 p.1 last.1)
    | _, _ => .ub

/-- `findCenteredInterval` (`Cumulative.cpp` 176-188). -/
def findCenteredInterval (c : List (K × K)) (rate : K) : Res (K × K) :=
  if rate > 1 ∨ rate ≤ 0 then .throw .elements
  else do
    let a ← findValue c (1 / 2 - rate / 2) .end'
    let b ← findValue c (1 / 2 + rate / 2) .begin
    return (a, b)

end

end Alexandria.MathUtils
