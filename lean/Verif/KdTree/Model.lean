import Verif.Common.Rounding

/-!
# Model of `KdTree/KdTree/_impl/KdTree.icpp`

Coordinates are elements of an arbitrary linearly ordered field `K`; every operation is followed by a rounding, of which only what
IEEE 754 guarantees is known (`Rounding`), so that `double` and exact arithmetic are both instances.  Overflow to infinity and NaN are
not modelled.  `std::sort` (lines 57-59) is not stable and its result on ties is unspecified, so the
model takes *any* function that returns a sorted permutation.
-/

namespace Alexandria.KdTree

variable {T K : Type}

/-- What the standard guarantees about `std::sort(begin, end, key(a) < key(b))`: the result is a permutation of the
input and no element is followed by one with a smaller key. (`KdTree.icpp` 57-59; contract of `std::sort`.) -/
structure Sorter (T K : Type) [LE K] where
  sort : (T → K) → List T → List T
  perm : ∀ key l, (sort key l).Perm l
  sorted : ∀ key l, (sort key l).Pairwise (fun a b => key a ≤ key b)

/-- The node classes `Leaf` and `Split` (`KdTree.icpp` 27-50, 52-110). -/
inductive Tree (T K : Type) where
  | leaf (data : List T)
  | split (axis : Nat) (splitValue : K) (left right : Tree T K)

/-- `data.at(..)` throws `std::out_of_range` (`KdTree.icpp` 61-62). -/
inductive Err where
  | outOfRange
  deriving DecidableEq, Repr

variable [Field K] [LinearOrder K]

/-- The squared distance loop of `Leaf::findPointsWithinRadius` (`KdTree.icpp` 36-40): the sum is accumulated from
dimension `0` to `N-1`. -/
def squareDist (R : Rounding K) (N : Nat) (getCoord : T → Nat → K) (entry : T) (coord : Nat → K) : K :=
  (List.range N).foldl
    (fun squareDist i =>
      let delta := R.rnd (getCoord entry i - coord i)
      R.rnd (squareDist + R.rnd (delta * delta))) 0

/-- `Leaf::findPointsWithinRadius` (`KdTree.icpp` 33-46). -/
def leafQuery (R : Rounding K) (N : Nat) (getCoord : T → Nat → K) (coord : Nat → K) (radius : K) : List T → List T
  | [] => []
  | entry :: rest =>
    if squareDist R N getCoord entry coord < R.rnd (radius * radius) then
      entry :: leafQuery R N getCoord coord radius rest
    else leafQuery R N getCoord coord radius rest

/-- `findPointsWithinRadius` of both node classes (`KdTree.icpp` 33-46 and 86-102). -/
def Tree.query (R : Rounding K) (N : Nat) (getCoord : T → Nat → K) (coord : Nat → K) (radius : K) : Tree T K → List T
  | .leaf data => leafQuery R N getCoord coord radius data
  | .split axis splitValue left right =>
    if R.rnd (coord axis + radius) < splitValue then
      left.query R N getCoord coord radius
    else if R.rnd (coord axis - radius) > splitValue then
      right.query R N getCoord coord radius
    else
      left.query R N getCoord coord radius ++ right.query R N getCoord coord radius

/-- The split value (`KdTree.icpp` 61-69) from the two middle elements of the sorted data. -/
def splitValue (R : Rounding K) (a b : K) : K := if a = b then a else R.rnd (R.rnd (a + b) / 2)

/-- `Split::Split` (`KdTree.icpp` 56-84). `data.size() / 2 - 1` is computed in `size_t`, so for fewer than two
elements the index wraps around and `at` throws. -/
def mkSplit (R : Rounding K) (N S : Nat) (getCoord : T → Nat → K) (srt : Sorter T K) (data : List T) (axis : Nat) :
    Except Err (Tree T K) :=
  let sorted := srt.sort (fun t => getCoord t axis) data
  if h2 : data.length < 2 then .error .outOfRange
  else
    have hlen : sorted.length = data.length := (srt.perm _ data).length_eq
    let a := getCoord (sorted[data.length / 2 - 1]'(by omega)) axis
    let b := getCoord (sorted[data.length / 2]'(by omega)) axis
    let v := splitValue R a b
    let left := sorted.take (data.length / 2)
    let right := sorted.drop (data.length / 2)
    have hl : left.length < data.length := by simp only [left, List.length_take]; omega
    have hr : right.length < data.length := by simp only [right, List.length_drop]; omega
    let leftChild : Except Err (Tree T K) :=
      if left.length > S then mkSplit R N S getCoord srt left ((axis + 1) % N) else .ok (.leaf left)
    let rightChild : Except Err (Tree T K) :=
      if right.length > S then mkSplit R N S getCoord srt right ((axis + 1) % N) else .ok (.leaf right)
    match leftChild, rightChild with
    | .ok l, .ok r => .ok (.split axis v l r)
    | .error e, _ => .error e
    | _, .error e => .error e
termination_by data.length
decreasing_by
  · exact hl
  · exact hr

/-- `KdTree::KdTree` (`KdTree.icpp` 112-120). -/
def build (R : Rounding K) (N S : Nat) (getCoord : T → Nat → K) (srt : Sorter T K) (data : List T) : Except Err (Tree T K) :=
  if data.length > S then mkSplit R N S getCoord srt data 0 else .ok (.leaf data)

end Alexandria.KdTree
