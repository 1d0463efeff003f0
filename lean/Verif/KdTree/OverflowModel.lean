import Verif.KdTree.Model
import Verif.Common.Ieee

/-!
# Model of the k-d tree with infinities, NaN and overflow

The same code as in `Model.lean`, with the arithmetic of `Common/Ieee.lean`: `M` is the greatest finite number.  The coordinates of the objects are
finite; those of the centre and the radius need not be.
-/

namespace Alexandria.KdTree.Overflow

variable {T K : Type} [Field K] [LinearOrder K]

/-- The nodes (`KdTree.icpp` 27-50, 52-110). -/
inductive Tree (T K : Type) where
  | leaf (data : List T)
  | split (axis : Nat) (splitValue : Ext K) (left right : Tree T K)

/-- The squared distance loop of `Leaf::findPointsWithinRadius` (`KdTree.icpp` 36-40). -/
def squareDist (R : Rounding K) (M : K) (N : Nat) (getCoord : T → Nat → K) (entry : T) (coord : Nat → Ext K) : Ext K :=
  (List.range N).foldl
    (fun squareDist i =>
      let delta := Ext.sub R M (.fin (getCoord entry i)) (coord i)
      Ext.add R M squareDist (Ext.mul R M delta delta)) (.fin 0)

/-- `findPointsWithinRadius` of both node classes (`KdTree.icpp` 33-46 and 86-102). -/
def Tree.query (R : Rounding K) (M : K) (N : Nat) (getCoord : T → Nat → K) (coord : Nat → Ext K) (radius : Ext K) : Tree T K → List T
  | .leaf data => data.filter fun entry => (squareDist R M N getCoord entry coord).lt (Ext.mul R M radius radius)
  | .split axis v left right =>
    if (Ext.add R M (coord axis) radius).lt v then left.query R M N getCoord coord radius
    else if v.lt (Ext.sub R M (coord axis) radius) then right.query R M N getCoord coord radius
    else left.query R M N getCoord coord radius ++ right.query R M N getCoord coord radius

/-- The split value (`KdTree.icpp` 61-69). -/
def splitValue (R : Rounding K) (M : K) (a b : K) : Ext K := if a = b then .fin a else Ext.half R M (Ext.add R M (.fin a) (.fin b))

/-- `Split::Split` (`KdTree.icpp` 56-84). -/
def mkSplit (R : Rounding K) (M : K) (N S : Nat) (getCoord : T → Nat → K) (srt : Sorter T K) (data : List T) (axis : Nat) :
    Except Err (Tree T K) :=
  let sorted := srt.sort (fun t => getCoord t axis) data
  if h2 : data.length < 2 then .error .outOfRange
  else
    have hlen : sorted.length = data.length := (srt.perm _ data).length_eq
    let a := getCoord (sorted[data.length / 2 - 1]'(by omega)) axis
    let b := getCoord (sorted[data.length / 2]'(by omega)) axis
    let v := splitValue R M a b
    let left := sorted.take (data.length / 2)
    let right := sorted.drop (data.length / 2)
    have hl : left.length < data.length := by simp only [left, List.length_take]; omega
    have hr : right.length < data.length := by simp only [right, List.length_drop]; omega
    let leftChild : Except Err (Tree T K) :=
      if left.length > S then mkSplit R M N S getCoord srt left ((axis + 1) % N) else .ok (.leaf left)
    let rightChild : Except Err (Tree T K) :=
      if right.length > S then mkSplit R M N S getCoord srt right ((axis + 1) % N) else .ok (.leaf right)
    match leftChild, rightChild with
    | .ok l, .ok r => .ok (.split axis v l r)
    | .error e, _ => .error e
    | _, .error e => .error e
termination_by data.length
decreasing_by
  · exact hl
  · exact hr

/-- `KdTree::KdTree` (`KdTree.icpp` 112-120). -/
def build (R : Rounding K) (M : K) (N S : Nat) (getCoord : T → Nat → K) (srt : Sorter T K) (data : List T) : Except Err (Tree T K) :=
  if data.length > S then mkSplit R M N S getCoord srt data 0 else .ok (.leaf data)

end Alexandria.KdTree.Overflow
