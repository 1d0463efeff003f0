import Verif.Grid.Model

/-!
# Model of the fixing of axes of iterators: `GridContainer/GridContainer/_impl/GridIterator.icpp` 135-176
-/

namespace Alexandria.Grid

variable {V : Type}

/-- `iter::fixAxisByValue<axis>(value)` (`GridIterator.icpp` 135-146). -/
def Iter.fixAxisByValue [DecidableEq V] (g : GridC V) (it : Iter) (axis : Nat) (value : V) : Res Iter :=
  match g.axes[axis]? with
  | none => .ub
  | some a =>
    match a.values.findIdx? (· == value) with
    | none => .throw (.elements "given value not found")
    | some index => it.fixAxisByIndex (sizes g.axes) axis index

/-- `fixSameAxes` (`GridIterator.icpp` 161-168) for the first `n` axes, from the last to the first; `value` is `axisValue` of the other iterator. -/
def fixSameAxes [DecidableEq V] (value : Nat → Res V) (g : GridC V) : Nat → Iter → Res Iter
  | 0, it => .ok it
  | n + 1, it => do
    let v ← value n
    let it ← it.fixAxisByValue g n v
    fixSameAxes value g n it

/-- `iter::fixAllAxes(other)` (`GridIterator.icpp` 170-176) with the grid `g'` of the other iterator. -/
def Iter.fixAllAxes [DecidableEq V] (g : GridC V) (it : Iter) (g' : GridC V) (other : Iter) : Res Iter :=
  fixSameAxes (g'.iterAxisValue other) g g.axes.length it

end Alexandria.Grid
