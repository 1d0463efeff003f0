import Verif.Common.Outcome
import Mathlib.Order.Defs.LinearOrder

/-!
# Model of `GridContainer/GridContainer/_impl/{GridAxis,GridIndexHelper,GridContainer,GridIterator}.icpp` and
`GridConstructionHelper.h`

The axes of a C++ grid are a tuple of axes with different knot types; here all knots have one type `V` (a sum type covers
the tuple).  The template argument `I` (axis number) becomes a `Nat` below the number of axes.  The map
`m_fixed_indices` becomes a list with one `Option` per axis: `std::map` is traversed by increasing key, i.e. in list order.
Index arithmetic in `size_t` is modelled without overflow.  The cell manager is a `std::vector` (a list of cells), shared
by a grid and its slices.
-/

namespace Alexandria.Grid

inductive Err where
  | elements (what : String)
  deriving DecidableEq, Repr

abbrev Res (α : Type) := Outcome Err α

/-- `GridAxis` (`GridAxis.h` 49-105). -/
structure Axis (V : Type) where
  name : String
  values : List V
  deriving DecidableEq, Repr

variable {V T : Type}

/-- `GridAxis::size` (`GridAxis.icpp` 33-36). -/
def Axis.size (a : Axis V) : Nat := a.values.length

/-- The members of a `GridContainer` object other than the cells (`GridContainer.h` 345-357). `fixed` is
`m_fixed_indices`. -/
structure GridC (V : Type) where
  axes : List (Axis V)
  axesFixed : List (Axis V)
  fixed : List (Option Nat)
  deriving DecidableEq, Repr

/-- Constructor from axes (`GridContainer.icpp` 31-36 and the default member initialisers, `GridContainer.h` 346-354). -/
def mk (axes : List (Axis V)) : GridC V := ⟨axes, axes, axes.map fun _ => none⟩

/-- `createAxesSizesVector` (`GridConstructionHelper.h` 67-77). -/
def sizes (axes : List (Axis V)) : List Nat := axes.map Axis.size

/-- `getAxisIndexFactor` (`GridConstructionHelper.h` 117-125), with `I = n - 1`: the product of the first `n` sizes. -/
def axisIndexFactor (szs : List Nat) : Nat → Nat
  | 0 => 1
  | n + 1 => szs.getD n 0 * axisIndexFactor szs n

/-- `createAxisIndexFactorVector` (`GridConstructionHelper.h` 143-153): entry `i` for `i ≤ number of axes`. -/
def factors (szs : List Nat) : List Nat := (List.range (szs.length + 1)).map (axisIndexFactor szs)

/-- The number of cells that the cell manager is created with (`GridContainer.h` 356-357). -/
def cellCount (axes : List (Axis V)) : Nat := axisIndexFactor (sizes axes) axes.length

/-- `size()` (`GridContainer.icpp` 117-120). -/
def GridC.size (g : GridC V) : Nat := (factors (sizes g.axesFixed)).getLastD 0

/-- `GridIndexHelper::axisIndex` (`GridIndexHelper.icpp` 39-44). Division by zero is undefined; so is an axis number that is too
large. -/
def axisIndex (szs : List Nat) (axis arrayIndex : Nat) : Res Nat :=
  match (factors szs)[axis + 1]?, (factors szs)[axis]? with
  | some f1, some f0 => if f1 = 0 ∨ f0 = 0 then .ub else .ok (arrayIndex % f1 / f0)
  | _, _ => .ub

/-- `calculateTotalIndex` (`GridIndexHelper.icpp` 46-54): the variadic recursion multiplies the coordinate that has `rest`
coordinates behind it with `factors[factors.size() - rest - 2]`. -/
def calculateTotalIndex (fs : List Nat) : List Nat → Nat
  | [] => 0
  | coord :: rest => coord * fs.getD (fs.length - rest.length - 2) 0 + calculateTotalIndex fs rest

/-- `checkBounds` (`GridIndexHelper.icpp` 61-78). -/
def checkBounds (szs : List Nat) : List Nat → Res Unit
  | [] => .ok ()
  | coord :: rest =>
    if coord ≥ szs.getD (szs.length - rest.length - 1) 0 then .throw (.elements "out of bound")
    else checkBounds szs rest

/-- `checkAllFixedAreZero` (`GridIndexHelper.icpp` 86-109). -/
def checkAllFixedAreZero (n : Nat) (fixed : List (Option Nat)) : List Nat → Res Unit
  | [] => .ok ()
  | coord :: rest =>
    if coord ≠ 0 ∧ (fixed.getD (n - rest.length - 1) none).isSome then .throw (.elements "out of bound")
    else checkAllFixedAreZero n fixed rest

/-- The loop that moves the index to the fixed coordinates (`GridContainer.icpp` 127-129, 146-148). -/
def addFixed (fs : List Nat) (fixed : List (Option Nat)) (total : Nat) : Nat :=
  (List.range fixed.length).foldl
    (fun t axis => match fixed.getD axis none with
      | some index => t + index * fs.getD axis 0
      | none => t) total

/-- `operator()` (`GridContainer.icpp` 122-131): the index of the cell. -/
def GridC.callIndex (g : GridC V) (coords : List Nat) : Nat :=
  addFixed (factors (sizes g.axes)) g.fixed (calculateTotalIndex (factors (sizes g.axes)) coords)

/-- `at()` (`GridContainer.icpp` 139-150): the index of the cell. -/
def GridC.atIndex (g : GridC V) (coords : List Nat) : Res Nat := do
  checkAllFixedAreZero g.axes.length g.fixed coords
  checkBounds (sizes g.axes) coords
  return g.callIndex coords

/-- `(*m_cell_manager)[i]`: unchecked. -/
def cellAt (cells : List T) (i : Nat) : Res T :=
  match cells[i]? with
  | some c => .ok c
  | none => .ub

/-- `at()` reading a cell. -/
def GridC.at' (g : GridC V) (cells : List T) (coords : List Nat) : Res T := do
  let i ← g.atIndex coords
  cellAt cells i

/-- `operator()` reading a cell. -/
def GridC.call (g : GridC V) (cells : List T) (coords : List Nat) : Res T := cellAt cells (g.callIndex coords)

/-- `at(coords) = x` (`GridContainer.icpp` 152-156 returns a reference). -/
def GridC.set' (g : GridC V) (cells : List T) (coords : List Nat) (x : T) : Res (List T) := do
  let i ← g.atIndex coords
  if i < cells.length then .ok (cells.set i x) else .ub

/-- `findAndFixAxis` (`GridConstructionHelper.h` 155-168): the axis is replaced by one with the single knot `old_axis[index]`. -/
def fixAxis (axes : List (Axis V)) (axis index : Nat) : List (Axis V) :=
  match axes[axis]? with
  | none => axes
  | some old => axes.set axis ⟨old.name, (old.values[index]?).toList⟩

/-- `fixAxisByIndex<axis>(index)` (`GridContainer.icpp` 211-219) with the slicing constructor (45-57). `axis` is a template
argument, so an axis that does not exist does not compile (modelled as `ub`, excluded by the theorems). -/
def GridC.fixAxisByIndex (g : GridC V) (axis index : Nat) : Res (GridC V) :=
  match g.axes[axis]? with
  | none => .ub
  | some a =>
    if index ≥ a.size then .throw (.elements "out of axis size")
    else if (g.fixed.getD axis none).isSome then .throw (.elements "already fixed")
    else .ok { axes := g.axes, axesFixed := fixAxis g.axes axis index, fixed := g.fixed.set axis (some index) }

/-- `fixAxisByValue<axis>(value)` (`GridContainer.icpp` 228-238). -/
def GridC.fixAxisByValue [DecidableEq V] (g : GridC V) (axis : Nat) (value : V) : Res (GridC V) :=
  match g.axes[axis]? with
  | none => .ub
  | some a =>
    match a.values.findIdx? (· == value) with
    | none => .throw (.elements "given value not found")
    | some index =>
      if (g.fixed.getD axis none).isSome then .throw (.elements "already fixed")
      else .ok { axes := g.axes, axesFixed := fixAxis g.axes axis index, fixed := g.fixed.set axis (some index) }

/-- An iterator (`GridContainer.h` 394ff): the position in the cell vector and `m_fixed_indices`; the owner is a parameter. -/
structure Iter where
  pos : Nat
  fixed : List (Option Nat)
  deriving DecidableEq, Repr

/-- `forwardToIndex` (`GridIterator.icpp` 148-159). Simplification: `m_data_iter += n` may go beyond the end of the vector
(the code relies on this, see the comment in line 56); the position is then just a larger number. -/
def forwardToIndex (szs : List Nat) (pos axis fixedIndex : Nat) : Res Nat := do
  let current ← axisIndex szs axis pos
  if fixedIndex ≠ current then
    let factor := (factors szs).getD axis 0
    let distance := if fixedIndex > current then fixedIndex - current else szs.getD axis 0 + fixedIndex - current
    return pos + distance * factor
  else return pos

/-- The loop over the fixed indices in `operator++` (`GridIterator.icpp` 51-55), for the axes from `axis` on. -/
def forwardAll (szs : List Nat) : List (Option Nat) → Nat → Nat → Res Nat
  | [], _, pos => .ok pos
  | none :: rest, axis, pos => forwardAll szs rest (axis + 1) pos
  | some index :: rest, axis, pos => do
    let pos' ← forwardToIndex szs pos axis index
    forwardAll szs rest (axis + 1) pos'

/-- `operator++` (`GridIterator.icpp` 46-64); `count` is the number of cells (the end position). -/
def Iter.next (szs : List Nat) (count : Nat) (it : Iter) : Res Iter :=
  if it.fixed.all Option.isNone then .ok { it with pos := it.pos + 1 }
  else do
    let pos' ← forwardAll szs it.fixed 0 (it.pos + 1)
    return { it with pos := if pos' > count then count else pos' }

/-- `iter::fixAxisByIndex<axis>(index)` (`GridIterator.icpp` 118-133). -/
def Iter.fixAxisByIndex (szs : List Nat) (it : Iter) (axis index : Nat) : Res Iter :=
  match it.fixed.getD axis none with
  | some index' => if index' ≠ index then .throw (.elements "already fixed") else go
  | none => go
where
  go : Res Iter :=
    if index ≥ szs.getD axis 0 then .throw (.elements "out of axis size")
    else do
      let pos' ← forwardToIndex szs it.pos axis index
      return { pos := pos', fixed := it.fixed.set axis (some index) }

/-- `fixIteratorAxes` (`GridConstructionHelper.h` 170-182), for the axes from `axis` on. -/
def fixIteratorAxes (szs : List Nat) : List (Option Nat) → Nat → Iter → Res Iter
  | [], _, it => .ok it
  | none :: rest, axis, it => fixIteratorAxes szs rest (axis + 1) it
  | some index :: rest, axis, it => do
    let it' ← it.fixAxisByIndex szs axis index
    fixIteratorAxes szs rest (axis + 1) it'

/-- `begin()` (`GridContainer.icpp` 81-100). -/
def GridC.begin' (g : GridC V) : Res Iter :=
  fixIteratorAxes (sizes g.axes) g.fixed 0 ⟨0, g.axes.map fun _ => none⟩

/-- `iter::axisIndex<axis>()` (`GridIterator.icpp` 102-108). -/
def GridC.iterAxisIndex (g : GridC V) (it : Iter) (axis : Nat) : Res Nat := axisIndex (sizes g.axes) axis it.pos

/-- `iter::axisValue<axis>()` (`GridIterator.icpp` 110-116). -/
def GridC.iterAxisValue (g : GridC V) (it : Iter) (axis : Nat) : Res V := do
  let i ← g.iterAxisIndex it axis
  match g.axes[axis]? with
  | none => .ub
  | some a => match a.values[i]? with
    | none => .ub
    | some v => .ok v

/-- The loop `for (; it != end; ++it)` started at `it`: it terminates after visiting the given positions.  The end position
is the number of cells (`GridContainer.icpp` 102-115, comparison by position only, `GridIterator.icpp` 90-100). -/
inductive Loop (szs : List Nat) (count : Nat) : Iter → List Nat → Prop
  | stop (it : Iter) : it.pos = count → Loop szs count it []
  | step (it it' : Iter) (l : List Nat) : it.pos ≠ count → it.pos < count → it.next szs count = .ok it' →
      Loop szs count it' l → Loop szs count it (it.pos :: l)

/-- `GridAxis::infimum` (`GridAxis.icpp` 74-81): the position returned. `std::upper_bound` on a sorted range returns the
first position whose element is greater than the value. -/
def Axis.infimum [LinearOrder V] (a : Axis V) (value : V) : Nat :=
  let ub := a.values.findIdx (fun v => decide (value < v))
  if ub = 0 ∨ (ub ≠ a.values.length ∧ a.values[ub]? = some value) then ub else ub - 1

/-- `std::equal` of a range and the range that starts at the second list, whose elements up to the end of the first one must exist. -/
def stdEqual [BEq V] : List V → List V → Res Bool
  | [], _ => .ok true
  | _ :: _, [] => .ub
  | x :: xs, y :: ys => if x == y then stdEqual xs ys else .ok false

/-- `GridAxis::operator==` (`GridAxis.icpp` 58-66), for axes of one type with any comparison of the knots. -/
def Axis.equal [BEq V] (a b : Axis V) : Res Bool :=
  if a.size = b.size then stdEqual a.values b.values else .ok false

/-- `GridAxis::operator!=` (`GridAxis.icpp` 68-72). -/
def Axis.differ [BEq V] (a b : Axis V) : Res Bool := do
  let same ← a.equal b
  return !same

/-- `infimum(coords)` of a grid (`GridContainer.icpp` 158-209), per axis. -/
def GridC.infimum [LinearOrder V] (g : GridC V) (coords : List V) : List Nat :=
  List.zipWith (fun (a : Axis V) c => a.infimum c) g.axes coords

end Alexandria.Grid
