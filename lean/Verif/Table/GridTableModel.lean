import Verif.Table.Model
import Verif.Grid.Model

/-!
# Model of the conversion of a grid to a table

`GridContainer/GridContainer/_impl/GridContainerToTable.icpp` and the traits in `GridContainerToTable.h`.
The traits are parameters: the cell for a knot (`GridAxisToTable::serialize`), the column types of the axes (`table_cell_t`), the columns for a grid cell and
its fields (`GridCellToTable`).
-/

namespace Alexandria.Table

open Alexandria.Str

variable {F D V T : Type}

/-- Exceptions of the grid are seen as such here. -/
def ofGrid {α : Type} : Grid.Res α → Res α
  | .ok a => .ok a
  | .throw _ => .throw .elements
  | .ub => .ub

/-- The traits `GridAxisToTable` and `GridCellToTable` (`GridContainerToTable.h` 36-84). -/
structure Traits (F D V T : Type) where
  serialize : V → Cell F D
  columns : T → Res (List Desc)
  fields : T → List (Cell F D)

/-- `boost::replace_all(name, " ", "_")`. -/
def underscores (name : Bytes) : Bytes := name.map fun c => if c = ' ' then '_' else c

/-- `addColumnDescriptions` (`GridContainerToTable.icpp` 42-51, 95) for the first axes, the last of them first. -/
def axisColumns (axes : List (Grid.Axis V)) (types : List CType) : Nat → Res (List Desc)
  | 0 => .ok []
  | I + 1 =>
    match axes[I]?, types[I]? with
    | some a, some t => do
      let d ← mkDesc (underscores a.name.toList) t [] []
      let ds ← axisColumns axes types I
      return d :: ds
    | _, _ => .ub

/-- The knots of an axis with their numbers, in the order of the loops (`GridContainerToTable.icpp` 70-72, 81-83). -/
def indexed (a : Grid.Axis V) : List (Nat × V) := a.values.zipIdx.map fun p => (p.2, p.1)

/-- The rows added by consecutive calls. -/
def concatRows {R : Type} : List (Res (List R)) → Res (List R)
  | [] => .ok []
  | x :: xs => do
    let a ← x
    let b ← concatRows xs
    return a ++ b

/-- The end of the recursion (`GridContainerToTable.icpp` 101-112). -/
def addRow (tr : Traits F D V T) (g : Grid.GridC V) (cells : List T) (info : Info) (knots : List (Nat × V)) : Res (List (RowT F D)) := do
  let c ← ofGrid (g.at' cells (knots.map Prod.fst))
  let r ← mkRow ((knots.map fun p => tr.serialize p.2).reverse ++ tr.fields c) (some info)
  return [r]

/-- `unfold` (`GridContainerToTable.icpp` 66-84): the loop over the axis number `I - 1`, with the knots of the axes behind it. -/
def unfoldRows (tr : Traits F D V T) (g : Grid.GridC V) (cells : List T) (info : Info) : Nat → List (Nat × V) → Res (List (RowT F D))
  | 0, knots => addRow tr g cells info knots
  | I + 1, knots =>
    match g.axesFixed[I]? with
    | none => .ub
    | some a => concatRows ((indexed a).map fun p => unfoldRows tr g cells info I (p :: knots))

/-- `gridContainerToTable` (`GridContainerToTable.icpp` 119-138); `types` are the column types of the axes. -/
def gridToTable (tr : Traits F D V T) (types : List CType) (g : Grid.GridC V) (cells : List T) : Res (TableT F D) := do
  let columns ← axisColumns g.axesFixed types g.axesFixed.length
  let it ← ofGrid g.begin'
  let c ← ofGrid (Grid.cellAt cells it.pos)
  let more ← tr.columns c
  let info ← mkInfo (columns ++ more)
  let rows ← unfoldRows tr g cells info g.axesFixed.length []
  mkTable rows

/-- `GridCellToTable` for an arithmetic type (`GridContainerToTable.h` 89-99). -/
def arithmetic (s : Scalar) (serialize : V → Cell F D) : Traits F D V (Val F D s) where
  serialize := serialize
  columns _ := do
    let d ← mkDesc "value".toList (.scalar s) [] []
    return [d]
  fields c := [.scalar s c]

end Alexandria.Table
