import Verif.Grid.FitsModel
import Verif.XYDataset.Model

/-!
# Model of grids in boost archives: `GridContainer/GridContainer/{serialize.h,serialization/{GridContainer,GridAxis,tuple}.h}`, `XYDataset/XYDataset/serialize.h`

A stream is the list of the values in it; the archives of boost give the values back in the order in which they were stored, with a header in front of every archive and a mark in front of
every object that is stored by a pointer. All pointers that one export stores are different, as they point to the grid, to the axes of the local tuple, to elements of the vectors of their
knots and to the cells, so that no object is stored as a reference to an earlier one; this is not modelled here but in `TrackModel.lean`. How the values of knots and cells are stored is a parameter.
-/

namespace Alexandria.Grid.Archive

open Alexandria.Str Alexandria.XYDataset

inductive AErr where
  | stream
  | elements
  deriving DecidableEq, Repr

abbrev ARes (α : Type) := Outcome AErr α

/-- A value in a stream: the header of an archive, the mark of a pointer, a string, a size or a value of another type. -/
inductive Tok (A : Type) where
  | header
  | ptr
  | text (s : Bytes)
  | num (n : Nat)
  | atom (a : A)
  deriving DecidableEq, Repr

variable {A V T : Type}

/-- The storing and loading of the values of a type. -/
structure Codec (A α : Type) where
  put : α → List (Tok A)
  get : List (Tok A) → ARes (α × List (Tok A))

/-- Loading of a string. -/
def getText : List (Tok A) → ARes (Bytes × List (Tok A))
  | .text s :: ts => .ok (s, ts)
  | _ => .throw .stream

/-- Loading of a size. -/
def getNum : List (Tok A) → ARes (Nat × List (Tok A))
  | .num n :: ts => .ok (n, ts)
  | _ => .throw .stream

/-- Loading of a mark. -/
def getMark (mark : Tok A → Bool) : List (Tok A) → ARes (List (Tok A))
  | t :: ts => if mark t then .ok ts else .throw .stream
  | [] => .throw .stream

def isHeader : Tok A → Bool
  | .header => true
  | _ => false

def isPtr : Tok A → Bool
  | .ptr => true
  | _ => false

/-- Loading of `n` values: the loop of `load_construct_data` (`serialization/GridAxis.h` 116-120). -/
def getMany (c : Codec A α) : Nat → List (Tok A) → ARes (List α × List (Tok A))
  | 0, ts => .ok ([], ts)
  | n + 1, ts => do
    let (v, ts) ← c.get ts
    let (vs, ts) ← getMany c n ts
    return (v :: vs, ts)

/-- Values of plain types. -/
def plain : Codec A A where
  put a := [.atom a]
  get
    | .atom a :: ts => .ok (a, ts)
    | _ => .throw .stream

/-- A string as a value. -/
def textCodec : Codec A Bytes := ⟨fun s => [.text s], getText⟩

/-- `save_construct_data` and `load_construct_data` of a `QualifiedName` (`XYDataset/serialize.h` 50-72), stored by a pointer (`saveType`, `loadType`, `serialization/GridAxis.h` 56-60, 94-102). -/
def nameCodec : Codec A QName where
  put q := .ptr :: .num q.groups.length :: q.groups.map .text ++ [.text q.name]
  get ts := do
    let ts ← getMark isPtr ts
    let (n, ts) ← getNum ts
    let (groups, ts) ← getMany textCodec n ts
    let (name, ts) ← getText ts
    match mkName groups name with
    | .ok q => .ok (q, ts)
    | .throw _ => .throw .elements
    | .ub => .ub

/-- `save_construct_data` of an axis (`serialization/GridAxis.h` 68-77). -/
def putAxis (c : Codec A V) (a : Axis V) : List (Tok A) := .text a.name.toList :: .num a.size :: a.values.flatMap c.put

/-- `load_construct_data` of an axis (`serialization/GridAxis.h` 110-122). -/
def getAxis (c : Codec A V) (ts : List (Tok A)) : ARes (Axis V × List (Tok A)) := do
  let (name, ts) ← getText ts
  let (size, ts) ← getNum ts
  let (values, ts) ← getMany c size ts
  return (⟨String.ofList name, values⟩, ts)

/-- `Save<N>::save` (`serialization/tuple.h` 34-73): the codecs and the axes from the last to the first. -/
def putAxes : List (Codec A V) → List (Axis V) → List (Tok A)
  | c :: cs, a :: as => .ptr :: putAxis c a ++ putAxes cs as
  | _, _ => []

/-- `Load<N>::load` (`serialization/tuple.h` 75-121): the codecs from the last to the first. -/
def getAxes : List (Codec A V) → List (Tok A) → ARes (List (Axis V) × List (Tok A))
  | [], ts => .ok ([], ts)
  | c :: cs, ts => do
    let ts ← getMark isPtr ts
    let (a, ts) ← getAxis c ts
    let (previous, ts) ← getAxes cs ts
    return (previous ++ [a], ts)

def liftGrid : Grid.Res α → ARes α
  | .ok a => .ok a
  | .throw _ => .throw .elements
  | .ub => .ub

/-- `save` (`serialization/GridContainer.h` 41-64) for the positions that are left. -/
def putCells (c : Codec A T) (cells : List T) : List Nat → ARes (List (Tok A))
  | [] => .ok []
  | p :: ps =>
    match cells[p]? with
    | none => .ub
    | some x => do
      let rest ← putCells c cells ps
      return c.put x ++ rest

/-- `load` (`serialization/GridContainer.h` 66-90) for the positions that are left. -/
def getCells (c : Codec A T) : List Nat → List (Tok A) → List T → ARes (List T × List (Tok A))
  | [], ts, cells => .ok (cells, ts)
  | p :: ps, ts, cells => do
    let (x, ts) ← c.get ts
    if p < cells.length then getCells c ps ts (cells.set p x) else .ub

/-- `gridExport` to a stream (`serialize.h` 57-63) with `save_construct_data` of the grid (`serialization/GridContainer.h` 103-113): what is added to the stream. -/
def gridExport (axisCodecs : List (Codec A V)) (cellCodec : Codec A T) (g : GridC V) (cells : List T) : ARes (List (Tok A)) := do
  let ps ← liftGrid (FitsIO.positions g)
  let data ← putCells cellCodec cells ps
  return .header :: .ptr :: putAxes axisCodecs.reverse g.axesFixed.reverse ++ data

/-- `gridImport` from a stream (`serialize.h` 82-92) with `load_construct_data` of the grid (`serialization/GridContainer.h` 122-135): the grid, its cells and the rest of the stream. `cell0` is
the value of new cells. -/
def gridImport (axisCodecs : List (Codec A V)) (cellCodec : Codec A T) (cell0 : T) (ts : List (Tok A)) : ARes ((GridC V × List T) × List (Tok A)) := do
  let ts ← getMark isHeader ts
  let ts ← getMark isPtr ts
  let (axes, ts) ← getAxes axisCodecs.reverse ts
  let ps ← liftGrid (FitsIO.positions (Grid.mk axes))
  let (cells, ts) ← getCells cellCodec ps ts (List.replicate (cellCount axes) cell0)
  return ((Grid.mk axes, cells), ts)

end Alexandria.Grid.Archive
