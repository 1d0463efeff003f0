import Verif.Grid.ArchiveModel

/-!
# Model of several grids in one boost archive: `GridContainer/GridContainer/serialization/{GridContainer,GridAxis,tuple}.h`

An archive of boost gives a number to every object that is stored by a pointer, and knows the objects by their class and address. An object with the class and address of an earlier one is stored as the
number of that one; when the number is loaded, the result is the pointer that was made then (`basic_oarchive_impl::save_pointer`, `basic_iarchive_impl::load_pointer`). The library stores by pointers the grid
(by its user) and the axes, which are elements of a local tuple (`serialization/GridContainer.h` 108-113). Where this tuple is each time is not determined by the program, hence a parameter.

Simplifications: all grids have one type, with knots and cells that are stored by value, and none is a slice.
-/

namespace Alexandria.Grid.Archive

variable {A V T : Type}

/-- An object that the archive knows, when storing. -/
inductive Key where
  | grid (address : Nat)
  | axis (address : Nat)
  deriving DecidableEq, Repr

/-- A statement `archive << pointer`: the address of the grid, the grid, and the addresses of the elements of the local tuple of axes in case that the grid is stored. -/
structure Write (V T : Type) where
  address : Nat
  axes : List (Axis V)
  cells : List T
  places : List Nat

/-- Storing of a pointer to an axis (`Save<N>::save`, `serialization/tuple.h` 53-66), with `save_construct_data` (`serialization/GridAxis.h` 68-77) if it is a new object. -/
def saveAxis (c : Codec A V) (known : List Key) (place : Nat) (a : Axis V) : List Key × List (Tok A) :=
  match known.idxOf? (.axis place) with
  | some i => (known, [.ptr, .num i])
  | none => (known ++ [.axis place], .ptr :: .num known.length :: putAxis c a)

/-- `Save<N>::save` (`serialization/tuple.h` 36-76): the elements of the tuple from the last to the first. -/
def saveTuple (c : Codec A V) : List Key → List (Nat × Axis V) → List Key × List (Tok A)
  | known, [] => (known, [])
  | known, (p, a) :: l =>
    let r := saveAxis c known p a
    let r' := saveTuple c r.1 l
    (r'.1, r.2 ++ r'.2)

/-- `archive << pointer`, with `save_construct_data` (`serialization/GridContainer.h` 108-113) and `save` (43-50) if it is a new object. -/
def saveGrid (c : Codec A V) (cc : Codec A T) (known : List Key) (w : Write V T) : List Key × List (Tok A) :=
  match known.idxOf? (.grid w.address) with
  | some i => (known, [.ptr, .num i])
  | none =>
    let r := saveTuple c (known ++ [.grid w.address]) (w.places.zip w.axes).reverse
    (r.1, .ptr :: .num known.length :: r.2 ++ w.cells.flatMap cc.put)

/-- The statements of one archive. -/
def saveAll (c : Codec A V) (cc : Codec A T) : List Key → List (Write V T) → List (Tok A)
  | _, [] => []
  | known, w :: ws =>
    let r := saveGrid c cc known w
    r.2 ++ saveAll c cc r.1 ws

/-- An object that was loaded: a grid, which belongs to the user, who keeps it, or an object that was deleted. -/
inductive Obj (V T : Type) where
  | grid (axes : List (Axis V)) (cells : List T)
  | deleted

/-- Loading of a pointer to an axis and copying of the axis (`Load<N>::load`, `serialization/tuple.h` 103-115) with `load_construct_data` (`serialization/GridAxis.h` 110-122) for a new object, which is deleted by
the end of the block (`deleter`). So all axes that the archive knows are deleted, and reading one of them is undefined behaviour. -/
def loadAxis (c : Codec A V) (objs : List (Obj V T)) (ts : List (Tok A)) : ARes (Axis V × List (Obj V T) × List (Tok A)) := do
  let ts ← getMark isPtr ts
  let (i, ts) ← getNum ts
  if i < objs.length then .ub
  else
    let (a, ts) ← getAxis c ts
    return (a, objs ++ [.deleted], ts)

/-- `Load<N>::load` (`serialization/tuple.h` 83-124): the given number of axes, from the last to the first. -/
def loadTuple (c : Codec A V) : Nat → List (Obj V T) → List (Tok A) → ARes (List (Axis V) × List (Obj V T) × List (Tok A))
  | 0, objs, ts => .ok ([], objs, ts)
  | n + 1, objs, ts => do
    let (a, objs, ts) ← loadAxis c objs ts
    let (before, objs, ts) ← loadTuple c n objs ts
    return (before ++ [a], objs, ts)

/-- `archive >> pointer`, with `load_construct_data` (`serialization/GridContainer.h` 127-135) and `load` (68-75) for a new object. -/
def loadGrid (c : Codec A V) (cc : Codec A T) (n : Nat) (objs : List (Obj V T)) (ts : List (Tok A)) : ARes ((List (Axis V) × List T) × List (Obj V T) × List (Tok A)) := do
  let ts ← getMark isPtr ts
  let (i, ts) ← getNum ts
  match objs[i]? with
  | some (.grid axes cells) => .ok ((axes, cells), objs, ts)
  | some .deleted => .ub
  | none =>
    let (axes, objs', ts) ← loadTuple c n (objs ++ [.deleted]) ts
    let (cells, ts) ← getMany cc (cellCount axes) ts
    return ((axes, cells), objs'.set objs.length (.grid axes cells), ts)

/-- As many statements `archive >> pointer`: the grids. `n` is the number of axes of the type. -/
def loadAll (c : Codec A V) (cc : Codec A T) (n : Nat) : Nat → List (Obj V T) → List (Tok A) → ARes (List (List (Axis V) × List T) × List (Tok A))
  | 0, _, ts => .ok ([], ts)
  | k + 1, objs, ts => do
    let (g, objs, ts) ← loadGrid c cc n objs ts
    let (gs, ts) ← loadAll c cc n k objs ts
    return (g :: gs, ts)

end Alexandria.Grid.Archive
