import Verif.NdArray.Program
import Verif.NdArray.Spec

/-!
# What programs over n-dimensional arrays should do

The specification knows no strides, offsets or containers of elements in a row: there are *grids*, functions of coordinates, and a variable is a grid seen
through a map of coordinates. Only the types of calls and results are taken from the model.
-/

namespace Alexandria.NdArray.Spec

variable {T : Type}

/-- A variable: the number of its grid, its shape, and which coordinates of the grid its own coordinates stand for. `contiguous`: no last axis has been fixed since the
grid or the last reshape. `whole`: all of the grid is visible. `fresh`: nothing has been concatenated to the variable. `names`: the names of the last axis, if
the specification knows them. -/
structure Arr where
  grid : Nat
  shape : List Nat
  view : List Nat → List Nat
  contiguous : Bool
  whole : Bool
  fresh : Bool
  names : Option (List String)

/-- The grids and the variables. -/
structure State (T : Type) where
  grids : List (List Nat → Option T)
  vars : List Arr

/-- The element of a variable at some coordinates. -/
def State.elem (s : State T) (a : Arr) (c : List Nat) : Option T :=
  match s.grids[a.grid]? with
  | some g => g (a.view c)
  | none => none

/-- The elements of a variable in row-major order. -/
def State.elems (s : State T) (a : Arr) : List T := (allCoords a.shape).filterMap (s.elem a)

/-- The coordinates at the same place of the row-major order of another shape. -/
def samePlace (newShape shape : List Nat) (c : List Nat) : List Nat := (allCoords shape).getD ((allCoords newShape).idxOf c) []

/-- Where a variable shows some coordinates of its grid. -/
def place (a : Arr) (c : List Nat) : List Nat := ((allCoords a.shape).find? fun c' => a.view c' = c).getD []

/-- The shape of a variable with the rows of another below its own. -/
def stack (a b : Arr) : List Nat := (a.shape.headD 0 + b.shape.headD 0) :: a.shape.tail

/-- The elements of a variable with the rows of another below its own. -/
def State.stacked (s : State T) (a b : Arr) (c : List Nat) : Option T :=
  if c.headD 0 < a.shape.headD 0 then s.elem a c else s.elem b ((c.headD 0 - a.shape.headD 0) :: c.tail)

/-- Another variable after the grid of `a` has got more rows: it shows the elements that it has shown before. -/
def Arr.moved (a u : Arr) : Arr := if u.grid = a.grid then { u with view := fun c => place a (u.view c), whole := false } else u

/-- A new array. -/
def State.made (s : State T) (shape : List Nat) (names : List String) (data : List T) : Option (State T × Out T) :=
  if shape = [] ∨ 2 ^ 31 ≤ card shape then none
  else if data.length ≠ card shape then some (s, .thrown .invalidArgument)
  else some (⟨s.grids ++ [fun c => data[(allCoords shape).idxOf c]?], s.vars ++ [⟨s.grids.length, shape, id, true, true, true, some names⟩]⟩, .done)

/-- Reading an element. -/
def State.read (s : State T) (a : Arr) (c : List Nat) : Option (State T × Out T) :=
  if c ∈ allCoords a.shape then (s.elem a c).bind fun x => some (s, .value x) else some (s, .thrown .outOfRange)

/-- Writing an element. -/
def State.write (s : State T) (a : Arr) (c : List Nat) (x : T) : Option (State T × Out T) :=
  if c ∈ allCoords a.shape then
    some (⟨s.grids.modify a.grid fun g c' => if c' = a.view c then some x else g c', s.vars⟩, .done)
  else some (s, .thrown .outOfRange)

/-- The names that are left of known names when an axis is fixed: the same ones or, unless `all`, only those of an array without names. -/
def kept (all : Bool) (names rest : Option (List String)) : Option (List String) := if all then rest else if names = some [] then some [] else none

/-- One call; `none` where the specification does not say what happens: empty shapes, shapes of `2^31` or more elements, concatenation to a part of a grid and, unless
`all`, the copy of a part of a grid, the reshape of a variable that is not contiguous, iteration, size, comparison and reshape of a variable something has been
concatenated to, and the names of slices of an array that has names. -/
def step [DecidableEq T] (all : Bool) (s : State T) : Op T → Option (State T × Out T)
  | .make shape data => s.made shape [] data
  | .makeNamed shape names data => s.made (if names = [] then shape else shape ++ [names.length]) names data
  | .share v => s.vars[v]?.bind fun a => some (⟨s.grids, s.vars ++ [a]⟩, .done)
  | .assign v w => s.vars[v]?.bind fun _ => s.vars[w]?.bind fun b => some (⟨s.grids, s.vars.set v b⟩, .done)
  | .slice v i => s.vars[v]?.bind fun a =>
    if 2 ≤ a.shape.length ∧ i < a.shape.headD 0 then
      some (⟨s.grids, s.vars ++ [{ a with shape := a.shape.tail, view := fun c => a.view (i :: c), whole := false, fresh := true, names := kept all a.names a.names }]⟩,
        .done)
    else some (s, .thrown .outOfRange)
  | .rslice v i => s.vars[v]?.bind fun a =>
    if 2 ≤ a.shape.length ∧ i < a.shape.getLastD 0 then
      some (⟨s.grids, s.vars ++
        [{ a with shape := a.shape.dropLast, view := fun c => a.view (c ++ [i]), contiguous := false, whole := false, fresh := true, names := kept all a.names (some []) }]⟩,
        .done)
    else some (s, .thrown .outOfRange)
  | .reshape v shape => s.vars[v]?.bind fun a => a.names.bind fun names =>
    if names ≠ [] then some (s, .thrown .invalidArgument)
    else if shape = [] ∨ 2 ^ 31 ≤ card shape ∨ (all || a.fresh) = false then none
    else if card shape ≠ card a.shape then some (s, .thrown .rangeError)
    else if all || a.contiguous then some (⟨s.grids, s.vars.set v { a with shape := shape, view := fun c => a.view (samePlace shape a.shape c) }⟩, .done)
    else none
  | .copy v => s.vars[v]?.bind fun a =>
    if all || a.whole then some (⟨s.grids ++ [s.elem a], s.vars ++ [⟨s.grids.length, a.shape, id, true, true, true, a.names⟩]⟩, .done) else none
  | .concatenate v w => s.vars[v]?.bind fun a => s.vars[w]?.bind fun b =>
    if a.shape.length ≠ b.shape.length ∨ a.shape.tail ≠ b.shape.tail then some (s, .thrown .lengthError)
    else if 2 ^ 31 ≤ card (stack a b) then none
    else if a.whole && (all || b.fresh) then
      some (⟨s.grids.set a.grid (s.stacked a b), (s.vars.map a.moved).set v { a with shape := stack a b, view := id, fresh := false }⟩, .done)
    else none
  | .get v c => s.vars[v]?.bind fun a => s.read a c
  | .set v c x => s.vars[v]?.bind fun a => s.write a c x
  | .getNamed v c name => s.vars[v]?.bind fun a => a.names.bind fun names =>
    if name ∈ names then s.read a (c ++ [names.idxOf name]) else some (s, .thrown .outOfRange)
  | .setNamed v c name x => s.vars[v]?.bind fun a => a.names.bind fun names =>
    if name ∈ names then s.write a (c ++ [names.idxOf name]) x else some (s, .thrown .outOfRange)
  | .iter v => s.vars[v]?.bind fun a => if all || a.fresh then some (s, .values (s.elems a)) else none
  | .equal v w => s.vars[v]?.bind fun a => s.vars[w]?.bind fun b =>
    if a.shape ≠ b.shape then some (s, .truth false)
    else if all || (a.fresh && b.fresh) then some (s, .truth (decide (s.elems a = s.elems b))) else none
  | .size v => s.vars[v]?.bind fun a => if all || a.fresh then some (s, .number (card a.shape)) else none
  | .shape v => s.vars[v]?.bind fun a => some (s, .dims a.shape)
  | .names v => s.vars[v]?.bind fun a => a.names.bind fun names => some (s, .strings names)

/-- A program. -/
def run [DecidableEq T] (all : Bool) (s : State T) : List (Op T) → Option (List (Out T))
  | [] => some []
  | o :: os => (step all s o).bind fun r => (run all r.1 os).bind fun rs => some (r.2 :: rs)

end Alexandria.NdArray.Spec
