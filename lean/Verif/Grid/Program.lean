import Verif.Grid.Model

/-!
# Programs over grids

A program makes grids, slices them, moves them, reads and writes cells through `at`, `operator()` and iterators; its variables are `GridContainer` objects whose
cells are a `std::vector`. An exception is caught by the program and leaves the variables as they are. A variable that does not exist or has been moved from, an
axis that does not exist and a wrong number of coordinates make the program meaningless (`ub`; the last two do not compile).
-/

namespace Alexandria.Grid

/-- The calls that a program makes. A call that gives a grid appends it to the variables. -/
inductive Op (V T : Type) where
  | make (axes : List (Axis V))
  | fixIndex (v axis index : Nat)
  | fixValue (v axis : Nat) (value : V)
  | take (w : Nat)
  | assign (v w : Nat)
  | get (v : Nat) (coords : List Nat)
  | set (v : Nat) (coords : List Nat) (x : T)
  | call (v : Nat) (coords : List Nat)
  | put (v : Nat) (coords : List Nat) (x : T)
  | iter (v : Nat)
  | update (v : Nat) (f : T → T)
  | knots (v : Nat)
  | size (v : Nat)
  | axis (v a : Nat)
  | original (v a : Nat)

/-- What the program sees of a call. -/
inductive Out (V T : Type) where
  | done
  | value (x : T)
  | values (l : List T)
  | rows (l : List (List V))
  | number (n : Nat)
  | axis (a : Axis V)
  | thrown
  deriving DecidableEq

/-- The cell managers, and the variables: the number of the cell manager and the other members, or nothing after a move. -/
structure State (V T : Type) where
  stores : List (List T)
  vars : List (Option (Nat × GridC V))

variable {V T : Type}

/-- A variable. -/
def State.var (s : State V T) (v : Nat) : Res (Nat × GridC V) :=
  match s.vars[v]? with
  | some (some p) => .ok p
  | _ => .ub

/-- The cells behind `m_cell_manager`. -/
def State.cells (s : State V T) (id : Nat) : Res (List T) :=
  match s.stores[id]? with
  | some c => .ok c
  | none => .ub

/-- The coordinates must be as many as the axes (the functions are templates over the axes). -/
def arity (g : GridC V) (coords : List Nat) : Res Unit := if coords.length = g.axes.length then .ok () else .ub

/-- A loop that calls `f` for each element. -/
def each {α β : Type} (f : α → Res β) : List α → Res (List β)
  | [] => .ok []
  | a :: l => do
    let b ← f a
    let bs ← each f l
    return b :: bs

/-- The loop `for (; it != end; ++it)`: the positions visited (see `Loop`). It cannot take more than `count` turns if the positions increase; `ub` if the number of
turns allowed is used up, or if the position is beyond the end. -/
def visit (szs : List Nat) (count : Nat) : Nat → Iter → Res (List Nat)
  | 0, _ => .ub
  | n + 1, it =>
    if it.pos = count then .ok []
    else if it.pos < count then do
      let it' ← it.next szs count
      let l ← visit szs count n it'
      return it.pos :: l
    else .ub

/-- The positions visited by `for (auto it = grid.begin(); it != grid.end(); ++it)` (`GridContainer.icpp` 81-115). -/
def GridC.positions (g : GridC V) : Res (List Nat) := do
  let it ← g.begin'
  visit (sizes g.axes) (cellCount g.axes) (cellCount g.axes + 1) it

/-- `*it = f(*it)` at the positions of a loop. -/
def updateAll (f : T → T) : List Nat → List T → Res (List T)
  | [], cells => .ok cells
  | k :: ks, cells =>
    match cells[k]? with
    | some x => updateAll f ks (cells.set k (f x))
    | none => .ub

/-- An exception is caught. -/
def caught (s : State V T) : Res (State V T × Out V T) → Res (State V T × Out V T)
  | .throw _ => .ok (s, .thrown)
  | r => r

/-- One call: the constructor, whose cell manager has value-initialised cells (`GridContainer.icpp` 31-36, `GridContainer.h` 356-357,
`GridCellManagerTraits.icpp` 48-51), `fixAxisByIndex` and `fixAxisByValue` (`GridContainer.icpp` 211-240), the moving constructor and assignment (`GridContainer.h` 141-142; assignment to itself is
left out), `at` and `operator()` (122-156), loops over the iterators with `operator*` and `axisValue` (`GridIterator.icpp` 46-116), `size`, `getAxis` and
`getOriginalAxis` (59-79, 117-120). -/
def step [DecidableEq V] [Inhabited T] (s : State V T) : Op V T → Res (State V T × Out V T)
  | .make axes =>
    if axes = [] then .ub
    else .ok (⟨s.stores ++ [List.replicate (cellCount axes) default], s.vars ++ [some (s.stores.length, mk axes)]⟩, .done)
  | .fixIndex v axis index => do
    let (id, g) ← s.var v
    caught s do
      let g' ← g.fixAxisByIndex axis index
      return (⟨s.stores, s.vars ++ [some (id, g')]⟩, .done)
  | .fixValue v axis value => do
    let (id, g) ← s.var v
    caught s do
      let g' ← g.fixAxisByValue axis value
      return (⟨s.stores, s.vars ++ [some (id, g')]⟩, .done)
  | .take w => do
    let p ← s.var w
    return (⟨s.stores, s.vars.set w none ++ [some p]⟩, .done)
  | .assign v w =>
    if v = w ∨ s.vars.length ≤ v then .ub
    else do
      let p ← s.var w
      return (⟨s.stores, (s.vars.set w none).set v (some p)⟩, .done)
  | .get v coords => do
    let (id, g) ← s.var v
    let cells ← s.cells id
    arity g coords
    caught s do
      let x ← g.at' cells coords
      return (s, .value x)
  | .set v coords x => do
    let (id, g) ← s.var v
    let cells ← s.cells id
    arity g coords
    caught s do
      let cells' ← g.set' cells coords x
      return (⟨s.stores.set id cells', s.vars⟩, .done)
  | .call v coords => do
    let (id, g) ← s.var v
    let cells ← s.cells id
    arity g coords
    let x ← g.call cells coords
    return (s, .value x)
  | .put v coords x => do
    let (id, g) ← s.var v
    let cells ← s.cells id
    arity g coords
    if g.callIndex coords < cells.length then
      return (⟨s.stores.set id (cells.set (g.callIndex coords) x), s.vars⟩, .done)
    else .ub
  | .iter v => do
    let (id, g) ← s.var v
    let cells ← s.cells id
    let ps ← g.positions
    let l ← each (cellAt cells) ps
    return (s, .values l)
  | .update v f => do
    let (id, g) ← s.var v
    let cells ← s.cells id
    let ps ← g.positions
    let cells' ← updateAll f ps cells
    return (⟨s.stores.set id cells', s.vars⟩, .done)
  | .knots v => do
    let (_, g) ← s.var v
    let ps ← g.positions
    let l ← each (fun k => each (fun a => g.iterAxisValue ⟨k, g.fixed⟩ a) (List.range g.axes.length)) ps
    return (s, .rows l)
  | .size v => do
    let (_, g) ← s.var v
    return (s, .number g.size)
  | .axis v a => do
    let (_, g) ← s.var v
    match g.axesFixed[a]? with
    | some x => return (s, .axis x)
    | none => .ub
  | .original v a => do
    let (_, g) ← s.var v
    match g.axes[a]? with
    | some x => return (s, .axis x)
    | none => .ub

/-- A program. -/
def run [DecidableEq V] [Inhabited T] (s : State V T) : List (Op V T) → Res (List (Out V T))
  | [] => .ok []
  | o :: os => do
    let (s', r) ← step s o
    let rs ← run s' os
    return r :: rs

end Alexandria.Grid
