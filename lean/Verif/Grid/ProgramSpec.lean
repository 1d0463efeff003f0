import Verif.Grid.Program
import Verif.Grid.Spec

/-!
# What programs over grids should do

The specification knows no cell numbers, factors or iterators: a *grid* has axes and gives a value for every tuple of coordinates; a variable is a grid with some of the
axes fixed. Only the types of calls, results and axes are taken from the model.
-/

namespace Alexandria.Grid.Spec

variable {V T : Type}

/-- A grid. -/
structure Whole (V T : Type) where
  axes : List (Axis V)
  cell : List Nat → T

/-- The numbers of knots. -/
def Whole.lens (G : Whole V T) : List Nat := G.axes.map fun a => a.values.length

/-- A variable: the number of its grid, and which axes are fixed at which knot. -/
structure Part where
  grid : Nat
  fixed : List (Option Nat)

/-- The grids, and the variables (nothing after a move). -/
structure State (V T : Type) where
  grids : List (Whole V T)
  vars : List (Option Part)

/-- A variable and its grid. -/
def State.part (s : State V T) (v : Nat) : Option (Part × Whole V T) :=
  match s.vars[v]? with
  | some (some p) => s.grids[p.grid]?.map fun G => (p, G)
  | _ => none

/-- The coordinates that a variable has cells for, in the order of iteration. -/
def coordsOf (p : Part) (G : Whole V T) : List (List Nat) := sliceCoords G.lens p.fixed

/-- The knots at some coordinates. -/
def knotsAt (G : Whole V T) (cs : List Nat) : List V := (G.axes.zip cs).filterMap fun q => q.1.values[q.2]?

/-- An axis as seen from a variable: a fixed axis has one knot. -/
def seenAxis (p : Part) (G : Whole V T) (a : Nat) : Option (Axis V) :=
  G.axes[a]?.map fun x => match p.fixed[a]? with
    | some (some i) => ⟨x.name, x.values[i]?.toList⟩
    | _ => x

/-- How many axes are fixed. -/
def depth (p : Part) : Nat := (p.fixed.filter Option.isSome).length

/-- Coordinates that a variable may be asked for: zero on the fixed axes. -/
abbrev Legal (p : Part) (G : Whole V T) (cs : List Nat) : Prop := InRange cs G.lens ∧ ZeroAtFixed p.fixed cs

/-- Another value of a grid at some coordinates. -/
def Whole.write (G : Whole V T) (cs : List Nat) (x : T) : Whole V T := { G with cell := fun cs' => if cs' = cs then x else G.cell cs' }

/-- One call; `none` where the specification does not say what happens: a variable, axis or number of coordinates that makes no sense, illegal coordinates for
`operator()` and, unless `all`, the size and the axes of a variable with two or more fixed axes and the iteration of a slice of a grid that has no cells. -/
def step [DecidableEq V] [Inhabited T] (all : Bool) (s : State V T) : Op V T → Option (State V T × Out V T)
  | .make axes =>
    if axes = [] then none
    else some (⟨s.grids ++ [⟨axes, fun _ => default⟩], s.vars ++ [some ⟨s.grids.length, axes.map fun _ => none⟩]⟩, .done)
  | .fixIndex v a i => (s.part v).bind fun (p, G) => G.axes[a]?.bind fun x =>
    if i < x.values.length ∧ p.fixed[a]? = some none then some (⟨s.grids, s.vars ++ [some { p with fixed := p.fixed.set a (some i) }]⟩, .done)
    else some (s, .thrown)
  | .fixValue v a y => (s.part v).bind fun (p, G) => G.axes[a]?.bind fun x =>
    if y ∈ x.values ∧ p.fixed[a]? = some none then
      some (⟨s.grids, s.vars ++ [some { p with fixed := p.fixed.set a (some (x.values.idxOf y)) }]⟩, .done)
    else some (s, .thrown)
  | .take w => (s.part w).bind fun (p, _) => some (⟨s.grids, s.vars.set w none ++ [some p]⟩, .done)
  | .assign v w => if v = w ∨ s.vars.length ≤ v then none else
    (s.part w).bind fun (p, _) => some (⟨s.grids, (s.vars.set w none).set v (some p)⟩, .done)
  | .get v cs => (s.part v).bind fun (p, G) =>
    if cs.length ≠ G.axes.length then none
    else if Legal p G cs then some (s, .value (G.cell (place p.fixed cs)))
    else some (s, .thrown)
  | .set v cs x => (s.part v).bind fun (p, G) =>
    if cs.length ≠ G.axes.length then none
    else if Legal p G cs then some (⟨s.grids.set p.grid (G.write (place p.fixed cs) x), s.vars⟩, .done)
    else some (s, .thrown)
  | .call v cs => (s.part v).bind fun (p, G) =>
    if Legal p G cs then some (s, .value (G.cell (place p.fixed cs))) else none
  | .put v cs x => (s.part v).bind fun (p, G) =>
    if Legal p G cs then some (⟨s.grids.set p.grid (G.write (place p.fixed cs) x), s.vars⟩, .done) else none
  | .iter v => (s.part v).bind fun (p, G) =>
    if all || depth p == 0 || G.lens.all (0 < ·) then some (s, .values ((coordsOf p G).map G.cell)) else none
  | .update v f => (s.part v).bind fun (p, G) =>
    if all || depth p == 0 || G.lens.all (0 < ·) then
      some (⟨s.grids.set p.grid { G with cell := fun cs => if cs ∈ coordsOf p G then f (G.cell cs) else G.cell cs }, s.vars⟩, .done)
    else none
  | .knots v => (s.part v).bind fun (p, G) =>
    if all || depth p == 0 || G.lens.all (0 < ·) then some (s, .rows ((coordsOf p G).map (knotsAt G))) else none
  | .size v => (s.part v).bind fun (p, G) =>
    if all || depth p ≤ 1 then some (s, .number (coordsOf p G).length) else none
  | .axis v a => (s.part v).bind fun (p, G) =>
    if all || depth p ≤ 1 then (seenAxis p G a).bind fun x => some (s, .axis x) else none
  | .original v a => (s.part v).bind fun (_, G) => G.axes[a]?.bind fun x => some (s, .axis x)

/-- A program. -/
def run [DecidableEq V] [Inhabited T] (all : Bool) (s : State V T) : List (Op V T) → Option (List (Out V T))
  | [] => some []
  | o :: os => (step all s o).bind fun r => (run all r.1 os).bind fun rs => some (r.2 :: rs)

end Alexandria.Grid.Spec
