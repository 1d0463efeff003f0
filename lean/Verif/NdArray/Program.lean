import Verif.NdArray.Model

/-!
# Programs over n-dimensional arrays

A program makes arrays, with or without names of attributes, slices, reshapes, shares, copies and concatenates them, reads and writes elements; its variables are
`NdArray` objects. An exception is caught by
the program and leaves the variables as they are. A variable that does not exist makes the program meaningless (`ub`).
-/

namespace Alexandria.NdArray

/-- The calls that a program makes. A call that gives an array appends it to the variables. -/
inductive Op (T : Type) where
  | make (shape : List Nat) (data : List T)
  | makeNamed (shape : List Nat) (names : List String) (data : List T)
  | share (v : Nat)
  | assign (v w : Nat)
  | slice (v i : Nat)
  | rslice (v i : Nat)
  | reshape (v : Nat) (shape : List Nat)
  | copy (v : Nat)
  | concatenate (v w : Nat)
  | get (v : Nat) (c : List Nat)
  | set (v : Nat) (c : List Nat) (x : T)
  | getNamed (v : Nat) (c : List Nat) (name : String)
  | setNamed (v : Nat) (c : List Nat) (name : String) (x : T)
  | iter (v : Nat)
  | equal (v w : Nat)
  | size (v : Nat)
  | shape (v : Nat)
  | names (v : Nat)

/-- What the program sees of a call. -/
inductive Out (T : Type) where
  | done
  | value (x : T)
  | values (l : List T)
  | truth (b : Bool)
  | number (n : Nat)
  | dims (l : List Nat)
  | strings (l : List String)
  | thrown (e : Err)
  deriving DecidableEq

/-- The containers and the variables. -/
structure State (T : Type) where
  heap : Heap T
  vars : List Nd

variable {T : Type}

/-- A variable. -/
def State.var (s : State T) (v : Nat) : Res Nd :=
  match s.vars[v]? with
  | some a => .ok a
  | none => .ub

/-- An exception is caught. -/
def caught (s : State T) : Res (State T × Out T) → Res (State T × Out T)
  | .throw e => .ok (s, .thrown e)
  | r => r

/-- `at(coords, attr) = x` (`NdArray.icpp` 254-258 returns a reference). -/
def setAttr (h : Heap T) (a : Nd) (coords : List Nat) (attr : String) (x : T) : Res (Heap T) := do
  let o ← getOffsetAttr a coords attr
  setOffset h a.cid o x

/-- One call: the constructors (`NdArray.icpp` 159-170, 214-219), the copying constructor and the assignment that share the container (`NdArray.h` 269, 281), `slice`,
`rslice`, `reshape`, `copy`, `concatenate`, `at`, iteration, `operator==`, `size`, `shape` and `attributes` (`NdArray.h` 286-297, `NdArray.icpp` 221-233, 242-264,
280-350, 359-400). The elements that `concatenate` value-initialises are `default`. -/
def step [DecidableEq T] [Inhabited T] (s : State T) : Op T → Res (State T × Out T)
  | .make shape data => caught s do
    let (h, a) ← mkData s.heap shape data
    return (⟨h, s.vars ++ [a]⟩, .done)
  | .makeNamed shape names data => caught s do
    let (h, a) ← mkAttrs s.heap shape names data
    return (⟨h, s.vars ++ [a]⟩, .done)
  | .share v => do
    let a ← s.var v
    return (⟨s.heap, s.vars ++ [a]⟩, .done)
  | .assign v w => do
    let _ ← s.var v
    let b ← s.var w
    return (⟨s.heap, s.vars.set v b⟩, .done)
  | .slice v i => do
    let a ← s.var v
    caught s do
      let b ← slice a i
      return (⟨s.heap, s.vars ++ [b]⟩, .done)
  | .rslice v i => do
    let a ← s.var v
    caught s do
      let b ← rslice a i
      return (⟨s.heap, s.vars ++ [b]⟩, .done)
  | .reshape v shape => do
    let a ← s.var v
    caught s do
      let b ← reshape a shape
      return (⟨s.heap, s.vars.set v b⟩, .done)
  | .copy v => do
    let a ← s.var v
    let (h, b) ← copy s.heap a
    return (⟨h, s.vars ++ [b]⟩, .done)
  | .concatenate v w => do
    let a ← s.var v
    let b ← s.var w
    caught s do
      let (h, a') ← concatenate default s.heap a b
      return (⟨h, s.vars.set v a'⟩, .done)
  | .get v c => do
    let a ← s.var v
    caught s do
      let x ← at' s.heap a c
      return (s, .value x)
  | .set v c x => do
    let a ← s.var v
    caught s do
      let h ← set' s.heap a c x
      return (⟨h, s.vars⟩, .done)
  | .getNamed v c name => do
    let a ← s.var v
    caught s do
      let x ← atAttr s.heap a c name
      return (s, .value x)
  | .setNamed v c name x => do
    let a ← s.var v
    caught s do
      let h ← setAttr s.heap a c name x
      return (⟨h, s.vars⟩, .done)
  | .iter v => do
    let a ← s.var v
    let l ← iterate s.heap a
    return (s, .values l)
  | .equal v w => do
    let a ← s.var v
    let b ← s.var w
    let r ← beq s.heap a b
    return (s, .truth r)
  | .size v => do
    let a ← s.var v
    return (s, .number a.size)
  | .shape v => do
    let a ← s.var v
    return (s, .dims a.shape)
  | .names v => do
    let a ← s.var v
    return (s, .strings a.attrs)

/-- A program. -/
def run [DecidableEq T] [Inhabited T] (s : State T) : List (Op T) → Res (List (Out T))
  | [] => .ok []
  | o :: os => do
    let (s', r) ← step s o
    let rs ← run s' os
    return r :: rs

end Alexandria.NdArray
