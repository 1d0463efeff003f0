/-!
# Model of `ConfigManager::getInstance`, called by several threads

The function has no lock. A call is four steps: `operator[]` of the map, the comparison with `nullptr`, `reset`, and the dereference. The
construction of the map itself (a static variable of the function) is safe. The model lets every step take effect at once, which is the
best that can happen when there is a data race; the races are stated apart (`Races`).
-/

namespace Alexandria.Configuration.Instance

/-- Where a thread is in `getInstance` (`ConfigManager.cpp` 34-41): not in a call, about to compare the pointer (37), about to make a
manager (38), about to dereference the pointer (40). -/
inductive Pc where
  | out
  | test (id : Int)
  | make (id : Int)
  | deref (id : Int)
  deriving DecidableEq, Repr

/-- A thread: the ids of the calls that it still makes, where it is, and the managers it has got, with the ids. -/
structure Thread where
  todo : List Int
  pc : Pc
  got : List (Int × Nat)

/-- `manager_map` (35; `none`: no entry, `some none`: a null pointer), the number of managers ever made, those that have been destroyed, and
the threads. -/
structure State where
  map : Int → Option (Option Nat)
  made : Nat
  gone : List Nat
  threads : Nat → Thread

/-- The state in which the threads start. -/
def State.start (map : Int → Option (Option Nat)) (made : Nat) (calls : Nat → List Int) : State where
  map := map
  made := made
  gone := []
  threads := fun i => ⟨calls i, .out, []⟩

def State.setMap (s : State) (id : Int) (e : Option Nat) : State := { s with map := fun k => if k = id then some e else s.map k }

def State.setThread (s : State) (i : Nat) (t : Thread) : State := { s with threads := fun k => if k = i then t else s.threads k }

/-- One step of thread `i`; `none` if it has nothing to do. `operator[]` inserts a null pointer if there is no entry (36); `reset` destroys
what the pointer pointed to (38). The references to elements of a `std::map` stay valid. -/
def State.step (s : State) (i : Nat) : Option State :=
  let t := s.threads i
  match t.pc with
  | .out =>
    match t.todo with
    | [] => none
    | id :: rest =>
      let s' := match s.map id with
        | none => s.setMap id none
        | some _ => s
      some (s'.setThread i { t with todo := rest, pc := .test id })
  | .test id =>
    match s.map id with
    | some (some _) => some (s.setThread i { t with pc := .deref id })
    | _ => some (s.setThread i { t with pc := .make id })
  | .make id =>
    let gone := match s.map id with
      | some (some m) => s.gone ++ [m]
      | _ => s.gone
    some ({ s.setMap id (some s.made) with made := s.made + 1, gone := gone }.setThread i { t with pc := .deref id })
  | .deref id =>
    match s.map id with
    | some (some m) => some (s.setThread i { t with pc := .out, got := t.got ++ [(id, m)] })
    | _ => none

/-- A sequence of steps; the threads that make them are given. -/
def State.run (s : State) : List Nat → Option State
  | [] => some s
  | i :: is => (s.step i).bind fun s' => s'.run is

/-- What the next step of a thread reads or writes: the tree of the map (`true` if it inserts) or one of the pointers in it. -/
inductive Access where
  | tree (write : Bool)
  | pointer (id : Int) (write : Bool)
  deriving DecidableEq, Repr

def State.access (s : State) (i : Nat) : Option Access :=
  let t := s.threads i
  match t.pc with
  | .out =>
    match t.todo with
    | [] => none
    | id :: _ => some (.tree (s.map id).isNone)
  | .test id => some (.pointer id false)
  | .make id => some (.pointer id true)
  | .deref id => some (.pointer id false)

/-- Two accesses to the same memory, one of which writes. -/
def Access.conflict : Access → Access → Bool
  | .tree a, .tree b => a || b
  | .pointer k a, .pointer l b => k == l && (a || b)
  | _, _ => false

/-- Two threads are about to make conflicting accesses; nothing orders them. -/
def State.Races (s : State) (i j : Nat) : Prop :=
  i ≠ j ∧ ∃ a b, s.access i = some a ∧ s.access j = some b ∧ a.conflict b = true

end Alexandria.Configuration.Instance
