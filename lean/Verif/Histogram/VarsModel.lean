import Verif.Histogram.Model

/-!
# Model of variables of type `Histogram`: constructors, copies, moves and `clip`

A `Histogram` holds a `unique_ptr` to a `ComputationImpl`, which holds its clip, its binning and a `shared_ptr` to the counts.  The heap has the vectors of
counts and the objects; a copy clones the object, but shares the vector of counts with it.  Nothing is freed in the model.
-/

namespace Alexandria.Histogram.Vars

/-- A `ComputationImpl` (`Histogram.h` 315-345): the counts are the address of a vector. -/
structure Obj (V : Type) where
  binning : Binning V
  counts : Nat
  left : Int
  right : Int

/-- The heap and the variables: `none` for what was not constructed or was moved from. -/
structure Heap (V W : Type) where
  vectors : List (List W)
  objects : List (Obj V)
  vars : Nat → Option Nat

/-- No variable is constructed. -/
def Heap.empty {V W : Type} : Heap V W := ⟨[], [], fun _ => none⟩

inductive Op (V W : Type) where
  | make (v : Nat) (b : Binning V) (data : List (V × W))
  | copy (dst src : Nat)
  | move (dst src : Nat)
  | clip (v : Nat) (min max : V)

variable {V W : Type}

/-- Assignment to a variable. -/
def assign {T : Type} (vars : Nat → Option T) (v : Nat) (o : Option T) : Nat → Option T := fun w => if w = v then o else vars w

/-- `clip` (`ComputationImpl.icpp` 6-18): the members are assigned one after the other; the result says if an exception was thrown. -/
def clipObj [LinearOrder V] (o : Obj V) (min max : V) : Outcome Err (Obj V × Bool) :=
  if min > max then .ok (o, true)
  else match o.binning.index min with
    | .ub => .ub
    | .throw _ => .ok (o, true)
    | .ok minBin =>
      let o := if minBin > o.left ∧ minBin ≤ o.right then { o with left := minBin } else o
      match o.binning.index max with
      | .ub => .ub
      | .throw _ => .ok (o, true)
      | .ok maxBin => .ok (if maxBin ≥ o.left ∧ maxBin < o.right then { o with right := maxBin } else o, false)

/-- One statement; the result says if an exception was thrown.  The constructors (`Histogram.h` 155-191, `ComputationImpl.icpp` 98-119), the copy constructor
(`Histogram.h` 196-198, 345, 351-353), the moving constructor and assignment (203, 213; moving a `unique_ptr` to itself leaves it as it is), and `clip`
(270-272). -/
def step [Add W] [Zero W] [LinearOrder V] (h : Heap V W) : Op V W → Outcome Err (Heap V W × Bool)
  | .make v b data =>
    match countLoop b data (List.replicate b.nbins 0) with
    | .ub => .ub
    | .throw _ => .ok (h, true)
    | .ok counts => .ok (⟨h.vectors ++ [counts], h.objects ++ [⟨b, h.vectors.length, 0, (b.nbins : Int) - 1⟩], assign h.vars v (some h.objects.length)⟩, false)
  | .copy dst src =>
    match h.vars src with
    | none => .ub
    | some a =>
      match h.objects[a]? with
      | none => .ub
      | some o => .ok (⟨h.vectors, h.objects ++ [o], assign h.vars dst (some h.objects.length)⟩, false)
  | .move dst src =>
    if dst = src then .ok (h, false) else .ok (⟨h.vectors, h.objects, assign (assign h.vars dst (h.vars src)) src none⟩, false)
  | .clip v min max =>
    match h.vars v with
    | none => .ub
    | some a =>
      match h.objects[a]? with
      | none => .ub
      | some o =>
        match clipObj o min max with
        | .ub => .ub
        | .throw e => .throw e
        | .ok (o, threw) => .ok (⟨h.vectors, h.objects.set a o, h.vars⟩, threw)

/-- The statements of a program, each exception caught. -/
def run [Add W] [Zero W] [LinearOrder V] (h : Heap V W) : List (Op V W) → Outcome Err (Heap V W × List Bool)
  | [] => .ok (h, [])
  | op :: ops =>
    match step h op with
    | .ub => .ub
    | .throw e => .throw e
    | .ok (h, t) =>
      match run h ops with
      | .ub => .ub
      | .throw e => .throw e
      | .ok (h, ts) => .ok (h, t :: ts)

/-- What the functions of a variable see. -/
def Heap.view (h : Heap V W) (v : Nat) : Option (Histo V W) :=
  match h.vars v with
  | none => none
  | some a =>
    match h.objects[a]? with
    | none => none
    | some o =>
      match h.vectors[o.counts]? with
      | none => none
      | some c => some ⟨o.binning, c, o.left, o.right⟩

end Alexandria.Histogram.Vars
