import Verif.NdArray.Model

/-!
# Model of the iterators of `NdArray` (`NdArray/NdArray/_impl/NdArray.icpp` 27-148, 280-298)

The position is a `size_t` (64 bits) and wraps around; the index of the element in the container is computed without overflow, as in `Model.lean`. An `assert` that fails is undefined behaviour
here: the program stops or, compiled without assertions, goes on with a wrong iterator.
-/

namespace Alexandria.NdArray

variable {T : Type}

/-- An iterator (`NdArray.h` 64-66). The class for constant elements has the same members, and its constructor from the other class copies them (`NdArray.icpp` 43-50). -/
structure Iter where
  cid : Nat
  offset : Nat
  row : Nat
  stride : Nat
  i : Nat
  deriving DecidableEq, Repr

/-- The constructor (`NdArray.icpp` 27-35); `strides.back()` of an empty vector is undefined. -/
def mkIter (cid offset : Nat) (shape strides : List Nat) (start : Nat) : Res Iter :=
  match strides.getLast? with
  | none => .ub
  | some s => .ok ⟨cid, offset, accI32 shape, s, start⟩

/-- `begin` (`NdArray.icpp` 280-283, 290-293). -/
def Nd.begin (a : Nd) : Res Iter := mkIter a.cid a.offset a.shape a.strides 0

/-- `end` (`NdArray.icpp` 285-288, 295-298). -/
def Nd.last (a : Nd) : Res Iter := mkIter a.cid a.offset a.shape a.strides a.size

/-- `++it` (`NdArray.icpp` 52-57). -/
def Iter.inc (it : Iter) : Iter := ⟨it.cid, it.offset, it.row, it.stride, (it.i + 1) % 2 ^ 64⟩

/-- `it++` (`NdArray.icpp` 59-63): the iterator afterwards and the result. -/
def Iter.postInc (it : Iter) : Iter × Iter := (it, ⟨it.cid, it.offset, it.row, it.stride, (it.i + 1) % 2 ^ 64⟩)

/-- `it += n` and `it + n` (`NdArray.icpp` 89-100). -/
def Iter.add (it : Iter) (n : Nat) : Iter := ⟨it.cid, it.offset, it.row, it.stride, (it.i + n) % 2 ^ 64⟩

/-- `it -= n` and `it - n` (`NdArray.icpp` 102-115). -/
def Iter.sub (it : Iter) (n : Nat) : Res Iter := if n ≤ it.i then .ok ⟨it.cid, it.offset, it.row, it.stride, it.i - n⟩ else .ub

/-- `it - other` (`NdArray.icpp` 117-122): a difference of two `size_t` as a `ptrdiff_t`. -/
def Iter.diff (it other : Iter) : Res Int := if it.cid = other.cid then .ok (Int.bmod ((it.i : Int) - other.i) (2 ^ 64)) else .ub

/-- `it == other` (`NdArray.icpp` 65-69): the bytes of the two objects are compared; there is no padding. -/
def Iter.eq (it other : Iter) : Bool := decide (it = other)

/-- `it < other` (`NdArray.icpp` 136-141). -/
def Iter.lt (it other : Iter) : Res Bool := if it.cid = other.cid then .ok (decide (it.i < other.i)) else .ub

/-- `it > other` (`NdArray.icpp` 143-148). -/
def Iter.gt (it other : Iter) : Res Bool := if it.cid = other.cid then .ok (decide (it.i > other.i)) else .ub

/-- The index in the container of `it[k]` (`NdArray.icpp` 127, 133). -/
def Iter.index (it : Iter) (k : Nat) : Nat := it.offset + ((it.i + k) % 2 ^ 64) * it.stride

/-- Reading `it[k]` (`NdArray.icpp` 124-134); `*it` is `it[0]` (77-87). -/
def Iter.read (h : Heap T) (it : Iter) (k : Nat) : Res T :=
  match h[it.cid]? with
  | none => .ub
  | some c => match c[it.index k]? with
    | none => .ub
    | some x => .ok x

/-- `it[k] = x` (`NdArray.icpp` 124-128). -/
def Iter.write (h : Heap T) (it : Iter) (k : Nat) (x : T) : Res (Heap T) := setOffset h it.cid (it.index k) x

/-- A movement of an iterator. -/
inductive Move where
  | inc
  | add (n : Nat)
  | sub (n : Nat)
  deriving DecidableEq, Repr

def Move.apply (it : Iter) : Move → Res Iter
  | .inc => .ok it.inc
  | .add n => .ok (it.add n)
  | .sub n => it.sub n

/-- Several movements. -/
def Iter.go (it : Iter) : List Move → Res Iter
  | [] => .ok it
  | m :: ms => do
    let it ← m.apply it
    it.go ms

/-- The loop `for (; it != last; ++it) out.push_back(*it)` with at most `fuel` tests of the condition. -/
def walk (h : Heap T) : Nat → Iter → Iter → Option (Res (List T))
  | 0, _, _ => none
  | fuel + 1, it, last =>
    if it.eq last then some (.ok [])
    else match it.read h 0 with
      | .ok x => (walk h fuel it.inc last).map fun rest => do
        let rest ← rest
        return x :: rest
      | .throw e => some (.throw e)
      | .ub => some .ub

/-- The loop `while (it != last) out.push_back(*it++)` with at most `fuel` tests of the condition. -/
def walkPost (h : Heap T) : Nat → Iter → Iter → Option (Res (List T))
  | 0, _, _ => none
  | fuel + 1, it, last =>
    if it.eq last then some (.ok [])
    else match it.postInc.2.read h 0 with
      | .ok x => (walkPost h fuel it.postInc.1 last).map fun rest => do
        let rest ← rest
        return x :: rest
      | .throw e => some (.throw e)
      | .ub => some .ub

end Alexandria.NdArray
