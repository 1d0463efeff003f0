import Verif.Common.Outcome

/-!
# Model of `NdArray/NdArray/_impl/NdArray.icpp`, `NdArray/NdArray/NdArray.h` and `NdArray/src/Operations.cpp`

An `NdArray` object is a *view* `(container, offset, shape, strides, attribute names, size)`; several views may share a
container, so containers live in a heap (a list of lists, indexed by container identity).  Element type `T` is
arbitrary.  `std::accumulate(.., 1u, ..)` accumulates in 32 bits and `std::accumulate(.., 1, ..)` in a signed 32 bit
integer; both are modelled.  Other `size_t` arithmetic (64 bit) is modelled without overflow.  Only the `std::vector`
container is modelled here.
-/

namespace Alexandria.NdArray

inductive Err where
  | outOfRange | invalidArgument | rangeError | lengthError
  deriving DecidableEq, Repr

abbrev Res (α : Type) := Outcome Err α

/-- `std::accumulate(begin, end, 1u, std::multiplies<size_t>())`: the accumulator is an `unsigned int`
(`NdArray.icpp` 154, 164, 177, 190, 203; `NdArray.h` 524). -/
def accU32 (shape : List Nat) : Nat := shape.foldl (fun acc d => (acc * d) % 2 ^ 32) 1

/-- Conversion of a (two's complement) 32 bit `int`, given by its low 32 bits, to `size_t`. -/
def intToSize (x : Nat) : Nat := if x < 2 ^ 31 then x else x + (2 ^ 64 - 2 ^ 32)

/-- `std::accumulate(begin, end, 1, std::multiplies<size_t>())`: the accumulator is an `int`, converted to `size_t` in each
multiplication and truncated after it (`NdArray.icpp` 33, 226, 356). -/
def accI32 (shape : List Nat) : Nat := intToSize (shape.foldl (fun acc d => (intToSize acc * d) % 2 ^ 32) 1)

/-- An `NdArray` object: members of `NdArray.h` 464-467 and the container pointer 545. -/
structure Nd where
  cid : Nat
  offset : Nat
  shape : List Nat
  strides : List Nat
  attrs : List String
  size : Nat
  deriving DecidableEq, Repr

/-- The containers. -/
abbrev Heap (T : Type) := List (List T)

variable {T : Type}

/-- `update_strides` (`NdArray.icpp` 436-445): from the last axis backwards with a running product. -/
def updateStrides (shape : List Nat) : List Nat :=
  (shape.foldr (fun d (st : Nat × List Nat) => (st.1 * d, st.1 :: st.2)) (1, [])).2

/-- Constructor from shape and data (`NdArray.icpp` 159-170; the constructors 172-183 and 185-196 do the same). -/
def mkData (h : Heap T) (shape : List Nat) (data : List T) : Res (Heap T × Nd) :=
  if accU32 shape ≠ data.length then .throw .invalidArgument
  else .ok (h ++ [data], ⟨h.length, 0, shape, updateStrides shape, [], accU32 shape⟩)

/-- Constructor from the shape alone (`NdArray.icpp` 150-157): the container is filled with `T{}` (`zero`). -/
def mkZero (zero : T) (h : Heap T) (shape : List Nat) : Heap T × Nd :=
  (h ++ [List.replicate (accU32 shape) zero], ⟨h.length, 0, shape, updateStrides shape, [], accU32 shape⟩)

/-- `appendAttrShape` (`NdArray.icpp` 208-212). -/
def appendAttrShape (shape : List Nat) (append : Nat) : List Nat := if append ≠ 0 then shape ++ [append] else shape

/-- Constructor with attribute names (`NdArray.icpp` 214-219), from data. -/
def mkAttrs (h : Heap T) (shape : List Nat) (attrs : List String) (data : List T) : Res (Heap T × Nd) := do
  let (h', a) ← mkData h (appendAttrShape shape attrs.length) data
  return (h', { a with attrs := attrs })

/-- The loop of `get_offset` (`NdArray.icpp` 414-420). Reading `m_stride_size[i]` past its end would be undefined. -/
def offsetLoop : List Nat → List Nat → List Nat → Nat → Res Nat
  | [], _, _, offset => .ok offset
  | c :: cs, d :: ds, s :: ss, offset => if c ≥ d then .throw .outOfRange else offsetLoop cs ds ss (offset + c * s)
  | c :: _, d :: _, [], _ => if c ≥ d then .throw .outOfRange else .ub
  | _ :: _, [], _, _ => .ub

/-- `get_offset` (`NdArray.icpp` 407-424; the `assert` of line 422 is not modelled, see `atOffset`). -/
def getOffset (a : Nd) (coords : List Nat) : Res Nat :=
  if coords.length ≠ a.shape.length then .throw .outOfRange
  else offsetLoop coords a.shape a.strides a.offset

/-- `ContainerInterface::at` (`NdArray.h` 477-484): unchecked pointer access. -/
def atOffset (h : Heap T) (a : Nd) (offset : Nat) : Res T :=
  match h[a.cid]? with
  | none => .ub
  | some c => match c[offset]? with
    | none => .ub
    | some x => .ok x

/-- `at(coords)` (`NdArray.icpp` 242-252). -/
def at' (h : Heap T) (a : Nd) (coords : List Nat) : Res T := do
  let o ← getOffset a coords
  atOffset h a o

/-- `get_offset(coords, attr)` (`NdArray.icpp` 426-434). -/
def getOffsetAttr (a : Nd) (coords : List Nat) (attr : String) : Res Nat :=
  match a.attrs.findIdx? (· == attr) with
  | none => .throw .outOfRange
  | some last => getOffset a (coords ++ [last])

/-- `at(coords, attr)` (`NdArray.icpp` 254-264). -/
def atAttr (h : Heap T) (a : Nd) (coords : List Nat) (attr : String) : Res T := do
  let o ← getOffsetAttr a coords attr
  atOffset h a o

/-- Write at a raw offset of the container. -/
def setOffset (h : Heap T) (cid offset : Nat) (x : T) : Res (Heap T) :=
  match h[cid]? with
  | none => .ub
  | some c => if offset < c.length then .ok (h.set cid (c.set offset x)) else .ub

/-- `at(coords) = x` (`NdArray.icpp` 242-246 returns a reference). -/
def set' (h : Heap T) (a : Nd) (coords : List Nat) (x : T) : Res (Heap T) := do
  let o ← getOffset a coords
  setOffset h a.cid o x

/-- `slice(i)` (`NdArray.icpp` 359-376) together with the private constructor (352-357). -/
def slice (a : Nd) (i : Nat) : Res Nd :=
  match a.shape, a.strides with
  | d :: d' :: ds, s :: ss =>
    if i ≥ d then .throw .outOfRange
    else .ok ⟨a.cid, a.offset + i * s, d' :: ds, ss, a.attrs.tail, accI32 (d' :: ds)⟩
  | _ :: _ :: _, [] => .ub
  | _, _ => .throw .outOfRange

/-- `rslice(i)` (`NdArray.icpp` 383-400). -/
def rslice (a : Nd) (i : Nat) : Res Nd :=
  if a.shape.length ≤ 1 then .throw .outOfRange
  else match a.shape.getLast?, a.strides.getLast? with
    | some d, some s =>
      if i ≥ d then .throw .outOfRange
      else .ok ⟨a.cid, a.offset + i * s, a.shape.dropLast, a.strides.dropLast, a.attrs.dropLast,
        accI32 a.shape.dropLast⟩
    | _, _ => .ub

/-- Run the elements of a list of outcomes from left to right. -/
def collect {α : Type} : List (Res α) → Res (List α)
  | [] => .ok []
  | x :: xs => do
    let a ← x
    let as ← collect xs
    return a :: as

/-- Iteration `for (x : array)`: `begin()`/`end()` (`NdArray.icpp` 280-298), `operator++`, `operator!=` and dereferencing
(27-35, 52-57, 65-87, 124-134): element `i` is at `m_offset + i * m_stride` with `m_stride = strides.back()`, for `i` from 0
until `size()`. `strides.back()` of an empty vector is undefined. -/
def iterate (h : Heap T) (a : Nd) : Res (List T) :=
  match a.strides.getLast? with
  | none => .ub
  | some stride => collect ((List.range a.size).map fun i => atOffset h a (a.offset + i * stride))

/-- `reshape` (`NdArray.icpp` 221-233). -/
def reshape (a : Nd) (newShape : List Nat) : Res Nd :=
  if a.attrs ≠ [] then .throw .invalidArgument
  else if accI32 newShape ≠ a.size then .throw .rangeError
  else .ok { a with shape := newShape, strides := updateStrides newShape }

/-- Private copying constructor behind `copy()` (`NdArray.icpp` 198-206, `NdArray.h` 286-288, 540-542). -/
def copy (h : Heap T) (a : Nd) : Res (Heap T × Nd) :=
  match h[a.cid]? with
  | none => .ub
  | some c => .ok (h ++ [c], ⟨h.length, 0, a.shape, updateStrides a.shape, a.attrs, accU32 a.shape⟩)

/-- `std::copy(begin(other), end(other), m_data_ptr + pos)` (`NdArray.icpp` 346). -/
def copyLoop (other : Nd) (stride : Nat) (cid : Nat) : List Nat → Nat → Heap T → Res (Heap T)
  | [], _, h => .ok h
  | i :: is, pos, h => do
    let x ← atOffset h other (other.offset + i * stride)
    let h' ← setOffset h cid pos x
    copyLoop other stride cid is (pos + 1) h'

/-- `std::vector::resize`: truncates or appends value-initialised elements. -/
def resizeVec (zero : T) (l : List T) (n : Nat) : List T := l.take n ++ List.replicate (n - l.length) zero

/-- `concatenate` (`NdArray.icpp` 326-350). `new_shape[0]` of an empty shape is undefined. Note that neither `m_size` nor the
strides are recomputed. -/
def concatenate (zero : T) (h : Heap T) (a other : Nd) : Res (Heap T × Nd) :=
  if a.shape.length ≠ other.shape.length then .throw .lengthError
  else if a.shape.tail ≠ other.shape.tail then .throw .lengthError
  else match a.shape, other.shape, h[a.cid]?, other.strides.getLast? with
    | d :: ds, d' :: _, some c, some stride => do
      let newShape := (d + d') :: ds
      let h1 := h.set a.cid (resizeVec zero c (accU32 newShape))
      let h2 ← copyLoop other stride a.cid (List.range other.size) c.length h1
      return (h2, { a with shape := newShape })
    | _, _, _, _ => .ub

/-- The comparison loop of `operator==` (`NdArray.icpp` 309-312); `n` is the number of steps until one of the iterators
reaches its end. -/
def eqLoop [DecidableEq T] (h : Heap T) (a b : Nd) (sa sb : Nat) : List Nat → Res Bool
  | [] => .ok true
  | i :: is => do
    let x ← atOffset h a (a.offset + i * sa)
    let y ← atOffset h b (b.offset + i * sb)
    if x ≠ y then return false else eqLoop h a b sa sb is

/-- `operator==` (`NdArray.icpp` 305-314). -/
def beq [DecidableEq T] (h : Heap T) (a b : Nd) : Res Bool :=
  if a.shape ≠ b.shape then .ok false
  else match a.strides.getLast?, b.strides.getLast? with
    | some sa, some sb => eqLoop h a b sa sb (List.range (min a.size b.size))
    | _, _ => .ub

/-- The loop of `unravel_index` (`Operations.cpp` 27-32), from the last axis to the first. Division by a zero dimension is
undefined. -/
def unravelLoop (shape : List Nat) (index : Nat) : Res (Nat × List Nat) :=
  shape.foldr (fun stride (st : Res (Nat × List Nat)) => do
    let (index, coords) ← st
    if stride = 0 then .ub else .ok (index / stride, (index % stride) :: coords)) (.ok (index, []))

/-- `unravel_index` (`Operations.cpp` 24-37). For an empty shape the loop decrements 0 and reads out of bounds. -/
def unravelIndex (index : Nat) (shape : List Nat) : Res (List Nat) :=
  if shape = [] then .ub
  else do
    let (rest, coords) ← unravelLoop shape index
    if rest > 0 then .throw .outOfRange else .ok coords

/-- A slicing operation. -/
inductive Step where
  | left (i : Nat)
  | right (i : Nat)
  deriving DecidableEq, Repr

/-- Apply one slicing operation. -/
def Step.apply (a : Nd) : Step → Res Nd
  | .left i => slice a i
  | .right i => rslice a i

/-- A chain of slicing operations. -/
def slices (a : Nd) : List Step → Res Nd
  | [] => .ok a
  | s :: ss => do
    let b ← s.apply a
    slices b ss

end Alexandria.NdArray
