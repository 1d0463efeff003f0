import Verif.Npy.Model

/-!
# Memory mapped npy files: opening, reading, writing, resizing and copying

Modelled: `mmapNpy` (`NdArray/NdArray/io/_impl/NpyMmap.icpp` 32-58), `MappedContainer` (`NpyCommon.h` 321-371), the element access of
`ContainerInterface` (`NdArray.h` 469-485) and the copying of the container (`NdArray.h` 540-542, `NdArray.icpp` 198-206).

The mapping itself belongs to boost and the operating system.  It is modelled as follows: the file is a list of bytes; a mapping of
`length` bytes starts at the first byte.  Bytes beyond the end of the file or of the mapping are not accessible (in reality the rest
of the last page is; the model does not rely on it and calls such accesses undefined).  In the mode `readwrite` a write changes the
file, in the mode `priv` it changes a private copy.  In the mode `readonly` the non-constant `mapped_file::data`, `begin` and `end`
return null pointers (Boost.Iostreams); `MappedContainer` and the stream use exactly those.
-/

namespace Alexandria.Npy.Mmap

open Alexandria.Str

/-- `boost::iostreams::mapped_file_base::mapmode`. -/
inductive Mode where
  | readonly
  | readwrite
  | priv
  deriving DecidableEq, Repr

/-- A file together with a mapping of it. -/
structure Mem where
  disk : Bytes
  mode : Mode
  length : Nat
  /-- the private writes, the last one first -/
  overlay : List (Nat × Char)
  deriving DecidableEq, Repr

/-- Read one byte through the mapping. -/
def Mem.get (m : Mem) (i : Nat) : Res Char :=
  if m.mode = .readonly then .ub
  else if m.length ≤ i then .ub
  else match m.disk[i]? with
    | none => .ub
    | some c => match m.overlay.find? (fun p => p.1 == i) with
      | some p => .ok p.2
      | none => .ok c

/-- Write one byte through the mapping. -/
def Mem.put (m : Mem) (i : Nat) (c : Char) : Res Mem :=
  if m.length ≤ i then .ub
  else if m.disk.length ≤ i then .ub
  else match m.mode with
    | .readonly => .ub
    | .readwrite => .ok { m with disk := m.disk.set i c }
    | .priv => .ok { m with overlay := (i, c) :: m.overlay }

/-- Read `n` bytes. -/
def Mem.gets (m : Mem) (i : Nat) : Nat → Res Bytes
  | 0 => .ok []
  | n + 1 => do
    let c ← m.get i
    let cs ← m.gets (i + 1) n
    return c :: cs

/-- Write bytes. -/
def Mem.puts (m : Mem) (i : Nat) : Bytes → Res Mem
  | [] => .ok m
  | c :: cs => do
    let m' ← m.put i c
    m'.puts (i + 1) cs

/-- The members of `MappedContainer` (`NpyCommon.h` 365-370) besides the mapping. -/
structure Cont where
  dataOffset : Nat
  nElements : Nat
  maxSize : Nat
  attrs : List Bytes
  deriving DecidableEq, Repr

/-- `ContainerInterface::at(offset)` (`NdArray.h` 476-484) on the pointer `m_data` (`NpyCommon.h` 333). -/
def getElem {T : Type} (E : Elem T) (m : Mem) (k : Cont) (o : Nat) : Res T := do
  let bs ← m.gets (k.dataOffset + o * E.dtype.size) E.dtype.size
  return E.dec bs

/-- Assignment through the reference returned by `ContainerInterface::at(offset)`. -/
def setElem {T : Type} (E : Elem T) (m : Mem) (k : Cont) (o : Nat) (x : T) : Res Mem :=
  m.puts (k.dataOffset + o * E.dtype.size) (E.enc x)

/-- The position where the header ends according to its length field (`NpyCommon.h` 212-226). -/
def headerEnd (input : Bytes) : Nat :=
  if (input.drop 6).take 1 = ['\x01'] then 10 + leVal ((input.drop 8).take 2) else 12 + leVal ((input.drop 8).take 4)

/-- The bytes that a stream on the mapping delivers: `mapped_file::begin()` to `end()`. -/
def Mem.stream (m : Mem) : Bytes := if m.mode = .readonly then [] else m.disk.take m.length

/-- `mmapNpy` (`NpyMmap.icpp` 32-58).  An empty file cannot be mapped (`std::ios_base::failure`).  If the file ends within the header
the stream fails and `tellg` returns -1, so that the data start outside of the mapping.  The last line calls the constructor of
`NdArray` from a shape, names and a container (`NdArray.icpp` 176-182 and 214-219), which compares the size. -/
def mmapNpy {T : Type} (E : Elem T) (disk : Bytes) (mode : Mode) (maxSize : Nat) : Res (Mem × Cont × NdArray.Nd) := do
  let length := if maxSize ≠ 0 then maxSize else disk.length
  if disk = [] then .throw .elements else
  let m : Mem := ⟨disk, mode, length, []⟩
  let (hd, rest) ← readHeader m.stream
  if hd.dtype ≠ E.dtype.str then .throw .elements else
  if m.stream.length < headerEnd m.stream then .ub else
  let n := if hd.attrs ≠ [] then (hd.nElements * hd.attrs.length) % 2 ^ 64 else hd.nElements
  let shape := NdArray.appendAttrShape hd.shape hd.attrs.length
  if NdArray.accU32 shape ≠ n then ofNd (.throw .invalidArgument) else
  return (m, ⟨m.stream.length - rest.length, n, length, hd.attrs⟩,
    ⟨0, 0, shape, NdArray.updateStrides shape, hd.attrs.map String.ofList, NdArray.accU32 shape⟩)

/-- `at(coords)` (`NdArray.icpp` 242-252) on an array backed by a mapping. -/
def at' {T : Type} (E : Elem T) (m : Mem) (k : Cont) (a : NdArray.Nd) (coords : List Nat) : Res T := do
  let o ← ofNd (NdArray.getOffset a coords)
  getElem E m k o

/-- `at(coords) = x`. -/
def set' {T : Type} (E : Elem T) (m : Mem) (k : Cont) (a : NdArray.Nd) (coords : List Nat) (x : T) : Res Mem := do
  let o ← ofNd (NdArray.getOffset a coords)
  setElem E m k o x

/-- A sequence of assignments. -/
def sets {T : Type} (E : Elem T) (k : Cont) (a : NdArray.Nd) : Mem → List (List Nat × T) → Res Mem
  | m, [] => .ok m
  | m, (c, x) :: ws => do
    let m' ← set' E m k a c x
    sets E k a m' ws

/-- `MappedContainer::resize` (`NpyCommon.h` 344-363) in every mode: the file on disk is resized, the header goes through the mapping.
(Whether private copies of pages survive the resizing of the file is left to the system; the model keeps them.) -/
def resize (d : Dtype) (m : Mem) (k : Cont) (shape : List Nat) : (Mem × Cont) × Res Unit :=
  match writeHeader d.str shape k.attrs with
  | .throw e => ((m, k), .throw e)
  | .ub => ((m, k), .ub)
  | .ok header =>
    if header.length ≠ k.dataOffset then ((m, k), .throw .elements)
    else
      let k' := { k with nElements := NdArray.accU32 shape }
      let newSize := header.length + d.size * k'.nElements
      if newSize > k.maxSize then ((m, k'), .throw .elements)
      else
        match ({ m with disk := resizeFile m.disk newSize } : Mem).puts 0 header with
        | .ok m' => ((m', k'), .ok ())
        | .throw e => ((m, k'), .throw e)
        | .ub => ((m, k'), .ub)

/-- `NdArray::copy` (`NdArray.icpp` 198-206) with the `copy` of the container (`NdArray.h` 540-542), which copy-constructs
`MappedContainer`.  That class has no copy constructor of its own: the `mapped_file` of the copy is a handle on the same mapping and
`m_data` the same pointer.  So the result is a container on the same memory. -/
def copy (k : Cont) (a : NdArray.Nd) : Cont × NdArray.Nd :=
  (k, ⟨a.cid, 0, a.shape, NdArray.updateStrides a.shape, a.attrs, NdArray.accU32 a.shape⟩)

end Alexandria.Npy.Mmap
