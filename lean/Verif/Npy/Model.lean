import Verif.Common.Outcome
import Verif.Common.Strings
import Verif.NdArray.Model

/-!
# Model of `NdArray/NdArray/io/_impl/NpyCommon.h`, `NpyReader.icpp`, `NpyWriter.icpp` and `NpyMmap.icpp`

Files and streams are byte lists (`Str.Bytes`).  The machine is little endian with 64 bit `size_t`.  An element type is given
by its numpy name, its size and the byte representation of its values.
-/

namespace Alexandria.Npy

open Alexandria.Str

inductive Err where
  | elements          -- `Elements::Exception`
  | outOfRange        -- `std::out_of_range`
  | invalidArgument   -- `std::invalid_argument`
  | nd (e : NdArray.Err)
  deriving DecidableEq, Repr

abbrev Res (α : Type) := Outcome Err α

/-- Run a function of the array model. -/
def ofNd {α : Type} : NdArray.Res α → Res α
  | .ok a => .ok a
  | .throw e => .throw (.nd e)
  | .ub => .ub

/-- The element types with a specialisation of `NpyDtype` (`NpyCommon.h` 53-104). -/
inductive Dtype where
  | i8 | i16 | i32 | i64 | u8 | u16 | u32 | u64 | f32 | f64
  deriving DecidableEq, Repr

/-- `NpyDtype<T>::str` (`NpyCommon.h` 53-104). -/
def Dtype.str : Dtype → Bytes
  | .i8 => "b".toList | .i16 => "i2".toList | .i32 => "i4".toList | .i64 => "i8".toList
  | .u8 => "B".toList | .u16 => "u2".toList | .u32 => "u4".toList | .u64 => "u8".toList
  | .f32 => "f4".toList | .f64 => "f8".toList

/-- `sizeof(T)`. -/
def Dtype.size : Dtype → Nat
  | .i8 | .u8 => 1
  | .i16 | .u16 => 2
  | .i32 | .u32 | .f32 => 4
  | .i64 | .u64 | .f64 => 8

/-- An element type `T`: its name and the representation in memory of its values; `dec` reads `size` bytes. -/
structure Elem (T : Type) where
  dtype : Dtype
  enc : T → Bytes
  dec : Bytes → T
  enc_length : ∀ x, (enc x).length = dtype.size
  dec_enc : ∀ x, dec (enc x) = x

/-- `NPY_MAGIC` (`NpyCommon.h` 37). -/
def magic : Bytes := ['\x93', 'N', 'U', 'M', 'P', 'Y']

/-- `NPY_VERSION` (`NpyCommon.h` 246). -/
def version : Bytes := ['\x02', '\x00']

/-- `npyShape` (`NpyCommon.h` 253-261). -/
def npyShape (shape : List Nat) : Bytes := ['('] ++ shape.flatMap (fun s => showNat s ++ [',']) ++ [')']

/-- `typeDescription` (`NpyCommon.h` 263-275), with `ENDIAN_MARKER` "<" (43). -/
def typeDescription (type : Bytes) (attrs : List Bytes) : Bytes :=
  if attrs = [] then ['\'', '<'] ++ type ++ ['\'']
  else ['['] ++ attrs.flatMap (fun a => ['(', '\''] ++ a ++ ['\'', ',', ' ', '\'', '<'] ++ type ++ ['\'', ')', ',', ' ']) ++ [']']

/-- The literals of `NpyCommon.h` 290-291. -/
def litDescr : Bytes := "{'descr': ".toList
def litShape : Bytes := ", 'fortran_order': False, 'shape': ".toList

/-- The dictionary (`NpyCommon.h` 290-292). -/
def dict (type : Bytes) (attrs : List Bytes) (shape : List Nat) : Bytes :=
  litDescr ++ typeDescription type attrs ++ litShape ++ npyShape shape ++ ['}']

/-- The bytes of a `little_uint32_t`. -/
def le32 (n : Nat) : Bytes :=
  [Char.ofNat (n % 256), Char.ofNat (n / 256 % 256), Char.ofNat (n / 256 ^ 2 % 256), Char.ofNat (n / 256 ^ 3 % 256)]

/-- The value of a `little_uint32_t` or `little_uint16_t`, from its bytes. -/
def leVal : Bytes → Nat
  | [] => 0
  | c :: t => c.toNat + 256 * leVal t

/-- Padding, newline and header string (`NpyCommon.h` 293-304): `header_len` is a 32 bit number. -/
def padHeader (d : Bytes) : Bytes :=
  let total := 6 + 2 + 4 + d.length % 2 ^ 32 + 1
  let padding := 64 - total % 64
  d ++ List.replicate padding ' ' ++ ['\n']

/-- `writeNpyHeader` (`NpyCommon.h` 280-315): the bytes written to the stream.  `shape.back()` of an empty vector is
undefined. -/
def writeHeader (type : Bytes) (shape : List Nat) (attrs : List Bytes) : Res Bytes := do
  let shape ← if attrs ≠ [] then
      match shape.getLast? with
      | none => .ub
      | some l => if attrs.length ≠ l then .throw .outOfRange else .ok shape.dropLast
    else .ok shape
  let header := padHeader (dict type attrs shape)
  return magic ++ version ++ le32 (header.length % 2 ^ 32) ++ header

/-- `writeNpy` (`NpyWriter.icpp` 38-45). -/
def writeNpy {T : Type} (E : Elem T) (h : NdArray.Heap T) (a : NdArray.Nd) : Res Bytes := do
  let hd ← writeHeader E.dtype.str a.shape (a.attrs.map String.toList)
  let l ← ofNd (NdArray.iterate h a)
  return hd ++ l.flatMap E.enc

/-- `std::string::substr(pos, n)`. -/
def substr (s : Bytes) (pos n : Nat) : Res Bytes :=
  if pos > s.length then .throw .outOfRange else .ok ((s.drop pos).take n)

/-- `s[pos]` of a `const std::string`: the terminating zero is readable. -/
def charAt (s : Bytes) (pos : Nat) : Res Char :=
  if pos > s.length then .ub else .ok ((s[pos]?).getD '\x00')

/-- `parseSingleValue` (`NpyCommon.h` 109-112): `front()` of an empty string is undefined. -/
def parseSingleValue : Bytes → Res (Bool × Bytes)
  | [] => .ub
  | c :: t => .ok (c == '>', t)

/-- Match the regular expression of `NpyCommon.h` 123 at the start of a string: the two groups and the rest.  Each repetition
is followed by a character that it cannot match, so that the match is unique. -/
def matchField (s : Bytes) : Option (Bytes × Bytes × Bytes) :=
  match s with
  | '(' :: '\'' :: t =>
    match t.dropWhile (· ≠ '\'') with
    | '\'' :: ',' :: u =>
      match u.dropWhile isSpace with
      | '\'' :: v =>
        match v.dropWhile (· ≠ '\'') with
        | '\'' :: ')' :: r => some (t.takeWhile (· ≠ '\''), v.takeWhile (· ≠ '\''), r)
        | _ => none
      | _ => none
    | _ => none
  | _ => none

/-- `boost::regex_search`: the first position where the expression matches. -/
def searchField : Bytes → Option (Bytes × Bytes × Bytes)
  | [] => none
  | c :: t => match matchField (c :: t) with
    | some m => some m
    | none => searchField t

/-- The loop of `parseFieldValues` (`NpyCommon.h` 122-144), with fuel for its number of iterations (each one consumes at least
a character, see `parseFields`): the endianness, the names so far and the type. -/
def fieldLoop : Nat → Bytes → Bool → List Bytes → Bytes → Res (Bool × List Bytes × Bytes)
  | 0, _, big, attrs, dtype => .ok (big, attrs, dtype)
  | fuel + 1, s, big, attrs, dtype =>
    match searchField s with
    | none => .ok (big, attrs, dtype)
    | some (name, ty, rest) => do
      let (e, d) ← parseSingleValue ty
      if dtype = [] then fieldLoop fuel rest e (attrs ++ [name]) d
      else if dtype ≠ d ∨ big ≠ e then .throw .invalidArgument
      else fieldLoop fuel rest big (attrs ++ [name]) dtype

/-- `parseFieldValues` (`NpyCommon.h` 122-144).  The fuel is enough, because a match has at least one character. -/
def parseFields (s : Bytes) : Res (Bool × List Bytes × Bytes) := fieldLoop (s.length + 1) s false [] []

/-- What `parseNpyDict` returns. -/
structure Header where
  fortran : Bool
  big : Bool
  dtype : Bytes
  shape : List Nat
  attrs : List Bytes
  nElements : Nat
  deriving DecidableEq, Repr

/-- Removal of a trailing comma (`NpyCommon.h` 183-184): `back()` of an empty string is undefined. -/
def chopComma (s : Bytes) : Res Bytes :=
  match s.getLast? with
  | none => .ub
  | some ',' => .ok s.dropLast
  | some _ => .ok s

/-- `parseNpyDict` (`NpyCommon.h` 163-187).  `find(..) + k` is computed modulo `2^64`.  (`big_endian` is not set when no field is recognised; the header says "little endian" there, and `endianUnset` tells.) -/
def parseDict (header : Bytes) : Res Header := do
  let loc := (posVal (find "fortran_order".toList header) + 16) % 2 ^ 64
  let f ← substr header loc 4
  let loc := (posVal (find "descr".toList header) + 8) % 2 ^ 64
  let c ← charAt header loc
  let (big, attrs, dtype) ←
    if c = '\'' then do
      let e := posVal (find ['\''] header (loc + 1))
      let s ← substr header (loc + 1) ((e + 2 ^ 64 - loc - 1) % 2 ^ 64)
      let (big, dtype) ← parseSingleValue s
      .ok (big, [], dtype)
    else if c = '[' then do
      let e := posVal (find [']'] header (loc + 1))
      let s ← substr header (loc + 1) ((e + 2 ^ 64 - loc - 1) % 2 ^ 64)
      parseFields s
    else .throw .elements
  let loc := (posVal (find "shape".toList header) + 9) % 2 ^ 64
  let loc2 := posVal (find [')'] header loc)
  let s ← substr header loc ((loc2 + 2 ^ 64 - loc) % 2 ^ 64)
  let s ← chopComma s
  match stringToSizes s with
  | none => .throw .elements
  | some shape => return ⟨f == "True".toList, big, dtype, shape, attrs, NdArray.accI32 shape⟩

/-- `input.read(buffer, n)` into an uninitialised object of size `n`: undefined if the stream is too short. -/
def readExact (n : Nat) (input : Bytes) : Res (Bytes × Bytes) :=
  if input.length < n then .ub else .ok (input.take n, input.drop n)

/-- `input.read(buffer, n)` into a zero-initialised buffer of size `n`: what is missing stays zero, and the stream fails. -/
def readZero (n : Nat) (input : Bytes) : Bytes × Bytes :=
  (input.take n ++ List.replicate (n - input.length) '\x00', input.drop n)

/-- No field of a list of fields was recognised, so that `parseFieldValues` has not set `big_endian` (`NpyCommon.h` 122-144, 175-177). -/
def endianUnset (header : Bytes) (hd : Header) : Prop :=
  hd.attrs = [] ∧ header[(posVal (find "descr".toList header) + 8) % 2 ^ 64]? = some '['

instance (header : Bytes) (hd : Header) : Decidable (endianUnset header hd) := by unfold endianUnset; infer_instance

/-- `readNpyHeader` (`NpyCommon.h` 203-241): the header and the rest of the stream. Line 238 reads `big_endian`, which may not be set. -/
def readHeader (input : Bytes) : Res (Header × Bytes) := do
  let (m, input) ← readExact 6 input
  if m ≠ magic then .throw .elements else
  let (v, input) ← readExact 2 input
  if leVal v > 30 then .throw .elements else
  let (lenBytes, input) ← if v.take 1 = ['\x01'] then readExact 2 input else readExact 4 input
  let (header, input) := readZero (leVal lenBytes) input
  let hd ← parseDict header
  if hd.fortran then .throw .elements
  else if endianUnset header hd then .ub
  else if hd.big then .throw .elements
  else return (hd, input)

/-- Split a byte list into `n` elements of `size` bytes. -/
def decodeAll {T : Type} (E : Elem T) : Nat → Bytes → List T
  | 0, _ => []
  | n + 1, s => E.dec (s.take E.dtype.size) :: decodeAll E n (s.drop E.dtype.size)

/-- `readNpy` (`NpyReader.icpp` 33-51).  `data[0]` of an empty vector is undefined. -/
def readNpy {T : Type} (E : Elem T) (h : NdArray.Heap T) (input : Bytes) : Res (NdArray.Heap T × NdArray.Nd) := do
  let (hd, input) ← readHeader input
  if hd.dtype ≠ E.dtype.str then .throw .elements else
  let n := if hd.attrs ≠ [] then (hd.nElements * hd.attrs.length) % 2 ^ 64 else hd.nElements
  if n = 0 then .ub else
  let (bytes, _) := readZero (E.dtype.size * n) input
  ofNd (NdArray.mkAttrs h hd.shape (hd.attrs.map String.ofList) (decodeAll E n bytes))

/-- A memory mapped file: the members of `MappedContainer` (`NpyCommon.h` 365-370) that matter and the file itself. -/
structure Mapped where
  file : Bytes
  dataOffset : Nat
  nElements : Nat
  maxSize : Nat
  attrs : List Bytes
  deriving DecidableEq, Repr

/-- `boost::filesystem::resize_file`: truncate or extend with zeros. -/
def resizeFile (f : Bytes) (n : Nat) : Bytes := f.take n ++ List.replicate (n - f.length) '\x00'

/-- `MappedContainer::resize` (`NpyCommon.h` 344-363).  The state is returned also when an exception is thrown, because
`m_n_elements` is assigned before the check of the size. -/
def Mapped.resize (d : Dtype) (m : Mapped) (shape : List Nat) : Mapped × Res Unit :=
  match writeHeader d.str shape m.attrs with
  | .throw e => (m, .throw e)
  | .ub => (m, .ub)
  | .ok header =>
    if header.length ≠ m.dataOffset then (m, .throw .elements)
    else
      let m' := { m with nElements := NdArray.accU32 shape }
      let newSize := header.length + d.size * m'.nElements
      if newSize > m.maxSize then (m', .throw .elements)
      else
        ({ m' with file := header ++ (resizeFile m.file newSize).drop header.length }, .ok ())

/-- `createMmapNpy` (`NpyMmap.icpp` 61-91), as far as the file and the container are concerned. -/
def createMmap (d : Dtype) (shape : List Nat) (attrs : List Bytes) (maxSize : Nat) : Res Mapped := do
  let header ← writeHeader d.str (NdArray.appendAttrShape shape attrs.length) attrs
  let n := if attrs ≠ [] then NdArray.accI32 shape * attrs.length else NdArray.accI32 shape
  let total := header.length + n * d.size
  return ⟨header ++ List.replicate (n * d.size) '\x00', header.length, n, if maxSize ≥ total then maxSize else total, attrs⟩

end Alexandria.Npy
