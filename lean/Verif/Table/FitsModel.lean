import Verif.Table.AsciiModel

/-!
# Model of the FITS reader and writer

`Table/src/lib/FitsReader.cpp`, `FitsReaderHelper.cpp`, `FitsWriter.cpp` and `FitsWriterHelper.cpp`.

CCfits and cfitsio are not modelled: a table extension is the header written to it (names, formats, units, dimensions and descriptions of the columns) and the cells of each column; what
the library keeps of a cell is a parameter. Files, comments, HDU names and versions are not modelled.
-/

namespace Alexandria.Table

open Alexandria.Str

variable {F D : Type}

/-! ## Dimensions -/

/-- `ncells` in `getTDIM` (`FitsWriterHelper.cpp` 254-257): an `int64_t` multiplied by values of type `size_t`, that is modulo `2^64`. -/
def prod64 (shape : List Nat) : Nat := shape.foldl (fun acc d => acc * d % 2 ^ 64) 1

/-- The loop that prints the shape (`FitsWriterHelper.cpp` 265-270), from the last axis to the first. -/
def tdimText : List Nat → Bytes
  | [] => []
  | [n] => showNat n
  | n :: ns => showNat n ++ ',' :: tdimText ns

/-- `getTDIM` (`FitsWriterHelper.cpp` 236-272) for the type of the column and the cell of the first row. -/
def getTDIM (type : CType) (cell : Cell F D) : Res Bytes :=
  match type with
  | .nd .bool => .ok []
  | .nd s =>
    match cell with
    | .nd s' shape _ =>
      if s' ≠ s then .throw .badGet
      else if prod64 shape = 1 then .ok []
      else .ok ('(' :: tdimText shape.reverse ++ [')'])
    | _ => .throw .badGet
  | _ => .ok []

/-- `parseTDIM` (`FitsReaderHelper.cpp` 129-142). -/
def parseTDIM (tdim : Bytes) : Res (List Nat) :=
  if tdim ≠ [] ∧ tdim.head? = some '(' ∧ tdim.getLast? = some ')' then
    match mapAll lexSize (commaTokens ((tdim.drop 1).take (tdim.length - 2))) with
    | some l => .ok l.reverse
    | none => .throw .badCast
  else .ok []

/-! ## Formats -/

/-- `boost::lexical_cast<std::string>` of a cell that is a scalar or a string (`FitsWriterHelper.cpp` 50). -/
def rawText (fmt : Fmt F D) : Cell F D → Res Bytes
  | .scalar s v => .ok (printVal fmt s v)
  | .str s => .ok s
  | c => printCell fmt c

/-- `maxWidth` (`FitsWriterHelper.cpp` 47-53) and `maxWidthScientific` (55-61) with the output of a cell. -/
def maxWidth (text : Cell F D → Res Bytes) : List (Cell F D) → Nat → Res Nat
  | [], width => .ok width
  | c :: cs, width => do
    let s ← text c
    maxWidth text cs (max width s.length)

/-- The format of one column in `getAsciiFormatList` (`FitsWriterHelper.cpp` 67-81); `sci` is the scientific output of a cell. -/
def asciiFormat (fmt : Fmt F D) (sci : Cell F D → Bytes) (type : CType) (cells : List (Cell F D)) : Res Bytes :=
  match type with
  | .scalar .bool => .ok ['I', '1']
  | .scalar .i32 | .scalar .i64 => do
    let width ← maxWidth (rawText fmt) cells 0
    return 'I' :: showNat width
  | .scalar .f32 | .scalar .f64 => do
    let width ← maxWidth (fun c => .ok (sci c)) cells 0
    return 'E' :: showNat width
  | .str => do
    let width ← maxWidth (rawText fmt) cells 0
    return 'A' :: showNat width
  | _ => .throw .elements

/-- `boost::get<std::vector<T>>(cell).size()`. -/
def vecSize (s : Scalar) : Cell F D → Res Nat
  | .vec s' v => if s' = s then .ok v.length else .throw .badGet
  | _ => .throw .badGet

/-- `boost::get<NdArray<T>>(cell)`: the shape and the size. -/
def ndShape (s : Scalar) : Cell F D → Res (List Nat × Nat)
  | .nd s' shape v => if s' = s then .ok (shape, v.length) else .throw .badGet
  | _ => .throw .badGet

/-- The loop over the rows of `vectorSize` and `ndArraySize` (`FitsWriterHelper.cpp` 89-93, 102-106). -/
def sameLoop {α : Type} [DecidableEq α] (get : Cell F D → Res α) (a : α) : List (Cell F D) → Res Unit
  | [] => .ok ()
  | c :: cs => do
    let b ← get c
    if b ≠ a then .throw .elements else sameLoop get a cs

/-- `vectorSize` (`FitsWriterHelper.cpp` 86-95). -/
def vectorSize (s : Scalar) (cells : List (Cell F D)) : Res Nat :=
  match cells with
  | [] => .throw .elements
  | c :: cs => do
    let n ← vecSize s c
    sameLoop (vecSize s) n (c :: cs)
    return n

/-- `ndArraySize` (`FitsWriterHelper.cpp` 97-108). -/
def ndArraySize (s : Scalar) (cells : List (Cell F D)) : Res Nat :=
  match cells with
  | [] => .throw .elements
  | c :: cs => do
    let n ← ndShape s c
    sameLoop (fun c => do let m ← ndShape s c; return m.1) n.1 (c :: cs)
    return n.2

/-- The letter of an element type (`FitsWriterHelper.cpp` 115-154). -/
def letter : Scalar → Char
  | .bool => 'L'
  | .i32 => 'J'
  | .i64 => 'K'
  | .f32 => 'E'
  | .f64 => 'D'

/-- The format of one column in `getBinaryFormatList` (`FitsWriterHelper.cpp` 114-157). -/
def binaryFormat (fmt : Fmt F D) (type : CType) (cells : List (Cell F D)) : Res Bytes :=
  match type with
  | .scalar s => .ok [letter s]
  | .str => do
    let width ← maxWidth (rawText fmt) cells 0
    return showNat width ++ ['A']
  | .vec s => do
    let size ← vectorSize s cells
    return showNat size ++ [letter s]
  | .nd .bool => .throw .elements
  | .nd s => do
    let size ← ndArraySize s cells
    return showNat size ++ [letter s]
  | .other _ => .throw .elements

/-- `asciiFormatToType` (`FitsReaderHelper.cpp` 48-62); `format[0]` of an empty string is a null character. -/
def asciiFormatToType (format : Bytes) : Res CType :=
  match format.head? with
  | some 'A' => .ok .str
  | some 'I' => .ok (.scalar .i64)
  | some 'F' => .ok (.scalar .f64)
  | some 'E' => .ok (.scalar .f64)
  | some 'D' => .ok (.scalar .f64)
  | _ => .throw .elements

/-- `std::stoi` of a text that is empty or begins with a digit. -/
def stoi (s : Bytes) : Res Nat :=
  match digits? (s.takeWhile Char.isDigit) with
  | none => .throw .invalidArgument
  | some n => if n < 2 ^ 31 then .ok n else .throw .outOfRange

/-- The element type of a letter, apart from `L` and `A` (`FitsReaderHelper.cpp` 75-86, 93-104, 109-120). -/
def elementType : Char → Option Scalar
  | 'B' => some .i32
  | 'I' => some .i32
  | 'J' => some .i32
  | 'K' => some .i64
  | 'E' => some .f32
  | 'D' => some .f64
  | _ => none

/-- `binaryFormatToType` (`FitsReaderHelper.cpp` 64-127). -/
def binaryFormatToType (format : Bytes) (shape : List Nat) : Res CType :=
  match format with
  | [] => .ub
  | c :: t => do
    let (size, ft) ← if c.isDigit then do
        let n ← stoi (c :: t).dropLast
        pure (n, (c :: t).getLast (by simp))
      else pure (1, c)
    if shape ≠ [] then
      match elementType ft with
      | some s => .ok (.nd s)
      | none => .throw .elements
    else if size = 1 then
      if ft = 'L' then .ok (.scalar .bool)
      else match elementType ft with
        | some s => .ok (.scalar s)
        | none => .throw .elements
    else
      match elementType ft with
      | some s => .ok (.vec s)
      | none => if ft = 'A' then .ok .str else .throw .elements

/-! ## Reading rows -/

/-- A table extension as it is seen by the reader: the columns with the types found in the header, and their cells. -/
structure Hdu (F D : Type) where
  info : Info
  cols : List (List (Cell F D))
  total : Int

/-- `FitsReader` (`FitsReader.h` 155-165): the current row; the number of the rows is in the extension. -/
structure FitsReader where
  current : Int := 1
  deriving DecidableEq, Repr

/-- Row `i` of the data that was read (`FitsReader.cpp` 149-152). -/
def rowAt (i : Nat) : List (List (Cell F D)) → Res (List (Cell F D))
  | [] => .ok []
  | col :: cols =>
    match col[i]? with
    | none => .ub
    | some c => do
      let cs ← rowAt i cols
      return c :: cs

/-- The loop that creates the rows (`FitsReader.cpp` 147-154): `k` rows from row `i` on. -/
def rowsLoop (info : Info) (data : List (List (Cell F D))) : Nat → Nat → Res (List (RowT F D))
  | 0, _ => .ok []
  | k + 1, i => do
    let cells ← rowAt i data
    let r ← mkRow cells (some info)
    let rs ← rowsLoop info data k (i + 1)
    return r :: rs

/-- `FitsReader::readImpl` (`FitsReader.cpp` 122-157). The library throws if rows are asked for that are not there, or, as told by `throws`, if their number is not positive. -/
def FitsReader.read (h : Hdu F D) (throws : Int → Bool) (r : FitsReader) (rows : Int) : FitsReader × Res (TableT F D) :=
  if r.current > h.total then (r, .throw .elements)
  else
    let rows := if rows = -1 then h.total - r.current + 1 else rows
    let rows := min rows (h.total - r.current + 1)
    if r.current < 1 ∨ (rows ≤ 0 ∧ throws rows) then (r, .throw .library)
    else
      let data := h.cols.map fun col => (col.drop (r.current - 1).toNat).take rows.toNat
      ({ r with current := r.current + rows }, do
        let list ← rowsLoop h.info data rows.toNat 0
        mkTable list)

/-- `FitsReader::skip` (`FitsReader.cpp` 159-162); the sum is a `long`. -/
def FitsReader.skip (r : FitsReader) (rows : Int) : Res FitsReader :=
  if -2 ^ 63 ≤ r.current + rows ∧ r.current + rows < 2 ^ 63 then .ok { r with current := r.current + rows } else .ub

/-- `FitsReader::hasMoreRows` (`FitsReader.cpp` 164-167). -/
def FitsReader.hasMoreRows (h : Hdu F D) (r : FitsReader) : Bool := r.current ≤ h.total

/-- `FitsReader::rowsLeft` (`FitsReader.cpp` 169-172): converted to `size_t`. -/
def FitsReader.rowsLeft (h : Hdu F D) (r : FitsReader) : Nat := ((h.total - r.current + 1) % 2 ^ 64).toNat

end Alexandria.Table
