import Verif.Table.FitsModel

/-!
# Model of FITS files: `FitsWriter` and the opening of a table by `FitsReader`

`Table/src/lib/FitsWriter.cpp`, `TableWriter.cpp`, `FitsWriterHelper.cpp` 162-308, `FitsReader.cpp` 45-115 and `FitsReaderHelper.cpp` 36-46, 144-267.

A file is the list of its extensions, without the primary one; the file that is opened several times and the object of CCfits that is kept are the same list. CCfits and cfitsio are
assumed to work as follows; what else they do is a parameter (`Lib`):

* a new extension is put at the end of the file; extensions are numbered from 1 and have a name and a version (1 for the new ones);
* a column in a table with the format `nX` holds in each row `n` numbers of the type with the letter `X`, or a text of at most `n` characters (`A`): a longer text is cut, and blanks at
  its end are not kept; `X` stands for `1X`;
* a table has as many rows as the longest of its columns.

Binary tables only: the ASCII format of `FitsWriter` is not modelled here (its formats are in `FitsModel.lean`).
-/

namespace Alexandria.Table.Fits

open Alexandria.Str

/-- The keywords of a column: TTYPE, TFORM, TUNIT, TDESC and TDIM (empty if there is none). -/
structure Head where
  name : Bytes
  format : Bytes
  unit : Bytes
  desc : Bytes
  dim : Bytes
  deriving DecidableEq, Repr

/-- What is kept of a cell. -/
inductive Raw (F D : Type) where
  | elems (s : Scalar) (v : List (Val F D s))
  | text (s : Bytes)

/-- What the libraries do elsewhere: the text that is kept of a keyword or of a name, a cell that was not written, a cell written to a column of another format, the content of a cell read as
another type, and the number zero. -/
structure Lib (F D : Type) where
  text : Bytes → Bytes
  blank : Head → Raw F D
  convert : Head → Cell F D → Res (Raw F D)
  readAs : CType → Raw F D → Res (Cell F D)
  zero : (s : Scalar) → Val F D s

structure Col (F D : Type) where
  head : Head
  data : List (Raw F D)

structure Tab (F D : Type) where
  name : Bytes
  version : Nat
  cols : List (Col F D)
  comments : List Bytes

/-- An extension: an image with pixels of the type `T`, or a table. -/
inductive Ext (F D T : Type) where
  | image (name : Bytes) (version : Nat) (naxes : List Nat) (pixels : List T)
  | table (t : Tab F D)

abbrev File (F D T : Type) := List (Ext F D T)

variable {F D T : Type}

def Ext.name : Ext F D T → Bytes
  | .image n _ _ _ => n
  | .table t => t.name

def Ext.version : Ext F D T → Nat
  | .image _ v _ _ => v
  | .table t => t.version

/-- The number of rows. -/
def Tab.rows (t : Tab F D) : Nat := (t.cols.map fun c => c.data.length).foldr max 0

/-! ## The library -/

/-- The number and the letter of a format. -/
def fieldOf (format : Bytes) : Option (Nat × Char) :=
  match format.getLast? with
  | none => none
  | some l => if format.length = 1 then some (1, l) else (digits? format.dropLast).map fun n => (n, l)

/-- A text without the blanks at its end. -/
def rstrip (s : Bytes) : Bytes := (s.reverse.dropWhile fun c => c == ' ').reverse

/-- A cell written to a column. -/
def store (lib : Lib F D) (h : Head) (c : Cell F D) : Res (Raw F D) :=
  match fieldOf h.format with
  | none => lib.convert h c
  | some (n, l) =>
    match c with
    | .str s => if l = 'A' then .ok (.text (rstrip (s.take n))) else lib.convert h c
    | .scalar s v => if l = letter s ∧ n = 1 then .ok (.elems s [v]) else lib.convert h c
    | .vec s v => if l = letter s ∧ v.length = n then .ok (.elems s v) else lib.convert h c
    | .nd s _ v => if l = letter s ∧ v.length = n then .ok (.elems s v) else lib.convert h c

def storeAll (lib : Lib F D) (h : Head) : List (Cell F D) → Res (List (Raw F D))
  | [] => .ok []
  | c :: cs => do
    let r ← store lib h c
    let rs ← storeAll lib h cs
    return r :: rs

/-- Cells written to a column from a row (counted from 1) on. -/
def Col.write (lib : Lib F D) (first : Nat) (raws : List (Raw F D)) (c : Col F D) : Col F D :=
  { c with data := c.data.take (first - 1) ++ List.replicate (first - 1 - c.data.length) (lib.blank c.head) ++ raws ++ c.data.drop (first - 1 + raws.length) }

/-! ## `FitsWriterHelper.cpp` -/

/-- The cells of a column, `row[column_index]` for all the rows. Rows and tables have as many cells as columns. -/
def column (t : TableT F D) (i : Nat) : List (Cell F D) := t.rows.filterMap fun r => r.values[i]?

/-- `createSingleValueVectorColumnData` (`FitsWriterHelper.cpp` 181-189): `front()` of an empty vector is undefined. -/
def fronts (s : Scalar) : List (Cell F D) → Res (List (Cell F D))
  | [] => .ok []
  | .vec s' (v :: vs) :: cs =>
    if s' = s then do
      let rest ← fronts s cs
      return .scalar s' v :: rest
    else .throw .badGet
  | .vec s' [] :: _ => if s' = s then .ub else .throw .badGet
  | _ :: _ => .throw .badGet

/-- `createSingleNdArrayVectorColumnData` (`FitsWriterHelper.cpp` 203-214). -/
def firstElements (lib : Lib F D) (s : Scalar) : List (Cell F D) → Res (List (Cell F D))
  | [] => .ok []
  | .nd s' _ vs :: cs =>
    if s' = s then do
      let rest ← firstElements lib s cs
      return .scalar s' (vs.headD (lib.zero s')) :: rest
    else .throw .badGet
  | _ :: _ => .throw .badGet

/-- The cells that `populateColumn` writes (`FitsWriterHelper.cpp` 216-234, 274-308). -/
def cellsToWrite (lib : Lib F D) (type : CType) (cells : List (Cell F D)) : Res (List (Cell F D)) :=
  match type with
  | .scalar _ | .str => .ok cells
  | .vec .bool | .nd .bool | .other _ => .throw .elements
  | .vec s =>
    match cells with
    | .vec _ v :: _ => if v.length > 1 then .ok cells else fronts s cells
    | _ => .throw .badGet
  | .nd s =>
    match cells with
    | .nd _ _ v :: _ => if v.length > 1 then .ok cells else firstElements lib s cells
    | _ => .throw .badGet

/-- `populateColumn` (`FitsWriterHelper.cpp` 274-308). The library throws if there is no such column. -/
def populateColumn (lib : Lib F D) (t : TableT F D) (i : Nat) (tab : Tab F D) (first : Nat) : Res (Tab F D) :=
  match t.info[i]?, tab.cols[i]? with
  | none, _ => .throw .elements
  | some d, col? => do
    let cells ← cellsToWrite lib d.type (column t i)
    match col? with
    | none => .throw .library
    | some col => do
      let raws ← storeAll lib col.head cells
      return { tab with cols := tab.cols.set i (col.write lib first raws) }

/-- The loop over the columns in `append` (`FitsWriter.cpp` 128-130), from column `i` on; what was written before an exception stays. -/
def populateAll (lib : Lib F D) (t : TableT F D) (first : Nat) : Nat → Nat → Tab F D → Tab F D × Res Unit
  | 0, _, tab => (tab, .ok ())
  | k + 1, i, tab =>
    match populateColumn lib t i tab first with
    | .ok tab' => populateAll lib t first k (i + 1) tab'
    | .throw e => (tab, .throw e)
    | .ub => (tab, .ub)

/-- The formats and the dimensions of the columns (`FitsWriter.cpp` 82-83, 98-106, `FitsWriterHelper.cpp` 110-160, 236-272). Simplification: both are computed before the table is created;
the dimensions are never refused if the cells have the types of their columns. -/
def heads (lib : Lib F D) (fmt : Fmt F D) (t : TableT F D) : List Desc → Nat → Res (List Head)
  | [], _ => .ok []
  | d :: ds, i => do
    let format ← binaryFormat fmt d.type (column t i)
    let dim ← match column t i with
      | [] => .throw .elements
      | c :: _ => getTDIM d.type c
    let rest ← heads lib fmt t ds (i + 1)
    return ⟨lib.text d.name, format, lib.text d.unit, lib.text d.description, dim⟩ :: rest

/-! ## `FitsWriter` -/

/-- `FitsWriter` (`FitsWriter.h` 192-200) and `m_column_info` of `TableWriter`. `override` tells that an existing file is to be replaced (it is `false` for the constructor from an open
file); `hduIndex` is `none` for the initial -1. -/
structure Writer where
  override : Bool
  hduName : Bytes := []
  comments : List Bytes := []
  columnInfo : Option Info := none
  initialized : Bool := false
  hduIndex : Option Nat := none
  currentLine : Nat := 0
  deriving DecidableEq, Repr

/-- `setHduName` (`FitsWriter.cpp` 46-53). -/
def Writer.setHduName (w : Writer) (name : Bytes) : Res Writer :=
  if w.initialized then .throw .elements else .ok { w with hduName := name }

/-- `addComment` (`FitsWriter.cpp` 55-61). -/
def Writer.addComment (w : Writer) (message : Bytes) : Res Writer :=
  if w.initialized then .throw .elements else .ok { w with comments := w.comments ++ [message] }

/-- `extension_map.find(m_hdu_name)` with the check of the version (`FitsWriter.cpp` 87-89): the position of the extension. Of several extensions with one name the first is found. -/
def findExt (f : File F D T) (name : Bytes) : Option Nat :=
  match f.findIdx? fun e => e.name == name with
  | none => none
  | some i =>
    match f[i]? with
    | some e => if e.version ≠ 1 then none else some i
    | none => none

/-- The state of a writer after `init`. -/
def Writer.started (w : Writer) (index line : Nat) : Writer :=
  { w with hduIndex := some index, currentLine := line, initialized := true }

/-- A writer with another current line. -/
def Writer.atLine (w : Writer) (line : Nat) : Writer := { w with currentLine := line }

/-- A writer with the columns of the first table. -/
def Writer.withInfo (w : Writer) (info : Info) : Writer := { w with columnInfo := some info }

/-- `init` (`FitsWriter.cpp` 63-116): the writer, the file and the outcome. A null pointer is dereferenced if the extension found is not a table (93, 113). -/
def Writer.init (lib : Lib F D) (fmt : Fmt F D) (w : Writer) (f : File F D T) (t : TableT F D) : Writer × File F D T × Res Unit :=
  let f := if w.override then [] else f
  match heads lib fmt t t.info 0 with
  | .throw e => (w, f, .throw e)
  | .ub => (w, f, .ub)
  | .ok hs =>
    match findExt f w.hduName with
    | some i =>
      match f[i]? with
      | some (.table tab) => (w.started (i + 1) (tab.rows + 1), f, .ok ())
      | _ => (w, f, .ub)
    | none =>
      (w.started (f.length + 1) 1, f ++ [.table ⟨lib.text w.hduName, 1, hs.map fun h => ⟨h, []⟩, w.comments⟩], .ok ())

/-- `append` (`FitsWriter.cpp` 118-132). The library throws if there is no such extension, or if it has no columns. -/
def Writer.append (lib : Lib F D) (w : Writer) (f : File F D T) (t : TableT F D) : Writer × File F D T × Res Unit :=
  match w.hduIndex with
  | none => (w, f, .throw .library)
  | some n =>
    match f[n - 1]? with
    | some (.table tab) =>
      match populateAll lib t w.currentLine t.info.length 0 tab with
      | (tab', .ok ()) => (w.atLine (w.currentLine + t.rows.length), f.set (n - 1) (.table tab'), .ok ())
      | (tab', .throw e) => (w, f.set (n - 1) (.table tab'), .throw e)
      | (tab', .ub) => (w, f.set (n - 1) (.table tab'), .ub)
    | _ => (w, f, .throw .library)

/-- `TableWriter::addData` (`TableWriter.cpp` 31-40). -/
def Writer.addData (lib : Lib F D) (fmt : Fmt F D) (w : Writer) (f : File F D T) (t : TableT F D) : Writer × File F D T × Res Unit :=
  match w.columnInfo with
  | none =>
    match Writer.init lib fmt (w.withInfo t.info) f t with
    | (w', f', .ok ()) => w'.append lib f' t
    | other => other
  | some info => if sameInfo info t.info then w.append lib f t else (w, f, .throw .elements)

/-- Consecutive calls of `addData`; the first that throws ends them. -/
def Writer.addAll (lib : Lib F D) (fmt : Fmt F D) : List (TableT F D) → Writer → File F D T → Writer × File F D T × Res Unit
  | [], w, f => (w, f, .ok ())
  | t :: ts, w, f =>
    match w.addData lib fmt f t with
    | (w', f', .ok ()) => Writer.addAll lib fmt ts w' f'
    | other => other

/-! ## `FitsReader` -/

/-- Reading of a cell by `translateColumn` (`FitsReaderHelper.cpp` 180-267). The constructor of `NdArray` refuses a shape that does not fit the number of the elements
(`NdArray.icpp` 172-183). -/
def decode (lib : Lib F D) (h : Head) (type : CType) (raw : Raw F D) : Res (Cell F D) :=
  match type, raw with
  | .scalar s, .elems s' [v] => if e : s' = s then .ok (.scalar s (e ▸ v)) else lib.readAs type raw
  | .str, .text t => .ok (.str t)
  | .vec .bool, _ | .nd .bool, _ | .other _, _ => .throw .elements
  | .vec s, .elems s' v => if e : s' = s then .ok (.vec s (e ▸ v)) else lib.readAs type raw
  | .nd s, .elems s' v =>
    if e : s' = s then do
      let shape ← parseTDIM h.dim
      if shape.foldl (· * ·) 1 = v.length then .ok (.nd s shape (e ▸ v)) else .throw .invalidArgument
    else lib.readAs type raw
  | _, _ => lib.readAs type raw

def decodeAll (lib : Lib F D) (h : Head) (type : CType) : List (Raw F D) → Res (List (Cell F D))
  | [] => .ok []
  | r :: rs => do
    let c ← decode lib h type r
    let cs ← decodeAll lib h type rs
    return c :: cs

/-- The descriptions of the columns (`FitsReader.cpp` 99-109, `FitsReaderHelper.cpp` 36-46, 144-178, `ReaderHelper.cpp` 30-37), without names fixed before; `i` columns come before. -/
def headInfo : List Head → Nat → Res (List Desc)
  | [], _ => .ok []
  | h :: hs, i => do
    let shape ← parseTDIM h.dim
    let type ← binaryFormatToType h.format shape
    let d ← mkDesc (if h.name = [] then "Col".toList ++ showNat (i + 1) else h.name) type h.unit h.desc
    let ds ← headInfo hs (i + 1)
    return d :: ds

def decodeCols (lib : Lib F D) (rows : Nat) : List (Col F D) → List Desc → Res (List (List (Cell F D)))
  | [], _ => .ok []
  | c :: cs, d :: ds => do
    let cells ← decodeAll lib c.head d.type (c.data ++ List.replicate (rows - c.data.length) (lib.blank c.head))
    let rest ← decodeCols lib rows cs ds
    return cells :: rest
  | _ :: _, [] => .throw .elements

/-- A table as it is seen by the reader (`readColumnInfo`, `FitsReader.cpp` 84-110). Simplification: all the rows are converted here, not when they are read. -/
def openTab (lib : Lib F D) (tab : Tab F D) : Res (Hdu F D) := do
  let ds ← headInfo (tab.cols.map Col.head) 0
  let info ← mkInfo ds
  let cols ← decodeCols lib tab.rows tab.cols info
  return ⟨info, cols, tab.rows⟩

/-- `FitsReader(filename, hduIndex)` (`FitsReader.cpp` 52-53) and the check that the extension is a table (90-94). -/
def openIndex (lib : Lib F D) (f : File F D T) (index : Nat) : Res (Hdu F D) :=
  if index = 0 then .throw .library
  else match f[index - 1]? with
    | none => .throw .library
    | some (.image _ _ _ _) => .throw .elements
    | some (.table tab) => openTab lib tab

/-- `FitsReader(filename, hduName)` (`FitsReader.cpp` 55-56): the extension of that name with the version 1. -/
def openName (lib : Lib F D) (f : File F D T) (name : Bytes) : Res (Hdu F D) :=
  match f.find? fun e => e.name == name && e.version == 1 with
  | none => .throw .library
  | some (.image _ _ _ _) => .throw .elements
  | some (.table tab) => openTab lib tab

/-- `FitsReader{...}.read()`: all the rows. -/
def readTable (h : Hdu F D) : Res (TableT F D) := (FitsReader.read h (fun _ => true) {} (-1)).2

end Alexandria.Table.Fits
