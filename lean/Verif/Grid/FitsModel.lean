import Verif.Grid.Model
import Verif.Table.FitsFileModel
import Verif.XYDataset.Model

/-!
# Model of grids in FITS files: `GridContainer/_impl/FitsSerialize.icpp`

Files are those of `Table/FitsFileModel.lean`. The knots of an axis are numbers, strings or qualified names (`GridAxisValueFitsHelper`); the tuple of the types of the axes is a list of kinds.
The cells have a type `T` with one value that new cells and pixels have. Pixels are assumed to be kept as they are (not so for cells of the type `int8_t` below 0, which are stored as unsigned
bytes). Names are lists of bytes in files and strings in axes.
-/

namespace Alexandria.Grid.FitsIO

open Alexandria.Str Alexandria.Table Alexandria.Table.Fits Alexandria.XYDataset

/-- The types of the knots of an axis that can be exported: the types of cells of tables that are not vectors or arrays, and `QualifiedName`. -/
inductive Kind where
  | scalar (s : Scalar)
  | str
  | qname
  deriving DecidableEq, Repr

/-- A knot. -/
inductive Knot (F D : Type) where
  | scalar (s : Scalar) (v : Val F D s)
  | str (s : Bytes)
  | qname (q : QName)

variable {F D T : Type}

def Knot.kind : Knot F D → Kind
  | .scalar s _ => .scalar s
  | .str _ => .str
  | .qname _ => .qname

/-- `GridAxisValueFitsHelper::FitsType` (`FitsSerialize.icpp` 72-92). -/
def Kind.fitsType : Kind → CType
  | .scalar s => .scalar s
  | .str | .qname => .str

/-- `axisToFits` (`FitsSerialize.icpp` 75-77, 86-88). -/
def Knot.toCell : Knot F D → Cell F D
  | .scalar s v => .scalar s v
  | .str s => .str s
  | .qname q => .str q.qname

/-- `FitsToAxis` (`FitsSerialize.icpp` 78-80, 89-91). A string that is no qualified name is refused by the constructor. The values of another type do not occur (the last case). -/
def toKnot (kind : Kind) (c : Cell F D) : Table.Res (Knot F D) :=
  match kind, c with
  | .scalar s, .scalar s' v => if s' = s then .ok (.scalar s' v) else .throw .badGet
  | .str, .str s => .ok (.str s)
  | .qname, .str s =>
    match parseName s with
    | .ok q => .ok (.qname q)
    | .throw _ => .throw .elements
    | .ub => .ub
  | _, _ => .throw .badGet

/-- What the image functions of the library do where it is not described: an image with the name of another extension, and the writing of no pixels; and the value of new cells. -/
structure ImgLib (F D T : Type) extends Lib F D where
  sameName : File F D T → Bytes → List Nat → List T → File F D T × Table.Res Unit
  noPixels : Table.Res Unit
  pixel0 : T

/-! ## Export -/

/-- The columns (`FitsSerialize.icpp` 106-108). -/
def axisInfo (kind : Kind) : Info := [⟨"Index".toList, .scalar .i32, [], []⟩, ⟨"Value".toList, kind.fitsType, [], []⟩]

/-- The loop over the knots (`FitsSerialize.icpp` 111-114), from knot `i` on. -/
def axisRows (kind : Kind) : List (Knot F D) → Nat → Table.Res (List (RowT F D))
  | [], _ => .ok []
  | v :: vs, i => do
    let row ← mkRow [.scalar .i32 (Int32.ofNat i), v.toCell] (some (axisInfo kind))
    let rest ← axisRows kind vs (i + 1)
    return row :: rest

/-- The name of the extension of an axis (`FitsSerialize.icpp` 119). -/
def tableName (axis : String) (hdu : Bytes) : Bytes := axis.toList ++ '_' :: hdu

/-- `addGridAxesToFitsFile` for one axis (`FitsSerialize.icpp` 102-120). -/
def exportAxis (lib : ImgLib F D T) (fmt : Fmt F D) (hdu : Bytes) (kind : Kind) (a : Axis (Knot F D)) (f : File F D T) : File F D T × Table.Res Unit :=
  match axisRows kind a.values 0 with
  | .throw e => (f, .throw e)
  | .ub => (f, .ub)
  | .ok rows =>
    match mkTable rows with
    | .throw e => (f, .throw e)
    | .ub => (f, .ub)
    | .ok t => (Writer.addData lib.toLib fmt { override := false, hduName := tableName a.name hdu } f t).2

/-- `addGridAxesToFitsFile` (`FitsSerialize.icpp` 94-125): the axes from first to last. -/
def exportAxes (lib : ImgLib F D T) (fmt : Fmt F D) (hdu : Bytes) : List Kind → List (Axis (Knot F D)) → File F D T → File F D T × Table.Res Unit
  | k :: ks, a :: as, f =>
    match exportAxis lib fmt hdu k a f with
    | (f', .ok ()) => exportAxes lib fmt hdu ks as f'
    | other => other
  | _, _, f => (f, .ok ())

/-- The positions that the loop from an iterator to the end visits (see `Loop`); at most `fuel` steps. -/
def walk (szs : List Nat) (count : Nat) : Nat → Iter → Grid.Res (List Nat)
  | 0, _ => .ub
  | fuel + 1, it =>
    if it.pos = count then .ok []
    else if it.pos > count then .ub
    else do
      let it' ← it.next szs count
      let rest ← walk szs count fuel it'
      return it.pos :: rest

/-- The positions of the cells in the order of the iteration over a grid, `for (auto value : grid)`. The iterator advances in each step, so the bound of the steps is never met. -/
def positions (g : GridC V) : Grid.Res (List Nat) := do
  let it ← g.begin'
  walk (sizes g.axes) (cellCount g.axes) (cellCount g.axes + 1) it

/-- The loop that fills the pixels (`FitsSerialize.icpp` 144-149), for the positions that are left: access outside of the array is undefined. -/
def fillPixels (cells : List T) : List Nat → Nat → List T → Table.Res (List T)
  | [], _, data => .ok data
  | p :: ps, i, data =>
    match cells[p]? with
    | none => .ub
    | some c => if i < data.length then fillPixels cells ps (i + 1) (data.set i c) else .ub

def liftGrid : Grid.Res α → Table.Res α
  | .ok a => .ok a
  | .throw _ => .throw .elements
  | .ub => .ub

/-- `addImage` and `write` (`FitsSerialize.icpp` 135-150). The exception comes after the image was added. -/
def addImage (lib : ImgLib F D T) (f : File F D T) (name : Bytes) (naxes : List Nat) (pixels : List T) : File F D T × Table.Res Unit :=
  if f.any fun e => e.name == lib.text name then lib.sameName f name naxes pixels
  else (f ++ [.image (lib.text name) 1 naxes pixels], if pixels = [] then lib.noPixels else .ok ())

/-- `gridFitsExport` (`FitsSerialize.icpp` 127-154). The grid is given by its members and its cells. Simplification: the pixels are computed before the image is added. -/
def gridExport (lib : ImgLib F D T) (fmt : Fmt F D) (kinds : List Kind) (f : File F D T) (hdu : Bytes) (g : GridC (Knot F D)) (cells : List T) : File F D T × Table.Res Unit :=
  match (do
      let ps ← liftGrid (positions g)
      fillPixels cells ps 0 (List.replicate g.size lib.pixel0)) with
  | .throw e => (f, .throw e)
  | .ub => (f, .ub)
  | .ok pixels =>
    match addImage lib f hdu (sizes g.axesFixed) pixels with
    | (f', .ok ()) => exportAxes lib fmt hdu kinds g.axesFixed f'
    | other => other

/-! ## Import -/

/-- The name of an axis (`FitsSerialize.icpp` 181): the length is computed in `size_t`, so that it is huge if the name of the extension is too short. -/
def axisName (ext grid : Bytes) : Bytes := if grid.length + 1 ≤ ext.length then ext.take (ext.length - grid.length - 1) else ext

/-- An exception of the library becomes one of the grids (`FitsSerialize.icpp` 186-188). -/
def caught : Table.Res α → Table.Res α
  | .throw .library => .throw .elements
  | r => r

/-- `FitsToAxis` for all the data (`FitsSerialize.icpp` 189-192). -/
def toKnots (kind : Kind) : List (Cell F D) → Table.Res (List (Knot F D))
  | [] => .ok []
  | c :: cs => do
    let k ← toKnot kind c
    let ks ← toKnots kind cs
    return k :: ks

/-- `readAxis` (`FitsSerialize.icpp` 176-194): the column "Value" read with the type of the axis. -/
def readAxis (lib : Lib F D) (grid : Bytes) (kind : Kind) (e : Ext F D T) : Table.Res (Axis (Knot F D)) := do
  let data ← caught (match e with
    | .image _ _ _ _ => .throw .library
    | .table tab =>
      match tab.cols.find? fun c => c.head.name == "Value".toList with
      | none => .throw .library
      | some c => decodeAll lib c.head kind.fitsType (c.data ++ List.replicate (tab.rows - c.data.length) (lib.blank c.head)))
  let knots ← toKnots kind data
  return ⟨String.ofList (axisName e.name grid), knots⟩

/-- `fits.extension(index)`: the library throws if there is no such extension. -/
def extension (f : File F D T) (index : Nat) : Table.Res (Ext F D T) :=
  if index = 0 then .throw .library
  else match f[index - 1]? with
    | some e => .ok e
    | none => .throw .library

/-- `readAxesTuple` (`FitsSerialize.icpp` 196-206): the kinds are given from the last axis to the first. -/
def readAxes (lib : Lib F D) (f : File F D T) (grid : Bytes) : List Kind → Nat → Table.Res (List (Axis (Knot F D)))
  | [], _ => .ok []
  | k :: ks, index => do
    let e ← extension f index
    let axis ← readAxis lib grid k e
    let previous ← readAxes lib f grid ks (index - 1)
    return previous ++ [axis]

/-- The loop that assigns the cells (`FitsSerialize.icpp` 226-229), for the positions that are left. -/
def fillCells (data : List T) : List Nat → Nat → List T → Table.Res (List T)
  | [], _, cells => .ok cells
  | p :: ps, i, cells =>
    match data[i]? with
    | none => .ub
    | some c => if p < cells.length then fillCells data ps (i + 1) (cells.set p c) else .ub

/-- `gridFitsImport` (`FitsSerialize.icpp` 208-232): the new grid and its cells. -/
def gridImport (lib : ImgLib F D T) (kinds : List Kind) (f : File F D T) (index : Nat) : Table.Res (GridC (Knot F D) × List T) := do
  let e ← extension f index
  let axes ← readAxes lib.toLib f e.name kinds.reverse (index + kinds.length)
  let data ← match e with
    | .image _ _ _ pixels => .ok pixels
    | .table _ => .throw .library
  let ps ← liftGrid (positions (Grid.mk axes))
  let cells ← fillCells data ps 0 (List.replicate (cellCount axes) lib.pixel0)
  return (Grid.mk axes, cells)

end Alexandria.Grid.FitsIO
