import Verif.Table.FitsFileModel
import Verif.XYDataset.Model

/-!
# Model of `XYDataset/src/lib/FitsParser.cpp`

The files are those of `Table/FitsFileModel.lean`. Simplification: the keywords of the first extension are a function from names to texts; keywords of other types are not modelled.
-/

namespace Alexandria.XYDataset.FitsIO

open Alexandria.Str Alexandria.Table Alexandria.Table.Fits

variable {F D T : Type}

/-- What is found under the name of a file: nothing, a file that is no FITS file, or a FITS file with the string keywords of its first extension. -/
inductive OnDisk (F D T : Type) where
  | missing
  | other
  | fits (keys : Bytes → Option Bytes) (f : File F D T)

/-- `getParameter` (`FitsParser.cpp` 58-79). -/
def getParameter (disk : OnDisk F D T) (key : Bytes) : Table.Res Bytes :=
  match disk with
  | .missing => .throw .elements
  | .other => .throw .library
  | .fits _ [] => .throw .library
  | .fits keys (_ :: _) => .ok ((keys key).getD [])

/-- `getName` (`FitsParser.cpp` 46-56) of the parser with the keyword `keyword`. -/
def getName (keyword : Bytes) (file : Bytes) (disk : OnDisk F D T) : Table.Res Bytes := do
  let name ← getParameter disk keyword
  if name = [] then return removeExtension (removeAllBeforeLastSlash file) else return name

/-- `boost::get<double>`. -/
def asDouble (c : Cell F D) : Table.Res D :=
  match c with
  | .scalar .f64 v => .ok v
  | _ => .throw .badGet

/-- The loop over the rows (`FitsParser.cpp` 100-102). -/
def pairs : List (RowT F D) → Table.Res (List (D × D))
  | [] => .ok []
  | r :: rs => do
    let x ← r.get 0
    let x ← asDouble x
    let y ← r.get 1
    let y ← asDouble y
    let rest ← pairs rs
    return (x, y) :: rest

/-- The exceptions of the library that are turned into others (`FitsParser.cpp` 104-106). -/
def caught : Table.Res α → Table.Res α
  | .throw .library => .throw .elements
  | r => r

/-- `getDataset` (`FitsParser.cpp` 84-110): no dataset if there is no file. -/
def getDataset (lib : Lib F D) (disk : OnDisk F D T) : Table.Res (Option (List (D × D))) :=
  match disk with
  | .missing => .ok none
  | .other => .throw .library
  | .fits _ f => caught do
      let h ← openIndex lib f 1
      let t ← readTable h
      let l ← pairs t.rows
      return some l

/-- `isDatasetFile` (`FitsParser.cpp` 115-125): the failure of the cast to a reference is no exception of the library. -/
def isDatasetFile (disk : OnDisk F D T) : Table.Res Bool :=
  match disk with
  | .missing | .other | .fits _ [] => .ok false
  | .fits _ (.table _ :: _) => .ok true
  | .fits _ (.image _ _ _ _ :: _) => .throw .badCast

end Alexandria.XYDataset.FitsIO
