import Verif.XYDataset.Model
import Verif.XYDataset.AsciiParserModel

/-!
# Model of a whole `FileSystemProvider` (`XYDataset/src/lib/FileSystemProvider.cpp`)

The loop of the constructor and the listing are in `XYDataset/Model.lean`; here are the constructor from a root path and the two requests that ask the parser.
-/

namespace Alexandria.XYDataset

open Str Alexandria.Table

variable {F D : Type}

/-- A disk: its directories, the paths that exist, the texts of its files. -/
structure Disk where
  fs : FS
  there : Bytes → Bool
  text : Bytes → Option Bytes

/-- `AsciiParser` (`AsciiParser.cpp`) as the constructor of the provider uses it. `getName` throws for a file that is not there, but it is only called for
files that `isDatasetFile` accepts (line 133), and these are there. -/
def asciiParser (isDouble : Bytes → Bool) (d : Disk) : Parser where
  isDataset f := match d.text f with
    | some t => isDatasetFile isDouble t
    | none => false
  nameOf f := match AsciiIO.getName f (d.text f) with
    | .ok n => n
    | _ => []

/-- The constructor (`FileSystemProvider.cpp` 115-162). `fuel` bounds the depth of the directories; deeper ones (or links that form a circle) are outside of the
model. -/
def mkProvider (d : Disk) (ps : Parser) (fuel : Nat) (root : Bytes) : Res Prov :=
  let root := checkEndSlashes root
  if d.there root = false then .throw .elements
  else if d.fs.isDir root then
    match contents d.fs fuel root with
    | some files => ctorLoop d.fs ps root files {}
    | none => .ub
  else .throw .elements

/-- `getDataset` (`FileSystemProvider.cpp` 202-206) with an `AsciiParser`; `none` is a null pointer. -/
def Prov.getDataset (fmt : Fmt F D) (d : Disk) (p : Prov) (q : QName) : Table.Res (Option (List (D × D))) :=
  match p.fileOf q with
  | some f => AsciiIO.getDataset fmt (d.text f)
  | none => .ok none

/-- `getParameter` (`FileSystemProvider.cpp` 208-211) with an `AsciiParser` (`AsciiParser.cpp` 77-81: an exception if there is no file). -/
def Prov.getParameter (d : Disk) (p : Prov) (q : QName) (key : Bytes) : Table.Res Bytes :=
  match p.fileOf q with
  | some f => match d.text f with
    | some t => .ok (XYDataset.getParameter key t)
    | none => .throw .elements
  | none => .ok []

end Alexandria.XYDataset
