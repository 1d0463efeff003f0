import Verif.Table.AsciiModel
import Verif.XYDataset.FitsParserModel

/-!
# Model of the rest of `XYDataset/src/lib/AsciiParser.cpp`: the name and the points of a dataset

A file is its text, or nothing if there is no file. `getParameter` and `isDatasetFile` of a text are in `XYDataset/Model.lean`, the reader of tables is in
`Table/AsciiModel.lean`. Simplification: only the default regular expression of the constructor is modelled (`AsciiParser.h` 62), in the "C" locale.
-/

namespace Alexandria.XYDataset.AsciiIO

open Alexandria.Str Alexandria.Table

variable {F D : Type}

/-- The loop over the lines in `getName` (`AsciiParser.cpp` 57-59): the first line that is not empty, or an empty line. -/
def firstLine : List Bytes → Bytes
  | [] => []
  | l :: ls => if l = [] then firstLine ls else l

/-- A character of the class `\w`. -/
def isWord (c : Char) : Bool := c.isAlphanum || c == '_'

/-- The match with `^\s*#\s*(\w+)\s*$` and its first group (`AsciiParser.cpp` 61-64, `AsciiParser.h` 62). -/
def matchName (line : Bytes) : Option Bytes :=
  match line.dropWhile isSpace with
  | '#' :: r =>
    let r := r.dropWhile isSpace
    let w := r.takeWhile isWord
    if w ≠ [] ∧ (r.dropWhile isWord).all isSpace then some w else none
  | _ => none

/-- `getName` (`AsciiParser.cpp` 48-74) of the file with the name `file`. -/
def getName (file : Bytes) (disk : Option Bytes) : Table.Res Bytes :=
  match disk with
  | none => .throw .elements
  | some text =>
    let name := getParameter "NAME".toList text
    if name = [] then
      match matchName (firstLine (splitChar '\n' text)) with
      | some w => .ok w
      | none => .ok (removeExtension (removeAllBeforeLastSlash file))
    else .ok name

/-- `getDataset` (`AsciiParser.cpp` 108-124): no dataset if there is no file. The loop over the rows is the one of the other parser. -/
def getDataset (fmt : Fmt F D) (disk : Option Bytes) : Table.Res (Option (List (D × D))) :=
  match disk with
  | none => .ok none
  | some text =>
    match ({} : Reader).fixTypes [.scalar .f64, .scalar .f64] with
    | (_, .throw e) => .throw e
    | (_, .ub) => .ub
    | (r, .ok _) => do
      let t ← (r.read fmt text (-1)).2
      let l ← FitsIO.pairs t.rows
      return some l

end Alexandria.XYDataset.AsciiIO
