import Verif.Table.Model
import Verif.Common.Split
import Verif.NdArray.Model

/-!
# Model of the ASCII reader and writer

`Table/src/lib/AsciiReader.cpp`, `AsciiReaderHelper.cpp`, `AsciiReaderHelper.h`, `ReaderHelper.cpp`, `AsciiWriter.cpp`, `AsciiWriterHelper.cpp` and
`AsciiWriterHelper.h`.

The text form of floating point numbers is a parameter (`Fmt`). Everything else is computed on texts. The standard streams and `boost::io::quoted`
are modelled as far as they are used. Log messages are not modelled.
-/

namespace Alexandria.Table

open Alexandria.Str

/-- Output and `boost::lexical_cast` of a floating point type. -/
structure FloatIO (T : Type) where
  print : T → Bytes
  parse : Bytes → Option T

/-- The two floating point types. -/
structure Fmt (F D : Type) where
  f32 : FloatIO F
  f64 : FloatIO D

variable {F D : Type}

/-! ## Tokens -/

/-- Output with `boost::io::quoted`. -/
def quotedOut (s : Bytes) : Bytes := '"' :: (s.flatMap fun c => if c == '"' || c == '\\' then ['\\', c] else [c]) ++ ['"']

/-- `quoted` (`AsciiWriterHelper.cpp` 111-118): quotes only around texts with whitespace or quotes. -/
def quotedW (s : Bytes) : Bytes := if s.any fun c => isSpace c || c == '"' then quotedOut s else s

/-- Input with `boost::io::quoted` after the first quote: the text, and what is left of the stream; `none` if the stream failed (no closing quote). -/
def unquote : Bytes → Bytes × Option Bytes
  | [] => ([], none)
  | c :: t =>
    if c = '\\' then
      match t with
      | [] => ([], none)
      | c' :: t' => ((c' :: (unquote t').1), (unquote t').2)
    else if c = '"' then ([], some t)
    else (c :: (unquote t).1, (unquote t).2)

/-- `stream >> token`. -/
def readWord (s : Bytes) : Bytes × Option Bytes :=
  match s.dropWhile isSpace with
  | [] => ([], none)
  | c :: t => ((c :: t).takeWhile fun c => !isSpace c, some ((c :: t).dropWhile fun c => !isSpace c))

/-- `stream >> boost::io::quoted(token)`. At the end of the stream a character is compared that was not read; whatever it is, the stream fails. -/
def readQ (s : Bytes) : Bytes × Option Bytes :=
  match s.dropWhile isSpace with
  | [] => ([], none)
  | c :: t => if c = '"' then unquote t else readWord (c :: t)

/-- `stream >> boost::io::quoted(token)` on a stream that may have failed. -/
def next : Option Bytes → Bytes × Option Bytes
  | none => ([], none)
  | some s => readQ s

/-- The tokens read until the stream fails, the last one being dropped; `fuel` is more than the length of the text. -/
def tokensQ : Nat → Bytes → List Bytes
  | 0, _ => []
  | fuel + 1, s =>
    match (readQ s).2 with
    | none => []
    | some rest => (readQ s).1 :: tokensQ fuel rest

/-- All the tokens of a line. -/
def tokens (s : Bytes) : List Bytes := tokensQ (s.length + 1) s

/-! ## Values as text -/

/-- `stream << n` for a signed integer. -/
def showInt (n : Int) : Bytes := if n < 0 then '-' :: showNat n.natAbs else showNat n.natAbs

/-- `boost::lexical_cast` to a signed integer type with the given range. -/
def lexInt (lo hi : Int) (s : Bytes) : Option Int :=
  let value : Option Int := match s with
    | '-' :: t => (digits? t).map fun n => -(n : Int)
    | '+' :: t => (digits? t).map fun n => (n : Int)
    | t => (digits? t).map fun n => (n : Int)
  match value with
  | some v => if lo ≤ v ∧ v ≤ hi then some v else none
  | none => none

/-- `stream << value` for the elements of cells. -/
def printVal (fmt : Fmt F D) : (s : Scalar) → Val F D s → Bytes
  | .bool, v => match v with
    | true => ['1']
    | false => ['0']
  | .i32, v => showInt (Int32.toInt v)
  | .i64, v => showInt (Int64.toInt v)
  | .f32, v => fmt.f32.print v
  | .f64, v => fmt.f64.print v

/-- Values separated by commas. -/
def commas : List Bytes → Bytes
  | [] => []
  | x :: xs => x ++ xs.flatMap fun y => ',' :: y

/-- `ToStringVisitor` (`AsciiWriterHelper.h` 77-90), with the output of a `std::vector` (`Row.cpp` 46-56), which increments the iterator of an empty vector past
the end, and of an `NdArray` (`NdArray.icpp` 491-510), which is empty for an array without elements and runs past the end of an empty shape. -/
def printCell (fmt : Fmt F D) : Cell F D → Res Bytes
  | .scalar s v => .ok (printVal fmt s v)
  | .str v => .ok (quotedW v)
  | .vec s v => if v = [] then .ub else .ok (commas (v.map (printVal fmt s)))
  | .nd s shape v =>
    if v = [] then .ok []
    else if shape = [] then .ub
    else .ok ('<' :: commas (shape.map showNat) ++ '>' :: commas (v.map (printVal fmt s)))

/-- Part of `convertToCellType` for the elements (`AsciiReaderHelper.cpp` 286-300). -/
def convertVal (fmt : Fmt F D) (s : Scalar) (value : Bytes) : Option (Val F D s) :=
  match s with
  | .bool =>
    if value ∈ ["true".toList, "t".toList, "yes".toList, "y".toList, "1".toList] then some true
    else if value ∈ ["false".toList, "f".toList, "no".toList, "n".toList, "0".toList] then some false
    else none
  | .i32 => (lexInt (-2 ^ 31) (2 ^ 31 - 1) value).map Int32.ofInt
  | .i64 => (lexInt (-2 ^ 63) (2 ^ 63 - 1) value).map Int64.ofInt
  | .f32 => fmt.f32.parse value
  | .f64 => fmt.f64.parse value

/-- `boost::tokenizer` with `char_separator(",")`: empty tokens are dropped. -/
def commaTokens (s : Bytes) : List Bytes := (splitChar ',' s).filter fun t => t ≠ []

/-- `convertStringToVector` (`AsciiReaderHelper.cpp` 249-258). -/
def convertVec (fmt : Fmt F D) (s : Scalar) (value : Bytes) : Option (List (Val F D s)) := mapAll (convertVal fmt s) (commaTokens value)

/-- The conversion of an `int32_t` to `size_t`. -/
def toSize (n : Int32) : Nat := (n.toInt % 2 ^ 64).toNat

/-- `convertStringToNdArray` (`AsciiReaderHelper.cpp` 260-280). -/
def convertNd (fmt : Fmt F D) (s : Scalar) (value : Bytes) : Res (Cell F D) :=
  match value with
  | '<' :: _ =>
    match find ['>'] value with
    | none => .throw .elements
    | some closing =>
      match convertVec fmt .i32 ((value.drop 1).take (closing - 1)), convertVec fmt s (value.drop (closing + 1)) with
      | some shape, some data =>
        if NdArray.accU32 (shape.map toSize) ≠ data.length then .throw .invalidArgument else .ok (.nd s (shape.map toSize) data)
      | _, _ => .throw .elements
  | _ => .throw .elements

/-- `convertToCellType` (`AsciiReaderHelper.cpp` 284-326); a failed `lexical_cast` and an unknown type give the same exception. -/
def convertToCellType (fmt : Fmt F D) (value : Bytes) : CType → Res (Cell F D)
  | .scalar s => match convertVal fmt s value with
    | some v => .ok (.scalar s v)
    | none => .throw .elements
  | .str => .ok (.str value)
  | .vec s => match convertVec fmt s value with
    | some v => .ok (.vec s v)
    | none => .throw .elements
  | .nd .bool => .throw .elements
  | .nd s => convertNd fmt s value
  | .other _ => .throw .elements

/-! ## Keywords -/

/-- `typeToKeyword` (`AsciiWriterHelper.cpp` 44-91). -/
def typeToKeyword : CType → Res Bytes
  | .scalar .bool => .ok "bool".toList
  | .scalar .i32 => .ok "int".toList
  | .scalar .i64 => .ok "long".toList
  | .scalar .f32 => .ok "float".toList
  | .scalar .f64 => .ok "double".toList
  | .str => .ok "string".toList
  | .vec .bool => .ok "[bool]".toList
  | .vec .i32 => .ok "[int]".toList
  | .vec .i64 => .ok "[long]".toList
  | .vec .f32 => .ok "[float]".toList
  | .vec .f64 => .ok "[double]".toList
  | .nd .i32 => .ok "[int+]".toList
  | .nd .i64 => .ok "[long+]".toList
  | .nd .f32 => .ok "[float+]".toList
  | .nd .f64 => .ok "[double+]".toList
  | _ => .throw .elements

/-- `keywordToType` (`AsciiReaderHelper.cpp` 72-105). -/
def keywordToType (k : Bytes) : Res CType :=
  if k = "bool".toList ∨ k = "boolean".toList then .ok (.scalar .bool)
  else if k = "int".toList ∨ k = "int32".toList then .ok (.scalar .i32)
  else if k = "long".toList ∨ k = "int64".toList then .ok (.scalar .i64)
  else if k = "float".toList then .ok (.scalar .f32)
  else if k = "double".toList then .ok (.scalar .f64)
  else if k = "string".toList then .ok .str
  else if k = "[bool]".toList ∨ k = "[boolean]".toList then .ok (.vec .bool)
  else if k = "[int]".toList ∨ k = "[int32]".toList then .ok (.vec .i32)
  else if k = "[long]".toList ∨ k = "[int64]".toList then .ok (.vec .i64)
  else if k = "[float]".toList then .ok (.vec .f32)
  else if k = "[double]".toList then .ok (.vec .f64)
  else if k = "[int+]".toList ∨ k = "[int32+]".toList then .ok (.nd .i32)
  else if k = "[long+]".toList ∨ k = "[int64+]".toList then .ok (.nd .i64)
  else if k = "[float+]".toList then .ok (.nd .f32)
  else if k = "[double+]".toList then .ok (.nd .f64)
  else .throw .elements

/-! ## The writer -/

/-- `AsciiWriter` (`AsciiWriter.h` 176-180), its stream being the text written so far, and the column info of `TableWriter` (`TableWriter.h` 110). -/
structure Writer where
  out : Bytes := []
  started : Bool := false
  initialized : Bool := false
  comment : Bytes := ['#']
  showInfo : Bool := true
  info : Option Info := none
  deriving DecidableEq, Repr

/-- `AsciiWriter::setCommentIndicator` (`AsciiWriter.cpp` 42-52). -/
def Writer.setComment (w : Writer) (indicator : Bytes) : Res Writer :=
  if w.started then .throw .elements
  else if indicator = [] then .throw .elements
  else .ok { w with comment := indicator }

/-- `AsciiWriter::showColumnInfo` (`AsciiWriter.cpp` 54-61). -/
def Writer.showColumnInfo (w : Writer) (b : Bool) : Res Writer :=
  if w.started then .throw .elements else .ok { w with showInfo := b }

/-- `AsciiWriter::addComment` (`AsciiWriter.cpp` 63-76). -/
def Writer.addComment (w : Writer) (message : Bytes) : Res Writer :=
  if w.initialized then .throw .elements
  else .ok { w with started := true, out := w.out ++ (splitChar '\n' message).flatMap fun line => w.comment ++ ' ' :: line ++ ['\n'] }

/-- `out << std::setw(n) << s`. -/
def pad (n : Nat) (s : Bytes) : Bytes := List.replicate (n - s.length) ' ' ++ s

/-- The loop over the cells of a row in `calculateColumnLengths` (`AsciiWriterHelper.cpp` 101-103). -/
def widthLoop (fmt : Fmt F D) : List Nat → List (Cell F D) → Res (List Nat)
  | [], _ => .ok []
  | _ :: _, [] => .throw .elements
  | n :: ns, c :: cs => do
    let s ← printCell fmt c
    let rest ← widthLoop fmt ns cs
    return max n s.length :: rest

/-- The loop over the rows in `calculateColumnLengths` (`AsciiWriterHelper.cpp` 100-104). -/
def widthsLoop (fmt : Fmt F D) : List (RowT F D) → List Nat → Res (List Nat)
  | [], ns => .ok ns
  | r :: rs, ns => do
    let ns ← widthLoop fmt ns r.values
    widthsLoop fmt rs ns

/-- `calculateColumnLengths` (`AsciiWriterHelper.cpp` 93-109). -/
def columnLengths (fmt : Fmt F D) (t : TableT F D) : Res (List Nat) := do
  let ns ← widthsLoop fmt t.rows (t.info.map fun d => (quotedW d.name).length)
  return ns.map (· + 1)

/-- The line that describes a column (`AsciiWriter.cpp` 94-101). -/
def describe (comment : Bytes) (d : Desc) : Res Bytes := do
  let k ← typeToKeyword d.type
  return comment ++ " Column: ".toList ++ quotedW d.name ++ ' ' :: k ++ (if d.unit = [] then [] else " (".toList ++ d.unit ++ [')']) ++
    (if d.description = [] then [] else " - ".toList ++ d.description) ++ ['\n']

/-- The loop over the columns (`AsciiWriter.cpp` 91-102). -/
def describeAll (comment : Bytes) : List Desc → Res Bytes
  | [] => .ok []
  | d :: ds => do
    let a ← describe comment d
    let b ← describeAll comment ds
    return a ++ b

/-- The loop over the names of the columns (`AsciiWriter.cpp` 109-111). -/
def namesLine : List Nat → List Desc → Bytes
  | n :: ns, d :: ds => pad n (quotedW d.name) ++ namesLine ns ds
  | _, _ => []

/-- `AsciiWriter::init` (`AsciiWriter.cpp` 78-113). The comment indicator is written as a C string before the names. What was written before an exception is not modelled. -/
def Writer.init (fmt : Fmt F D) (w : Writer) (t : TableT F D) : Res Writer := do
  let blank := if w.started then ['\n'] else []
  let descs ← if w.showInfo then do
      let d ← describeAll w.comment t.info
      pure (d ++ ['\n'])
    else pure []
  let lengths ← columnLengths fmt t
  return { w with
    initialized := true
    started := true
    out := w.out ++ blank ++ descs ++ (w.comment.takeWhile fun c => c ≠ '\x00') ++ namesLine lengths t.info ++ "\n\n".toList }

/-- The loop over the cells of a row in `append` (`AsciiWriter.cpp` 122-124). -/
def cellsLine (fmt : Fmt F D) : List Nat → List (Cell F D) → Res Bytes
  | _, [] => .ok []
  | n :: ns, c :: cs => do
    let s ← printCell fmt c
    let rest ← cellsLine fmt ns cs
    return pad n s ++ rest
  | [], _ :: _ => .ub

/-- The loop over the rows in `append` (`AsciiWriter.cpp` 121-126). -/
def rowLines (fmt : Fmt F D) (ns : List Nat) : List (RowT F D) → Res Bytes
  | [] => .ok []
  | r :: rs => do
    let a ← cellsLine fmt ns r.values
    let b ← rowLines fmt ns rs
    return a ++ '\n' :: b

/-- `AsciiWriter::append` (`AsciiWriter.cpp` 115-127). -/
def Writer.append (fmt : Fmt F D) (w : Writer) (t : TableT F D) : Res Writer := do
  let lengths ← columnLengths fmt t
  match lengths with
  | [] => .ub
  | n :: ns => do
    let text ← rowLines fmt ((n + w.comment.length) :: ns) t.rows
    return { w with out := w.out ++ text }

/-- `TableWriter::addData` (`TableWriter.cpp` 31-40). -/
def Writer.addData (fmt : Fmt F D) (w : Writer) (t : TableT F D) : Res Writer :=
  match w.info with
  | none => do
    let w ← { w with info := some t.info }.init fmt t
    w.append fmt t
  | some info => if sameInfo info t.info then w.append fmt t else .throw .elements

/-! ## The stream of the reader -/

/-- The state of an input stream on a text: the position and the flags. -/
structure Stream where
  pos : Nat := 0
  eof : Bool := false
  fail : Bool := false
  deriving DecidableEq, Repr

/-- `getline(in, line)` into an empty string. -/
def getline (text : Bytes) (s : Stream) : Bytes × Stream :=
  if s.eof ∨ s.fail then ([], { s with fail := true })
  else
    let rest := text.drop s.pos
    let line := rest.takeWhile fun c => c ≠ '\n'
    if rest = [] then ([], { s with eof := true, fail := true })
    else if line.length = rest.length then (line, { s with pos := text.length, eof := true })
    else (line, { s with pos := s.pos + line.length + 1 })

/-- The state after `tellg` in the constructor of `StreamRewinder` (`AsciiReaderHelper.h` 49): a stream at the end fails. -/
def afterTell (s : Stream) : Stream := if s.eof ∨ s.fail then { s with fail := true } else s

/-- The conversion of a position to `int` (`AsciiReaderHelper.h` 59). -/
def toInt32 (n : Nat) : Int := if n % 2 ^ 32 < 2 ^ 31 then ((n % 2 ^ 32 : Nat) : Int) else ((n % 2 ^ 32 : Nat) : Int) - 2 ^ 32

/-- The state after a `StreamRewinder` is constructed and destructed (`AsciiReaderHelper.h` 49-54), whatever is read between. `tellg` gives −1 at the end of the stream
or if it failed, and a seek to a negative position fails, in which case the position does not matter. The stream has the default exception mask. -/
def rewind (s : Stream) : Stream :=
  let position := if s.eof ∨ s.fail then -1 else toInt32 s.pos
  if position < 0 then { pos := s.pos, eof := false, fail := true } else { pos := position.toNat, eof := false, fail := false }

/-- A loop `while (in && go) { getline(in, line); … }`; `fuel` is more than the number of lines. -/
def whileLines {σ : Type} (text : Bytes) (go : σ → Bool) (body : σ → Bytes → Res σ) : Nat → Stream → σ → Stream × Res σ
  | 0, s, a => (s, .ok a)
  | fuel + 1, s, a =>
    if s.fail then (s, .ok a)
    else if go a then
      match body a (getline text s).1 with
      | .ok a' => whileLines text go body fuel (getline text s).2 a'
      | .throw e => ((getline text s).2, .throw e)
      | .ub => ((getline text s).2, .ub)
    else (s, .ok a)

/-- Enough for every loop over the lines of a text. -/
def lineFuel (text : Bytes) : Nat := text.length + 3

/-! ## The header -/

/-- A line without its comment and surrounding whitespace (`AsciiReader.cpp` 206-210 and in other places). -/
def dataLine (comment line : Bytes) : Bytes :=
  match find comment line with
  | some i => trim (line.take i)
  | none => trim line

/-- `boost::replace_all(line, pat, "")` for a pattern that is not empty; the number of characters to skip is an argument. -/
def removeAll (pat : Bytes) : Nat → Bytes → Bytes
  | _, [] => []
  | k + 1, _ :: t => removeAll pat k t
  | 0, c :: t => if pat.isPrefixOf (c :: t) then removeAll pat (pat.length - 1) t else c :: removeAll pat 0 t

/-- `countColumns` (`AsciiReaderHelper.cpp` 42-70), with the state of its stream rewinder. -/
def countColumns (text comment : Bytes) (s : Stream) : Res Nat :=
  let body (a : Nat × Bool) (line : Bytes) : Res (Nat × Bool) :=
    if dataLine comment line = [] then .ok a else .ok ((tokens (dataLine comment line)).length, true)
  match (whileLines text (fun a => !a.2) body (lineFuel text) (afterTell s) (0, false)).2 with
  | .ok (n, _) => if n = 0 then .throw .elements else .ok n
  | .throw e => .throw e
  | .ub => .ub

/-- The loop that collects the text of a description (`AsciiReaderHelper.cpp` 153-157). -/
def descriptionLoop : Nat → Bytes → Option Bytes → Bytes
  | 0, _, _ => []
  | _, _, none => []
  | fuel + 1, token, some rest => token ++ ' ' :: descriptionLoop fuel (readQ rest).1 (readQ rest).2

/-- The description of a column, after "Column:" (`AsciiReaderHelper.cpp` 126-161). -/
def parseDescription (names : List Bytes) (line : Bytes) : Res Desc :=
  let (name, st) := readQ line
  if name ∈ names then .throw .elements
  else do
    let (token, st) := next st
    let (type, token, st) ← if st.isSome ∧ ¬ ['('] <+: token ∧ token ≠ ['-'] then do
        let type ← keywordToType token
        pure (type, next st)
      else pure (CType.str, token, st)
    let (unit, token, st) ← if st.isSome ∧ ['('] <+: token then
        if token.drop 1 = [] then .ub else pure ((token.drop 1).dropLast, next st)
      else pure ([], token, st)
    let (token, st) := if st.isSome ∧ token = ['-'] then next st else (token, st)
    mkDesc name type unit (trim (descriptionLoop (line.length + 1) token st))

/-- The body of the loop of `autoDetectColumnDescriptions` (`AsciiReaderHelper.cpp` 111-166); the flag tells that the first data line was found. -/
def descriptionsBody (comment : Bytes) (a : List Desc × Bool) (line : Bytes) : Res (List Desc × Bool) :=
  let line := trim line
  if line = [] then .ok a
  else if comment <+: line then
    let line := trim (removeAll comment 0 line)
    if "Column:".toList <+: line then
      let line := trim (line.drop 7)
      if line = [] then .ok a
      else do
        let d ← parseDescription (a.1.map Desc.name) line
        return (a.1 ++ [d], false)
    else .ok a
  else .ok (a.1, true)

/-- `autoDetectColumnDescriptions` (`AsciiReaderHelper.cpp` 107-169); the map is a list. -/
def detectDescriptions (text comment : Bytes) (s : Stream) : Res (List Desc) :=
  match (whileLines text (fun a => !a.2) (descriptionsBody comment) (lineFuel text) (afterTell s) ([], false)).2 with
  | .ok a => .ok a.1
  | .throw e => .throw e
  | .ub => .ub

/-- The state of the loop of `autoDetectColumnNames` (`AsciiReaderHelper.cpp` 177-178). -/
structure NamesSt where
  last : Bytes := []
  descNames : List Bytes := []
  done : Bool := false
  deriving DecidableEq, Repr

/-- The body of the loop of `autoDetectColumnNames` (`AsciiReaderHelper.cpp` 180-206). -/
def namesBody (comment : Bytes) (a : NamesSt) (line : Bytes) : Res NamesSt :=
  let line := trim line
  if line = [] then .ok a
  else if comment <+: line then
    let line := trim (removeAll comment 0 line)
    let last := if line = [] then a.last else line
    if "Column:".toList <+: line then
      let temp := trim (line.drop 7)
      let temp := match find [' '] temp with
        | some (i + 1) => temp.take (i + 1)
        | _ => temp
      .ok { a with last := last, descNames := a.descNames ++ [temp] }
    else .ok { a with last := last }
  else .ok { a with done := true }

/-- The names of the columns found in the comments (`AsciiReaderHelper.cpp` 209-236). -/
def chooseNames (a : NamesSt) (n : Nat) : List Bytes :=
  let names := if a.last = [] then [] else if (tokens a.last).length = n then tokens a.last else []
  let names := if names = [] then a.descNames else names
  names ++ (List.range' (names.length + 1) (n - names.length)).map fun i => "col".toList ++ showNat i

/-- `autoDetectColumnNames` (`AsciiReaderHelper.cpp` 171-245). -/
def detectNames (text comment : Bytes) (n : Nat) (s : Stream) : Res (List Bytes) :=
  match (whileLines text (fun a => !a.done) (namesBody comment) (lineFuel text) (afterTell s) {}).2 with
  | .ok a => do
    uniqueLoop (chooseNames a n) []
    return chooseNames a n
  | .throw e => .throw e
  | .ub => .ub

/-! ## The reader -/

/-- `AsciiReader` (`AsciiReader.h` 217-222) on a text. -/
structure Reader where
  stream : Stream := {}
  comment : Bytes := ['#']
  started : Bool := false
  names : List Bytes := []
  types : List CType := []
  info : Option Info := none
  deriving DecidableEq, Repr

/-- `AsciiReader::setCommentIndicator` (`AsciiReader.cpp` 58-68). -/
def Reader.setComment (r : Reader) (indicator : Bytes) : Res Reader :=
  if r.started then .throw .elements
  else if indicator = [] then .throw .elements
  else .ok { r with comment := indicator }

/-- The loop over the names in `fixColumnNames` (`AsciiReader.cpp` 80-91). -/
def fixLoop : List Bytes → List Bytes → Res Unit
  | [], _ => .ok ()
  | n :: rest, set =>
    if n = [] then .throw .elements
    else if hasVertical n then .throw .elements
    else if set.contains n then .throw .elements
    else fixLoop rest (n :: set)

/-- `AsciiReader::fixColumnNames` (`AsciiReader.cpp` 70-97); the names are changed before the checks. -/
def Reader.fixNames (r : Reader) (names : List Bytes) : Reader × Res Unit :=
  if r.started then (r, .throw .elements)
  else
    let r := { r with names := names }
    match fixLoop names [] with
    | .ok _ => if r.names ≠ [] ∧ r.types ≠ [] ∧ r.names.length ≠ r.types.length then (r, .throw .elements) else (r, .ok ())
    | .throw e => (r, .throw e)
    | .ub => (r, .ub)

/-- `AsciiReader::fixColumnTypes` (`AsciiReader.cpp` 99-112). -/
def Reader.fixTypes (r : Reader) (types : List CType) : Reader × Res Unit :=
  if r.started then (r, .throw .elements)
  else
    let r := { r with types := types }
    if r.names ≠ [] ∧ r.types ≠ [] ∧ r.names.length ≠ r.types.length then (r, .throw .elements) else (r, .ok ())

/-- The loop over the columns in `readColumnInfo` and `createColumnInfo` (`AsciiReader.cpp` 139-163, `ReaderHelper.cpp` 32-35), by the number of columns left. A list of names or types
that is not empty has an element for each column. -/
def infoLoop (names autoNames : List Bytes) (types : List CType) (descs : List Desc) : Nat → Nat → Res (List Desc)
  | 0, _ => .ok []
  | k + 1, i =>
    match autoNames[i]?, (if names = [] then autoNames else names)[i]? with
    | some auto, some name =>
      let found := descs.find? fun d => d.name == auto
      match (if types = [] then some (match found with | some d => d.type | none => CType.str) else types[i]?) with
      | none => .ub
      | some type => do
        let d ← match found with
          | some d => mkDesc name type d.unit d.description
          | none => mkDesc name type [] []
        let rest ← infoLoop names autoNames types descs k (i + 1)
        return d :: rest
    | _, _ => .ub

/-- `AsciiReader::readColumnInfo` (`AsciiReader.cpp` 114-165). -/
def Reader.readColumnInfo (text : Bytes) (r : Reader) : Reader × Res Info :=
  match r.info with
  | some info => (r, .ok info)
  | none =>
    let r1 := { r with started := true, stream := rewind r.stream }
    match countColumns text r.comment r.stream with
    | .throw e => (r1, .throw e)
    | .ub => (r1, .ub)
    | .ok n =>
      if r.names ≠ [] ∧ r.names.length ≠ n then (r1, .throw .elements)
      else if r.types ≠ [] ∧ r.types.length ≠ n then (r1, .throw .elements)
      else
        let r2 := { r1 with stream := rewind r1.stream }
        match detectNames text r.comment n r1.stream with
        | .throw e => (r2, .throw e)
        | .ub => (r2, .ub)
        | .ok autoNames =>
          let r3 := { r2 with stream := rewind r2.stream }
          match (do let descs ← detectDescriptions text r.comment r2.stream
                    let l ← infoLoop r.names autoNames r.types descs n 0
                    mkInfo l) with
          | .throw e => (r3, .throw e)
          | .ub => (r3, .ub)
          | .ok info => ({ r3 with info := some info }, .ok info)

/-- The loop over the tokens of a line (`AsciiReader.cpp` 218-225): the token and the stream, for the columns that are left. -/
def cellsLoop (fmt : Fmt F D) : List Desc → Bytes → Option Bytes → Res (List (Cell F D))
  | _, _, none => .ok []
  | [], _, some _ => .throw .elements
  | d :: ds, token, some rest => do
    let c ← convertToCellType fmt token d.type
    let cs ← cellsLoop fmt ds (readQ rest).1 (readQ rest).2
    return c :: cs

/-- A line as a row (`AsciiReader.cpp` 213-226); the first token is read without quotes. -/
def parseRow (fmt : Fmt F D) (info : Info) (line : Bytes) : Res (RowT F D) := do
  let values ← cellsLoop fmt info (readWord line).1 (readWord line).2
  mkRow values (some info)

/-- The body of the loop of `readImpl` (`AsciiReader.cpp` 204-227). -/
def readBody (fmt : Fmt F D) (comment : Bytes) (info : Info) (a : Int × List (RowT F D)) (line : Bytes) : Res (Int × List (RowT F D)) :=
  if dataLine comment line = [] then .ok a
  else do
    let row ← parseRow fmt info (dataLine comment line)
    return (a.1 - 1, a.2 ++ [row])

/-- `AsciiReader::readImpl` (`AsciiReader.cpp` 198-234). -/
def Reader.read (fmt : Fmt F D) (text : Bytes) (r : Reader) (rows : Int) : Reader × Res (TableT F D) :=
  match r.readColumnInfo text with
  | (r, .throw e) => (r, .throw e)
  | (r, .ub) => (r, .ub)
  | (r, .ok info) =>
    let w := whileLines text (fun a => a.1 ≠ 0) (readBody fmt r.comment info) (lineFuel text) r.stream (rows, [])
    ({ r with stream := w.1 }, do
      let a ← w.2
      if a.2 = [] then .throw .elements else mkTable a.2)

/-- `AsciiReader::skip` (`AsciiReader.cpp` 236-252). -/
def Reader.skip (text : Bytes) (r : Reader) (rows : Int) : Reader × Res Unit :=
  match r.readColumnInfo text with
  | (r, .throw e) => (r, .throw e)
  | (r, .ub) => (r, .ub)
  | (r, .ok _) =>
    let w := whileLines text (fun a => a ≠ 0) (fun a line => if dataLine r.comment line = [] then .ok a else .ok (a - 1)) (lineFuel text) r.stream rows
    ({ r with stream := w.1 }, .ok ())

/-- `AsciiReader::hasMoreRows` (`AsciiReader.cpp` 254-256, `AsciiReaderHelper.cpp` 328-343). -/
def Reader.hasMoreRows (text : Bytes) (r : Reader) : Reader × Bool :=
  let w := whileLines text (fun a => !a) (fun a line => if dataLine r.comment line = [] then .ok a else .ok true) (lineFuel text) (afterTell r.stream) false
  ({ r with stream := rewind r.stream }, match w.2 with | .ok b => b | _ => false)

/-- `AsciiReader::rowsLeft` (`AsciiReader.cpp` 258-260, `AsciiReaderHelper.cpp` 345-361). -/
def Reader.rowsLeft (text : Bytes) (r : Reader) : Reader × Nat :=
  let w := whileLines text (fun _ => true) (fun a line => if dataLine r.comment line = [] then .ok a else .ok (a + 1)) (lineFuel text) (afterTell r.stream) 0
  ({ r with stream := rewind r.stream }, match w.2 with | .ok n => n | _ => 0)

/-- The line at the position of the stream and the state after `_peekLine` (`AsciiReader.cpp` 172-178); `seekg` clears the flag of the end, but not that of a failure. -/
def peekLine (text : Bytes) (s : Stream) : Bytes × Stream :=
  if s.eof ∨ s.fail then ([], { s with fail := true })
  else
    let g := getline text s
    (g.1, if g.2.fail then g.2 else s)

/-- The loop of `getComment` (`AsciiReader.cpp` 185-191), by the number of lines. -/
def commentLoop (text comment : Bytes) : Nat → Stream → Bytes → Stream × Bytes
  | 0, s, acc => (s, acc)
  | fuel + 1, s, acc =>
    if s.fail then (s, acc)
    else
      let p := peekLine text s
      if p.1.take comment.length = comment then
        let g := getline text p.2
        commentLoop text comment fuel g.2 (acc ++ trim (g.1.drop comment.length) ++ ['\n'])
      else (p.2, acc)

/-- `AsciiReader::getComment` (`AsciiReader.cpp` 180-196). -/
def Reader.getComment (text : Bytes) (r : Reader) : Reader × Bytes :=
  let w := commentLoop text r.comment (lineFuel text) r.stream []
  ({ r with started := true, stream := w.1 }, trim w.2)

end Alexandria.Table
