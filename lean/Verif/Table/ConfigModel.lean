import Verif.Table.FitsFileModel

/-!
# Model of the names that are fixed for a `FitsReader`

`FitsReader::fixColumnNames` (`FitsReader.cpp` 58-82) and `readColumnInfo` with such names (84-110). The same calls of `AsciiReader` are in `AsciiModel.lean`.
-/

namespace Alexandria.Table.Fits

open Alexandria.Str

variable {F D : Type}

/-- `m_reading_started`, `m_column_names` and `m_column_info` (`FitsReader.h` 163, 166, 167). -/
structure Config where
  started : Bool := false
  names : List Bytes := []
  info : Option Info := none
  deriving DecidableEq, Repr

/-- A match of the whole string with `.*\s.*`. -/
def hasSpace (s : Bytes) : Bool := s.any isSpace

/-- The loop over the names in `fixColumnNames` (`FitsReader.cpp` 68-79). -/
def fixLoop : List Bytes → List Bytes → Res Unit
  | [], _ => .ok ()
  | n :: rest, set =>
    if n = [] then .throw .elements
    else if hasSpace n then .throw .elements
    else if set.contains n then .throw .elements
    else fixLoop rest (n :: set)

/-- `FitsReader::fixColumnNames` (`FitsReader.cpp` 58-82); the names are changed before the checks. -/
def Config.fixNames (c : Config) (names : List Bytes) : Config × Res Unit :=
  if c.started then (c, .throw .elements) else ({ c with names := names }, fixLoop names [])

/-- `autoDetectColumnTypes` (`FitsReaderHelper.cpp` 144-157), for binary tables. -/
def headTypes : List Head → Res (List CType)
  | [] => .ok []
  | h :: hs => do
    let shape ← parseTDIM h.dim
    let type ← binaryFormatToType h.format shape
    let rest ← headTypes hs
    return type :: rest

/-- `createColumnInfo` (`ReaderHelper.cpp` 30-37), without the constructor of `ColumnInfo`. -/
def describeLoop : List Bytes → List CType → List Head → Res (List Desc)
  | n :: ns, t :: ts, h :: hs => do
    let d ← mkDesc n t h.unit h.desc
    let rest ← describeLoop ns ts hs
    return d :: rest
  | _, _, _ => .ok []

/-- `autoDetectColumnNames` (`FitsReaderHelper.cpp` 36-46). -/
def autoNames : List Head → Nat → List Bytes
  | [], _ => []
  | h :: hs, i => (if h.name = [] then "Col".toList ++ showNat (i + 1) else h.name) :: autoNames hs (i + 1)

/-- `readColumnInfo` (`FitsReader.cpp` 84-110), of an extension that is a table with these columns or none (`none`). -/
def Config.readColumnInfo (heads : Option (List Head)) (c : Config) : Config × Res Info :=
  match c.info with
  | some info => (c, .ok info)
  | none =>
    let c := { c with started := true }
    match heads with
    | none => (c, .throw .elements)
    | some heads =>
      if c.names ≠ [] ∧ c.names.length ≠ heads.length then (c, .throw .elements)
      else
        let names := if c.names = [] then autoNames heads 0 else c.names
        match (do let types ← headTypes heads
                  let ds ← describeLoop names types heads
                  mkInfo ds) with
        | .ok info => ({ c with info := some info }, .ok info)
        | .throw e => (c, .throw e)
        | .ub => (c, .ub)

end Alexandria.Table.Fits
