import Verif.Common.Outcome
import Verif.Common.Strings

/-!
# Model of columns, rows and tables

`Table/src/lib/ColumnDescription.cpp`, `ColumnInfo.cpp`, `Row.cpp`, `Table.cpp` and `TableWriter.cpp`.

Shared pointers to a `ColumnInfo`, an immutable object, are modelled by the object (`none` is the null pointer).
Floating point cells are values of two arbitrary types `F` (`float`) and `D` (`double`). An `NdArray` in a cell is its shape and its elements in the
order of iteration.
-/

namespace Alexandria.Table

open Alexandria.Str

inductive Err where
  | elements | invalidArgument | badGet | badCast | outOfRange | library
  deriving DecidableEq, Repr

abbrev Res (α : Type) := Outcome Err α

/-- The types of the elements of cells. -/
inductive Scalar where
  | bool | i32 | i64 | f32 | f64
  deriving DecidableEq, Repr

/-- The type of a column, a `std::type_index`: the 15 alternatives of `Row::cell_type` (`Row.h` 68-71) and others, among which is `nd bool`. -/
inductive CType where
  | scalar (s : Scalar)
  | str
  | vec (s : Scalar)
  | nd (s : Scalar)
  | other (n : Nat)
  deriving DecidableEq, Repr

/-- The values of an element type. -/
@[reducible] def Val (F D : Type) : Scalar → Type
  | .bool => Bool
  | .i32 => Int32
  | .i64 => Int64
  | .f32 => F
  | .f64 => D

variable {F D : Type}

instance [DecidableEq F] [DecidableEq D] : (s : Scalar) → DecidableEq (Val F D s)
  | .bool => inferInstanceAs (DecidableEq Bool)
  | .i32 => inferInstanceAs (DecidableEq Int32)
  | .i64 => inferInstanceAs (DecidableEq Int64)
  | .f32 => inferInstanceAs (DecidableEq F)
  | .f64 => inferInstanceAs (DecidableEq D)

/-- `Row::cell_type` (`Row.h` 68-71); there are no arrays of `bool` in the code. -/
inductive Cell (F D : Type) where
  | scalar (s : Scalar) (v : Val F D s)
  | str (v : Bytes)
  | vec (s : Scalar) (v : List (Val F D s))
  | nd (s : Scalar) (shape : List Nat) (v : List (Val F D s))

/-- The type of the value of a cell. -/
def Cell.type : Cell F D → CType
  | .scalar s _ => .scalar s
  | .str _ => .str
  | .vec s _ => .vec s
  | .nd s _ _ => .nd s

/-- The class `\v` of Boost.Regex for single byte characters. -/
def isVertical (c : Char) : Bool := c.toNat ≥ 10 && c.toNat ≤ 13

/-- A match of the whole string with `.*\v.*`. -/
def hasVertical (s : Bytes) : Bool := s.any isVertical

/-- `ColumnDescription` (`ColumnDescription.h` 55-85). -/
structure Desc where
  name : Bytes
  type : CType
  unit : Bytes
  description : Bytes
  deriving DecidableEq, Repr

/-- The constructor of `ColumnDescription` (`ColumnDescription.cpp` 39-49). -/
def mkDesc (name : Bytes) (type : CType) (unit description : Bytes) : Res Desc :=
  if name = [] then .throw .elements
  else if hasVertical name then .throw .elements
  else .ok ⟨name, type, unit, description⟩

/-- `ColumnDescription::operator==` (`ColumnDescription.h` 76-78). -/
def Desc.same (a b : Desc) : Bool := a.name == b.name && a.type == b.type && a.unit == b.unit

/-- `ColumnInfo`: the list of the columns (`ColumnInfo.h` 141). -/
abbrev Info := List Desc

/-- The loop over the names with the set of the names before (`ColumnInfo.cpp` 37-43). -/
def uniqueLoop : List Bytes → List Bytes → Res Unit
  | [], _ => .ok ()
  | n :: rest, set => if set.contains n then .throw .elements else uniqueLoop rest (n :: set)

/-- The constructor of `ColumnInfo` (`ColumnInfo.cpp` 33-44). -/
def mkInfo (l : List Desc) : Res Info :=
  if l = [] then .throw .elements
  else do
    uniqueLoop (l.map Desc.name) []
    return l

/-- `ColumnInfo::operator==` (`ColumnInfo.cpp` 46-51). -/
def sameInfo (a b : Info) : Bool := a.length == b.length && (a.zip b).all fun p => p.1.same p.2

/-- `ColumnInfo::getDescription(index)` (`ColumnInfo.cpp` 61-66). -/
def getDescription (info : Info) (i : Nat) : Res Desc :=
  match info[i]? with
  | some d => .ok d
  | none => .throw .elements

/-- `ColumnInfo::getDescription(name)` (`ColumnInfo.cpp` 68-74). -/
def getDescriptionByName (info : Info) (name : Bytes) : Res Desc :=
  match info.find? fun d => d.name == name with
  | some d => .ok d
  | none => .throw .elements

/-- `ColumnInfo::find` (`ColumnInfo.cpp` 76-85). -/
def findColumn (info : Info) (name : Bytes) : Option Nat := info.findIdx? fun d => d.name == name

/-- `Row` (`Row.h` 166-167). -/
structure RowT (F D : Type) where
  values : List (Cell F D)
  info : Info

/-- The loop over the types in the constructor of `Row` (`Row.cpp` 77-85). -/
def typesLoop : List (Cell F D) → List Desc → Res Unit
  | [], _ => .ok ()
  | v :: vs, d :: ds => if v.type ≠ d.type then .throw .elements else typesLoop vs ds
  | _ :: _, [] => .throw .elements

/-- The loop over the string cells in the constructor of `Row` (`Row.cpp` 87-98). -/
def stringsLoop : List (Cell F D) → Res Unit
  | [] => .ok ()
  | .str s :: vs => if s = [] then .throw .elements else if hasVertical s then .throw .elements else stringsLoop vs
  | _ :: vs => stringsLoop vs

/-- The constructor of `Row` (`Row.cpp` 69-99). -/
def mkRow (values : List (Cell F D)) (info : Option Info) : Res (RowT F D) :=
  match info with
  | none => .throw .elements
  | some info =>
    if values.length ≠ info.length then .throw .elements
    else do
      typesLoop values info
      stringsLoop values
      return ⟨values, info⟩

/-- `Row::operator[]` with an index (`Row.cpp` 109-114). -/
def RowT.get (r : RowT F D) (i : Nat) : Res (Cell F D) :=
  match r.values[i]? with
  | some c => .ok c
  | none => .throw .elements

/-- `Row::operator[]` with a name (`Row.cpp` 116-122); the access to the vector is not checked. -/
def RowT.getByName (r : RowT F D) (name : Bytes) : Res (Cell F D) :=
  match findColumn r.info name with
  | none => .throw .elements
  | some i =>
    match r.values[i]? with
    | some c => .ok c
    | none => .ub

/-- `Table` (`Table.h` 96-97). -/
structure TableT (F D : Type) where
  rows : List (RowT F D)
  info : Info

/-- The loop over the rows in the constructor of `Table` (`Table.cpp` 40-45). -/
def columnsLoop (info : Info) : List (RowT F D) → Res Unit
  | [] => .ok ()
  | r :: rs => if sameInfo r.info info then columnsLoop info rs else .throw .elements

/-- The constructor of `Table` (`Table.cpp` 31-46). -/
def mkTable (rows : List (RowT F D)) : Res (TableT F D) :=
  match rows with
  | [] => .throw .elements
  | r :: rs => do
    columnsLoop r.info (r :: rs)
    return ⟨r :: rs, r.info⟩

/-- `Table::operator[]` (`Table.cpp` 56-61). -/
def TableT.get (t : TableT F D) (i : Nat) : Res (RowT F D) :=
  match t.rows[i]? with
  | some r => .ok r
  | none => .throw .elements

end Alexandria.Table
