import Mathlib.Algebra.Order.Field.Basic
import Verif.Table.CastModel

/-!
# Model of the source catalog

`SourceCatalog/src/lib/*.cpp` and the headers in `SourceCatalog/SourceCatalog`.
-/

namespace Alexandria.Catalog

open Alexandria.Str Alexandria.Table

/-! ## Numbers -/

/-- A `double`: finite numbers are elements of an ordered field, without rounding, overflow and negative zero. -/
inductive Dbl (K : Type) where
  | nan
  | inf (negative : Bool)
  | num (x : K)
  deriving DecidableEq

namespace Dbl

variable {K : Type} [Field K] [LinearOrder K]

/-- `std::isnan`. -/
def isNan : Dbl K → Bool
  | nan => true
  | _ => false

/-- `std::isinf`. -/
def isInf : Dbl K → Bool
  | inf _ => true
  | _ => false

/-- `<`. -/
def lt : Dbl K → Dbl K → Bool
  | num x, num y => decide (x < y)
  | num _, inf s => !s
  | inf s, num _ => s
  | inf s, inf t => s && !t
  | _, _ => false

/-- `==`. -/
def eq : Dbl K → Dbl K → Bool
  | num x, num y => decide (x = y)
  | inf s, inf t => s == t
  | _, _ => false

/-- `<=`. -/
def le (a b : Dbl K) : Bool := lt a b || eq a b

/-- `std::abs`. -/
def abs : Dbl K → Dbl K
  | num x => num |x|
  | inf _ => inf false
  | nan => nan

/-- `*`. -/
def mul : Dbl K → Dbl K → Dbl K
  | num x, num y => num (x * y)
  | nan, _ | _, nan => nan
  | num x, inf s => if x = 0 then nan else inf (s ^^ decide (x < 0))
  | inf s, num x => if x = 0 then nan else inf (s ^^ decide (x < 0))
  | inf s, inf t => inf (s ^^ t)

/-- `/`; zero is the positive one. -/
def div : Dbl K → Dbl K → Dbl K
  | num x, num y => if y = 0 then (if x = 0 then nan else inf (decide (x < 0))) else num (x / y)
  | nan, _ | _, nan => nan
  | num _, inf _ => num 0
  | inf s, num x => inf (s ^^ decide (x < 0))
  | inf _, inf _ => nan

end Dbl

variable {K F A : Type} [Field K] [LinearOrder K]

/-! ## Photometry -/

/-- `FluxErrorPair` (`Photometry.h` 41-50, `FluxErrorPair.cpp` 30-31). -/
structure FluxError (K : Type) where
  flux : Dbl K
  error : Dbl K
  missing : Bool
  upper : Bool
  deriving DecidableEq

/-- `FluxErrorPair::operator==` (`FluxErrorPair.cpp` 33-36). -/
def FluxError.same (a b : FluxError K) : Bool :=
  (a.missing && b.missing) || (a.flux.eq b.flux && a.error.eq b.error && a.upper == b.upper)

/-- `Photometry` (`Photometry.h` 217-221). -/
structure Photometry (K : Type) where
  names : List Bytes
  values : List (FluxError K)

/-- The constructor of `Photometry` (`Photometry.h` 157-166); the names are given by a pointer. -/
def mkPhotometry (names : Option (List Bytes)) (values : List (FluxError K)) : Res (Photometry K) :=
  match names with
  | none => .throw .elements
  | some names => if names.length ≠ values.length then .throw .elements else .ok ⟨names, values⟩

/-- The loop of `Photometry::find` (`Photometry.cpp` 36-47) over the two vectors; the iterator of the values is not compared with the end. -/
def findLoop (name : Bytes) : List Bytes → List (FluxError K) → Res (Option (FluxError K))
  | [], _ => .ok none
  | n :: ns, vs =>
    if n = name then
      match vs with
      | [] => .ub
      | v :: _ => .ok (some v)
    else
      match vs with
      | [] => .ub
      | _ :: vs => findLoop name ns vs

/-- `Photometry::find` (`Photometry.cpp` 34-50). -/
def Photometry.find (p : Photometry K) (name : Bytes) : Res (Option (FluxError K)) := findLoop name p.names p.values

/-- `Photometry::size` (`Photometry.h` 199-201). -/
def Photometry.size (p : Photometry K) : Nat := p.names.length

/-- `PhotometryIterator` (`Photometry.h` 140-141): the positions in the two vectors. -/
structure PIter where
  filter : Nat
  value : Nat
  deriving DecidableEq

/-- `begin` (`Photometry.h` 187-189). -/
def Photometry.begin' (_ : Photometry K) : PIter := ⟨0, 0⟩

/-- `end` (`Photometry.h` 191-193). -/
def Photometry.end' (p : Photometry K) : PIter := ⟨p.names.length, p.values.length⟩

/-- `operator++` (`Photometry.icpp` 32-37); moving past the end is undefined. -/
def Photometry.next (p : Photometry K) (i : PIter) : Res PIter :=
  if i.filter < p.names.length ∧ i.value < p.values.length then .ok ⟨i.filter + 1, i.value + 1⟩ else .ub

/-- `operator!=` (`Photometry.icpp` 44-47). -/
def PIter.differs (i j : PIter) : Bool := i.filter != j.filter

/-- `filterName` (`Photometry.icpp` 64-67) and `operator*` (`Photometry.icpp` 49-52). -/
def Photometry.deref (p : Photometry K) (i : PIter) : Res (Bytes × FluxError K) :=
  match p.names[i.filter]?, p.values[i.value]? with
  | some n, some v => .ok (n, v)
  | _, _ => .ub

/-- An assignment through `operator*` of the iterator (`Photometry.icpp` 49-52). -/
def Photometry.assign (p : Photometry K) (i : PIter) (v : FluxError K) : Res (Photometry K) :=
  if i.value < p.values.length then .ok { p with values := p.values.set i.value v } else .ub

/-- `for (auto it = p.begin(); it != p.end(); ++it)` collecting `it.filterName()` and `*it`; the fuel is the number of steps after which a loop that did not end is given up. -/
def Photometry.iterate (p : Photometry K) : Nat → PIter → Res (List (Bytes × FluxError K))
  | 0, i => if i.differs p.end' then .ub else .ok []
  | k + 1, i =>
    if i.differs p.end' then do
      let x ← p.deref i
      let j ← p.next i
      let xs ← p.iterate k j
      return x :: xs
    else .ok []

/-! ## Photometry from a row -/

/-- What is taken from libraries: `Elements::isEqual`, a comparison with a tolerance, `std::pow(10, x)` and `std::log(10)`. -/
structure Lib (K : Type) where
  isEqual : Dbl K → Dbl K → Bool
  pow10 : Dbl K → Dbl K
  log10 : Dbl K

/-- The settings in `PhotometryAttributeFromRow` (`PhotometryAttributeFromRow.h` 114-125). -/
structure Settings (K : Type) where
  missingEnabled : Bool
  missingFlag : Dbl K
  upperEnabled : Bool
  upperFlag : Dbl K

/-- `PhotometryAttributeFromRow` (`PhotometryAttributeFromRow.h` 107-127); the thresholds of type `float` are seen as `double`. -/
structure FromRow (K : Type) where
  indices : List (Nat × Nat)
  names : List Bytes
  settings : Settings K
  nMap : List (Bytes × Dbl K)
  convert : List (Bytes × Bool)

/-- The first loop of the constructor (`PhotometryAttributeFromRow.cpp` 54-65). -/
def indexLoop (info : Info) : List (Bytes × Bytes × Bytes) → Res (List (Nat × Nat))
  | [] => .ok []
  | (_, f, e) :: l =>
    match findColumn info f, findColumn info e with
    | some i, some j => do
      let r ← indexLoop info l
      return (i, j) :: r
    | _, _ => .throw .elements

/-- The constructor (`PhotometryAttributeFromRow.cpp` 39-80). -/
def mkFromRow (info : Info) (mapping : List (Bytes × Bytes × Bytes)) (s : Settings K) (nMap : List (Bytes × Dbl K)) (convert : List (Bytes × Bool)) : Res (FromRow K) := do
  let indices ← indexLoop info mapping
  return ⟨indices, mapping.map Prod.fst, s, nMap, if convert.length ≠ nMap.length then nMap.map fun p => (p.1, false) else convert⟩

/-- `convertFromMag` (`PhotometryAttributeFromRow.cpp` 88-103). -/
def convertFromMag (lib : Lib K) (s : Settings K) (mag magErr : Dbl K) : Dbl K × Dbl K :=
  if lib.isEqual mag s.missingFlag || mag.isNan then (s.missingFlag, .num 0)
  else
    let flux := Dbl.mul (.num 3631000000) (lib.pow10 (Dbl.mul (.num (-(2 / 5))) mag))
    let fluxErr := if lib.isEqual magErr s.upperFlag then s.upperFlag else Dbl.mul (Dbl.mul (Dbl.mul (.num (2 / 5)) flux) magErr) lib.log10
    (flux, fluxErr)

/-- The handling of upper limits (`PhotometryAttributeFromRow.cpp` 135-162, 171-198): the two copies differ only in the order of assignments that do not depend on each other;
`threshold` is `none` if the iterator is at the end. -/
def limits (lib : Lib K) (s : Settings K) (threshold : Option (Dbl K)) (flux error : Dbl K) : Res (FluxError K) :=
  if s.upperEnabled then
    if error.eq (.num 0) then .throw .elements
    else if error.lt (.num 0) then do
      let error ← if lib.isEqual error s.upperFlag then
          match threshold with
          | none => Outcome.ub
          | some n => .ok (flux.div n)
        else .ok error
      if flux.le (.num 0) then .throw .elements else return ⟨flux, error.abs, false, true⟩
    else return ⟨flux, error, false, false⟩
  else if error.le (.num 0) then .throw .elements
  else return ⟨flux, error, false, false⟩

/-- The decisions for one filter (`PhotometryAttributeFromRow.cpp` 124-201). -/
def judge (lib : Lib K) (s : Settings K) (threshold : Option (Dbl K)) (flux error : Dbl K) : Res (FluxError K) :=
  if flux.isInf then .throw .elements
  else if s.missingEnabled then
    if lib.isEqual flux s.missingFlag || flux.isNan then .ok ⟨flux, .num 0, true, false⟩ else limits lib s threshold flux error
  else if flux.isNan then .throw .elements
  else limits lib s threshold flux error

/-- The loop of `createAttribute` (`PhotometryAttributeFromRow.cpp` 109-204) with the rest of the two maps; using or moving an iterator at the end is undefined. -/
def createLoop (conv : Conv F (Dbl K)) (lib : Lib K) (s : Settings K) (row : RowT F (Dbl K)) :
    List (Nat × Nat) → List (Bytes × Dbl K) → List (Bytes × Bool) → Res (List (FluxError K))
  | [], _, _ => .ok []
  | (i, j) :: l, nMap, convert => do
    let fluxCell ← row.get i
    let errorCell ← row.get j
    let flux ← castScalar conv .f64 fluxCell
    let error ← castScalar conv .f64 errorCell
    match convert with
    | [] => .ub
    | (_, c) :: convert => do
      let fe := if c then convertFromMag lib s flux error else (flux, error)
      let v ← judge lib s (nMap.head?.map Prod.snd) fe.1 fe.2
      match nMap with
      | [] => .ub
      | _ :: nMap => do
        let vs ← createLoop conv lib s row l nMap convert
        return v :: vs

/-- `PhotometryAttributeFromRow::createAttribute` (`PhotometryAttributeFromRow.cpp` 105-209). -/
def FromRow.create (conv : Conv F (Dbl K)) (lib : Lib K) (p : FromRow K) (row : RowT F (Dbl K)) : Res (Photometry K) := do
  let vs ← createLoop conv lib p.settings row p.indices p.nMap p.convert
  mkPhotometry (some p.names) vs

/-! ## Sources and catalogs -/

/-- `Source::id_type` (`Source.h` 51). -/
inductive Id where
  | num (n : Int64)
  | str (s : Bytes)
  deriving DecidableEq

/-- `operator<` of `boost::variant`: first the alternative, then the value. -/
def Id.less : Id → Id → Bool
  | .num a, .num b => decide (a < b)
  | .num _, .str _ => true
  | .str _, .num _ => false
  | .str a, .str b => decide (a < b)

/-- The keys that `std::map` does not distinguish. -/
def Id.equiv (a b : Id) : Bool := !a.less b && !b.less a

/-- `Source` (`Source.h` 91-95); the attributes are pointers. -/
structure Source (A : Type) where
  id : Id
  attributes : List (Option A)

/-- `Source::getAttribute` (`Source.icpp` 30-42); the cast is that of a pointer that is not null. -/
def getAttribute {T : Type} (cast : A → Option T) : List (Option A) → Option T
  | [] => none
  | a :: l =>
    match a.bind cast with
    | some t => some t
    | none => getAttribute cast l

/-- `Catalog` (`Catalog.h` 96-100); the map is a list of its entries. -/
structure Cat (A : Type) where
  sources : List (Source A)
  index : List (Id × Nat)

/-- `std::map::find`. -/
def mapFind (m : List (Id × Nat)) (id : Id) : Option Nat := (m.find? fun p => p.1.equiv id).map Prod.snd

/-- `std::map::emplace`; nothing is inserted if the key is there. -/
def emplace (m : List (Id × Nat)) (id : Id) (i : Nat) : List (Id × Nat) × Bool :=
  match mapFind m id with
  | some _ => (m, false)
  | none => ((id, i) :: m, true)

/-- The loop of the constructor of `Catalog` (`Catalog.cpp` 38-45). -/
def indexSources : List (Source A) → Nat → List (Id × Nat) → Res (List (Id × Nat))
  | [], _, m => .ok m
  | s :: l, i, m =>
    let r := emplace m s.id i
    if r.2 then indexSources l (i + 1) r.1 else .throw .elements

/-- The constructor of `Catalog` (`Catalog.cpp` 36-46). -/
def mkCat (l : List (Source A)) : Res (Cat A) := do
  let m ← indexSources l 0 []
  return ⟨l, m⟩

/-- `Catalog::find` (`Catalog.cpp` 51-60). -/
def Cat.find (c : Cat A) (id : Id) : Res (Option (Source A)) :=
  match mapFind c.index id with
  | none => .ok none
  | some i =>
    match c.sources[i]? with
    | some s => .ok (some s)
    | none => .ub

/-- `Catalog::size` (`Catalog.h` 91-93). -/
def Cat.size (c : Cat A) : Nat := c.sources.length

/-! ## Catalog from a table -/

variable {D : Type}

/-- `CastSourceIdVisitor` (`Source.h` 105-128). -/
def castId : Cell F D → Res Id
  | .str s => .ok (.str s)
  | .scalar .i32 v => .ok (.num (Int32.toInt64 v))
  | .scalar .i64 v => .ok (.num v)
  | _ => .throw .elements

/-- `CatalogFromTable` (`CatalogFromTable.h`); the makers of attributes are functions. -/
structure FromTable (F D A : Type) where
  idIndex : Nat
  makers : List (RowT F D → Res (Option A))

/-- The constructor (`CatalogFromTable.cpp` 34-45). -/
def mkFromTable (info : Info) (idColumn : Bytes) (makers : List (RowT F D → Res (Option A))) : Res (FromTable F D A) :=
  match findColumn info idColumn with
  | none => .throw .elements
  | some i => .ok ⟨i, makers⟩

/-- The inner loop of `createCatalog` (`CatalogFromTable.cpp` 65-67). -/
def attributesLoop (row : RowT F D) : List (RowT F D → Res (Option A)) → Res (List (Option A))
  | [] => .ok []
  | m :: ms => do
    let a ← m row
    let l ← attributesLoop row ms
    return a :: l

/-- The outer loop of `createCatalog` (`CatalogFromTable.cpp` 59-70). -/
def sourcesLoop (f : FromTable F D A) : List (RowT F D) → Res (List (Source A))
  | [] => .ok []
  | row :: rows => do
    let c ← row.get f.idIndex
    let id ← castId c
    let l ← attributesLoop row f.makers
    let ss ← sourcesLoop f rows
    return ⟨id, l⟩ :: ss

/-- `createCatalog` (`CatalogFromTable.cpp` 51-73). -/
def FromTable.create (f : FromTable F D A) (t : TableT F D) : Res (Cat A) := do
  let ss ← sourcesLoop f t.rows
  mkCat ss

/-! ## Other attributes from a row -/

/-- `SpectroscopicRedshiftAttributeFromRow` (`SpectroscopicRedshiftAttributeFromRow.h` 146-148); the index of the errors exists only with the flag. -/
structure SpecFromRow where
  value : Nat
  error : Option Nat

/-- The two constructors (`SpectroscopicRedshiftAttributeFromRow.h` 74-90, 109-123). -/
def mkSpec (info : Info) (value : Bytes) (error : Option Bytes) : Res SpecFromRow :=
  match findColumn info value with
  | none => .throw .elements
  | some i =>
    match error with
    | none => .ok ⟨i, none⟩
    | some e =>
      match findColumn info e with
      | none => .throw .elements
      | some j => .ok ⟨i, some j⟩

/-- `createAttribute` (`SpectroscopicRedshiftAttributeFromRow.h` 133-140): the redshift and its error. -/
def SpecFromRow.create (conv : Conv F (Dbl K)) (p : SpecFromRow) (row : RowT F (Dbl K)) : Res (Dbl K × Dbl K) := do
  let c ← row.get p.value
  let z ← castScalar conv .f64 c
  match p.error with
  | none => return (z, .num 0)
  | some j => do
    let c ← row.get j
    let e ← castScalar conv .f64 c
    return (z, e)

/-- The loop of `PdfFromRow::createAttribute` (`PdfFromRow.h` 69-87) over the map of the knots, whose keys are different: for each the knots and the values. A grid with one axis
is the list of its cells, here in the order of the knots. -/
def pdfLoop {V : Type} (conv : Conv F D) (columns : List (Bytes × Bytes)) (row : RowT F D) : List (Bytes × List V) → Res (List (Bytes × List V × List D))
  | [] => .ok []
  | (name, knots) :: l =>
    match columns.lookup name with
    | none => .throw .outOfRange
    | some col => do
      let c ← row.getByName col
      let data ← castVec conv .f64 c
      if data.length ≠ knots.length then .throw .elements
      else do
        let r ← pdfLoop conv columns row l
        return (name, knots, data) :: r

/-- `Pdf::getPdf` (`Pdf.h` 64-66). -/
def getPdf {V : Type} (pdfs : List (Bytes × List V × List D)) (name : Bytes) : Res (List V × List D) :=
  match pdfs.lookup name with
  | some p => .ok p
  | none => .throw .outOfRange

end Alexandria.Catalog
