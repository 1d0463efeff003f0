import Verif.Catalog.Model
import Verif.Configuration.Model
import Verif.Table.AsciiModel
import Verif.Table.FitsModel

/-!
# Model of the configurations that read a catalogue

`Configuration/src/lib/CatalogConfig.cpp`, `PhotometryCatalogConfig.cpp`, `SpecZCatalogConfig.cpp` and `Configuration/Configuration/PdfCatalogConfig.h`, on top of the models of the readers, of the band
mapping and of the source catalog.
-/

namespace Alexandria.CatConfig

open Alexandria.Str
open Alexandria.Table (Info RowT TableT Fmt Conv Hdu findColumn)
open Alexandria.Catalog (Dbl Lib Photometry Settings Cat FromTable)
open Alexandria.Configuration (CState CatalogArgs Mapping)

/-- The exceptions of the two parts. -/
inductive Err where
  | config (e : Configuration.Err)
  | table (e : Table.Err)
  deriving DecidableEq, Repr

abbrev Res (α : Type) := Outcome Err α

def ofConfig {α : Type} : Configuration.Res α → Res α
  | .ok a => .ok a
  | .throw e => .throw (.config e)
  | .ub => .ub

def ofTable {α : Type} : Table.Res α → Res α
  | .ok a => .ok a
  | .throw e => .throw (.table e)
  | .ub => .ub

variable {F K V : Type} [Field K] [LinearOrder K]

/-! ## Files -/

/-- What a path leads to. -/
inductive Entry where
  | directory
  | file (content : Bytes)
  deriving DecidableEq

/-- The file system, the conversions of texts to numbers, and `CCfits`: the first extension of a file. -/
structure World (F D : Type) where
  entry : Bytes → Option Entry
  fmt : Fmt F D
  fits : Bytes → Table.Res (Hdu F D)
  throws : Int → Bool

/-- `fs::path::is_relative`. -/
def isRelative (p : Bytes) : Bool := p.head? != some '/'

/-- `operator/` of `fs::path`, as in the versions of Boost where an empty path adds nothing. -/
def join (base p : Bytes) : Bytes :=
  if p = [] then base
  else if base = [] then p
  else if base.getLast? = some '/' then base ++ p
  else base ++ '/' :: p

/-- `getCatalogFileFromOptions` (`CatalogConfig.cpp` 78-90) and `getMappingFileFromOptions` (`PhotometricBandMappingConfig.cpp` 60-72): the path, with the content it has. -/
def fileFromOptions (w : World F (Dbl K)) (base p : Bytes) : Res (Bytes × Bytes) :=
  let path := if isRelative p then join base p else p
  match w.entry path with
  | none => .throw (.config .elements)
  | some .directory => .throw (.config .elements)
  | some (.file c) => .ok (path, c)

/-- `getTableReaderImpl(...)->getInfo()` (`CatalogConfig.cpp` 123-129, 156). -/
def readInfo (w : World F (Dbl K)) (fits : Bool) (content : Bytes) : Res Info :=
  if fits then do
    let h ← ofTable (w.fits content)
    return h.info
  else ofTable (({} : Table.Reader).readColumnInfo content).2

/-- `getTableReaderImpl(...)->read()` (`CatalogConfig.cpp` 123-129, 223; `TableReader.h` 91-93). -/
def readTable (w : World F (Dbl K)) (fits : Bool) (content : Bytes) : Res (TableT F (Dbl K)) :=
  if fits then do
    let h ← ofTable (w.fits content)
    ofTable (({} : Table.FitsReader).read h w.throws (-1)).2
  else ofTable (({} : Table.Reader).read w.fmt content (-1)).2

/-! ## `CatalogConfig` -/

/-- The attributes of a source. -/
inductive Attr (K V : Type) where
  | photometry (p : Photometry K)
  | redshift (z error : Dbl K)
  | pdfs (l : List (Bytes × List V × List (Dbl K)))

/-- An `AttributeFromRow`. -/
abbrev Maker (F K V : Type) := RowT F (Dbl K) → Table.Res (Option (Attr K V))

/-- `CatalogConfig` (`CatalogConfig.h` 246-251) with its state. -/
structure CatCfg (F K V : Type) where
  state : CState := .constructed
  base : Bytes := []
  filename : Bytes := []
  fits : Bool := true
  idColumn : Bytes := []
  handlers : List (Maker F K V) := []
  info : Option Info := none

/-- `getFormatTypeFromOptions` (`CatalogConfig.cpp` 111-121): true is FITS. -/
def formatFromOptions (a : CatalogArgs) (content : Bytes) : Res Bool :=
  match a.format with
  | none => .throw (.config .outOfRange)
  | some f =>
    if f = "AUTO".toList then ofConfig (Configuration.autoDetect content)
    else if f = "FITS".toList then .ok true
    else .ok false

/-- `CatalogConfig::initialize` (`CatalogConfig.cpp` 153-158): the members are assigned one after the other. -/
def initCatalog (w : World F (Dbl K)) (file : Bytes) (a : CatalogArgs) (c : CatCfg F K V) : CatCfg F K V × Res Unit :=
  match fileFromOptions w c.base file with
  | .throw e => (c, .throw e)
  | .ub => (c, .ub)
  | .ok (path, content) =>
    let c1 := { c with filename := path }
    match formatFromOptions a content with
    | .throw e => (c1, .throw e)
    | .ub => (c1, .ub)
    | .ok fits =>
      let c2 := { c1 with fits := fits }
      match readInfo w fits content with
      | .throw e => (c2, .throw e)
      | .ub => (c2, .ub)
      | .ok info =>
        let c3 := { c2 with info := some info }
        match ofConfig (Configuration.idColumn (info.map Table.Desc.name) a) with
        | .throw e => (c3, .throw e)
        | .ub => (c3, .ub)
        | .ok n => ({ c3 with idColumn := n }, .ok ())

/-- `setBaseDir` (`CatalogConfig.cpp` 160-165). -/
def setBaseDir (dir : Bytes) (c : CatCfg F K V) : CatCfg F K V × Res Unit :=
  if c.state.rank ≥ 2 then (c, .throw (.config .elements)) else ({ c with base := dir }, .ok ())

/-- `addAttributeHandler` (`CatalogConfig.cpp` 167-172). -/
def addHandler (h : Maker F K V) (c : CatCfg F K V) : CatCfg F K V × Res Unit :=
  if c.state.rank ≥ 3 then (c, .throw (.config .elements)) else ({ c with handlers := c.handlers ++ [h] }, .ok ())

/-- `getColumnInfo` (`CatalogConfig.cpp` 181-186); a null pointer is `none`. -/
def getColumnInfo (c : CatCfg F K V) : Res (Option Info) :=
  if c.state.rank < 2 then .throw (.config .elements) else .ok c.info

/-- `getIdColumn` (`CatalogConfig.cpp` 188-190). -/
def getIdColumn (c : CatCfg F K V) : Bytes := c.idColumn

/-- `getFilename` (`CatalogConfig.cpp` 235-240). -/
def getFilename (c : CatCfg F K V) : Res Bytes :=
  if c.state.rank < 2 then .throw (.config .elements) else .ok c.filename

/-- `getTableReader` (`CatalogConfig.cpp` 174-179): the format and the content of the file at the time of the call. -/
def getTableReader (w : World F (Dbl K)) (c : CatCfg F K V) : Res (Bool × Bytes) :=
  if c.state.rank < 3 then .throw (.config .elements)
  else match w.entry c.filename with
    | some (.file content) => .ok (c.fits, content)
    | _ => .throw (.table .elements)

/-- `getTableToCatalogConverter` (`CatalogConfig.cpp` 211-216); the constructor of `CatalogFromTable` uses the pointer. -/
def getConverter (c : CatCfg F K V) : Res (FromTable F (Dbl K) (Attr K V)) :=
  if c.state.rank < 3 then .throw (.config .elements)
  else match c.info with
    | none => .ub
    | some info => ofTable (Catalog.mkFromTable info c.idColumn c.handlers)

/-- `readAsTable` (`CatalogConfig.cpp` 218-224). -/
def readAsTable (w : World F (Dbl K)) (c : CatCfg F K V) : Res (TableT F (Dbl K)) :=
  if c.state.rank < 3 then .throw (.config .elements)
  else do
    let r ← getTableReader w c
    readTable w r.1 r.2

/-- `readAsCatalog` (`CatalogConfig.cpp` 226-233). -/
def readAsCatalog (w : World F (Dbl K)) (c : CatCfg F K V) : Res (Cat (Attr K V)) :=
  if c.state.rank < 3 then .throw (.config .elements)
  else do
    let t ← readAsTable w c
    let f ← getConverter c
    ofTable (f.create t)

/-- A call of the program, or of another configuration. -/
inductive Call (F K V : Type) where
  | setBaseDir (dir : Bytes)
  | addHandler (h : Maker F K V)

/-- A call and its answer. -/
def Call.run : Call F K V → CatCfg F K V → CatCfg F K V × Res Unit
  | .setBaseDir d, c => CatConfig.setBaseDir d c
  | .addHandler h, c => CatConfig.addHandler h c

/-- Calls one after the other; a program that catches the exceptions goes on. -/
def calls : List (Call F K V) → CatCfg F K V → CatCfg F K V × List (Res Unit)
  | [], c => (c, [])
  | k :: ks, c =>
    let r := k.run c
    let rs := calls ks r.1
    (rs.1, r.2 :: rs.2)

/-- `ConfigManager` changes the state (`ConfigManager.cpp` 165-193). -/
def CatCfg.at (c : CatCfg F K V) (s : CState) : CatCfg F K V := { c with state := s }

/-- The life of a `CatalogConfig` in a `ConfigManager` (C24, C25): calls before anything, calls when pre-initialised, `initialize`, calls when initialised, calls when final. The object at the end with the
answers, or the exception of `initialize`. -/
def lifetime (w : World F (Dbl K)) (file : Bytes) (a : CatalogArgs) (k0 k1 k2 k3 : List (Call F K V)) : Res (CatCfg F K V × List (Res Unit)) :=
  let r0 := calls k0 ({} : CatCfg F K V)
  let r1 := calls k1 (r0.1.at .preInitialized)
  let i := initCatalog w file a r1.1
  match i.2 with
  | .throw e => .throw e
  | .ub => .ub
  | .ok () =>
    let r2 := calls k2 (i.1.at .initialized)
    let r3 := calls k3 (r2.1.at .final)
    .ok (r3.1, r0.2 ++ r1.2 ++ r2.2 ++ r3.2)

/-! ## The configurations that depend on it -/

/-- The options of `PhotometryCatalogConfig` (`PhotometryCatalogConfig.cpp` 48-59); the default of the last one is the one of line 66. -/
structure PhotArgs (K : Type) where
  missing : Option (Dbl K) := none
  upper : Option Bytes := some "NO".toList
  upperFlag : Option (Dbl K) := none

/-- The settings (`PhotometryCatalogConfig.cpp` 63-78). -/
def settings (a : PhotArgs K) : Settings K :=
  ⟨a.missing.isSome, a.missing.getD (.num (-99)), a.upper == some "YES".toList, a.upperFlag.getD (.num (-99))⟩

/-- The object that makes photometries, as an `AttributeFromRow`. -/
def photMaker (conv : Conv F (Dbl K)) (lib : Lib K) (p : Catalog.FromRow K) : Maker F K V := fun row => do
  let ph ← p.create conv lib row
  return some (.photometry ph)

/-- `PhotometryCatalogConfig::initialize` (`PhotometryCatalogConfig.cpp` 61-91). -/
def initPhotometry (conv : Conv F (Dbl K)) (lib : Lib K) (a : PhotArgs K) (m : Mapping (Dbl K)) (c : CatCfg F K V) : CatCfg F K V × Res Unit :=
  match getColumnInfo c with
  | .throw e => (c, .throw e)
  | .ub => (c, .ub)
  | .ok none => (c, .ub)
  | .ok (some info) =>
    match Catalog.mkFromRow info m.mapping (settings a) m.thresholds m.converts with
    | .throw e => (c, .throw (.table e))
    | .ub => (c, .ub)
    | .ok p => addHandler (photMaker conv lib p) c

/-- The options of `SpecZCatalogConfig` (`SpecZCatalogConfig.cpp` 44-53). -/
structure SpecArgs where
  name : Option Bytes := none
  index : Option Int := none
  ename : Option Bytes := none
  eindex : Option Int := none

/-- The object that makes redshifts, as an `AttributeFromRow`. -/
def specMaker (conv : Conv F (Dbl K)) (p : Catalog.SpecFromRow) : Maker F K V := fun row => do
  let r ← p.create conv row
  return some (.redshift r.1 r.2)

/-- `SpecZCatalogConfig::initialize` (`SpecZCatalogConfig.cpp` 110-125). -/
def initSpecZ (conv : Conv F (Dbl K)) (a : SpecArgs) (c : CatCfg F K V) : CatCfg F K V × Res Unit :=
  match getColumnInfo c with
  | .throw e => (c, .throw e)
  | .ub => (c, .ub)
  | .ok none => (c, .ub)
  | .ok (some info) =>
    match Configuration.specZColumns (info.map Table.Desc.name) a.name a.index a.ename a.eindex with
    | .throw e => (c, .throw (.config e))
    | .ub => (c, .ub)
    | .ok (z, e) =>
      match Catalog.mkSpec info z e with
      | .throw e => (c, .throw (.table e))
      | .ub => (c, .ub)
      | .ok p => addHandler (specMaker conv p) c

/-- `PdfCatalogConfig` (`PdfCatalogConfig.h` 63-64): the two maps. -/
structure PdfCfg (V : Type) where
  state : CState := .constructed
  keys : List (Bytes × List V) := []
  columns : List (Bytes × Bytes) := []

/-- `std::map::emplace`: nothing happens if the key is there. The order of the entries is that of insertion. -/
def emplace {α : Type} (m : List (Bytes × α)) (k : Bytes) (v : α) : List (Bytes × α) := if (m.lookup k).isSome then m else m ++ [(k, v)]

/-- `addPdfColumn` (`PdfCatalogConfig.h` 50-56). -/
def addPdfColumn (name column : Bytes) (keys : List V) (p : PdfCfg V) : PdfCfg V × Res Unit :=
  if p.state.rank ≥ 2 then (p, .throw (.config .elements))
  else ({ p with keys := emplace p.keys name keys, columns := emplace p.columns name column }, .ok ())

/-- The object that makes densities, as an `AttributeFromRow`. -/
def pdfMaker (conv : Conv F (Dbl K)) (p : PdfCfg V) : Maker F K V := fun row => do
  let l ← Catalog.pdfLoop conv p.columns row p.keys
  return some (.pdfs l)

/-- `PdfCatalogConfig::initialize` (`PdfCatalogConfig.h` 58-60). -/
def initPdf (conv : Conv F (Dbl K)) (p : PdfCfg V) (c : CatCfg F K V) : CatCfg F K V × Res Unit := addHandler (pdfMaker conv p) c

/-! ## A program -/

/-- A configuration that depends on `CatalogConfig`, with its options. -/
inductive Dependent (K V : Type) where
  | photometry (a : PhotArgs K)
  | redshift (a : SpecArgs)
  | pdfs (p : PdfCfg V)

/-- `preInitialize` of the dependent configuration. -/
def Dependent.pre : Dependent K V → Res Unit
  | .redshift a => ofConfig (Configuration.preInitSpecZ a.name a.index a.ename a.eindex)
  | _ => .ok ()

/-- `initialize` of the dependent configuration. -/
def Dependent.init (conv : Conv F (Dbl K)) (lib : Lib K) (m : Mapping (Dbl K)) : Dependent K V → CatCfg F K V → CatCfg F K V × Res Unit
  | .photometry a, c => initPhotometry conv lib a m c
  | .redshift a, c => initSpecZ conv a c
  | .pdfs p, c => initPdf conv p c

/-- The dependent configurations are initialised in some order (C24). -/
def initDependents (conv : Conv F (Dbl K)) (lib : Lib K) (m : Mapping (Dbl K)) : List (Dependent K V) → CatCfg F K V → CatCfg F K V × Res Unit
  | [], c => (c, .ok ())
  | d :: ds, c =>
    match d.init conv lib m c with
    | (c, .ok ()) => initDependents conv lib m ds c
    | (c, .throw e) => (c, .throw e)
    | (c, .ub) => (c, .ub)

/-- The options of the program, and what it takes from libraries. -/
structure Options (K V : Type) where
  base : Bytes := []
  catalogFile : Bytes
  catalog : CatalogArgs := {}
  mappingFile : Bytes := "filter_mapping.txt".toList
  exclude : List Bytes := []
  dependents : List (Dependent K V)

/-- `preInitialize` of all. -/
def preAll : List (Dependent K V) → Res Unit
  | [] => .ok ()
  | d :: ds => do
    let _ ← d.pre
    preAll ds

/-- A program that uses these configurations: all are pre-initialised, then initialised with the dependencies first, and then finalised (C24); `readAsCatalog` is called afterwards. The base
directory is set for `CatalogConfig` and for the mapping. -/
def run (conv : Conv F (Dbl K)) (lib : Lib K) (three : Dbl K) (stof : Bytes → Option (Dbl K)) (stoi : Bytes → Option Bool) (w : World F (Dbl K)) (o : Options K V) : Res (Cat (Attr K V)) := do
  let c : CatCfg F K V := (setBaseDir o.base {}).1
  let _ ← ofConfig (Configuration.preInitCatalog o.catalog)
  let _ ← preAll o.dependents
  let f ← fileFromOptions w o.base o.mappingFile
  let bands ← ofConfig (Configuration.parseLines three stof stoi (Configuration.getLines f.2))
  let m := Configuration.initMapping bands o.exclude {}
  let _ ← ofConfig m.2
  let i := initCatalog w o.catalogFile o.catalog { c with state := .preInitialized }
  let _ ← i.2
  let d := initDependents conv lib m.1 o.dependents { i.1 with state := .initialized }
  let _ ← d.2
  readAsCatalog w { d.1 with state := .final }

end Alexandria.CatConfig
