import Verif.Common.Outcome
import Verif.Common.Split
import Mathlib.Data.List.Dedup

/-!
# Model of `Configuration/src/lib/*.cpp`

Configuration types (`std::type_index`) are natural numbers; their order stands for the unspecified order of `std::type_index`, and
since any types may have any numbers it covers all of them.  Recursive functions of the code that need not terminate take `fuel`;
`none` means that the recursion is deeper than that.
-/

namespace Alexandria.Configuration

open Str

abbrev Id := Nat

inductive Err where
  | elements | outOfRange | invalidArgument | user
  deriving DecidableEq, Repr

abbrev Res (α : Type) := Outcome Err α

/-- `insert` of `std::set`, and the keys of `operator[]` of `std::map`. -/
def setInsert (x : Nat) : List Nat → List Nat
  | [] => [x]
  | y :: l => if x < y then x :: y :: l else if x = y then y :: l else y :: setInsert x l

/-- `ConfigManager::State` (`ConfigManager.h` 189). -/
inductive MState where
  | registration | waiting | initialized
  deriving DecidableEq, Repr

/-- `Configuration::State` (`Configuration.h` 49-58). -/
inductive CState where
  | constructed | preInitialized | initialized | final
  deriving DecidableEq, Repr

/-- The numeric value, for `>=`. -/
def CState.rank : CState → Nat
  | constructed => 0 | preInitialized => 1 | initialized => 2 | final => 3

/-- The calls made to the configurations. -/
inductive Event where
  | pre (i : Id) | init (i : Id) | post (i : Id)
  deriving DecidableEq, Repr

/-- `ConfigManager` (`ConfigManager.h` 191-195) and the configurations it holds: `dict` are the keys of the dictionary, `built` those
with an object (the latest first), `dep` the dependency map, `states` the states of the objects, `trace` the calls made so far. -/
structure Manager where
  state : MState := .registration
  dict : List Id := []
  built : List Id := []
  dep : Id → Option (List Id) := fun _ => none
  states : Id → CState := fun _ => .constructed
  trace : List Event := []

/-- What the program consists of: the dependencies that the constructor of a type declares, and whether constructors and hooks return
normally. -/
structure Program where
  decl : Id → List Id
  ctorOk : Id → Bool := fun _ => true
  hookOk : Event → Bool := fun _ => true

/-! ## Registration -/

/-- The declarations of a constructor one after the other (`PhotometryCatalogConfig.cpp` 43-46 for instance); `reg` is
`registerConfiguration`. The result tells whether the calls returned normally. -/
def declareAll (reg : Id → Manager → Option (Manager × Bool)) : List Id → Manager → Option (Manager × Bool)
  | [], m => some (m, true)
  | d :: ds, m => match reg d m with
    | some (m1, true) => declareAll reg ds m1
    | r => r

/-- `registerConfiguration` (`ConfigManager.icpp` 28-39) with the constructor and its `declareDependency` calls
(`Configuration.icpp` 27-32). -/
def register (p : Program) : Nat → Id → Manager → Option (Manager × Bool)
  | 0, _, _ => none
  | fuel + 1, t, m =>
    if m.state ≠ .registration then some (m, false)
    else if t ∈ m.built then some (m, true)
    else match declareAll (register p fuel) (p.decl t) { m with dict := setInsert t m.dict } with
      | some (m1, true) =>
        if p.ctorOk t then some ({ m1 with built := t :: m1.built, states := fun j => if j = t then .constructed else m1.states j }, true)
        else some (m1, false)
      | r => r

/-- `registerDependency` (`ConfigManager.icpp` 41-50). -/
def registerDep (m : Manager) (a b : Id) : Manager × Bool :=
  if m.state ≠ .registration then (m, false)
  else ({ m with dep := fun j => if j = a then some (setInsert b ((m.dep a).getD [])) else m.dep j }, true)

/-! ## Closing the registration -/

/-- The loop over the dependencies of a configuration in `hasCircularDependencies` (`ConfigManager.cpp` 52-61). -/
def circAll (below : Id → Option (Res (List Id))) : List Id → Option (Res (List Id))
  | [] => some (.ok [])
  | c :: cs => match below c with
    | some (.ok []) => circAll below cs
    | some (.ok p) => some (.ok (c :: p))
    | r => r

/-- `hasCircularDependencies` (`ConfigManager.cpp` 45-63) for the entry of `n`; an entry that is missing is dereferenced. -/
def hasCirc (dep : Id → Option (List Id)) (root : Id) : Nat → Id → Option (Res (List Id))
  | 0, _ => none
  | fuel + 1, n => match dep n with
    | none => some .ub
    | some ds => if root ∈ ds then some (.ok [root]) else circAll (hasCirc dep root fuel) ds

/-- The loop over all configurations (`ConfigManager.cpp` 105-116). -/
def checkAll (dep : Id → Option (List Id)) (fuel : Nat) : List Id → Option (Res Unit)
  | [] => some (.ok ())
  | r :: rs => match hasCirc dep r fuel r with
    | some (.ok []) => checkAll dep fuel rs
    | some (.ok _) => some (.throw .elements)
    | some (.throw e) => some (.throw e)
    | some .ub => some .ub
    | none => none

/-- Several insertions into a set. -/
def setInsertAll (s : List Id) (xs : List Id) : List Id := xs.foldl (fun s x => setInsert x s) s

/-- The dependencies of a configuration after the declared ones are added (`ConfigManager.cpp` 97-99). -/
def withDeclared (p : Program) (m : Manager) : Id → Option (List Id) := fun i =>
  if i ∈ m.dict then some (setInsertAll ((m.dep i).getD []) (p.decl i)) else m.dep i

/-- `cleanupNonRegisteredDependencies` (`ConfigManager.cpp` 65-91). -/
def cleanup (dict : List Id) (dep : Id → Option (List Id)) : Id → Option (List Id) := fun i =>
  if i ∈ dict then (dep i).map fun ds => ds.filter (· ∈ dict) else none

/-- `closeRegistration` (`ConfigManager.cpp` 93-137) without the collection of the option descriptions. A key without object (whose
constructor threw) is dereferenced. -/
def close (p : Program) (fuel : Nat) (m : Manager) : Option (Manager × Res Unit) :=
  let m1 := { m with state := .waiting }
  if m.dict.all (· ∈ m.built) then
    let m2 := { m1 with dep := cleanup m.dict (withDeclared p m) }
    match checkAll m2.dep fuel m.dict with
    | some r => some (m2, r)
    | none => none
  else some (m1, .ub)

/-! ## Initialisation -/

/-- A call of a hook: when it returns the state is set (`ConfigManager.cpp` 150-151, 158-159, 167-168). -/
def callHook (p : Program) (e : Event) (i : Id) (s : CState) (m : Manager) : Manager × Bool :=
  let m := { m with trace := m.trace ++ [e] }
  if p.hookOk e then ({ m with states := fun j => if j = i then s else m.states j }, true) else (m, false)

/-- A loop that stops at the first call that throws. -/
def forAll (f : Id → Manager → Option (Manager × Bool)) : List Id → Manager → Option (Manager × Bool)
  | [], m => some (m, true)
  | d :: ds, m => match f d m with
    | some (m1, true) => forAll f ds m1
    | r => r

/-- `recursiveInitialization` (`ConfigManager.cpp` 139-152); `at` throws for keys that are missing. -/
def recInit (p : Program) : Nat → Id → Manager → Option (Manager × Bool)
  | 0, _, _ => none
  | fuel + 1, i, m =>
    if i ∉ m.dict then some (m, false)
    else if (m.states i).rank ≥ 2 then some (m, true)
    else match m.dep i with
      | none => some (m, false)
      | some ds => match forAll (recInit p fuel) ds m with
        | some (m1, true) => some (callHook p (.init i) i .initialized m1)
        | r => r

/-- `initialize` (`ConfigManager.cpp` 154-170) for a manager whose keys all have objects. -/
def initAll (p : Program) (fuel : Nat) (m : Manager) : Option (Manager × Bool) :=
  match forAll (fun i m => some (callHook p (.pre i) i .preInitialized m)) m.dict { m with state := .initialized } with
  | some (m1, true) => match forAll (recInit p fuel) m.dict m1 with
    | some (m2, true) => forAll (fun i m => some (callHook p (.post i) i .final m)) m.dict m2
    | r => r
  | r => r

/-- `getConfiguration` (`ConfigManager.icpp` 52-64): the state of the object that is returned. -/
def get (m : Manager) (t : Id) : Res CState :=
  if m.state ≠ .initialized then .throw .elements
  else if t ∉ m.dict then .throw .elements
  else if t ∉ m.built then .ub
  else .ok (m.states t)

/-! ## Photometric band mapping -/

/-- A line of the mapping file after parsing. -/
structure Band (F : Type) where
  filter : Bytes
  flux : Bytes
  error : Bytes
  threshold : F
  convert : Bool
  deriving DecidableEq, Repr

/-- The words of a line. -/
def words (line : Bytes) : List Bytes := (splitCompress isSpace line).filter (· ≠ [])

/-- The regular expression of `parseFile` (`PhotometricBandMappingConfig.cpp` 81) on a trimmed line: three to five words without `#`. -/
def matchLine (line : Bytes) : Option (Bytes × Bytes × Bytes × Option Bytes × Option Bytes) :=
  if '#' ∈ line then none
  else match words line with
    | [a, b, c] => some (a, b, c, none, none)
    | [a, b, c, d] => some (a, b, c, some d, none)
    | [a, b, c, d, e] => some (a, b, c, some d, some e)
    | _ => none

/-- The optional value, or the default (`PhotometricBandMappingConfig.cpp` 95-108): `conv` is `std::stof` or `std::stoi`. -/
def optional {F : Type} (conv : Bytes → Option F) (dflt : F) : Option Bytes → Res F
  | none => .ok dflt
  | some w => match conv w with
    | some v => .ok v
    | none => .throw .invalidArgument

/-- The loop of `parseFile` (`PhotometricBandMappingConfig.cpp` 82-110). The three lists of the code get one entry each per line. -/
def parseLines {F : Type} (three : F) (stof : Bytes → Option F) (stoi : Bytes → Option Bool) : List Bytes → Res (List (Band F))
  | [] => .ok []
  | l :: ls =>
    if (trim l).head? = some '#' then parseLines three stof stoi ls
    else match matchLine (trim l) with
      | none => .throw .elements
      | some (a, b, c, t, k) => do
        let t ← optional stof three t
        let k ← optional stoi false k
        let rest ← parseLines three stof stoi ls
        return ⟨a, b, c, t, k⟩ :: rest

/-- The lines that `while (std::getline(in, line))` delivers. -/
def getLines (text : Bytes) : List Bytes :=
  let ls := splitChar '\n' text
  if ls.getLast? = some [] then ls.dropLast else ls

/-- The members of `PhotometricBandMappingConfig` (`PhotometricBandMappingConfig.h` 144-147). -/
structure Mapping (F : Type) where
  mapping : List (Bytes × Bytes × Bytes) := []
  thresholds : List (Bytes × F) := []
  converts : List (Bytes × Bool) := []
  deriving DecidableEq, Repr

/-- The third loop of `initialize` (`PhotometricBandMappingConfig.cpp` 139-145): names are erased from the set when met. -/
def mappingLoop {F : Type} : List (Band F) → List Bytes → List (Bytes × Bytes × Bytes) × List Bytes
  | [], ex => ([], ex)
  | b :: bs, ex =>
    if b.filter ∈ ex then mappingLoop bs (ex.filter (· ≠ b.filter))
    else
      let r := mappingLoop bs ex
      ((b.filter, b.flux, b.error) :: r.1, r.2)

/-- `initialize` (`PhotometricBandMappingConfig.cpp` 114-156) after the file has been read; the object before and after. -/
def initMapping {F : Type} (bands : List (Band F)) (exclude : List Bytes) (m : Mapping F) : Mapping F × Res Unit :=
  let r := mappingLoop bands exclude
  ({ thresholds := m.thresholds ++ (bands.filter fun b => b.filter ∉ exclude).map fun b => (b.filter, b.threshold),
     converts := m.converts ++ (bands.filter fun b => b.filter ∉ exclude).map fun b => (b.filter, b.convert),
     mapping := m.mapping ++ r.1 },
   if r.2 = [] then .ok () else .throw .elements)

/-! ## Wildcard options -/

/-- `wildcard` (`ProgramOptionsHelper.cpp` 31-33). -/
def wildcard (name inst : Bytes) : Bytes := name ++ '-' :: inst

/-- `findWildcardNames` (`ProgramOptionsHelper.cpp` 35-51), the elements of the set in the order of insertion. -/
def findWildcardNames (prefixes options : List Bytes) : List Bytes :=
  (prefixes.flatMap fun p => (options.filter fun o => p.isPrefixOf o).map fun o => (o.drop p.length).drop 1).dedup

/-! ## Catalogue options -/

/-- The options of `CatalogConfig` that matter here: name and index of the ID column, and the format. -/
structure CatalogArgs where
  idName : Option Bytes := none
  idIndex : Option Int := none
  format : Option Bytes := some "AUTO".toList

/-- `CatalogConfig::preInitialize` (`CatalogConfig.cpp` 57-74). -/
def preInitCatalog (a : CatalogArgs) : Res Unit :=
  if a.idName.isSome ∧ a.idIndex.isSome then .throw .elements
  else if (a.idIndex.any fun i => i < 1) then .throw .elements
  else if (a.format.any fun f => f ≠ "AUTO".toList ∧ f ≠ "FITS".toList ∧ f ≠ "ASCII".toList) then .throw .elements
  else .ok ()

/-- A column by its one-based index (`CatalogConfig.cpp` 141-145, `SpecZCatalogConfig.cpp` 85-89): the `int` becomes a `size_t`, and
`getDescription` throws when out of range. -/
def columnByIndex (columns : List Bytes) (i : Int) : Res Bytes :=
  let index := (i % 2 ^ 64).toNat
  if index > columns.length then .throw .elements
  else match columns[(index + 2 ^ 64 - 1) % 2 ^ 64]? with
    | some n => .ok n
    | none => .throw .elements

/-- `getIdColumnFromOptions` (`CatalogConfig.cpp` 131-149). -/
def idColumn (columns : List Bytes) (a : CatalogArgs) : Res Bytes := do
  let n ← match a.idName with
    | some n => if n ∈ columns then .ok n else .throw .elements
    | none => .ok "ID".toList
  match a.idIndex with
  | some i => columnByIndex columns i
  | none => .ok n

/-- `SpecZCatalogConfig::preInitialize` (`SpecZCatalogConfig.cpp` 55-74): name and index of the redshift column, and of its error. -/
def preInitSpecZ (name : Option Bytes) (index : Option Int) (ename : Option Bytes) (eindex : Option Int) : Res Unit :=
  if name.isSome ∧ index.isSome then .throw .elements
  else if name.isNone ∧ index.isNone then .throw .elements
  else if (index.any fun i => i < 1) then .throw .elements
  else if ename.isSome ∧ eindex.isSome then .throw .elements
  else if (eindex.any fun i => i < 1) then .throw .elements
  else .ok ()

/-- `getFluxColumnFromOptions` and `getErrColumnFromOptions` (`SpecZCatalogConfig.cpp` 76-108): `args.at` throws when neither is given. -/
def specZColumn (columns : List Bytes) (name : Option Bytes) (index : Option Int) : Res Bytes :=
  match name with
  | some n => if n ∈ columns then .ok n else .throw .elements
  | none => match index with
    | some i => columnByIndex columns i
    | none => .throw .outOfRange

/-- The columns that `SpecZCatalogConfig::initialize` uses (`SpecZCatalogConfig.cpp` 110-125). -/
def specZColumns (columns : List Bytes) (name : Option Bytes) (index : Option Int) (ename : Option Bytes) (eindex : Option Int) :
    Res (Bytes × Option Bytes) := do
  let z ← specZColumn columns name index
  if ename.isNone ∧ eindex.isNone then return (z, none)
  else do
    let e ← specZColumn columns ename eindex
    return (z, some e)

/-- What a FITS file begins with. -/
def simpleCard : Bytes := "SIMPLE  =".toList

/-- `autoDetectFormatType` (`CatalogConfig.cpp` 94-109): true is FITS. The string is built from the array up to its first null byte, which
has to be among the bytes read from the file. -/
def autoDetect (content : Bytes) : Res Bool :=
  let first := content.take 80
  if Char.ofNat 0 ∈ first then .ok (decide ((first.takeWhile (· ≠ Char.ofNat 0)).take 9 = simpleCard))
  else .ub

end Alexandria.Configuration
