import Verif.Configuration.Model

/-!
# Model of the collection of the program options (`ConfigManager.cpp` 118-136)

An option description is a value of any type `O`; what the model needs of it is at most its name.
-/

namespace Alexandria.Configuration

open Str

/-- `all_options`: the groups of options, a `std::map`, hence in the order of the names. -/
abbrev Groups (O : Type) := List (String × List O)

/-- The body of the inner loop (`ConfigManager.cpp` 121-127): the options are added at the end of the group of that name, which is
created if there is none. -/
def addGroup {O : Type} (name : String) (opts : List O) : Groups O → Groups O
  | [] => [(name, opts)]
  | (n, l) :: r =>
    if name < n then (name, opts) :: (n, l) :: r
    else if name = n then (n, l ++ opts) :: r
    else (n, l) :: addGroup name opts r

/-- The loop over the groups of a configuration (`ConfigManager.cpp` 120-128). -/
def addConfig {O : Type} (all : Groups O) (g : Groups O) : Groups O := g.foldl (fun a p => addGroup p.1 p.2 a) all

/-- The loop over the configurations (`ConfigManager.cpp` 118-129); `opts i` is the result of `getProgramOptions` of `i`. -/
def collect {O : Type} (opts : Id → Groups O) (dict : List Id) : Groups O := dict.foldl (fun a i => addConfig a (opts i)) []

/-- The descriptions `result` holds (`ConfigManager.cpp` 131-134): `options_description::add` of a group adds its options one after
the other. -/
def flat {O : Type} (g : Groups O) : List O := g.flatMap (·.2)

/-- `closeRegistration` (`ConfigManager.cpp` 93-137) with its result. -/
def closeOptions {O : Type} (p : Program) (opts : Id → Groups O) (fuel : Nat) (m : Manager) : Option (Manager × Res (Groups O)) :=
  match close p fuel m with
  | some (m', .ok _) => some (m', .ok (collect opts m.dict))
  | some (m', .throw e) => some (m', .throw e)
  | some (m', .ub) => some (m', .ub)
  | none => none

/-- The type of the value of an option and its default. -/
inductive Semantic where
  | string (dflt : Option String) (required : Bool) | int | double (dflt : Option Int) | strings (dflt : List String)
  deriving DecidableEq, Repr

/-- `boost::program_options::option_description` without the help text. -/
structure Opt where
  name : String
  sem : Semantic
  deriving DecidableEq, Repr

/-- The configurations of the library. -/
inductive Known where
  | catalog | bandMapping | photometry | specZ
  deriving DecidableEq, Repr

/-- `getProgramOptions` of the configurations of the library (`CatalogConfig.cpp` 41-55, `PhotometricBandMappingConfig.cpp` 47-59,
`PhotometryCatalogConfig.cpp` 39-59, `SpecZCatalogConfig.cpp` 35-53). -/
def Known.options : Known → Groups Opt
  | catalog => [("Input catalog options", [⟨"input-catalog-file", .string none true⟩, ⟨"input-catalog-format", .string (some "AUTO") false⟩,
      ⟨"source-id-column-name", .string none false⟩, ⟨"source-id-column-index", .int⟩])]
  | bandMapping => [("Input catalog options", [⟨"filter-mapping-file", .string (some "filter_mapping.txt") false⟩,
      ⟨"exclude-filter", .strings []⟩])]
  | photometry => [("Input catalog options", [⟨"missing-photometry-flag", .double none⟩, ⟨"enable-upper-limit", .string (some "NO") false⟩,
      ⟨"upper-limit-use-threshod-flag", .double (some (-99))⟩])]
  | specZ => [("Input catalog options", [⟨"spec-z-column-name", .string none false⟩, ⟨"spec-z-column-index", .int⟩,
      ⟨"spec-z-err-column-name", .string none false⟩, ⟨"spec-z-err-column-index", .int⟩])]

end Alexandria.Configuration
