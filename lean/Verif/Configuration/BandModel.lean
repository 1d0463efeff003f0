import Verif.Configuration.CatalogModel

/-!
# Model of the objects `PhotometricBandMappingConfig` and `PhotometryCatalogConfig`

`Configuration/src/lib/PhotometricBandMappingConfig.cpp` and `PhotometryCatalogConfig.cpp` with the members that stay in the object from one call to the next, and what
`ConfigManager.cpp` does with an object.
-/

namespace Alexandria.BandConfig

open Alexandria.Str
open Alexandria.Catalog (Dbl)
open Alexandria.Configuration (CState Mapping Band)
open Alexandria.CatConfig (World Res PhotArgs fileFromOptions ofConfig)

variable {F K : Type} [Field K] [LinearOrder K]

/-! ## The mapping -/

/-- The members of `PhotometricBandMappingConfig` (`PhotometricBandMappingConfig.h` 144-147) and its state. -/
structure BandCfg (K : Type) where
  state : CState := .constructed
  base : Bytes := []
  maps : Mapping (Dbl K) := {}

/-- The library functions used for the numbers of a file, and the threshold 3. -/
structure Numbers (K : Type) where
  three : Dbl K
  stof : Bytes → Option (Dbl K)
  stoi : Bytes → Option Bool

/-- `PhotometricBandMappingConfig::setBaseDir` (`PhotometricBandMappingConfig.cpp` 158-163). -/
def setBaseDir (dir : Bytes) (c : BandCfg K) : BandCfg K × Res Unit :=
  if c.state.rank ≥ 2 then (c, .throw (.config .elements)) else ({ c with base := dir }, .ok ())

/-- `getPhotometricBandMapping` (`PhotometricBandMappingConfig.cpp` 165-171). -/
def getMapping (c : BandCfg K) : Res (List (Bytes × Bytes × Bytes)) :=
  if c.state.rank < 2 then .throw (.config .elements) else .ok c.maps.mapping

/-- `getUpperLimitThresholdMapping` (`PhotometricBandMappingConfig.cpp` 173-179). -/
def getThresholds (c : BandCfg K) : Res (List (Bytes × Dbl K)) :=
  if c.state.rank < 2 then .throw (.config .elements) else .ok c.maps.thresholds

/-- `getConvertFromMagMapping` (`PhotometricBandMappingConfig.cpp` 181-187). -/
def getConverts (c : BandCfg K) : Res (List (Bytes × Bool)) :=
  if c.state.rank < 2 then .throw (.config .elements) else .ok c.maps.converts

/-- `PhotometricBandMappingConfig::initialize` (`PhotometricBandMappingConfig.cpp` 114-156). -/
def initBands (n : Numbers K) (w : World F (Dbl K)) (file : Bytes) (exclude : List Bytes) (c : BandCfg K) : BandCfg K × Res Unit :=
  match fileFromOptions w c.base file with
  | .throw e => (c, .throw e)
  | .ub => (c, .ub)
  | .ok f => match ofConfig (Configuration.parseLines n.three n.stof n.stoi (Configuration.getLines f.2)) with
    | .throw e => (c, .throw e)
    | .ub => (c, .ub)
    | .ok bands =>
      let r := Configuration.initMapping bands exclude c.maps
      ({ c with maps := r.1 }, ofConfig r.2)

/-- What is done with the object: by the program, or by `ConfigManager::initialize` (`ConfigManager.cpp` 139-170). The hooks `preInitialize` and `postInitialize` of this class are empty
(`Configuration.cpp` 33-37); the files may be different at each call. -/
inductive Act (F K : Type) where
  | setBaseDir (dir : Bytes)
  | pre
  | init (w : World F (Dbl K)) (file : Bytes) (exclude : List Bytes)
  | post

/-- One of them: an object that is initialised already is not initialised again (`ConfigManager.cpp` 142-144), and the state is set only if nothing is thrown (151). -/
def Act.run (n : Numbers K) : Act F K → BandCfg K → BandCfg K × Res Unit
  | .setBaseDir d, c => BandConfig.setBaseDir d c
  | .pre, c => ({ c with state := .preInitialized }, .ok ())
  | .init w file exclude, c =>
    if c.state.rank ≥ 2 then (c, .ok ())
    else
      let r := initBands n w file exclude c
      match r.2 with
      | .ok () => ({ r.1 with state := .initialized }, .ok ())
      | e => (r.1, e)
  | .post, c => ({ c with state := .final }, .ok ())

/-- The object after them; a program that catches the exceptions goes on. -/
def after (n : Numbers K) (l : List (Act F K)) : BandCfg K := l.foldl (fun c a => (a.run n c).1) {}

/-! ## The flags -/

/-- The members of `PhotometryCatalogConfig` (`PhotometryCatalogConfig.h` 91-92) and its state. -/
structure PhotCfg where
  state : CState := .constructed
  missing : Bool := false
  upper : Bool := false

/-- `PhotometryCatalogConfig::initialize` (`PhotometryCatalogConfig.cpp` 61-91): the members, before anything is asked from the dependencies; whether the rest throws is given. -/
def initFlags (a : PhotArgs K) (c : PhotCfg) : PhotCfg :=
  { c with upper := a.upper == some "YES".toList, missing := if a.missing.isSome then true else c.missing }

/-- `isMissingPhotometryEnabled` (`PhotometryCatalogConfig.cpp` 93-100). -/
def isMissingEnabled (c : PhotCfg) : Res Bool :=
  if c.state.rank < 2 then .throw (.config .elements) else .ok c.missing

/-- `isUpperLimitEnabled` (`PhotometryCatalogConfig.cpp` 102-109). -/
def isUpperEnabled (c : PhotCfg) : Res Bool :=
  if c.state.rank < 2 then .throw (.config .elements) else .ok c.upper

/-- What `ConfigManager::initialize` does with the object (`ConfigManager.cpp` 139-170); `ok` says whether `initialize` returns. -/
inductive PhotAct (K : Type) where
  | pre
  | init (a : PhotArgs K) (ok : Bool)
  | post

def PhotAct.run : PhotAct K → PhotCfg → PhotCfg
  | .pre, c => { c with state := .preInitialized }
  | .init a ok, c =>
    if c.state.rank ≥ 2 then c
    else if ok then { initFlags a c with state := .initialized } else initFlags a c
  | .post, c => { c with state := .final }

/-- The object after them. -/
def photAfter (l : List (PhotAct K)) : PhotCfg := l.foldl (fun c a => a.run c) {}

end Alexandria.BandConfig
