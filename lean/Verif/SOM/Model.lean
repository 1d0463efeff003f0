import Verif.Common.Outcome
import Mathlib.Algebra.Order.Field.Basic
import Mathlib.Algebra.BigOperators.Fin
import Mathlib.Analysis.SpecialFunctions.Log.Basic

/-!
# Model of `SOM/SOM/_impl/{SOM,SOMProjector,UMatrix}.icpp`, `SOM/SOM/{SOMTrainer,SamplingPolicy,Distance,serialize}.h`,
`SOM/SOM/serialization/SOM.h`, `SOM/src/lib/{LearningRestraintFunc,NeihbourhoodFunc}.cpp`

`double` is an ordered field `K` (the reals where square roots, exponentials or logarithms occur): no rounding, no infinities.
`std::array<double, ND>` is `Fin nd → K`.  The cells of the map (a `GridContainer` over a vector) are a list in iteration
order; the position in the list gives the coordinates as in `GridIndexHelper` (see `Verif.Grid`).
-/

namespace Alexandria.SOM

open scoped BigOperators

inductive Err where
  | elements
  deriving DecidableEq, Repr

abbrev Res (α : Type) := Outcome Err α

/-- A map (`SOM.h` 96-98): sizes and cells in iteration order. -/
structure Map (nd : Nat) (K : Type) where
  sx : Nat
  sy : Nat
  cells : List (Fin nd → K)
  deriving DecidableEq

/-- The constructor (`SOM.icpp` 30-40): `init n` is the `n`-th value returned by the initialisation function. -/
def mkMap {K : Type} (nd sx sy : Nat) (init : Nat → K) : Map nd K :=
  ⟨sx, sy, (List.range (sx * sy)).map fun c => fun i => init (c * nd + i.val)⟩

/-- `axisValue<0>()` and `axisValue<1>()` of an iterator: the axes are `indexAxis` (`ImplTools.cpp` 31-37), so that the value is
the index computed by `GridIndexHelper::axisIndex` (`GridIndexHelper.icpp` 39-44) with the factors `1, sx, sx * sy`. -/
def coords (sx sy i : Nat) : Nat × Nat := (i % sx / 1, i % (sx * sy) / sx)

/-- `operator()(x, y)` (`SOM.icpp` 47-55): `GridContainer::operator()` does not check bounds. -/
def Map.at {nd : Nat} {K : Type} (m : Map nd K) (x y : Nat) : Res (Fin nd → K) :=
  match m.cells[x + y * m.sx]? with
  | some w => .ok w
  | none => .ub

/-- The loop of `findBMU_impl` (`SOM.icpp` 94-100) from position `i` on. -/
def bmuLoop {W K : Type} [LT K] [DecidableLT K] (dist : W → K) : List W → Nat → Nat → K → Nat × K
  | [], _, best, closest => (best, closest)
  | w :: ws, i, best, closest =>
    if dist w < closest then bmuLoop dist ws (i + 1) i (dist w) else bmuLoop dist ws (i + 1) best closest

/-- `findBMU_impl` (`SOM.icpp` 89-102); `big` is `std::numeric_limits<double>::max()`.  For a map without cells the coordinates of
the iterator are computed modulo zero. -/
def findBMU {nd : Nat} {K : Type} [LT K] [DecidableLT K] (m : Map nd K) (dist : (Fin nd → K) → K) (big : K) : Res (Nat × Nat × K) :=
  if m.sx = 0 ∨ m.sx * m.sy = 0 then .ub
  else
    let (best, closest) := bmuLoop dist m.cells 0 0 big
    .ok ((coords m.sx m.sy best).1, (coords m.sx m.sy best).2, closest)

/-- `L2::distance` without uncertainties (`Distance.h` 56-62). -/
noncomputable def l2 {nd : Nat} (left right : Fin nd → ℝ) : ℝ :=
  Real.sqrt (∑ i, (left i - right i) * (left i - right i))

/-- `L2::distance` with uncertainties (`Distance.h` 64-73). -/
noncomputable def l2u {nd : Nat} (left right unc : Fin nd → ℝ) : ℝ :=
  Real.sqrt (∑ i, (left i - right i) * (left i - right i) / (unc i * unc i))

section Train

variable {nd : Nat} {K : Type} [Field K] [LinearOrder K]

/-- The update of one cell (`SOMTrainer.h` 75-80). -/
def updateCell (nf lf : K) (s w : Fin nd → K) : Fin nd → K :=
  if nf ≠ 0 then fun j => w j + nf * lf * (s j - w j) else w

/-- Type of a neighbourhood function (`NeighborhoodFunc.h` 34-35). -/
abbrev Neigh (K : Type) := Nat × Nat → Nat × Nat → Nat → Nat → K

/-- The processing of one training object (`SOMTrainer.h` 57-81). `dist w s` is the distance between cell and input weights. -/
def trainSample (dist : (Fin nd → K) → (Fin nd → K) → K) (big : K) (neigh : Neigh K) (i n : Nat) (lf : K) (m : Map nd K)
    (s : Fin nd → K) : Res (Map nd K) := do
  let (bx, by', _) ← findBMU m (fun w => dist w s) big
  return { m with cells := m.cells.mapIdx fun k w => updateCell (neigh (bx, by') (coords m.sx m.sy k) i n) lf s w }

/-- A list of objects. -/
def trainList (dist : (Fin nd → K) → (Fin nd → K) → K) (big : K) (neigh : Neigh K) (i n : Nat) (lf : K) :
    Map nd K → List (Fin nd → K) → Res (Map nd K)
  | m, [] => .ok m
  | m, s :: ss => do
    let m ← trainSample dist big neigh i n lf m s
    trainList dist big neigh i n lf m ss

/-- `train` (`SOMTrainer.h` 41-84) from iteration `i` on, with `left` iterations to go: `samples i` are the weights of the objects
that the sampling policy yields in iteration `i`. -/
def trainFrom (dist : (Fin nd → K) → (Fin nd → K) → K) (big : K) (neigh : Neigh K) (learn : Nat → Nat → K) (n : Nat)
    (samples : Nat → List (Fin nd → K)) : Nat → Nat → Map nd K → Res (Map nd K)
  | _, 0, m => .ok m
  | i, left + 1, m =>
    let lf := learn i n
    if lf = 0 then trainFrom dist big neigh learn n samples (i + 1) left m
    else do
      let m ← trainList dist big neigh i n lf m (samples i)
      trainFrom dist big neigh learn n samples (i + 1) left m

/-- `train` (`SOMTrainer.h` 41-84). -/
def train (dist : (Fin nd → K) → (Fin nd → K) → K) (big : K) (neigh : Neigh K) (learn : Nat → Nat → K) (n : Nat)
    (samples : Nat → List (Fin nd → K)) (m : Map nd K) : Res (Map nd K) := trainFrom dist big neigh learn n samples 0 n m

/-- `LearningRestraintFunc::linear` (`LearningRestraintFunc.cpp` 26-30); the subtraction is in `size_t`. -/
def linear (i n : Nat) : K := 1 * (((n + 2 ^ 64 - i) % 2 ^ 64 : Nat) : K) / (n : K)

/-- `NeighborhoodFunc::linearUnitDisk` (`NeihbourhoodFunc.cpp` 26-41): the differences of coordinates are computed in `size_t`, that
is modulo `2^64`, and then converted. -/
def linearUnitDisk (radius : K) : Neigh K := fun bmu cell i n =>
  let f : K := 1 * (((n + 2 ^ 64 - i) % 2 ^ 64 : Nat) : K) / (n : K)
  let f := f * f
  let x : K := ((bmu.1 + 2 ^ 64 - cell.1) % 2 ^ 64 : Nat)
  let y : K := ((bmu.2 + 2 ^ 64 - cell.2) % 2 ^ 64 : Nat)
  if x * x + y * y < radius * radius * f then 1 else 0

end Train

/-- `LearningRestraintFunc::exponentialDecay` (`LearningRestraintFunc.cpp` 32-36). -/
noncomputable def exponentialDecay (rate : ℝ) (i n : Nat) : ℝ := rate * Real.exp (-1 * i / n)

/-- The buffer of the function object returned by `kohonen` (`NeihbourhoodFunc.cpp` 46): iteration, total, sigma. -/
abbrev KBuf := Nat × Nat × ℝ

/-- `sigma` of an iteration (`NeihbourhoodFunc.cpp` 57-58). -/
noncomputable def kSigma (initSigma : ℝ) (i n : Nat) : ℝ := initSigma * Real.exp (-1 * i / (n / Real.log initSigma))

/-- One call of the function object returned by `kohonen` (`NeihbourhoodFunc.cpp` 49-71): new buffer and result. -/
noncomputable def kohonenCall (sx sy : Nat) (mult : ℝ) (buf : KBuf) (bmu cell : Nat × Nat) (i n : Nat) : KBuf × ℝ :=
  let initSigma : ℝ := (max sx sy : Nat) / 2
  let buf := if buf.1 ≠ i ∨ buf.2.1 ≠ n then (i, n, kSigma initSigma i n) else buf
  let s2 := buf.2.2 * buf.2.2
  let x : ℝ := (bmu.1 : ℝ) - cell.1
  let y : ℝ := (bmu.2 : ℝ) - cell.2
  let d2 := x * x + y * y
  (buf, if d2 < mult * mult * s2 then Real.exp (-1 * d2 / (2 * s2)) else 0)

/-- The initial buffer (`NeihbourhoodFunc.cpp` 46). -/
noncomputable def kInit : KBuf := (0, 0, 0)

/-! ## Sampling policies: iterators are positions `0 ≤ i ≤ n`, `n` is `end` -/

/-- `FullSet` (`SamplingPolicy.h` 45-56) in the loop of `SOMTrainer.h` 55: `fuel` bounds the number of steps. -/
def fullSetFrom (n : Nat) : Nat → Nat → List Nat
  | 0, _ => []
  | fuel + 1, i => if i = n then [] else i :: fullSetFrom n fuel (i + 1)

/-- The positions visited by `FullSet`. -/
def fullSet (n : Nat) : List Nat := fullSetFrom n (n + 1) 0

/-- The positions visited by `Bootstrap` (`SamplingPolicy.h` 58-83): `draw` is the result of the distribution over `0..n-1`;
for an empty range the distribution is over `0..-1`, which is undefined. -/
def bootstrap (n draw : Nat) : Res (List Nat) := if n = 0 then .ub else .ok [draw]

/-- The selection loop of `Jackknife::start` (`SamplingPolicy.h` 118-124): `draw i` is the number drawn in round `i`. -/
def jackLoop (draw : Nat → Nat) : Nat → Nat → List Nat → List Nat
  | 0, _, _ => []
  | left + 1, i, all =>
    match all[draw i]? with
    | none => []
    | some x => x :: jackLoop draw left (i + 1) (all.eraseIdx (draw i))

/-- The positions visited by `Jackknife` (`SamplingPolicy.h` 90-146): `start` reads `m_iter_list[0]`, undefined if nothing was
selected; `next` goes through the list.  (The sizes are below `2^31`, the range of `int`.) -/
def jackknife (n sample : Nat) (draw : Nat → Nat) : Res (List Nat) :=
  let l := jackLoop draw (min sample n) 0 (List.range n)
  if l = [] then .ub else .ok l

/-! ## Projection and u-matrix -/

/-- `project_impl` (`SOMProjector.icpp` 32-60): the cells of the result in iteration order. `result(x, y)` is the cell at
`x + y * sx`. -/
def project {T I : Type} (sx sy : Nat) (init : T) (add : T → I → T) (bmu : I → Res (Nat × Nat)) : List I → List T → Res (List T)
  | [], cells => .ok cells
  | inp :: rest, cells => do
    let (x, y) ← bmu inp
    match cells[x + y * sx]? with
    | none => .ub
    | some c => project sx sy init add bmu rest (cells.set (x + y * sx) (add c inp))

/-- The neighbour positions considered for a cell (`UMatrix.icpp` 60-71), in order. -/
def neighbours (sx sy x y : Nat) : List (Nat × Nat) :=
  let is : List Int := [(x : Int) - 1, (x : Int), (x : Int) + 1]
  let js : List Int := [(y : Int) - 1, (y : Int), (y : Int) + 1]
  is.flatMap fun (i : Int) => js.filterMap fun (j : Int) =>
    if i = x ∧ j = y then none
    else if i < 0 ∨ i = sx ∨ j < 0 ∨ j = sy then none
    else some (i.toNat, j.toNat)

inductive UType where
  | min | max | mean
  deriving DecidableEq, Repr

/-- The reduction of the distances (`UMatrix.icpp` 34-39): dereferencing `min_element` of an empty vector is undefined, and so is
(in a field) the division by zero. -/
def reduceU {K : Type} [Field K] [LinearOrder K] (t : UType) (l : List K) : Res K :=
  match l with
  | [] => .ub
  | a :: as => match t with
    | .min => .ok (as.foldl (fun b x => if x < b then x else b) a)
    | .max => .ok (as.foldl (fun b x => if b < x then x else b) a)
    | .mean => .ok ((a :: as).foldl (· + ·) 0 / ((a :: as).length : K))

/-- A cell of the u-matrix (`UMatrix.icpp` 55-79). -/
def uCell {nd : Nat} {K : Type} [Field K] [LinearOrder K] (m : Map nd K) (dist : (Fin nd → K) → (Fin nd → K) → K) (t : UType) (x y : Nat) : Res K := do
  let w ← m.at x y
  let rec go : List (Nat × Nat) → Res (List K)
    | [] => .ok []
    | p :: ps => do
      let v ← m.at p.1 p.2
      let r ← go ps
      return dist w v :: r
  let l ← go (neighbours m.sx m.sy x y)
  reduceU t l

/-! ## Serialisation -/

/-- A value in a boost archive. -/
inductive Tok (K : Type) where
  | str (s : String) | num (n : Nat) | val (x : K)
  deriving DecidableEq, Repr

/-- `save_construct_data` and `save` (`serialization/SOM.h` 37-42, 56-63).  An archive returns values in the order in which they
were stored (boost); a `std::array` is stored element by element. -/
def saveMap {nd : Nat} {K : Type} (distName : String) (m : Map nd K) : List (Tok K) :=
  [.str distName, .num m.sx, .num m.sy] ++ m.cells.flatMap fun w => (List.finRange nd).map fun i => .val (w i)

/-- Loading of `n` values. -/
def loadVals {K : Type} : Nat → List (Tok K) → Option (List K × List (Tok K))
  | 0, ts => some ([], ts)
  | n + 1, .val x :: ts => match loadVals n ts with
    | some (l, r) => some (x :: l, r)
    | none => none
  | _ + 1, _ => none

/-- Loading of `c` cells (`serialization/SOM.h` 44-49). -/
def loadCells {K : Type} [Inhabited K] (nd : Nat) : Nat → List (Tok K) → Option (List (Fin nd → K) × List (Tok K))
  | 0, ts => some ([], ts)
  | c + 1, ts => match loadVals nd ts with
    | none => none
    | some (l, r) => match loadCells nd c r with
      | some (ws, r') => some ((fun i => l.getD i.val default) :: ws, r')
      | none => none

/-- `load_construct_data` and `load` (`serialization/SOM.h` 44-49, 65-78). `none` in the inner calls is an exception of boost. -/
def loadMap {K : Type} [Inhabited K] (nd : Nat) (distName : String) : List (Tok K) → Res (Map nd K)
  | .str d :: .num x :: .num y :: ts =>
    if d ≠ distName then .throw .elements
    else match loadCells nd (x * y) ts with
      | some (ws, _) => .ok ⟨x, y, ws⟩
      | none => .throw .elements
  | _ => .throw .elements

/-- The contents of the FITS file of `somFitsExport` (`serialize.h` 68-93). -/
structure Fits (K : Type) where
  axes : List Nat
  distFunc : String
  data : List K
  deriving DecidableEq, Repr

/-- `somFitsExport` (`serialize.h` 68-93). -/
def fitsExport {nd : Nat} {K : Type} (distName : String) (m : Map nd K) : Fits K :=
  ⟨[m.sx, m.sy, nd], distName, (List.finRange nd).flatMap fun i => m.cells.map fun w => w i⟩

/-- `somFitsImport` (`serialize.h` 95-134): `data[i]` past the end of the array is undefined; `i` is the running index, that is
`w_i * x * y + position of the cell`. -/
def fitsImport {K : Type} [Inhabited K] (nd : Nat) (distName : String) (f : Fits K) : Res (Map nd K) :=
  if f.distFunc ≠ distName then .throw .elements
  else match f.axes with
    | [x, y, d] =>
      if d ≠ nd then .throw .elements
      else if f.data.length < nd * (x * y) then .ub
      else .ok ⟨x, y, (List.range (x * y)).map fun k => fun i => f.data.getD (i.val * (x * y) + k) default⟩
    | _ => .throw .elements

end Alexandria.SOM
