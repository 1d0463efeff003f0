import Verif.SOM.Model
import Verif.Common.Rounding

/-!
# Distances and training with rounding

The functions of `Model.lean` with the result of each arithmetic operation rounded (contraction to fused operations, overflow and
underflow are not modelled). The factors of a training are the values that the two functions return, whatever these are.
-/

namespace Alexandria.SOM

section
variable {nd : Nat} {K : Type} [Field K] [LinearOrder K] (R : Rounding K)

/-- The sum in `L2::distance` without uncertainties (`Distance.h` 57-60). -/
def machineSquares (left right : Fin nd → K) : K :=
  (List.finRange nd).foldl (fun result i => R.rnd (result + R.rnd (R.rnd (left i - right i) * R.rnd (left i - right i)))) 0

/-- The sum in `L2::distance` with uncertainties (`Distance.h` 66-71); the uncertainties are not zero. -/
def machineSquaresU (left right unc : Fin nd → K) : K :=
  (List.finRange nd).foldl (fun result i => R.rnd (result + R.rnd (R.rnd (R.rnd (left i - right i) * R.rnd (left i - right i)) / R.rnd (unc i * unc i)))) 0

/-- `findBMU` without uncertainties (`SOM.icpp` 89-111, `Distance.h` 56-62); `root` is `std::sqrt`. -/
def machineBMU (root : K → K) (big : K) (m : Map nd K) (s : Fin nd → K) : Res (Nat × Nat × K) :=
  findBMU m (fun w => root (machineSquares R w s)) big

/-- `findBMU` with uncertainties (`SOM.icpp` 89-102, 114-121, `Distance.h` 64-73). -/
def machineBMUU (root : K → K) (big : K) (m : Map nd K) (s unc : Fin nd → K) : Res (Nat × Nat × K) :=
  findBMU m (fun w => root (machineSquaresU R w s unc)) big

/-- The update of one weight (`SOMTrainer.h` 78). -/
def machineUpdate (nf lf s w : K) : K := R.rnd (w + R.rnd (R.rnd (nf * lf) * R.rnd (s - w)))

/-- The update of one cell (`SOMTrainer.h` 75-80). -/
def machineUpdateCell (nf lf : K) (s w : Fin nd → K) : Fin nd → K :=
  if nf ≠ 0 then fun j => machineUpdate R nf lf (s j) (w j) else w

/-- The processing of one training object (`SOMTrainer.h` 57-81). -/
def machineTrainSample (root : K → K) (big : K) (neigh : Neigh K) (i n : Nat) (lf : K) (m : Map nd K) (s : Fin nd → K) : Res (Map nd K) := do
  let (bx, by', _) ← machineBMU R root big m s
  return { m with cells := m.cells.mapIdx fun k w => machineUpdateCell R (neigh (bx, by') (coords m.sx m.sy k) i n) lf s w }

/-- A list of objects (the loop `SOMTrainer.h` 55-82). -/
def machineTrainList (root : K → K) (big : K) (neigh : Neigh K) (i n : Nat) (lf : K) : Map nd K → List (Fin nd → K) → Res (Map nd K)
  | m, [] => .ok m
  | m, s :: ss => do
    let m ← machineTrainSample R root big neigh i n lf m s
    machineTrainList root big neigh i n lf m ss

/-- `train` (`SOMTrainer.h` 41-84) from iteration `i` on, with `left` iterations to go. -/
def machineTrainFrom (root : K → K) (big : K) (neigh : Neigh K) (learn : Nat → Nat → K) (n : Nat) (samples : Nat → List (Fin nd → K)) :
    Nat → Nat → Map nd K → Res (Map nd K)
  | _, 0, m => .ok m
  | i, left + 1, m =>
    let lf := learn i n
    if lf = 0 then machineTrainFrom root big neigh learn n samples (i + 1) left m
    else do
      let m ← machineTrainList R root big neigh i n lf m (samples i)
      machineTrainFrom root big neigh learn n samples (i + 1) left m

/-- `train` (`SOMTrainer.h` 41-84). -/
def machineTrain (root : K → K) (big : K) (neigh : Neigh K) (learn : Nat → Nat → K) (n : Nat) (samples : Nat → List (Fin nd → K)) (m : Map nd K) : Res (Map nd K) :=
  machineTrainFrom R root big neigh learn n samples 0 n m

end

end Alexandria.SOM
