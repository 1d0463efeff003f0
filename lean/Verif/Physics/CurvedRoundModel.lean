import Verif.Physics.DistanceRoundModel

/-!
# The transverse distance, the luminosity distance, the distance modulus and the volume element with rounded arithmetic

As in `DistanceRoundModel.lean`; the functions of the C library are parameters, because nothing but the implementation says how they are rounded.
-/

namespace Alexandria.Physics

/-- `std::sinh`, `std::sin` and `std::log10` of the C library. -/
structure MathLib where
  sinh : ℝ → ℝ
  sin : ℝ → ℝ
  log10 : ℝ → ℝ

variable (R : Rounding ℝ) (lib : MathLib)

/-- `transverseComovingDistance` (`CosmologicalDistances.cpp` 63-76), with the default precision (`CosmologicalDistances.h` 72). -/
noncomputable def machineTransverse (cLight : ℝ) (isZero : ℝ → Bool) (z : ℝ) (p : Params) : Option ℝ := do
  let comoving ← machineComoving R cLight isZero (1 / 10000000) z p
  if isZero p.omegaK then return comoving
  else do
    let d ← machineHubbleDistance R cLight p
    let s ← machineSqrt? R |p.omegaK|
    let r ← machineDiv? R d s
    let q ← machineDiv? R comoving r
    if p.omegaK > 0 then return R.rnd (r * lib.sinh q) else return R.rnd (r * lib.sin q)

/-- `luminousDistance` (`CosmologicalDistances.cpp` 78-84). -/
noncomputable def machineLuminous (cLight : ℝ) (isZero : ℝ → Bool) (z : ℝ) (p : Params) : Option ℝ :=
  if isZero z then some 10
  else do
    let d ← machineTransverse R lib cLight isZero z p
    return R.rnd (R.rnd (1 + z) * d)

/-- `std::log10`. -/
noncomputable def machineLog10? (x : ℝ) : Option ℝ := if 0 < x then some (lib.log10 x) else none

/-- `distanceModulus` (`CosmologicalDistances.cpp` 86-88). -/
noncomputable def machineModulus (cLight : ℝ) (isZero : ℝ → Bool) (z : ℝ) (p : Params) : Option ℝ := do
  let d ← machineLuminous R lib cLight isZero z p
  let l ← machineLog10? lib (R.rnd (d / 10))
  return R.rnd (5 * l)

/-- `dimensionlessComovingVolumeElement` (`CosmologicalDistances.cpp` 90-95). -/
noncomputable def machineVolumeElement (cLight : ℝ) (isZero : ℝ → Bool) (z : ℝ) (p : Params) : Option ℝ := do
  let dh ← machineHubbleDistance R cLight p
  let e ← machineHubble R z p
  let dm ← machineTransverse R lib cLight isZero z p
  machineDiv? R (R.rnd (dm * dm)) (R.rnd (R.rnd (e * dh) * dh))

end Alexandria.Physics
