import Mathlib.Analysis.SpecialFunctions.Log.Base
import Mathlib.Analysis.SpecialFunctions.Trigonometric.Deriv
import Mathlib.MeasureTheory.Integral.IntervalIntegral.Basic

/-!
# Model of the cosmological distances

`PhysicsUtils/src/lib/CosmologicalDistances.cpp` and `CosmologicalParameters.cpp` over the real numbers, without rounding. Operations whose result is not a finite number give `none`.
-/

namespace Alexandria.Physics

/-- `CosmologicalParameters` (`CosmologicalParameters.h` 77-80). -/
structure Params where
  omegaM : ℝ
  omegaLambda : ℝ
  omegaK : ℝ
  hubble : ℝ

/-- The constructor (`CosmologicalParameters.cpp` 30-31). -/
noncomputable def mkParams (omegaM omegaLambda hubble : ℝ) : Params := ⟨omegaM, omegaLambda, 1 - omegaM - omegaLambda, hubble⟩

/-- What is taken from elsewhere: `Elements::Units::c_light`, the test `Elements::isEqual(0., x)`, which has a tolerance, and `integrate` (`MathUtils`) with the scheme of
`CosmologicalDistances.cpp` 55-56, which is given the function and the limits. -/
structure Env where
  cLight : ℝ
  isZero : ℝ → Bool
  integrate : (ℝ → Option ℝ) → ℝ → ℝ → Option ℝ

/-- A division. -/
noncomputable def div? (x y : ℝ) : Option ℝ := if y = 0 then none else some (x / y)

/-- `std::sqrt`. -/
noncomputable def sqrt? (x : ℝ) : Option ℝ := if x < 0 then none else some (Real.sqrt x)

/-- `std::log10`. -/
noncomputable def log10? (x : ℝ) : Option ℝ := if 0 < x then some (Real.logb 10 x) else none

/-- `hubbleDistance` (`CosmologicalDistances.cpp` 39-41). -/
noncomputable def hubbleDistance (env : Env) (p : Params) : Option ℝ := div? (env.cLight * 1000) p.hubble

/-- `hubbleParameter` (`CosmologicalDistances.cpp` 43-47). -/
noncomputable def hubbleParameter (z : ℝ) (p : Params) : Option ℝ :=
  let square := (1 + z) * (1 + z)
  let cube := square * (1 + z)
  sqrt? (p.omegaM * cube + p.omegaK * square + p.omegaLambda)

/-- The function that is integrated (`CosmologicalDistances.cpp` 58). -/
noncomputable def adapter (p : Params) (x : ℝ) : Option ℝ := do
  let e ← hubbleParameter x p
  div? 1 e

/-- `comovingDistance` (`CosmologicalDistances.cpp` 49-61). -/
noncomputable def comovingDistance (env : Env) (z : ℝ) (p : Params) : Option ℝ :=
  if env.isZero z then some 0
  else do
    let d ← hubbleDistance env p
    let i ← env.integrate (adapter p) 0 z
    return d * i

/-- `transverseComovingDistance` (`CosmologicalDistances.cpp` 63-76). -/
noncomputable def transverseDistance (env : Env) (z : ℝ) (p : Params) : Option ℝ := do
  let comoving ← comovingDistance env z p
  if env.isZero p.omegaK then return comoving
  else do
    let d ← hubbleDistance env p
    let s ← sqrt? |p.omegaK|
    let r ← div? d s
    let q ← div? comoving r
    if p.omegaK > 0 then return r * Real.sinh q else return r * Real.sin q

/-- `luminousDistance` (`CosmologicalDistances.cpp` 78-84). -/
noncomputable def luminousDistance (env : Env) (z : ℝ) (p : Params) : Option ℝ :=
  if env.isZero z then some 10
  else do
    let d ← transverseDistance env z p
    return (1 + z) * d

/-- `distanceModulus` (`CosmologicalDistances.cpp` 86-88). -/
noncomputable def distanceModulus (env : Env) (z : ℝ) (p : Params) : Option ℝ := do
  let d ← luminousDistance env z p
  let l ← log10? (d / 10)
  return 5 * l

/-- `dimensionlessComovingVolumeElement` (`CosmologicalDistances.cpp` 90-95). -/
noncomputable def volumeElement (env : Env) (z : ℝ) (p : Params) : Option ℝ := do
  let dh ← hubbleDistance env p
  let e ← hubbleParameter z p
  let dm ← transverseDistance env z p
  div? (dm * dm) (e * dh * dh)

end Alexandria.Physics
