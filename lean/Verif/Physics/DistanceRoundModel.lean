import Verif.MathUtils.AdaptiveRoundModel
import Verif.Physics.Model

/-!
# The comoving distance with rounded arithmetic

The functions of `Model.lean` with every operation rounded, as on `double` (without contraction to fused operations), the square root as well (IEEE 754). Operations whose result
is not a number, or an infinity from a division by 0, give `none`. Overflow and subnormal numbers are not modelled.
-/

namespace Alexandria.Physics

variable (R : Rounding ℝ)

/-- The constructor of `CosmologicalParameters` (`CosmologicalParameters.cpp` 30-31). -/
noncomputable def machineParams (omegaM omegaLambda hubble : ℝ) : Params := ⟨omegaM, omegaLambda, R.rnd (R.rnd (1 - omegaM) - omegaLambda), hubble⟩

/-- A division. -/
noncomputable def machineDiv? (x y : ℝ) : Option ℝ := if y = 0 then none else some (R.rnd (x / y))

/-- `std::sqrt`. -/
noncomputable def machineSqrt? (x : ℝ) : Option ℝ := if x < 0 then none else some (R.rnd (Real.sqrt x))

/-- `hubbleDistance` (`CosmologicalDistances.cpp` 39-41). -/
noncomputable def machineHubbleDistance (cLight : ℝ) (p : Params) : Option ℝ := machineDiv? R (R.rnd (cLight * 1000)) p.hubble

/-- `hubbleParameter` (`CosmologicalDistances.cpp` 43-47). -/
noncomputable def machineHubble (z : ℝ) (p : Params) : Option ℝ :=
  let square := R.rnd (R.rnd (1 + z) * R.rnd (1 + z))
  let cube := R.rnd (square * R.rnd (1 + z))
  machineSqrt? R (R.rnd (R.rnd (R.rnd (p.omegaM * cube) + R.rnd (p.omegaK * square)) + p.omegaLambda))

/-- The function that is integrated (`CosmologicalDistances.cpp` 58). -/
noncomputable def machineAdapter (p : Params) (x : ℝ) : Option ℝ := do
  let e ← machineHubble R x p
  machineDiv? R 1 e

open Classical in
/-- `integrate` (`function_tools.cpp` 33-46) as in `adaptiveIntegral` of `DistanceModel.lean`, with rounded nodes and sums.  Simplified: a function that is not finite somewhere
between the limits or up to an eighth outside, where rounded nodes may be, gives no value (in the code only the samples matter). -/
noncomputable def machineIntegral (precision : ℝ) (f : ℝ → Option ℝ) (a b : ℝ) : Option ℝ :=
  if ∀ x, min a b - 1 / 8 ≤ x → x ≤ max a b + 1 / 8 → (f x).isSome = true then
    match MathUtils.machineAdaptive R precision 3 (fun x => (f x).getD 0) a b with
    | .ok v => some v
    | _ => none
  else none

/-- `comovingDistance` (`CosmologicalDistances.cpp` 49-61). -/
noncomputable def machineComoving (cLight : ℝ) (isZero : ℝ → Bool) (precision z : ℝ) (p : Params) : Option ℝ :=
  if isZero z then some 0
  else do
    let d ← machineHubbleDistance R cLight p
    let i ← machineIntegral R precision (machineAdapter R p) 0 z
    return R.rnd (d * i)

end Alexandria.Physics
