import Verif.MathUtils.NumericModel
import Verif.Physics.Model

/-!
# The cosmological distances with the integration that is used
-/

namespace Alexandria.Physics

open Classical in
/-- `integrate` (`function_tools.cpp` 33-46) of a `FunctionAdapter`, which is not `Integrable`, with `AdaptativeIntegration<SimpsonsRule>` from the order
`SimpsonsRule::minimal_order` (`SimpsonsRule.h` 51) on (`CosmologicalDistances.cpp` 55-60).  Simplified: a function that is not finite somewhere between the limits gives no
value (in the code only the samples matter). -/
noncomputable def adaptiveIntegral (precision : ℝ) (f : ℝ → Option ℝ) (a b : ℝ) : Option ℝ :=
  if ∀ x ∈ Set.uIcc a b, (f x).isSome = true then
    match MathUtils.adaptive precision 3 (fun x => (f x).getD 0) a b with
    | .ok v => some v
    | _ => none
  else none

/-- The environment of the code: the speed of light, the comparison with 0 and the integration with a relative precision (by default `0.0000001`, `CosmologicalDistances.h` 72). -/
noncomputable def codeEnv (c : ℝ) (isZero : ℝ → Bool) (precision : ℝ) : Env := ⟨c, isZero, adaptiveIntegral precision⟩

end Alexandria.Physics
