import Verif.MathUtils.NumericRoundModel

/-!
# Model of the adaptive integration with rounded arithmetic

`AdaptativeIntegration` with every operation rounded, as on `double`. Overflow to infinity is not modelled, except in the division by 0.
-/

namespace Alexandria.MathUtils

section
variable {K : Type} [Field K] [LinearOrder K]

/-- The condition of the loop of `AdaptativeIntegration` (`AdaptativeIntegration.icpp` 42-43): a division by 0 gives an infinity, which is greater, or NaN, which is not. -/
def machineNotPrecise (R : Rounding K) (precision value' value : K) : Prop :=
  let diff := R.rnd (value' - value)
  if value = 0 then diff ≠ 0 else |R.rnd (diff / value)| > precision

instance (R : Rounding K) (precision value' value : K) : Decidable (machineNotPrecise R precision value' value) := by unfold machineNotPrecise; infer_instance

/-- The loop of `AdaptativeIntegration` (`AdaptativeIntegration.icpp` 38-43) with Simpson's rule; `fuel` is not less than the number of orders left, the last of which is undefined. -/
def machineLoop (R : Rounding K) (f : K → K) (min max precision : K) : Nat → Int → K → Res K
  | 0, _, _ => .ub
  | fuel + 1, m, value => do
    let value' ← machineRefine R f min max value (m + 1)
    if machineNotPrecise R precision value' value then machineLoop R f min max precision fuel (m + 1) value' else return value'

/-- `AdaptativeIntegration<SimpsonsRule>::operator()` (`AdaptativeIntegration.icpp` 33-46). -/
def machineAdaptive (R : Rounding K) (precision : K) (order : Int) (f : K → K) (min max : K) : Res K := do
  let value ← machineSimpson R f min max order
  machineLoop R f min max precision 31 order value

end

end Alexandria.MathUtils
