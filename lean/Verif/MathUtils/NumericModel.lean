import Verif.MathUtils.Model

/-!
# Model of the numerical integration and differentiation

Functions are total functions of the field; arithmetic is exact, except for the step of the differentiation, whose rounding is a parameter.
-/

namespace Alexandria.MathUtils

section
variable {K : Type} [Field K] [LinearOrder K]

/-- A loop that adds up function values from an index on. -/
def sumFrom (g : Nat → K) : Nat → Nat → K → K
  | 0, _, s => s
  | fuel + 1, i, s => sumFrom g fuel (i + 1) (s + g i)

/-- `SimpsonsRule::operator()` (`SimpsonsRule.cpp` 32-50). The conversion of `2^31` to an `int` is undefined behaviour. -/
def simpson (f : K → K) (min max : K) (order : Int) : Res K :=
  if order < 3 then .throw .elements
  else if order ≥ 31 then .ub
  else
    let N := 2 ^ order.toNat
    let h := (max - min) / (N : Nat)
    let s := sumFrom (fun i => f (min + (i : K) * h)) (N - 2 - 3) 3 0
    let s := s + 375 / 1000 * (f min + f max)
    let s := s + 7 * (f (min + h) + f (max - h)) / 6
    let s := s + 23 * (f (min + 2 * h) + f (max - 2 * h)) / 24
    .ok (s * h)

/-- `SimpsonsRule::operator()` with the value of the order before (`SimpsonsRule.cpp` 52-71). -/
def simpsonRefine (f : K → K) (min max previous : K) (order : Int) : Res K :=
  if order < 4 then .throw .elements
  else if order ≥ 31 then .ub
  else
    let N := 2 ^ order.toNat
    let h := (max - min) / (N : Nat)
    let s := sumFrom (fun j => f (min + ((2 * j + 1 : Nat) : K) * h)) (N / 2 - 1 - 1) 1 0
    let s := s + 7 * (f (min + h) + f (max - h)) / 6
    let s := s - 5 * (f (min + 2 * h) + f (max - 2 * h)) / 24
    let s := s + (f (min + 4 * h) + f (max - 4 * h)) / 24
    .ok (s * h + previous / 2)

/-- The condition of the loop of `AdaptativeIntegration` (`AdaptativeIntegration.icpp` 43): a division by 0 gives an infinity, which is greater, or NaN, which is not. -/
def notPrecise (precision diff value : K) : Prop := if value = 0 then diff ≠ 0 else |diff / value| > precision

instance (precision diff value : K) : Decidable (notPrecise precision diff value) := by unfold notPrecise; infer_instance

/-- The loop of `AdaptativeIntegration` (`AdaptativeIntegration.icpp` 38-43) with Simpson's rule; `fuel` is not less than the number of orders left, the last of which is undefined. -/
def adaptiveLoop (f : K → K) (min max precision : K) : Nat → Int → K → Res K
  | 0, _, _ => .ub
  | fuel + 1, m, value => do
    let value' ← simpsonRefine f min max value (m + 1)
    if notPrecise precision (value' - value) value then adaptiveLoop f min max precision fuel (m + 1) value' else return value'

/-- `AdaptativeIntegration<SimpsonsRule>::operator()` (`AdaptativeIntegration.icpp` 33-46). -/
def adaptive (precision : K) (order : Int) (f : K → K) (min max : K) : Res K := do
  let value ← simpson f min max order
  adaptiveLoop f min max precision 31 order value

/-- `guess_h` (`FiniteDifference.cpp` 32-39) with the rounding to the nearest `double` and the next `double` as parameters. -/
def guessH (round next : K → K) (h0 x : K) : K :=
  let xh := round (x + h0)
  let h := round (xh - x)
  if h = 0 then round (next x - x) else h

/-- `derivative` (`FiniteDifference.cpp` 41-48), apart from the choice of the step. -/
def derivative (f : K → K) (x h : K) : K := (f (x + h) - f x) / h

/-- `derivative2nd` (`FiniteDifference.cpp` 50-59), apart from the choice of the step. -/
def derivative2nd (f : K → K) (x h : K) : K := (f (x + h) - 2 * f x + f (x - h)) / (h * h)

end

end Alexandria.MathUtils
