import Verif.MathUtils.NumericModel
import Verif.Common.Rounding

/-!
# Model of Simpson's rule with rounded arithmetic

The functions of `NumericModel.lean` with every operation rounded, as on `double` (without contraction to fused operations). The numbers of steps and indices are
less than `2^31` and thus converted exactly. Overflow to infinity is not modelled.
-/

namespace Alexandria.MathUtils

section
variable {K : Type} [Field K] [LinearOrder K]

/-- A loop that adds up function values from an index on. -/
def machineSumFrom (R : Rounding K) (g : Nat → K) : Nat → Nat → K → K
  | 0, _, s => s
  | fuel + 1, i, s => machineSumFrom R g fuel (i + 1) (R.rnd (s + g i))

/-- `SimpsonsRule::operator()` (`SimpsonsRule.cpp` 32-50). -/
def machineSimpson (R : Rounding K) (f : K → K) (min max : K) (order : Int) : Res K :=
  if order < 3 then .throw .elements
  else if order ≥ 31 then .ub
  else
    let N := 2 ^ order.toNat
    let h := R.rnd (R.rnd (max - min) / (N : Nat))
    let s := machineSumFrom R (fun i => f (R.rnd (min + R.rnd ((i : K) * h)))) (N - 2 - 3) 3 0
    let s := R.rnd (s + R.rnd (375 / 1000 * R.rnd (f min + f max)))
    let s := R.rnd (s + R.rnd (R.rnd (7 * R.rnd (f (R.rnd (min + h)) + f (R.rnd (max - h)))) / 6))
    let s := R.rnd (s + R.rnd (R.rnd (23 * R.rnd (f (R.rnd (min + R.rnd (2 * h))) + f (R.rnd (max - R.rnd (2 * h))))) / 24))
    .ok (R.rnd (s * h))

/-- `SimpsonsRule::operator()` with the value of the order before (`SimpsonsRule.cpp` 52-71). -/
def machineRefine (R : Rounding K) (f : K → K) (min max previous : K) (order : Int) : Res K :=
  if order < 4 then .throw .elements
  else if order ≥ 31 then .ub
  else
    let N := 2 ^ order.toNat
    let h := R.rnd (R.rnd (max - min) / (N : Nat))
    let s := machineSumFrom R (fun j => f (R.rnd (min + R.rnd (((2 * j + 1 : Nat) : K) * h)))) (N / 2 - 1 - 1) 1 0
    let s := R.rnd (s + R.rnd (R.rnd (7 * R.rnd (f (R.rnd (min + h)) + f (R.rnd (max - h)))) / 6))
    let s := R.rnd (s - R.rnd (R.rnd (5 * R.rnd (f (R.rnd (min + R.rnd (2 * h))) + f (R.rnd (max - R.rnd (2 * h))))) / 24))
    let s := R.rnd (s + R.rnd (R.rnd (f (R.rnd (min + R.rnd (4 * h))) + f (R.rnd (max - R.rnd (4 * h)))) / 24))
    .ok (R.rnd (R.rnd (s * h) + R.rnd (previous / 2)))

end

end Alexandria.MathUtils
