import Verif.Common.Outcome
import Verif.Common.Ieee

/-!
# Model of `solveSquare` with overflow and underflow

The arithmetic is that of `Common/Ieee.lean`.  The coefficients are finite; no divisor is zero, so that the signs of zeros do not matter.
-/

namespace Alexandria.Overflow

variable {K : Type} [Field K] [LinearOrder K] (R : Rounding K) (M : K)

/-- `std::sqrt`; `sqrt` is the rounded square root of finite numbers that are not negative. -/
def rootOf (sqrt : K → K) : Ext K → Ext K
  | .nan => .nan
  | .ninf => .nan
  | .pinf => .pinf
  | .fin a => if a < 0 then .nan else .fin (sqrt a)

/-- `solveSquare` (`Solvers.cpp` 25-35). -/
def solve (sqrt : K → K) (a b c y : K) : Outcome Unit (Ext K × Ext K) :=
  if a ≠ 0 then
    let half := Ext.div R M (.fin b) (Ext.mul R M (.fin 2) (.fin a))
    let sr := rootOf sqrt (Ext.add R M (Ext.div R M (Ext.sub R M (.fin y) (.fin c)) (.fin a)) (Ext.mul R M half half))
    .ok (Ext.sub R M sr.neg half, Ext.sub R M sr half)
  else if b ≠ 0 then .ok (Ext.div R M (Ext.sub R M (.fin y) (.fin c)) (.fin b), Ext.div R M (Ext.sub R M (.fin y) (.fin c)) (.fin b))
  else .throw ()

end Alexandria.Overflow
