import Verif.NdArray.Operations
import Verif.Common.Rounding

/-!
# Model of the reductions with rounded arithmetic

The functions of `Operations.lean`, which work for any arithmetic, with the arithmetic of floating point numbers: every operation is rounded (without contraction to fused
operations). Overflow to infinity is not modelled.
-/

namespace Alexandria.NdArray

section
variable {K : Type} [Field K] [LinearOrder K]

/-- `sum(array)` (`Operations.icpp` 24-27) for a floating point type. -/
def machineSumAll (R : Rounding K) (h : Heap K) (a : Nd) : Res K := @sumAll K ⟨fun x y => R.rnd (x + y)⟩ _ h a

/-- `sum(array, axis)` (`Operations.icpp` 29-64) for a floating point type. -/
def machineSumAxis (R : Rounding K) (h : Heap K) (a : Nd) (axis : Int) : Res (Heap K × Nd) := @sumAxis K ⟨fun x y => R.rnd (x + y)⟩ _ h a axis

/-- `trapz(array, kbegin, kend, axis)` (`Operations.icpp` 66-112) for a floating point type and knots of the same type. -/
def machineTrapz (R : Rounding K) (h : Heap K) (a : Nd) (knots : List K) (axis : Int) : Res (Heap K × Nd) :=
  @trapz K ⟨fun x y => R.rnd (x + y)⟩ ⟨fun x y => R.rnd (x - y)⟩ ⟨fun x y => R.rnd (x * y)⟩ ⟨fun x y => R.rnd (x / y)⟩ _ _ h a knots axis

end

end Alexandria.NdArray
