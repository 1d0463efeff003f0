import Verif.MathUtils.Model
import Verif.Common.Rounding

/-!
# Model of `Polynomial` with rounded arithmetic

The functions of `Model.lean` for polynomials with every operation rounded, as on `double` (without contraction to fused operations). Overflow to
infinity is not modelled.
-/

namespace Alexandria.MathUtils

section
variable {K : Type} [Field K] [LinearOrder K]

/-- The loop of `Polynomial::operator()` (`Polynomial.cpp` 42-45). -/
def machinePolyLoop (R : Rounding K) (x : K) : List K → K → K → K
  | [], result, _ => result
  | c :: cs, result, xPow => machinePolyLoop R x cs (R.rnd (result + R.rnd (c * xPow))) (R.rnd (xPow * x))

/-- `Polynomial::operator()` (`Polynomial.cpp` 39-47). -/
def machinePolyEval (R : Rounding K) (c : List K) (x : K) : K := machinePolyLoop R x c 0 1

/-- `Polynomial::derivative` (`Polynomial.cpp` 53-62); the index is converted to `double`. -/
def machinePolyDeriv (R : Rounding K) (c : List K) : List K := (c.zipIdx.drop 1).map fun p => R.rnd (R.rnd (p.2 : K) * p.1)

/-- `Polynomial::indefiniteIntegral` (`Polynomial.cpp` 64-74). -/
def machinePolyIntegral (R : Rounding K) (c : List K) : List K := 0 :: c.zipIdx.map fun p => R.rnd (p.1 / R.rnd ((p.2 + 1 : Nat) : K))

/-- `Differentiable::integrate` (`Differentiable.cpp` 30-33) for a polynomial. -/
def machinePolyIntegrate (R : Rounding K) (c : List K) (a b : K) : K :=
  R.rnd (machinePolyEval R (machinePolyIntegral R c) b - machinePolyEval R (machinePolyIntegral R c) a)

/-- The loops of `multiplyPolynomials` (`multiplication.cpp` 44-46). -/
def machineMulLoop (R : Rounding K) (c1 c2 : List K) (r : List K) : List K :=
  c1.zipIdx.foldl (fun r p => c2.zipIdx.foldl (fun r q => r.modify (p.2 + q.2) fun v => R.rnd (v + R.rnd (p.1 * q.1))) r) r

/-- `multiplyPolynomials` (`multiplication.cpp` 38-48). -/
def machineMulPoly (R : Rounding K) (c1 c2 : List K) : Res (List K) :=
  if c1 = [] ∧ c2 = [] then .throw .length else .ok (machineMulLoop R c1 c2 (List.replicate (c1.length + c2.length - 1) 0))

end

end Alexandria.MathUtils
