import Verif.Common.Outcome
import Mathlib.Algebra.Order.Field.Basic

/-!
# Model of `MathUtils/src/lib/function/*.cpp`

Numbers are elements of a linearly ordered field: rounding, overflow and signed zeros are not modelled.  Where the code may divide by
zero the model says so (`Err.notFinite`), it does not use the convention that `x / 0 = 0`.
-/

namespace Alexandria.MathUtils

inductive Err where
  /-- `Elements::Exception` and `InterpolationException`. -/
  | elements
  /-- `std::length_error` of a vector constructor. -/
  | length
  /-- Not an exception: the number is an infinity or a NaN. -/
  | notFinite
  deriving DecidableEq, Repr

abbrev Res (α : Type) := Outcome Err α

/-- Division of floating point numbers. -/
def div? {K : Type} [Field K] [DecidableEq K] (a b : K) : Res K := if b = 0 then .throw .notFinite else .ok (a / b)

/-- The functions of the library: `Polynomial` with its coefficients, `Polynomial` with `n` coefficients some of which are not finite,
`Piecewise`, any other function (`FunctionAdapter` for instance) and `DefaultMultiplication`. -/
inductive Fn (K : Type) where
  | poly (c : List K)
  | nan (n : Nat)
  | piecewise (knots : List K) (functions : List (Fn K))
  | generic (f : K → Res K)
  | product (f g : Fn K)

section
variable {K : Type} [Field K] [LinearOrder K]

/-! ## Polynomials -/

/-- The loop of `Polynomial::operator()` (`Polynomial.cpp` 42-45) with its variables `result` and `xPow`. -/
def polyLoop (x : K) : List K → K → K → K
  | [], result, _ => result
  | c :: cs, result, xPow => polyLoop x cs (result + c * xPow) (xPow * x)

/-- `Polynomial::operator()` (`Polynomial.cpp` 39-47). -/
def polyEval (c : List K) (x : K) : K := polyLoop x c 0 1

/-- `Polynomial::derivative` (`Polynomial.cpp` 53-62). -/
def polyDeriv (c : List K) : List K := (c.zipIdx.drop 1).map fun p => (p.2 : K) * p.1

/-- `Polynomial::indefiniteIntegral` (`Polynomial.cpp` 64-74). -/
def polyIntegral (c : List K) : List K := 0 :: c.zipIdx.map fun p => p.1 / ((p.2 + 1 : Nat) : K)

/-- `Differentiable::integrate` (`Differentiable.cpp` 30-33) for a polynomial. -/
def polyIntegrate (c : List K) (a b : K) : K := polyEval (polyIntegral c) b - polyEval (polyIntegral c) a

/-- The loops of `multiplyPolynomials` (`multiplication.cpp` 44-46). -/
def mulLoop (c1 c2 : List K) (r : List K) : List K :=
  c1.zipIdx.foldl (fun r p => c2.zipIdx.foldl (fun r q => r.modify (p.2 + q.2) fun v => v + p.1 * q.1) r) r

/-- `multiplyPolynomials` (`multiplication.cpp` 38-48): without coefficients at all the size of the result is `2 ^ 64 - 1`. -/
def mulPoly (c1 c2 : List K) : Res (List K) :=
  if c1 = [] ∧ c2 = [] then .throw .length else .ok (mulLoop c1 c2 (List.replicate (c1.length + c2.length - 1) 0))

/-! ## Piecewise functions -/

/-- The loop that checks the knots (`Piecewise.cpp` 42-47, 55-60). -/
def knotsOk : List K → Bool
  | k :: l :: ks => if l < k then false else knotsOk (l :: ks)
  | _ => true

/-- The constructors of `Piecewise` (`Piecewise.cpp` 33-61). -/
def mkPiecewise (ks : List K) (fs : List (Fn K)) : Res (Fn K) :=
  if ks.length ≠ fs.length + 1 then .throw .elements
  else if knotsOk ks then .ok (.piecewise ks fs) else .throw .elements

/-- Which function `Piecewise::operator()` (`Piecewise.cpp` 71-85) applies, `none` if it returns zero. `std::lower_bound` is the number of
knots before the first one that is not less than `x`. -/
def pieceIndex (ks : List K) (x : K) : Res (Option Nat) :=
  match ks with
  | [] => .ub
  | k :: _ =>
    if x < k then .ok none
    else if x = k then .ok (some 0)
    else
      let i := (ks.takeWhile (· < x)).length
      if i = ks.length then .ok none else .ok (some (i - 1))

mutual
/-- `operator()` of the functions (`Polynomial.cpp` 39-47, `Piecewise.cpp` 71-85, `function_tools.cpp` 51-53). -/
def eval : Fn K → K → Res K
  | .poly c, x => .ok (polyEval c x)
  | .nan _, _ => .throw .notFinite
  | .generic f, x => f x
  | .product f g, x => do
    let a ← eval f x
    let b ← eval g x
    return a * b
  | .piecewise ks fs, x => match pieceIndex ks x with
    | .ok (some i) => evalNth fs i x
    | .ok none => .ok 0
    | .throw e => .throw e
    | .ub => .ub
/-- The value of the function with index `i`. -/
def evalNth : List (Fn K) → Nat → K → Res K
  | [], _, _ => .ub
  | f :: _, 0, x => eval f x
  | _ :: fs, i + 1, x => evalNth fs i x
end

mutual
/-- `integrate` without scheme (`function_tools.cpp` 33-46 with `Differentiable.cpp` 30-33 and `Piecewise.cpp` 96-127). Functions that
are not `Integrable` throw. -/
def integ : Fn K → K → K → Res K
  | .poly c, a, b => .ok (polyIntegrate c a b)
  | .nan _, _, _ => .throw .notFinite
  | .generic _, _, _ => .throw .elements
  | .product _ _, _, _ => .throw .elements
  | .piecewise ks fs, a, b =>
    if a = b then .ok 0
    else
      let mn := if a > b then b else a
      let mx := if a > b then a else b
      do
        let r ← integLoop mn mx ((ks.takeWhile (· ≤ mn)).length - 1) ks fs
        return (if a > b then -1 else 1) * r
/-- The loop of `Piecewise::integrate` (`Piecewise.cpp` 114-125), after the number of knots and functions to be skipped (109-113;
`std::upper_bound` is the number of knots before the first one that is greater). -/
def integLoop (mn mx : K) : Nat → List K → List (Fn K) → Res K
  | p + 1, _ :: ks, _ :: fs => integLoop mn mx p ks fs
  | 0, k :: l :: ks, f :: fs =>
    if mx ≤ k then .ok 0
    else if mn < l then do
      let v ← integ f (if mn > k then mn else k) (if mx < l then mx else l)
      let r ← integLoop mn mx 0 (l :: ks) fs
      return v + r
    else integLoop mn mx 0 (l :: ks) fs
  | 0, [_], _ => .ok 0
  | _, _, _ => .ub
end

/-- `integrate` (`function_tools.cpp` 33-46) with an integration scheme or without. -/
def integrateWith (scheme : Option (Fn K → K → K → Res K)) (f : Fn K) (a b : K) : Res K :=
  match f with
  | .poly _ => integ f a b
  | .nan _ => integ f a b
  | .piecewise _ _ => integ f a b
  | _ => match scheme with
    | some s => s f a b
    | none => .throw .elements

/-! ## Products -/

/-- `insert` of `std::set<double>`. -/
def setInsert (x : K) : List K → List K
  | [] => [x]
  | y :: l => if x < y then x :: y :: l else if y < x then y :: setInsert x l else y :: l

/-- The loop of `overlappingKnots` (`multiplication.cpp` 67-87): the arguments are what the iterators have still before them, whether the
overlap has begun, and the set. `none`: not enough fuel. -/
def overlapLoop : Nat → List K → List K → Bool → List K → Option (Res (List K))
  | _, [], _, _, s => some (.ok s)
  | _, _ :: _, [], _, s => some (.ok s)
  | 0, _, _, _, _ => none
  | n + 1, a :: as, b :: bs, false, s =>
    if a < b then match as with
      | [] => some .ub
      | a' :: as' => overlapLoop n (a' :: as') (b :: bs) (decide (a' > b)) s
    else match bs with
      | [] => some .ub
      | b' :: bs' => overlapLoop n (a :: as) (b' :: bs') (decide (a < b')) s
  | n + 1, a :: as, b :: bs, true, s =>
    if a < b then overlapLoop n as (b :: bs) true (setInsert a s) else overlapLoop n (a :: as) bs true (setInsert b s)

/-- `overlappingKnots` (`multiplication.cpp` 62-89). -/
def overlapKnots (k1 k2 : List K) : Option (Res (List K)) := overlapLoop (k1.length + k2.length) k1 k2 false []

/-- Calls one after the other. -/
def Calc.bind {α β : Type} (x : Option (Res α)) (f : α → Option (Res β)) : Option (Res β) :=
  match x with
  | none => none
  | some (.ok a) => f a
  | some (.throw e) => some (.throw e)
  | some .ub => some .ub

/-- `while (knots[i + 1] <= knot) ++i` (`multiplication.cpp` 111-116). -/
def advance (ks : List K) (i : Nat) (knot : K) : Res Nat :=
  let j := i + ((ks.drop (i + 1)).takeWhile (· ≤ knot)).length
  if j + 1 < ks.length then .ok j else .ub

/-- The loop of `multiplyPiecewises` (`multiplication.cpp` 107-118). -/
def mulPieces (mul : Fn K → Fn K → Option (Res (Fn K))) (k1 : List K) (f1 : List (Fn K)) (k2 : List K) (f2 : List (Fn K)) (back : K) :
    List K → Nat → Nat → Option (Res (List (Fn K)))
  | [], _, _ => some (.ok [])
  | k :: ks, i1, i2 =>
    if k = back then some (.ok [])
    else
      Calc.bind (some (advance k1 i1 k)) fun j1 => Calc.bind (some (advance k2 i2 k)) fun j2 => match f1[j1]?, f2[j2]? with
        | some f, some g => Calc.bind (mul f g) fun r => Calc.bind (mulPieces mul k1 f1 k2 f2 back ks j1 j2) fun rs => some (.ok (r :: rs))
        | _, _ => some .ub

/-- `multiplyPiecewises` (`multiplication.cpp` 92-121). -/
def mulPiecewises (mul : Fn K → Fn K → Option (Res (Fn K))) (k1 : List K) (f1 : List (Fn K)) (k2 : List K) (f2 : List (Fn K)) :
    Option (Res (Fn K)) :=
  Calc.bind (overlapKnots k1 k2) fun ks => match ks.getLast? with
    | none => some (.ok (.poly [0]))
    | some back => Calc.bind (mulPieces mul k1 f1 k2 f2 back ks 0 0) fun fs => some (mkPiecewise ks fs)

/-- The loop of `multiplyPiecewiseWithGeneric` (`multiplication.cpp` 55-57). -/
def mulEach (mul : Fn K → Fn K → Option (Res (Fn K))) (g : Fn K) : List (Fn K) → Option (Res (List (Fn K)))
  | [] => some (.ok [])
  | f :: fs => Calc.bind (mul f g) fun r => Calc.bind (mulEach mul g fs) fun rs => some (.ok (r :: rs))

/-- `multiplyPiecewiseWithGeneric` (`multiplication.cpp` 52-59). -/
def mulGeneric (mul : Fn K → Fn K → Option (Res (Fn K))) (ks : List K) (fs : List (Fn K)) (g : Fn K) : Option (Res (Fn K)) :=
  Calc.bind (mulEach mul g fs) fun rs => some (mkPiecewise ks rs)

/-- A product of polynomials with a coefficient that is not finite: it remains unless the other one has no coefficients. -/
def mulNan (n m : Nat) : Fn K := if m = 0 then .poly (List.replicate (n - 1) 0) else .nan (n + m - 1)

/-- `multiply` (`function_tools.cpp` 63-86) with the maps of `multiplication.cpp` 123-127. -/
def multiply : Nat → Fn K → Fn K → Option (Res (Fn K))
  | 0, _, _ => none
  | _ + 1, .poly c1, .poly c2 => some (match mulPoly c1 c2 with | .ok c => .ok (.poly c) | .throw e => .throw e | .ub => .ub)
  | _ + 1, .nan n, .poly c => some (.ok (mulNan n c.length))
  | _ + 1, .poly c, .nan n => some (.ok (mulNan n c.length))
  | _ + 1, .nan n, .nan m => some (.ok (.nan (n + m - 1)))
  | n + 1, .piecewise k1 f1, .piecewise k2 f2 => mulPiecewises (multiply n) k1 f1 k2 f2
  | n + 1, .piecewise ks fs, g => mulGeneric (multiply n) ks fs g
  | n + 1, f, .piecewise ks fs => mulGeneric (multiply n) ks fs f
  | _ + 1, f, g => some (.ok (.product f g))

end

end Alexandria.MathUtils
