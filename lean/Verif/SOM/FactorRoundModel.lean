import Verif.SOM.RoundModel

/-!
# Model of `SOM/src/lib/{LearningRestraintFunc,NeihbourhoodFunc}.cpp` with rounding

The result of each arithmetic operation and of each conversion from `size_t` is rounded (contraction to fused operations, overflow and underflow are not modelled). `exp` and
`log` are the functions of the C library, of which nothing is assumed here.
-/

namespace Alexandria.SOM

section
variable {K : Type} [Field K] [LinearOrder K] (R : Rounding K)

/-- `LearningRestraintFunc::linear` (`LearningRestraintFunc.cpp` 26-30); the subtraction is in `size_t`. -/
def linearR (i n : Nat) : K := R.rnd (R.rnd (1 * R.rnd (((n + 2 ^ 64 - i) % 2 ^ 64 : Nat) : K)) / R.rnd (n : K))

/-- `LearningRestraintFunc::exponentialDecay` (`LearningRestraintFunc.cpp` 32-36). -/
def exponentialDecayR (exp : K → K) (rate : K) (i n : Nat) : K := R.rnd (rate * exp (R.rnd (R.rnd (-1 * R.rnd (i : K)) / R.rnd (n : K))))

/-- `NeighborhoodFunc::linearUnitDisk` (`NeihbourhoodFunc.cpp` 26-41): the differences of coordinates are computed in `size_t`, that is modulo `2^64`, and then converted. -/
def linearUnitDiskR (radius : K) : Neigh K := fun bmu cell i n =>
  let rSquare := R.rnd (radius * radius)
  let f := R.rnd (R.rnd (1 * R.rnd (((n + 2 ^ 64 - i) % 2 ^ 64 : Nat) : K)) / R.rnd (n : K))
  let f := R.rnd (f * f)
  let x := R.rnd (((bmu.1 + 2 ^ 64 - cell.1) % 2 ^ 64 : Nat) : K)
  let y := R.rnd (((bmu.2 + 2 ^ 64 - cell.2) % 2 ^ 64 : Nat) : K)
  if R.rnd (R.rnd (x * x) + R.rnd (y * y)) < R.rnd (rSquare * f) then 1 else 0

/-- `sigma` of an iteration (`NeihbourhoodFunc.cpp` 57-58). If the logarithm is 0 the time constant is infinite and the exponent is a zero. -/
def kSigmaR (exp log : K → K) (initSigma : K) (i n : Nat) : K :=
  if log initSigma = 0 then R.rnd (initSigma * exp 0)
  else R.rnd (initSigma * exp (R.rnd (R.rnd (-1 * R.rnd (i : K)) / R.rnd (R.rnd (n : K) / log initSigma))))

/-- The value at a distance for a `sigma` (`NeihbourhoodFunc.cpp` 60-70). -/
def gaussR (exp : K → K) (mult sigma : K) (bmu cell : Nat × Nat) : K :=
  let s2 := R.rnd (sigma * sigma)
  let x := R.rnd (R.rnd (bmu.1 : K) - R.rnd (cell.1 : K))
  let y := R.rnd (R.rnd (bmu.2 : K) - R.rnd (cell.2 : K))
  let d2 := R.rnd (R.rnd (x * x) + R.rnd (y * y))
  if d2 < R.rnd (R.rnd (mult * mult) * s2) then exp (R.rnd (R.rnd (-1 * d2) / R.rnd (2 * s2))) else 0

/-- One call of the function object returned by `kohonen` (`NeihbourhoodFunc.cpp` 49-71): new buffer (iteration, total, sigma) and result. -/
def kohonenCallR (exp log : K → K) (sx sy : Nat) (mult : K) (buf : Nat × Nat × K) (bmu cell : Nat × Nat) (i n : Nat) : (Nat × Nat × K) × K :=
  let initSigma := R.rnd (R.rnd ((max sx sy : Nat) : K) / 2)
  let buf := if buf.1 ≠ i ∨ buf.2.1 ≠ n then (i, n, kSigmaR R exp log initSigma i n) else buf
  (buf, gaussR R exp mult buf.2.2 bmu cell)

/-- The calls of one function object one after the other (`NeihbourhoodFunc.cpp` 43-72); a call is best matching unit, cell, iteration, total. -/
def kRunR (exp log : K → K) (sx sy : Nat) (mult : K) : Nat × Nat × K → List ((Nat × Nat) × (Nat × Nat) × Nat × Nat) → List K
  | _, [] => []
  | buf, c :: cs =>
    let r := kohonenCallR R exp log sx sy mult buf c.1 c.2.1 c.2.2.1 c.2.2.2
    r.2 :: kRunR exp log sx sy mult r.1 cs

/-- A function object returned by `kohonen` when it is called for the first time (`NeihbourhoodFunc.cpp` 43-72). -/
def kohonenR (exp log : K → K) (sx sy : Nat) (mult : K) : Neigh K := fun bmu cell i n => (kohonenCallR R exp log sx sy mult (0, 0, 0) bmu cell i n).2

end

end Alexandria.SOM
