import Verif.SOM.Model

/-!
# Model of `SOM/src/lib/InitFunc.cpp` and of the constructor of `SOM` (`SOM/SOM/_impl/SOM.icpp` 30-40)

A `std::function<double()>` holds its state, and copying it copies the state. The random engines are parameters.
-/

namespace Alexandria.SOM.Init

variable {K R N : Type}

/-- The random engines: `uni` draws from `std::default_random_engine` a number between 0 and 1, `start` is the state of such an engine that is constructed without
a seed; `nor` draws from `std::mt19937` with `std::normal_distribution`, whose state is made from a seed, a mean and a deviation. -/
structure Engines (K R N : Type) where
  uni : R → K × R
  start : R
  nor : N → K × N
  seeded : Nat → K → K → N

/-- A function object of the type `Signature` (`InitFunc.h` 33) with its state. -/
inductive Fun (K R N : Type) where
  | zero
  | uniform (min max : K) (re : R)
  | normal (d : N)

/-- A call (`InitFunc.cpp` 26-28, 36, 42): the value and the state afterwards. `std::uniform_real_distribution` scales the number of the engine. -/
def Fun.call [Add K] [Sub K] [Mul K] [Zero K] (E : Engines K R N) : Fun K R N → K × Fun K R N
  | .zero => (0, .zero)
  | .uniform min max re => ((E.uni re).1 * (max - min) + min, .uniform min max (E.uni re).2)
  | .normal d => ((E.nor d).1, .normal (E.nor d).2)

/-- `uniformRandom` (`InitFunc.cpp` 39-43). -/
def uniformRandom (E : Engines K R N) (min max : K) : Fun K R N := .uniform min max E.start

/-- `normalDistribution` (`InitFunc.cpp` 32-37); `seed` is the number that `std::random_device` returns. -/
def normalDistribution (E : Engines K R N) (seed : Nat) (sigma mu : K) : Fun K R N := .normal (E.seeded seed mu sigma)

section Construct

variable [Add K] [Sub K] [Mul K] [Zero K] (E : Engines K R N)

/-- The loop over the weights of a cell (`SOM.icpp` 35-37). -/
def fillCell : (nd : Nat) → Fun K R N → (Fin nd → K) × Fun K R N
  | 0, f => (Fin.elim0, f)
  | nd + 1, f => (Fin.cons (f.call E).1 (fillCell nd (f.call E).2).1, (fillCell nd (f.call E).2).2)

/-- The loop over the cells (`SOM.icpp` 34-38). -/
def fillCells (nd : Nat) : Nat → Fun K R N → List (Fin nd → K) × Fun K R N
  | 0, f => ([], f)
  | n + 1, f => ((fillCell E nd f).1 :: (fillCells nd n (fillCell E nd f).2).1, (fillCells nd n (fillCell E nd f).2).2)

/-- The constructor (`SOM.icpp` 30-40). The function is an argument by value: its state after the calls is dropped with the copy. -/
def construct (nd sx sy : Nat) (f : Fun K R N) : Map nd K := ⟨sx, sy, (fillCells E nd (sx * sy) f).1⟩

/-- A program makes functions and maps. -/
inductive Op (K : Type) where
  | uniform (min max : K)
  | normal (seed : Nat) (sigma mu : K)
  | build (var sx sy : Nat)

/-- The variables of the program: its functions and its maps, in the order in which they were made. -/
structure World (nd : Nat) (K R N : Type) where
  funs : List (Fun K R N)
  maps : List (Map nd K)

/-- One step; a variable that does not exist is an error of the program that the compiler reports. -/
def World.step {nd : Nat} (w : World nd K R N) : Op K → Option (World nd K R N)
  | .uniform min max => some { w with funs := w.funs ++ [uniformRandom E min max] }
  | .normal seed sigma mu => some { w with funs := w.funs ++ [normalDistribution E seed sigma mu] }
  | .build v sx sy => match w.funs[v]? with
    | some f => some { w with maps := w.maps ++ [construct E nd sx sy f] }
    | none => none

def World.run {nd : Nat} : World nd K R N → List (Op K) → Option (World nd K R N)
  | w, [] => some w
  | w, o :: os => match w.step E o with
    | some w' => World.run w' os
    | none => none

end Construct

end Alexandria.SOM.Init
