import Mathlib.Logic.Function.Basic
import Mathlib.Data.List.Basic

/-!
# Model of values that are computed on first use

`Polynomial::derivative`, `Polynomial::indefiniteIntegral` (`MathUtils/src/lib/function/Polynomial.cpp` 53-74) and `QualifiedName::hash`
(`XYDataset/src/lib/QualifiedName.cpp` 85-91) are `const` functions with the same shape: they look at a mutable member, compute and store its
value if it is empty, and return the member.  The model has the accesses to these members one by one, by several threads in any order;
the other members are only read after construction and do not matter.  Memory is sequentially consistent: the theorems say when there are
no data races, which is when this is what the language promises.
-/

namespace Alexandria.Caches

variable {ι V τ : Type}

/-- The calls of a thread, with the member that they are about. -/
inductive Call (ι : Type) where
  /-- `derivative()`, `indefiniteIntegral()`, `hash()`. -/
  | use (i : ι)
  /-- The copy of an object, which copies the member as it is (`QualifiedName.h` 95, 101, implicit for `Polynomial`). -/
  | copy (i : ι)
  deriving DecidableEq, Repr

def Call.cell : Call ι → ι
  | .use i => i
  | .copy i => i

/-- Where a thread is in its first call: before the test, before the assignment, before the `return`. -/
inductive Pc where
  | test
  | store
  | load
  deriving DecidableEq, Repr

structure Thread (ι V : Type) where
  calls : List (Call ι)
  pc : Pc := .test
  results : List V := []
  deriving Repr

/-- An access to a member. -/
structure Access (τ ι : Type) where
  thread : τ
  write : Bool
  cell : ι
  deriving DecidableEq, Repr

/-- What the members are: which values count as empty (a null pointer, the number zero), and what is stored. -/
structure Cells (ι V : Type) where
  empty : V → Bool
  fill : ι → V

structure State (τ ι V : Type) where
  cells : ι → V
  threads : τ → Thread ι V
  log : List (Access τ ι)

section
variable [DecidableEq τ] [DecidableEq ι]

/-- The next access of thread `t` (`Polynomial.cpp` 54, 59, 61 and 65, 71, 73; `QualifiedName.cpp` 86, 88, 90); nothing if it has finished. -/
def step (C : Cells ι V) (s : State τ ι V) (t : τ) : State τ ι V :=
  let th := s.threads t
  match th.calls with
  | [] => s
  | .copy i :: cs =>
    ⟨s.cells, Function.update s.threads t ⟨cs, .test, th.results ++ [s.cells i]⟩, s.log ++ [⟨t, false, i⟩]⟩
  | .use i :: cs =>
    match th.pc with
    | .test => ⟨s.cells, Function.update s.threads t { th with pc := if C.empty (s.cells i) then .store else .load }, s.log ++ [⟨t, false, i⟩]⟩
    | .store => ⟨Function.update s.cells i (C.fill i), Function.update s.threads t { th with pc := .load }, s.log ++ [⟨t, true, i⟩]⟩
    | .load => ⟨s.cells, Function.update s.threads t ⟨cs, .test, th.results ++ [s.cells i]⟩, s.log ++ [⟨t, false, i⟩]⟩

/-- An execution: which thread makes its next access. -/
def run (C : Cells ι V) : List τ → State τ ι V → State τ ι V
  | [], s => s
  | t :: ts, s => run C ts (step C s t)

end

/-- The threads start with the given calls. -/
def start (init : ι → V) (program : τ → List (Call ι)) : State τ ι V := ⟨init, fun t => { calls := program t }, []⟩

end Alexandria.Caches
