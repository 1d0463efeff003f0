import Verif.ThreadPool.Model

/-!
# Infinite executions of the thread pool

A schedule says which thread is to move at each moment; where its action is not possible nothing happens. The tasks end: a worker
inside a task leaves it with its next step (`Model.lean`).
-/

namespace Alexandria.ThreadPool

variable {E : Type}

/-- The states of an execution under the schedule `σ`. -/
def trace (body : Nat → Option E) (s : State E) (σ : Nat → Action) : Nat → State E
  | 0 => s
  | k + 1 => (step body (trace body s σ k) (σ k)).getD (trace body s σ k)

namespace Spec

/-- The event occurs again and again. -/
def Often (p : Nat → Prop) : Prop := ∀ k, ∃ j, k ≤ j ∧ p j

/-- Every thread, the client included, gets to move again and again. -/
def Fair (n : Nat) (σ : Nat → Action) : Prop := Often (fun j => σ j = .client) ∧ ∀ i < n, Often fun j => σ j = .worker i

/-- The flag that says that worker `i` sleeps (or is done). -/
def Sleeps (s : State E) (i : Nat) : Prop := ∃ w, s.w[i]? = some w ∧ w.sleeping = true

/-- The client is not for ever out of step with a worker: if the flag of a worker is set again and again, the client moves again and
again at a moment at which it is set. -/
def Polls (body : Nat → Option E) (n : Nat) (σ : Nat → Action) : Prop :=
  ∀ i < n, Often (fun j => Sleeps (trace body (init n) σ j) i) → Often fun j => σ j = .client ∧ Sleeps (trace body (init n) σ j) i

/-- The client is inside `block()`. -/
def inBlock : Client E → Bool
  | .blockExc => true
  | .blockQueue => true
  | .wait _ => true
  | .check => true
  | _ => false

/-- `block()` has just returned or thrown. -/
def leftBlock : Client E → Bool
  | .returned => true
  | .threw _ => true
  | _ => false

/-- The client is inside the destructor. -/
def inDestructor : Client E → Bool
  | .clear _ => true
  | .waitDone _ => true
  | .join => true
  | _ => false

end Spec

end Alexandria.ThreadPool
