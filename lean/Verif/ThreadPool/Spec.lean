import Verif.ThreadPool.Model

/-!
# Specification of the thread pool

Read off the state of the system alone: which tasks have been handed to a worker and which accesses are made to
`m_exception_ptr`.
-/

namespace Alexandria.ThreadPool.Spec

variable {E : Type}

/-- The task a worker has in hand (taken from the queue and not finished). -/
def inHand : PC E → Option Nat
  | .got t => some t
  | .running t => some t
  | .caught t _ => some t
  | _ => none

/-- The worker is executing the code of a task. -/
def isRunning : PC E → Bool
  | .running _ => true
  | _ => false

/-- Accesses to the non-atomic `m_exception_ptr` by the next step of a worker: `true` for a write. -/
def excAccess : PC E → Option Bool
  | .checkExc => some false
  | .caught _ _ => some true
  | _ => none

/-- Two workers are about to access `m_exception_ptr`, at least one to write it, none of them synchronised. -/
def Race (s : State E) : Prop :=
  ∃ (i j : Nat) (v w : Worker E) (b : Bool), i ≠ j ∧ s.w[i]? = some v ∧ s.w[j]? = some w ∧ excAccess v.pc = some true ∧
    excAccess w.pc = some b

end Alexandria.ThreadPool.Spec
