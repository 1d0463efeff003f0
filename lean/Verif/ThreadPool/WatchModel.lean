import Verif.ThreadPool.NestedModel

/-!
# Threads that ask the pool how far it is

`NestedModel.lean` with one more thread, which calls `queued()`, `running()`, `activeThreads()` and `checkForException()` while the
workers and the client go on. The flags are read one after the other. `running()` holds `m_queue_mutex` while it reads them, so that nobody can
take a task, submit one or look at the queue meanwhile; `activeThreads()` holds no lock.
-/

namespace Alexandria.ThreadPool

variable {E : Type}

/-- What a call has given. -/
inductive Reply where
  | queued (n : Nat)
  | running (n : Nat)
  | active (n : Nat)
  | exception (b : Bool)
  deriving DecidableEq, Repr

/-- Where the asking thread is: outside of the pool, in `std::accumulate` of `running()` (`ThreadPool.cpp` 135) or of `activeThreads()` (140) with the flags
it has read, or back with an answer. -/
inductive Obs where
  | free
  | running (reads : List Bool)
  | active (reads : List Bool)
  | answered (r : Reply)
  deriving DecidableEq, Repr

structure Watch (E : Type) where
  s : State E
  obs : Obs
  deriving DecidableEq, Repr

inductive WAction where
  /-- a step of the pool, of the client or of a task -/
  | pool (a : NAction)
  /-- the thread calls a function -/
  | queued
  | running
  | active
  | exception
  /-- the thread reads the next flag, or returns when there is none left -/
  | read
  deriving DecidableEq, Repr

/-- The step locks `m_queue_mutex` (`ThreadPool.cpp` 52, 148, 173). -/
def needsLock (s : State E) : NAction → Bool
  | .nested _ => true
  | .base .submit => true
  | .base (.worker i) => match s.w[i]? with
    | some w => match w.pc with
      | .lock => true
      | _ => false
    | none => false
  | .base .client => match s.client with
    | .blockQueue => true
    | _ => false
  | .base .block => false
  | .base .destroy => false

/-- The asking thread holds `m_queue_mutex` (`ThreadPool.cpp` 134). -/
def Obs.locked : Obs → Bool
  | .running _ => true
  | _ => false

/-- The asking thread is outside of the pool. -/
def Obs.outside : Obs → Bool
  | .free => true
  | .answered _ => true
  | _ => false

/-- One step. `queued()` (`ThreadPool.cpp` 128-131) is one critical section, `checkForException(false)` (117-126) one read; `running()` is 133-137, `activeThreads()`
139-142. Simplification: the asking thread does not wait for the lock of others, whose critical sections are one step each; the program does not
ask a pool that has been destroyed. -/
def wstep (body : Nat → Option E) (x : Watch E) : WAction → Option (Watch E)
  | .pool a => if x.obs.locked && needsLock x.s a then none else (nstep body x.s a).map fun s => ⟨s, x.obs⟩
  | .queued => if x.obs.outside then some ⟨x.s, .answered (.queued x.s.queue.length)⟩ else none
  | .exception => if x.obs.outside then some ⟨x.s, .answered (.exception x.s.exc.isSome)⟩ else none
  | .running => if x.obs.outside then some ⟨x.s, .running []⟩ else none
  | .active => if x.obs.outside then some ⟨x.s, .active []⟩ else none
  | .read => match x.obs with
    | .running r => match x.s.w[r.length]? with
      | some w => some ⟨x.s, .running (r ++ [w.sleeping])⟩
      | none => some ⟨x.s, .answered (.running (x.s.w.length - r.count true))⟩
    | .active r => match x.s.w[r.length]? with
      | some w => some ⟨x.s, .active (r ++ [w.done])⟩
      | none => some ⟨x.s, .answered (.active (x.s.w.length - r.count true))⟩
    | _ => none

/-- An execution. -/
def wrun (body : Nat → Option E) (x : Watch E) : List WAction → Option (Watch E)
  | [] => some x
  | a :: as => match wstep body x a with
    | none => none
    | some y => wrun body y as

end Alexandria.ThreadPool
