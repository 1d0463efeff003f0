import Verif.ThreadPool.Model
import Verif.Common.Outcome

/-!
# Tasks that use the pool

`Model.lean` with one more action: a running task calls `submit` (`ThreadPool.cpp` 172-179) on its own pool. The second part is a pool
without workers, where `submit` runs the task while it holds `m_queue_mutex`.
-/

namespace Alexandria.ThreadPool

variable {E : Type}

inductive NAction where
  | base (a : Action)
  /-- the task that worker `i` runs calls `submit` -/
  | nested (i : Nat)
  deriving DecidableEq, Repr

/-- A task calls `submit` (`ThreadPool.cpp` 172-179); there is a worker, the one that runs the task. -/
def stepNested (s : State E) (i : Nat) : Option (State E) :=
  match s.w[i]? with
  | none => none
  | some w =>
    match w.pc with
    | .running _ => some { s with submitted := s.submitted ++ [s.submitted.length], queue := s.queue ++ [s.submitted.length] }
    | _ => none

def nstep (body : Nat → Option E) (s : State E) : NAction → Option (State E)
  | .base a => step body s a
  | .nested i => stepNested s i

/-- An execution with tasks that submit tasks. -/
def nrun (body : Nat → Option E) (s : State E) : List NAction → Option (State E)
  | [] => some s
  | a :: as => match nstep body s a with
    | none => none
    | some s' => nrun body s' as

/-- What a task does with the pool, in order: it submits another task, asks for `queued()` or `running()`, asks for `activeThreads()`, or ends, normally or by an exception. -/
inductive Job where
  | returns
  | throws
  | submits (inner rest : Job)
  | queries (rest : Job)
  | counts (rest : Job)
  deriving DecidableEq, Repr

/-- The call `task()` (`ThreadPool.cpp` 175) in a pool without workers; `locked` says that this thread holds `m_queue_mutex`: to lock a
`std::mutex` again is undefined behaviour. `submit` locks the mutex (line 173) and calls the task, `queued()` and `running()` lock it
(lines 129, 134), `activeThreads()` does not (139-142). The result is the number of jobs that have ended. -/
def call0 (locked : Bool) : Job → Outcome Unit Nat
  | .returns => .ok 1
  | .throws => .throw ()
  | .submits inner rest =>
    match (if locked then .ub else call0 true inner) with
    | .ok a => match call0 locked rest with
      | .ok b => .ok (a + b)
      | r => r
    | r => r
  | .queries rest => if locked then .ub else call0 locked rest
  | .counts rest => call0 locked rest

/-- `submit` of a pool without workers (`ThreadPool.cpp` 172-176), called from outside: the mutex is locked for the whole call. -/
def submit0 (j : Job) : Outcome Unit Nat := call0 true j

end Alexandria.ThreadPool
