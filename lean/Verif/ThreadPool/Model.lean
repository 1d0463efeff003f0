/-!
# Model of `AlexandriaKernel/src/lib/ThreadPool.cpp`

The pool, its workers and one client thread are a state machine; an execution is any sequence of actions, an action names
the thread that moves. Tasks are numbered in the order of submission; `body t` says whether task `t` returns normally (`none`) or
throws (`some e`).

Simplifications: a critical section under `m_queue_mutex` is one atomic step (the queue is only touched under the mutex); memory is
sequentially consistent (`m_exception_ptr` is not atomic, so the C++ standard gives no such guarantee: see C70); waiting times are
left out (a sleeping thread may wake at any moment). The precondition of `block()` ("submitting tasks until this method returns
is not allowed", `ThreadPool.h` 92) is built into the client: it submits only while it is not in `block()` or the destructor.
The ghost fields `submitted`, `assigned`, `begun`, `finished`, `lateStarts` record the history; no step reads them, except that
`submitted.length` numbers the next task.
-/

namespace Alexandria.ThreadPool

/-- Where a worker is in `Worker::operator()` (`ThreadPool.cpp` 48-76). -/
inductive PC (E : Type) where
  /-- line 49, reading the run flag -/
  | checkRun
  /-- line 49, reading `m_exception_ptr` -/
  | checkExc
  /-- line 52, before the critical section -/
  | lock
  /-- line 57-61, task copied and removed from the queue, not yet called -/
  | got (t : Nat)
  /-- line 62, inside the task -/
  | running (t : Nat)
  /-- line 64, about to write `m_exception_ptr` -/
  | caught (t : Nat) (e : E)
  /-- line 67 -/
  | noTask
  /-- line 68-69, before the flag is reset -/
  | asleep
  /-- line 73 -/
  | exit1
  /-- line 74 -/
  | exit2
  /-- line 75 -/
  | exit3
  /-- the thread function has returned -/
  | ended
  deriving DecidableEq, Repr

structure Worker (E : Type) where
  pc : PC E
  run : Bool
  sleeping : Bool
  done : Bool
  deriving DecidableEq, Repr

/-- Where the client is. -/
inductive Client (E : Type) where
  | idle
  /-- `block()` line 147, reading `m_exception_ptr` -/
  | blockExc
  /-- `block()` lines 148-150 -/
  | blockQueue
  /-- `block()` line 156, `waitWorkers` at flag `i` -/
  | wait (i : Nat)
  /-- `block()` line 158 -/
  | check
  /-- `block()` has returned -/
  | returned
  /-- `block()` has thrown -/
  | threw (e : E)
  /-- destructor line 164, about to clear run flag `i` -/
  | clear (i : Nat)
  /-- destructor line 166, waiting for done flag `i` -/
  | waitDone (i : Nat)
  /-- destructor line 167-169 -/
  | join
  | destroyed
  deriving DecidableEq, Repr

structure State (E : Type) where
  queue : List Nat
  exc : Option E
  w : List (Worker E)
  client : Client E
  submitted : List Nat
  assigned : List Nat
  begun : List Nat
  finished : List Nat
  lateStarts : Nat
  deriving DecidableEq, Repr

inductive Action where
  /-- worker `i` makes its next step -/
  | worker (i : Nat)
  /-- the client calls `submit` -/
  | submit
  /-- the client calls `block` -/
  | block
  /-- the client calls the destructor -/
  | destroy
  /-- the client makes its next step inside `block` or the destructor -/
  | client
  deriving DecidableEq, Repr

variable {E : Type}

/-- The constructor (`ThreadPool.cpp` 90-102). -/
def init (n : Nat) : State E :=
  ⟨[], none, List.replicate n ⟨.checkRun, true, false, false⟩, .idle, [], [], [], [], 0⟩

/-- One step of worker `i` (`ThreadPool.cpp` 48-76). -/
def stepWorker (body : Nat → Option E) (s : State E) (i : Nat) : Option (State E) :=
  match s.w[i]? with
  | none => none
  | some w =>
    match w.pc with
    | .checkRun => some { s with w := s.w.set i { w with pc := if w.run then .checkExc else .exit1 } }
    | .checkExc => some { s with w := s.w.set i { w with pc := if s.exc.isNone then .lock else .exit1 } }
    | .lock =>
      match s.queue with
      | [] => some { s with w := s.w.set i { w with pc := .noTask } }
      | t :: q => some { s with queue := q, assigned := s.assigned ++ [t], w := s.w.set i { w with pc := .got t } }
    | .got t => some { s with
        begun := s.begun ++ [t], w := s.w.set i { w with pc := .running t },
        lateStarts := if s.exc.isSome then s.lateStarts + 1 else s.lateStarts }
    | .running t =>
      match body t with
      | none => some { s with finished := s.finished ++ [t], w := s.w.set i { w with pc := .checkRun } }
      | some e => some { s with w := s.w.set i { w with pc := .caught t e } }
    | .caught t e => some { s with
        exc := some e, finished := s.finished ++ [t], w := s.w.set i { w with pc := .checkRun } }
    | .noTask => some { s with w := s.w.set i { w with pc := .asleep, sleeping := true } }
    | .asleep => some { s with w := s.w.set i { w with pc := .checkRun, sleeping := false } }
    | .exit1 => some { s with w := s.w.set i { w with pc := .exit2, sleeping := true } }
    | .exit2 => some { s with w := s.w.set i { w with pc := .exit3, done := true } }
    | .exit3 => some { s with w := s.w.set i { w with pc := .ended, run := false } }
    | .ended => none

/-- `submit` (`ThreadPool.cpp` 172-179). Without workers the task runs at once in the calling thread and an exception goes to the
caller. -/
def stepSubmit (s : State E) : Option (State E) :=
  match s.client with
  | .idle =>
    let t := s.submitted.length
    if s.w.isEmpty then
      some { s with
        submitted := s.submitted ++ [t], assigned := s.assigned ++ [t], begun := s.begun ++ [t], finished := s.finished ++ [t] }
    else some { s with submitted := s.submitted ++ [t], queue := s.queue ++ [t] }
  | _ => none

/-- One step of the client inside `block()` (`ThreadPool.cpp` 144-159) or the destructor (161-170). -/
def stepClient (s : State E) : Option (State E) :=
  match s.client with
  | .idle => none
  | .blockExc => some { s with client := if s.exc.isNone then .blockQueue else .wait 0 }
  | .blockQueue => some { s with client := if s.queue.isEmpty then .wait 0 else .blockExc }
  | .wait i =>
    match s.w[i]? with
    | none => some { s with client := .check }
    | some w => some { s with client := if w.sleeping then .wait (i + 1) else .wait i }
  | .check =>
    match s.exc with
    | none => some { s with client := .returned }
    | some e => some { s with client := .threw e }
  | .returned => some { s with client := .idle }
  | .threw _ => some { s with client := .idle }
  | .clear i =>
    match s.w[i]? with
    | none => some { s with client := .waitDone 0 }
    | some w => some { s with client := .clear (i + 1), w := s.w.set i { w with run := false } }
  | .waitDone i =>
    match s.w[i]? with
    | none => some { s with client := .join }
    | some w => some { s with client := if w.done then .waitDone (i + 1) else .waitDone i }
  | .join => if s.w.all (fun w => match w.pc with | .ended => true | _ => false) then some { s with client := .destroyed } else none
  | .destroyed => none

/-- One step of the whole system; `none` if the action is not possible. -/
def step (body : Nat → Option E) (s : State E) : Action → Option (State E)
  | .worker i => stepWorker body s i
  | .submit => stepSubmit s
  | .block => match s.client with
    | .idle => some { s with client := .blockExc }
    | _ => none
  | .destroy => match s.client with
    | .idle => some { s with client := .clear 0 }
    | _ => none
  | .client => stepClient s

/-- An execution. -/
def run (body : Nat → Option E) (s : State E) : List Action → Option (State E)
  | [] => some s
  | a :: as => match step body s a with
    | none => none
    | some s' => run body s' as

/-- `queued()` (`ThreadPool.cpp` 128-131). -/
def State.queued (s : State E) : Nat := s.queue.length

/-- `running()` (`ThreadPool.cpp` 133-137). Simplification: the flags are read in one step. -/
def State.runningCount (s : State E) : Nat := s.w.length - (s.w.filter (·.sleeping)).length

/-- `activeThreads()` (`ThreadPool.cpp` 139-142). Simplification: the flags are read in one step. -/
def State.activeThreads (s : State E) : Nat := s.w.length - (s.w.filter (·.done)).length

end Alexandria.ThreadPool
