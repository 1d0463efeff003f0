/-!
# Threads that open and close files again and again

`FileManager::open` and `FileManager::close` (`FileManager.icpp` 41-71) with `LRUFileManager` (`LRUFileManager.cpp` 39-99), step by step, for any number of threads. Only the numbers
of files matter here, so `m_files` and `m_sorted_ids` are counted; which file is meant is left out. A thread that makes room (lines 43-53) closes a file as any other;
that the iterator of line 44 can be lost while the lock is released is not in this model.
-/

namespace Alexandria.FilePool

/-- Where a thread is. -/
inductive LoopPC where
  /-- outside of the manager -/
  | idle
  /-- `notifyIntentToOpen` has returned (`FileManager.icpp` 44) -/
  | opening
  /-- the operating system has opened the file (line 50) -/
  | opened
  /-- the file is in `m_files` (line 54) -/
  | filed
  /-- the operating system has closed the file (line 63) -/
  | closing
  /-- `notifyClosedFile` has returned (line 65) -/
  | removed
  deriving DecidableEq, Repr

structure Loop where
  limit : Nat
  /-- files that are open for the operating system -/
  os : Nat
  /-- the size of `m_files` -/
  files : Nat
  /-- the size of `m_sorted_ids` -/
  sorted : Nat
  pcs : List LoopPC
  deriving DecidableEq, Repr

inductive LoopAction where
  /-- thread `i` calls `open` and makes the test (`LRUFileManager.cpp` 42); if there is no room the call throws -/
  | open (i : Nat)
  /-- the operating system cannot open the file: `open` throws -/
  | fail (i : Nat)
  /-- thread `i` calls `close` for a file that nobody is closing -/
  | close (i : Nat)
  /-- thread `i` makes its next step -/
  | move (i : Nat)
  deriving DecidableEq, Repr

def Loop.new (limit n : Nat) : Loop := ⟨limit, 0, 0, 0, List.replicate n .idle⟩

def Loop.step (s : Loop) : LoopAction → Option Loop
  | .open i => if s.pcs[i]? = some .idle then (if s.files ≥ s.limit then some s else some { s with pcs := s.pcs.set i .opening }) else none
  | .fail i => if s.pcs[i]? = some .opening then some { s with pcs := s.pcs.set i .idle } else none
  | .close i =>
    if s.pcs[i]? = some .idle ∧ s.pcs.count .closing < s.sorted then some { s with os := s.os - 1, pcs := s.pcs.set i .closing }
    else none
  | .move i => match s.pcs[i]? with
    | some .opening => some { s with os := s.os + 1, pcs := s.pcs.set i .opened }
    | some .opened => some { s with files := s.files + 1, pcs := s.pcs.set i .filed }
    | some .filed => some { s with sorted := s.sorted + 1, pcs := s.pcs.set i .idle }
    | some .closing => some { s with sorted := s.sorted - 1, pcs := s.pcs.set i .removed }
    | some .removed => some { s with files := s.files - 1, pcs := s.pcs.set i .idle }
    | _ => none

def Loop.run (s : Loop) : List LoopAction → Option Loop
  | [] => some s
  | a :: as => match s.step a with
    | none => none
    | some s' => s'.run as

/-- `getUsed` (`LRUFileManager.cpp` 93-95). -/
def Loop.used (s : Loop) : Nat := s.sorted

/-- `getAvailable` (`LRUFileManager.cpp` 97-99), in `unsigned` arithmetic. -/
def Loop.available (s : Loop) : Nat := (s.limit + 2 ^ 32 - s.sorted) % 2 ^ 32

end Alexandria.FilePool
