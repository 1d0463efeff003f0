import Verif.FilePool.Model

/-!
# Two places where calls are not atomic

`FileManager::open` releases `m_mutex` between `notifyIntentToOpen` and the registration of the file (`FileManager.icpp` 44 and
52-55), and the deleter of a handler takes `m_mutex` only after the last owner is gone (`FileManager.cpp` 104-113). Each is
modelled alone; an action names the thread that moves.
-/

namespace Alexandria.FilePool

/-! ### Opening with several threads -/

/-- Where a thread is in `FileManager::open`. -/
inductive OpenPC where
  /-- before line 44 -/
  | start
  /-- `notifyIntentToOpen` has returned, lines 46-50 -/
  | opening
  /-- the file is in `m_files`, before line 57 -/
  | registered
  /-- line 58 -/
  | done
  /-- `notifyIntentToOpen` has thrown -/
  | threw
  deriving DecidableEq, Repr

structure OpenState where
  mgr : Lru
  pcs : List OpenPC
  deriving DecidableEq, Repr

/-- Thread `i` moves; its file has the id `i`. All owners refuse to close their files. -/
def OpenState.step (s : OpenState) (i : Nat) : Option OpenState :=
  match s.pcs[i]? with
  | some .start =>
    if s.mgr.files.length ≥ s.mgr.limit then some { s with pcs := s.pcs.set i .threw }
    else some { s with pcs := s.pcs.set i .opening }
  | some .opening => some { mgr := { s.mgr with files := s.mgr.files ++ [i] }, pcs := s.pcs.set i .registered }
  | some .registered => some { mgr := s.mgr.notifyOpened i, pcs := s.pcs.set i .done }
  | _ => none

/-- An execution. -/
def OpenState.run (s : OpenState) : List Nat → Option OpenState
  | [] => some s
  | i :: is => (s.step i).bind (fun s => s.run is)

/-- `n` threads that will each open a file. -/
def OpenState.new (limit n : Nat) : OpenState where
  mgr := Lru.new limit 1024
  pcs := List.replicate n .start

/-! ### The table of handlers with several threads -/

/-- The life of a handler. -/
inductive HandlerPC where
  /-- somebody owns it -/
  | live
  /-- the last owner has dropped it; the deleter has not taken `m_mutex` yet -/
  | expired
  /-- the deleter has run -/
  | gone
  deriving DecidableEq, Repr

/-- The handlers made for one path and the entry of `m_handlers` for it (a weak pointer). -/
structure TableState where
  entry : Option Nat
  hs : List HandlerPC
  deriving DecidableEq, Repr

inductive TableAction where
  /-- `getFileHandler`, `FileManager.cpp` 91-117 -/
  | get
  /-- the last owner of handler `h` drops it -/
  | drop (h : Nat)
  /-- the deleter of handler `h`, lines 105-112 -/
  | delete (h : Nat)
  deriving DecidableEq, Repr

def TableState.step (s : TableState) : TableAction → Option TableState
  | .get =>
    if (s.entry.bind (fun h => s.hs[h]?)) = some .live then some s
    else some { entry := some s.hs.length, hs := s.hs ++ [.live] }
  | .drop h => if s.hs[h]? = some .live then some { s with hs := s.hs.set h .expired } else none
  | .delete h => if s.hs[h]? = some .expired then some { entry := none, hs := s.hs.set h .gone } else none

def TableState.run (s : TableState) : List TableAction → Option TableState
  | [] => some s
  | a :: as => (s.step a).bind (fun s => s.run as)

def TableState.new : TableState := { entry := none, hs := [] }

end Alexandria.FilePool
