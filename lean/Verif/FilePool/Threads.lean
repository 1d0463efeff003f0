import Verif.FilePool.Model

/-!
# The pool with several threads

Files: `FilePool/FilePool/_impl/{FileHandler,FileManager,FileAccessor}.icpp`, `FilePool/src/lib/{FileHandler,FileManager,LRUFileManager}.cpp`.

A *request* is one call of `getAccessor` together with the life of its accessor, up to the end of the destructor of the accessor, or one call of
`closeAll` (`FileManager.cpp` 75-88). A state
gives the stage that each request is in; any request may make the next step. A step is a part of the code between two operations
on mutexes: `m_mutex` of the manager is never held while another mutex is taken, so that a section under it is one step; `m_handler_mutex`
of a handler is held over many steps, and the state records the request that holds it.

Simplifications. The handlers and the manager live on. All streams have one type. Requests do not try (`kTry`). A request is in one thread at a
time; which one is left open, which allows more interleavings than threads have. `m_file_mutex` records its holders. The order of the map `m_files` is the order in
which the files were opened. The function object of a callback is deleted with its block, while it runs, and not used after that. The metadata block is
allocated in the step that registers it (nobody else knows its address before). The close of the operating system does not fail.
-/

namespace Alexandria.FilePool.Threads

/-- The requests: the handler and the mode of each, and the limit of the manager. -/
structure Params where
  limit : Nat
  target : Nat → Nat
  write : Nat → Bool
  /-- the request is not one for an accessor, but a call of `closeAll` -/
  sweep : Nat → Bool := fun _ => false

/-- A handler: `m_is_readonly`, the keys of `m_available_fd`, the holders of `m_file_mutex`, and the holder of `m_handler_mutex`. -/
structure Hd where
  readOnly : Bool
  avail : List Id
  writer : Option Nat
  readers : List Nat
  holder : Option Nat
  deriving DecidableEq, Repr

/-- Where a request is. -/
inductive Stage where
  /-- before the lock of the file, `FileHandler.icpp` 35 and 93 -/
  | wantFile
  /-- before the lock of the handler, 38 and 96 -/
  | wantHandler
  /-- in the loop that closes the idle descriptors of the other mode, 41-47 and 99-105 -/
  | changing
  /-- in `FileManager::close`, called from that loop: `FileManager.icpp` 67 -/
  | dropping (id : Id)
  /-- before the search for an idle descriptor, 60 and 108 -/
  | looking
  /-- before the `while` of `notifyIntentToOpen`, `LRUFileManager.cpp` 41 -/
  | intent
  /-- before the call of `close_call`, `LRUFileManager.cpp` 47: the iterator is at `node`, the callback is for `id` of handler `owner` -/
  | asking (node : Nat) (id : Id) (owner : Nat)
  /-- the callback has found `id` and will close it, `FileHandler.cpp` 42 -/
  | closing (id : Id) (owner : Nat)
  /-- the same, in `FileManager::close`: `FileManager.icpp` 67 -/
  | closed (id : Id) (owner : Nat)
  /-- the callback has returned `false`, `LRUFileManager.cpp` 48 -/
  | refused (node : Nat)
  /-- `notifyIntentToOpen` has returned, `FileManager.icpp` 46 -/
  | opening
  /-- before `notifyOpenedFile`, `FileManager.icpp` 57 -/
  | registered (id : Id)
  /-- before `notifyUsed`, `FileHandler.icpp` 79 and 134 -/
  | taken (id : Id)
  /-- the accessor is in use -/
  | held (id : Id)
  /-- the callback of the destructor of the accessor has returned, `FileAccessor.icpp` 37 and 51; or an exception has released the handler -/
  | returned
  /-- in the second loop of `closeAll`, `FileManager.cpp` 85, with these blocks to come -/
  | sweep (l : List Id)
  /-- in the callback of `id`, called from `closeAll` (86): before the lock of handler `owner` -/
  | sweepAsk (id : Id) (owner : Nat) (l : List Id)
  /-- the same, `id` was found -/
  | sweepClosing (id : Id) (owner : Nat) (l : List Id)
  /-- the same, in `FileManager::close`: `FileManager.icpp` 67 -/
  | sweepClosed (id : Id) (owner : Nat) (l : List Id)
  /-- the accessor is gone, or `getAccessor` has thrown, or `closeAll` has returned -/
  | finished
  deriving DecidableEq, Repr

/-- The state: `m_files`, the owners in the closing callbacks, `m_sorted_ids` (a list of nodes; a node that is erased is never found again)
and the next node, the handlers and the requests. -/
structure State where
  files : List Id
  owner : Id → Nat
  sorted : List (Nat × Id)
  next : Nat
  hds : Nat → Hd
  stage : Nat → Stage

def State.init : State where
  files := []
  owner := fun _ => 0
  sorted := []
  next := 0
  hds := fun _ => { readOnly := true, avail := [], writer := none, readers := [], holder := none }
  stage := fun _ => .wantFile

/-- What a step comes to. -/
inductive Next where
  | ok (s : State)
  /-- waits for a lock that is held by another request, or has nothing to do -/
  | waits
  /-- the allocator does not return the address of a block that is in use -/
  | infeasible
  /-- undefined behaviour -/
  | ub

/-- Request `r` moves; `newId` is the address of a metadata block if one is allocated, `osOk` tells whether the file can be opened. -/
structure Action where
  r : Nat
  newId : Id := 0
  osOk : Bool := true
  deriving DecidableEq, Repr

def upd {α : Type} (f : Nat → α) (k : Nat) (v : α) : Nat → α := fun i => if i = k then v else f i

def State.to (s : State) (r : Nat) (st : Stage) : State := { s with stage := upd s.stage r st }

def State.setHd (s : State) (h : Nat) (hd : Hd) : State := { s with hds := upd s.hds h hd }

/-- Releasing the lock of the file. -/
def Hd.unlockFile (hd : Hd) (r : Nat) (write : Bool) : Hd :=
  if write then { hd with writer := none } else { hd with readers := hd.readers.erase r }

/-- An exception leaves `getAccessor`: the handler is released (`FileHandler.icpp` 38 and 96), and next the file (31 and 89). -/
def State.fail (P : Params) (s : State) (r : Nat) : State :=
  (s.setHd (P.target r) { s.hds (P.target r) with holder := none }).to r .returned

/-- The loop variable of `notifyIntentToOpen` comes to the nodes `rest` (`LRUFileManager.cpp` 43-46, and 54-56 at the end). -/
def State.askNext (P : Params) (s : State) (r : Nat) : List (Nat × Id) → Next
  | [] => .ok (s.fail P r)
  | (n, id) :: _ => if id ∈ s.files then .ok (s.to r (.asking n id (s.owner id))) else .ub

/-- Insertion into the map `m_available_fd`. -/
def insertId (id : Id) : List Id → List Id
  | [] => [id]
  | x :: xs => if id < x then id :: x :: xs else x :: insertId id xs

/-- The ids in `m_sorted_ids`, the oldest first. -/
def ids (l : List (Nat × Id)) : List Id := l.map (·.2)

/-- The nodes of `m_sorted_ids`. -/
def nodes (l : List (Nat × Id)) : List Nat := l.map (·.1)

/-- The nodes after `node`. -/
def after (node : Nat) : List (Nat × Id) → List (Nat × Id)
  | [] => []
  | x :: xs => if x.1 = node then xs else after node xs

/-- `m_sorted_ids` without the node of `id` (found through `m_current_pos`). -/
def dropId (id : Id) (l : List (Nat × Id)) : List (Nat × Id) := l.filter (fun x => x.2 ≠ id)

/-- `notifyClosedFile`, `LRUFileManager.cpp` 67-72. -/
def State.notifyClosed (s : State) (id : Id) : Option State :=
  if id ∈ ids s.sorted then some { s with sorted := dropId id s.sorted } else none

/-- The end of `FileManager::close`, `FileManager.icpp` 67-70. -/
def State.eraseFile (s : State) (id : Id) : Option State :=
  if id ∈ s.files then some { s with files := s.files.erase id } else none

/-- One step of a request. -/
def step (P : Params) (s : State) (a : Action) : Next :=
  let r := a.r
  let h := P.target r
  let hd := s.hds h
  match s.stage r with
  -- `FileHandler.icpp` 31-36 and 89-94
  | .wantFile =>
    -- `FileManager.cpp` 78-82
    if P.sweep r then .ok (s.to r (.sweep s.files))
    else if P.write r then
      if hd.writer = none ∧ hd.readers = [] then .ok ((s.setHd h { hd with writer := some r }).to r .wantHandler) else .waits
    else
      if hd.writer = none then .ok ((s.setHd h { hd with readers := r :: hd.readers }).to r .wantHandler) else .waits
  -- 38 and 96
  | .wantHandler =>
    if hd.holder = none then .ok ((s.setHd h { hd with holder := some r }).to r .changing) else .waits
  -- 41-47 and 99-105; `TypedFdWrapper::close` is `FileHandler.h` 90-92, its first half `FileManager.icpp` 63-65
  | .changing =>
    if hd.readOnly = !P.write r then .ok (s.to r .looking)
    else match hd.avail with
      | [] => .ok ((s.setHd h { hd with readOnly := !P.write r }).to r .looking)
      | id :: _ =>
        match s.notifyClosed id with
        | none => .ub
        | some s => .ok (s.to r (.dropping id))
  | .dropping id =>
    match s.eraseFile id with
    | none => .ub
    | some s => .ok ((s.setHd h { hd with avail := hd.avail.filter (· ≠ id) }).to r .changing)
  -- 49 and 60-71, 108-127
  | .looking =>
    if P.write r = true ∧ 1 < hd.avail.length then .ub
    else match hd.avail with
      | [] => .ok (s.to r .intent)
      | id :: rest => .ok ((s.setHd h { hd with avail := rest }).to r (.taken id))
  -- `LRUFileManager.cpp` 41-46
  | .intent => if s.files.length < P.limit then .ok (s.to r .opening) else s.askNext P r s.sorted
  -- `FileHandler.cpp` 38-41: a mutex that the same thread has locked must not be locked again
  | .asking n id o =>
    if (s.hds o).holder = some r then .ub
    else if (s.hds o).holder ≠ none then .waits
    else if id ∈ (s.hds o).avail then .ok ((s.setHd o { s.hds o with holder := some r }).to r (.closing id o))
    else .ok (s.to r (.refused n))
  -- `FileHandler.cpp` 42, `FileManager.icpp` 63-65
  | .closing id o =>
    match s.notifyClosed id with
    | none => .ub
    | some s => .ok (s.to r (.closed id o))
  -- `FileManager.icpp` 67-70, `FileHandler.cpp` 43-44, `LRUFileManager.cpp` 50-52
  | .closed id o =>
    match s.eraseFile id with
    | none => .ub
    | some s => .ok ((s.setHd o { s.hds o with avail := (s.hds o).avail.filter (· ≠ id), holder := none }).to r .intent)
  -- `LRUFileManager.cpp` 43: the iterator is advanced; this is undefined if its node has been erased
  | .refused n => if n ∈ nodes s.sorted then s.askNext P r (after n s.sorted) else .ub
  -- `FileManager.icpp` 46-55
  | .opening =>
    if a.osOk = false then .ok (s.fail P r)
    else if a.newId ∈ s.files then .infeasible
    else .ok ({ s with files := s.files ++ [a.newId], owner := upd s.owner a.newId h }.to r (.registered a.newId))
  -- `LRUFileManager.cpp` 60-65
  | .registered id => .ok ({ s with sorted := s.sorted ++ [(s.next, id)], next := s.next + 1 }.to r (.taken id))
  -- `LRUFileManager.cpp` 74-87, and the release of the handler
  | .taken id =>
    if id ∈ ids s.sorted then
      .ok ((({ s with sorted := dropId id s.sorted ++ [(s.next, id)], next := s.next + 1 } : State).setHd h { hd with holder := none }).to r
        (.held id))
    else .ub
  -- `FileAccessor.icpp` 36 and 50, `FileHandler.icpp` 74-77 and 129-132
  | .held id => if hd.holder = none then .ok ((s.setHd h { hd with avail := insertId id hd.avail }).to r .returned) else .waits
  -- `FileAccessor.icpp` 37 and 51: the lock of the file is a member
  | .returned => .ok ((s.setHd h (hd.unlockFile r (P.write r))).to r .finished)
  -- `FileManager.cpp` 85-87: the block must not have been deleted
  | .sweep [] => .ok (s.to r .finished)
  | .sweep (id :: l) => if id ∈ s.files then .ok (s.to r (.sweepAsk id (s.owner id) l)) else .ub
  -- `FileHandler.cpp` 38-41
  | .sweepAsk id o l =>
    if (s.hds o).holder ≠ none then .waits
    else if id ∈ (s.hds o).avail then .ok ((s.setHd o { s.hds o with holder := some r }).to r (.sweepClosing id o l))
    else .ok (s.to r (.sweep l))
  -- `FileHandler.cpp` 42, `FileManager.icpp` 63-65
  | .sweepClosing id o l =>
    match s.notifyClosed id with
    | none => .ub
    | some s => .ok (s.to r (.sweepClosed id o l))
  -- `FileManager.icpp` 67-70, `FileHandler.cpp` 43-44
  | .sweepClosed id o l =>
    match s.eraseFile id with
    | none => .ub
    | some s => .ok ((s.setHd o { s.hds o with avail := (s.hds o).avail.filter (· ≠ id), holder := none }).to r (.sweep l))
  | .finished => .waits

/-- An execution. -/
def run (P : Params) (s : State) : List Action → Next
  | [] => .ok s
  | a :: as =>
    match step P s a with
    | .ok s => run P s as
    | x => x

end Alexandria.FilePool.Threads
