import Verif.Common.Outcome

/-!
# Model of `FilePool`

Files: `FilePool/src/lib/{LRUFileManager,FileManager,FileHandler}.cpp`, `FilePool/FilePool/_impl/{FileManager,FileHandler,
FileAccessor}.icpp`.

`Lru` is the state of the manager, `World` adds the handlers and the accessors that are alive. A call either returns normally (`ok`,
with a result that may be "an exception was thrown"), or is undefined behaviour (`ub`), or is not an execution of the program at all
(`throw`: the allocator does not return the address of a block that is in use, and only objects that exist can be
released).

Simplifications. Calls are atomic (the locks `m_mutex` and `m_handler_mutex` are held for most of each call; what happens when
`open` is interrupted by another thread is modelled apart in `Verif/FilePool/Conc.lean`, and calls in
parallel in `Verif/FilePool/Threads.lean`). A call that has to wait for
`m_file_mutex` yields `blocked` and leaves no trace (a waiting writer does not hold up new readers here, in Boost it does). A file
id is the address of its metadata, a number. The time stamps and counters of the metadata are left out. Whether the operating
system can open the file is an input of the call.
-/

namespace Alexandria.FilePool

abbrev Id := Nat

/-- What makes a transition impossible (not an error of the program). -/
inductive Infeasible where
  /-- the allocator would have returned the address of a live block -/
  | addressInUse
  /-- there is no such accessor or handler -/
  | noSuchObject
  deriving DecidableEq, Repr

abbrev Run (α : Type) := Outcome Infeasible α

/-- `FileManager::m_files` (the keys), `LRUFileManager::m_sorted_ids` and `m_limit`. The map `m_current_pos` sends an id to the
position of its element of `m_sorted_ids`; the model looks the element up instead. -/
structure Lru where
  limit : Nat
  files : List Id
  sorted : List Id
  deriving DecidableEq, Repr

/-- The constructor, `LRUFileManager.cpp` 26-33; `rlim` is the value `getrlimit` gives. The difference is one of `rlim_t` (64 bits), of which
`m_limit` keeps 32 bits. The assertion that the value is more than 3 is left out, as in a build with `NDEBUG`. -/
def Lru.new (limit rlim : Nat) : Lru where
  limit := if limit = 0 then (rlim + 2 ^ 64 - 3) % 2 ^ 64 % 2 ^ 32 else limit
  files := []
  sorted := []

/-- `getUsed`, `LRUFileManager.cpp` 93-95. -/
def Lru.used (m : Lru) : Nat := m.sorted.length

/-- `getAvailable`, `LRUFileManager.cpp` 97-99, in `unsigned` arithmetic (32 bits). -/
def Lru.available (m : Lru) : Nat := (m.limit + 2 ^ 32 - m.sorted.length) % 2 ^ 32

/-- `notifyOpenedFile`, `LRUFileManager.cpp` 60-65. -/
def Lru.notifyOpened (m : Lru) (id : Id) : Lru := { m with sorted := m.sorted ++ [id] }

/-- `notifyClosedFile`, `LRUFileManager.cpp` 67-72: erasing at a position that `m_current_pos` does not have is undefined. -/
def Lru.notifyClosed (m : Lru) (id : Id) : Run Lru :=
  if id ∈ m.sorted then .ok { m with sorted := m.sorted.erase id } else .ub

/-- `notifyUsed`, `LRUFileManager.cpp` 74-87. -/
def Lru.notifyUsed (m : Lru) (id : Id) : Run Lru :=
  if id ∈ m.sorted then .ok { m with sorted := m.sorted.erase id ++ [id] } else .ub

/-- `FileManager::close`, `FileManager.icpp` 61-71. -/
def Lru.close (m : Lru) (id : Id) : Run Lru := do
  let m ← m.notifyClosed id
  if id ∈ m.files then .ok { m with files := m.files.erase id } else .ub

/-- The `for` loop in `notifyIntentToOpen`, `LRUFileManager.cpp` 43-53: ask one owner after the other, until one has closed its
file. `ask` is the callback `m_request_close`; it runs without the lock and may change the state. The loop goes through the list as
it was at the start: a callback that refuses changes nothing (see `Verif/FilePool/Lemmas.lean`). -/
def askAll {σ : Type} (ask : σ → Id → Run (σ × Bool)) : List Id → σ → Run (σ × Bool)
  | [], s => .ok (s, false)
  | id :: rest, s => do
    let (s, closed) ← ask s id
    if closed then .ok (s, true) else askAll ask rest s

/-- The `while` loop in `notifyIntentToOpen`, `LRUFileManager.cpp` 39-58, with at most `fuel` rounds; `false` means that the
exception was thrown. More rounds than there are files cannot be needed (each successful round closes one): `ub` here. -/
def intentLoop {σ : Type} (mgr : σ → Lru) (ask : σ → Id → Run (σ × Bool)) : Nat → σ → Run (σ × Bool)
  | 0, _ => .ub
  | fuel + 1, s =>
    if (mgr s).files.length ≥ (mgr s).limit then do
      let (s, closed) ← askAll ask (mgr s).sorted s
      if closed then intentLoop mgr ask fuel s else .ok (s, false)
    else .ok (s, true)

/-- `notifyIntentToOpen`. -/
def notifyIntent {σ : Type} (mgr : σ → Lru) (ask : σ → Id → Run (σ × Bool)) (s : σ) : Run (σ × Bool) :=
  intentLoop mgr ask ((mgr s).files.length + 1) s

/-- The registration in `FileManager::open`, `FileManager.icpp` 52-57, for a metadata block at address `id`. -/
def Lru.register (m : Lru) (id : Id) : Run Lru :=
  if id ∈ m.files then .throw .addressInUse
  else .ok ({ m with files := m.files ++ [id] }.notifyOpened id)

/-! ### The manager alone, with owners that accept or refuse -/

/-- A closing callback that accepts (closing the file through the manager, as `FileHandler::close` does) or refuses. -/
def answer (accepts : Id → Bool) (m : Lru) (id : Id) : Run (Lru × Bool) :=
  if accepts id then do
    let m ← m.close id
    .ok (m, true)
  else .ok (m, false)

/-- What a call to `open` comes to. -/
inductive OpenResult where
  | opened (id : Id)
  /-- `notifyIntentToOpen` threw -/
  | limitReached
  /-- `OpenCloseTrait::open` threw -/
  | cannotOpen
  deriving DecidableEq, Repr

/-- `FileManager::open`, `FileManager.icpp` 41-59. -/
def Lru.open (m : Lru) (accepts : Id → Bool) (newId : Id) (osOk : Bool) : Run (Lru × OpenResult) := do
  let (m, room) ← notifyIntent id (answer accepts) m
  if !room then .ok (m, .limitReached)
  else if !osOk then .ok (m, .cannotOpen)
  else do
    let m ← m.register newId
    .ok (m, .opened newId)

/-- A call to the manager. -/
inductive MgrOp where
  | open (accepts : Id → Bool) (newId : Id) (osOk : Bool)
  | close (id : Id)
  | used (id : Id)

/-- One call. Closing or using a file that is not open is undefined behaviour. -/
def Lru.step (m : Lru) : MgrOp → Run Lru
  | .open accepts newId osOk => do
    let (m, _) ← m.open accepts newId osOk
    .ok m
  | .close id => m.close id
  | .used id => m.notifyUsed id

/-- A history of calls. -/
def Lru.run (m : Lru) : List MgrOp → Run Lru
  | [] => .ok m
  | op :: ops => do
    let m ← m.step op
    m.run ops

/-! ### Handlers and accessors -/

abbrev Ty := Nat

/-- `boost::shared_mutex`. -/
structure SharedMutex where
  excl : Bool
  shared : Nat
  deriving DecidableEq, Repr

/-- A `FileHandler`: `path`, `m_is_readonly`, `m_available_fd` (in the order of the map, ascending ids, each with the type of its
stream) and `m_file_mutex`. `alive` is false once the object has been destroyed. -/
structure Handler where
  path : Nat
  alive : Bool
  readOnly : Bool
  avail : List (Id × Ty)
  mutex : SharedMutex
  deriving DecidableEq, Repr

/-- An accessor that is alive: the handler in its return callback, its descriptor and the kind of its lock. -/
structure Acc where
  handler : Nat
  id : Id
  ty : Ty
  write : Bool
  deriving DecidableEq, Repr

/-- The manager, all handlers ever made, and the accessors that are alive. `owner id` is the handler captured by the closing callback
of file `id`. `lost` is a ghost field, read by nothing: the descriptors dropped without closing. -/
structure World where
  mgr : Lru
  owner : Id → Nat
  handlers : List Handler
  accs : List Acc
  lost : List Id

/-- An empty pool. -/
def World.new (limit : Nat) : World where
  mgr := Lru.new limit 1024
  owner := fun _ => 0
  handlers := []
  accs := []
  lost := []

/-- Closing one idle descriptor: `TypedFdWrapper::close`, `FileHandler.h` 90-92. -/
def World.closeFd (w : World) (id : Id) : Run World := do
  let m ← w.mgr.close id
  .ok { w with mgr := m }

/-- Closing several. -/
def World.closeFds (w : World) : List Id → Run World
  | [] => .ok w
  | id :: ids => do
    let w ← w.closeFd id
    w.closeFds ids

def World.setHandler (w : World) (h : Nat) (hd : Handler) : World := { w with handlers := w.handlers.set h hd }

/-- Insertion into `m_available_fd`, a map ordered by the address. -/
def insertFd (fd : Id × Ty) : List (Id × Ty) → List (Id × Ty)
  | [] => [fd]
  | x :: xs => if fd.1 < x.1 then fd :: x :: xs else x :: insertFd fd xs

/-- The closing callback of file `id`, called by a thread that holds the handler mutex of handler `cur` (if any):
`FileHandler::close`, `FileHandler.cpp` 37-45. Locking a `std::mutex` that the thread holds already is undefined (in practice, the
thread waits for itself), and so is using a handler that has been destroyed. -/
def World.ask (cur : Option Nat) (w : World) (id : Id) : Run (World × Bool) :=
  let h := w.owner id
  if cur = some h then .ub
  else match w.handlers[h]? with
    | none => .ub
    | some hd =>
      if !hd.alive then .ub
      else if id ∈ hd.avail.map (·.1) then do
        let w ← w.closeFd id
        .ok (w.setHandler h { hd with avail := hd.avail.filter (·.1 ≠ id) }, true)
      else .ok (w, false)

/-- `FileManager::open` called by handler `h`, which holds its mutex. -/
def World.open (w : World) (h : Nat) (newId : Id) (osOk : Bool) : Run (World × OpenResult) := do
  let (w, room) ← notifyIntent World.mgr (World.ask (some h)) w
  if !room then .ok (w, .limitReached)
  else if !osOk then .ok (w, .cannotOpen)
  else do
    let m ← w.mgr.register newId
    .ok ({ w with mgr := m, owner := fun i => if i = newId then h else w.owner i }, .opened newId)

/-- What a call to `getAccessor` comes to. -/
inductive Result where
  | accessor (id : Id)
  /-- a null pointer: the file is in use and the caller does not want to wait -/
  | null
  /-- the call waits -/
  | blocked
  /-- `lock()` on a lock that `try_lock()` has taken throws `boost::lock_error` -/
  | lockError
  | limitReached
  | cannotOpen
  deriving DecidableEq, Repr

/-- Closing all idle descriptors when the mode changes, `FileHandler.icpp` 41-47 and 99-105. -/
def World.changeMode (w : World) (h : Nat) (hd : Handler) (readOnly : Bool) : Run World :=
  if hd.readOnly = readOnly then .ok w
  else do
    let w ← w.closeFds (hd.avail.map (·.1))
    .ok (w.setHandler h { hd with avail := [], readOnly := readOnly })

/-- Taking descriptor `id` out of the idle ones and making the accessor, `FileHandler.icpp` 68-81 and 124-135. -/
def World.take (w : World) (h : Nat) (hd : Handler) (id : Id) (ty : Ty) (write : Bool) : Run (World × Result) := do
  let m ← w.mgr.notifyUsed id
  .ok ({ w.setHandler h { hd with avail := hd.avail.filter (·.1 ≠ id),
                                  mutex := if write then { hd.mutex with excl := true }
                                           else { hd.mutex with shared := hd.mutex.shared + 1 } } with
         mgr := m, accs := w.accs ++ [{ handler := h, id := id, ty := ty, write := write }] }, .accessor id)

/-- Opening a descriptor, putting it among the idle ones, and taking it: `FileHandler.icpp` 60-81 and 116-135. -/
def World.openTake (w : World) (h : Nat) (ty : Ty) (write : Bool) (newId : Id) (osOk : Bool) : Run (World × Result) := do
  let (w, r) ← w.open h newId osOk
  match r with
  | .limitReached => .ok (w, .limitReached)
  | .cannotOpen => .ok (w, .cannotOpen)
  | .opened id =>
    match w.handlers[h]? with
    | none => .ub
    | some hd =>
      let hd := { hd with avail := insertFd (id, ty) hd.avail }
      (w.setHandler h hd).take h hd id ty write

/-- `getWriteAccessor` from line 40 on, the file lock being granted. A call that throws releases the lock, so the model takes it only
in `take`. -/
def World.writeLocked (w : World) (h : Nat) (ty : Ty) (newId : Id) (osOk : Bool) : Run (World × Result) := do
  match w.handlers[h]? with
  | none => .ub
  | some hd =>
    -- 41-47
    let w ← w.changeMode h hd false
    match w.handlers[h]? with
    | none => .ub
    | some hd =>
      -- 49
      if hd.avail.length > 1 then .ub
      else
        -- 52-57: `clear()` drops the descriptor, it is not closed
        let w : World := match hd.avail with
          | (id, t) :: _ => if t = ty then w else { w.setHandler h { hd with avail := [] } with lost := w.lost ++ [id] }
          | [] => w
        match w.handlers[h]? with
        | none => .ub
        | some hd =>
          match hd.avail with
          | (id, _) :: _ => w.take h hd id ty true
          -- 60-64
          | [] => w.openTake h ty true newId osOk

/-- `getWriteAccessor`, `FileHandler.icpp` 26-82. Lines 31-36: with `try_lock`, a lock that could be taken is locked a second time. -/
def World.getWrite (w : World) (h : Nat) (ty : Ty) (tryLock : Bool) (newId : Id) (osOk : Bool) : Run (World × Result) :=
  match w.handlers[h]? with
  | none => .ub
  | some hd =>
    if !hd.alive then .ub
    else
      let free := !hd.mutex.excl && hd.mutex.shared == 0
      if tryLock then .ok (w, if free then .lockError else .null)
      else if !free then .ok (w, .blocked)
      else w.writeLocked h ty newId osOk

/-- `getReadAccessor` from line 98 on, the file lock being granted. -/
def World.readLocked (w : World) (h : Nat) (ty : Ty) (newId : Id) (osOk : Bool) : Run (World × Result) := do
  match w.handlers[h]? with
  | none => .ub
  | some hd =>
    -- 99-105
    let w ← w.changeMode h hd true
    match w.handlers[h]? with
    | none => .ub
    | some hd =>
      -- 108-113
      match hd.avail.find? (·.2 = ty) with
      | some (id, _) => w.take h hd id ty false
      -- 116-120
      | none => w.openTake h ty false newId osOk

/-- `getReadAccessor`, `FileHandler.icpp` 84-136. -/
def World.getRead (w : World) (h : Nat) (ty : Ty) (tryLock : Bool) (newId : Id) (osOk : Bool) : Run (World × Result) :=
  match w.handlers[h]? with
  | none => .ub
  | some hd =>
    if !hd.alive then .ub
    else
      let free := !hd.mutex.excl
      if tryLock then .ok (w, if free then .lockError else .null)
      else if !free then .ok (w, .blocked)
      else w.readLocked h ty newId osOk

/-- `getAccessor`, `FileHandler.icpp` 138-147. -/
def World.getAccessor (w : World) (h : Nat) (ty : Ty) (write tryLock : Bool) (newId : Id) (osOk : Bool) : Run (World × Result) :=
  if write then w.getWrite h ty tryLock newId osOk else w.getRead h ty tryLock newId osOk

/-- The destructor of the `k`-th accessor, `FileAccessor.icpp` 34-37 and 48-51: the return callback (`FileHandler.icpp` 74-77 and
129-132) puts the descriptor back, then the lock is released. -/
def World.release (w : World) (k : Nat) : Run World :=
  match w.accs[k]? with
  | none => .throw .noSuchObject
  | some a =>
    match w.handlers[a.handler]? with
    | none => .ub
    | some hd =>
      if !hd.alive then .ub
      else
        .ok { w.setHandler a.handler { hd with
                avail := insertFd (a.id, a.ty) hd.avail,
                mutex := if a.write then { hd.mutex with excl := false }
                         else { hd.mutex with shared := hd.mutex.shared - 1 } } with
              accs := w.accs.eraseIdx k }

/-- `getFileHandler`, `FileManager.cpp` 91-117: the handler for the path that is alive, or a new one. Gives its index. -/
def World.getHandler (w : World) (path : Nat) : World × Nat :=
  match w.handlers.findIdx? (fun hd => hd.alive && hd.path == path) with
  | some h => (w, h)
  | none => ({ w with handlers := w.handlers ++ [{ path := path, alive := true, readOnly := true, avail := [],
                                                    mutex := { excl := false, shared := 0 } }] }, w.handlers.length)

/-- The last owner of handler `h` drops it: the destructor closes the idle descriptors, `FileHandler.cpp` 27-31. -/
def World.dropHandler (w : World) (h : Nat) : Run World :=
  match w.handlers[h]? with
  | none => .throw .noSuchObject
  | some hd =>
    if !hd.alive then .throw .noSuchObject
    else do
      let w ← w.closeFds (hd.avail.map (·.1))
      .ok (w.setHandler h { hd with alive := false, avail := [] })

/-- A call of a user of the pool. -/
inductive Op where
  | getHandler (path : Nat)
  | get (h : Nat) (ty : Ty) (write tryLock : Bool) (newId : Id) (osOk : Bool)
  | release (k : Nat)
  | drop (h : Nat)
  deriving DecidableEq, Repr

/-- One call. -/
def World.step (w : World) : Op → Run World
  | .getHandler p => .ok (w.getHandler p).1
  | .get h ty write tryLock newId osOk => do
    let (w, _) ← w.getAccessor h ty write tryLock newId osOk
    .ok w
  | .release k => w.release k
  | .drop h => w.dropHandler h

/-- A history of calls. -/
def World.run (w : World) : List Op → Run World
  | [] => .ok w
  | op :: ops => do
    let w ← w.step op
    w.run ops

end Alexandria.FilePool
