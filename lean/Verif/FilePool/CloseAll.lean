import Verif.FilePool.Steps
import Verif.FilePool.Conc

/-!
# Closing everything, and asking for handlers

`FileManager::closeAll` (`FilePool/src/lib/FileManager.cpp` 75-88), which the destructor of `LRUFileManager` calls
(`LRUFileManager.cpp` 35-37), and `FileManager::hasHandler` (`FileManager.cpp` 119-123).
-/

namespace Alexandria.FilePool

/-- The second loop of `closeAll`, `FileManager.cpp` 85-87: call `m_request_close` of each metadata block collected before.  A block that
is gone by then cannot be used.  (The function object that runs belongs to the block, which is deleted when the file is closed; the
code does not touch it after that.)  The answer is ignored. -/
def World.closeEach : List Id → World → Run World
  | [], w => .ok w
  | id :: ids, w =>
    if id ∈ w.mgr.files then do
      let (w, _) ← w.ask none id
      World.closeEach ids w
    else .ub

/-- `closeAll`, `FileManager.cpp` 75-88.  The map is ordered by addresses; `order` is the list of its keys. -/
def World.closeAll (w : World) (order : List Id) : Run World := World.closeEach order w

/-- `hasHandler`, `FileManager.cpp` 119-123, for the path whose entry is modelled: there is an entry, whether or not its handler is
alive. -/
def TableState.hasHandler (s : TableState) : Bool := s.entry.isSome

end Alexandria.FilePool
