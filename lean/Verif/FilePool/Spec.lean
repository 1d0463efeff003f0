import Verif.FilePool.Model

/-!
# Specification: which file was used last

The log lists the ids of the files in the order in which they were opened or used, the latest first. The age of a file is the
number of entries in the log since it was opened or used last.
-/

namespace Alexandria.FilePool

/-- The position of the last entry of `id` in the log. -/
def age (log : List Id) (id : Id) : Nat := log.idxOf id

/-- One call, with the log. -/
def stepLog (s : Lru × List Id) : MgrOp → Run (Lru × List Id)
  | .open accepts newId osOk => do
    let (m, r) ← s.1.open accepts newId osOk
    match r with
    | .opened id => .ok (m, id :: s.2)
    | .limitReached => .ok (m, s.2)
    | .cannotOpen => .ok (m, s.2)
  | .close id => do
    let m ← s.1.close id
    .ok (m, s.2)
  | .used id => do
    let m ← s.1.notifyUsed id
    .ok (m, id :: s.2)

/-- A history of calls, with the log. -/
def runLog (s : Lru × List Id) : List MgrOp → Run (Lru × List Id)
  | [] => .ok s
  | op :: ops => do
    let s ← stepLog s op
    runLog s ops

/-- The ids of the idle descriptors of all handlers. -/
def World.idle (w : World) : List Id := w.handlers.flatMap (fun hd => hd.avail.map (·.1))

/-- The ids of the descriptors that live accessors have. -/
def World.inUse (w : World) : List Id := w.accs.map (·.id)

/-- Two accessors can be alive at the same time: they are for different paths, or both read. -/
def Compatible (w : World) (a b : Acc) : Prop :=
  ∀ ha hb, w.handlers[a.handler]? = some ha → w.handlers[b.handler]? = some hb → ha.path = hb.path →
    a.write = false ∧ b.write = false

/-- The call keeps handlers alive as long as they have accessors. -/
def World.keepsHandlers (w : World) : Op → Prop
  | .drop h => ∀ a ∈ w.accs, a.handler ≠ h
  | _ => True

/-- The call is not a request to write through a stream of another type than the idle one. -/
def World.sameType (w : World) : Op → Prop
  | .get h ty true false _ _ => ∀ hd, w.handlers[h]? = some hd → hd.readOnly = false → ∀ fd ∈ hd.avail, fd.2 = ty
  | _ => True

/-- `w'` is reached from an empty pool by calls that satisfy `P` in the state in which they are made. -/
inductive Reach (P : World → Op → Prop) (limit : Nat) : World → Prop
  | init : Reach P limit (World.new limit)
  | step {w w' : World} {op : Op} : Reach P limit w → P w op → w.step op = .ok w' → Reach P limit w'

end Alexandria.FilePool
