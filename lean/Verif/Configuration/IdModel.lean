import Verif.Common.Outcome

/-!
# Model of the ids of configuration managers

`getUniqueManagerId` (`Configuration/src/lib/Utils.cpp` 30-40) and `ConfigManager::getInstance`
(`Configuration/src/lib/ConfigManager.cpp` 34-41).
-/

namespace Alexandria.Configuration

/-- The loop of `getUniqueManagerId`, `Utils.cpp` 32-36: read the clock (microseconds since 1970, `readings` are the values it will give)
until the value differs from the last id.  The result is the id and the later readings; `none` if the clock does not get that far. -/
def uniqueId (last : Int) : List Int → Option (Int × List Int)
  | [] => none
  | t :: readings => if t = last then uniqueId last readings else some (t, readings)

/-- A number of calls one after the other; `last_manager_id` (line 30) is assigned in line 37. -/
def uniqueIds (last : Int) (readings : List Int) : Nat → Option (List Int)
  | 0 => some []
  | n + 1 => do
    let (i, rest) ← uniqueId last readings
    let is ← uniqueIds i rest n
    return i :: is

/-- Two threads that both run the loop before either assigns `last_manager_id` (there is no lock). -/
def uniqueIdTwice (last : Int) (r₁ r₂ : List Int) : Option (Int × Int) := do
  let (i, _) ← uniqueId last r₁
  let (j, _) ← uniqueId last r₂
  return (i, j)

/-- `manager_map` (`ConfigManager.cpp` 35): the ids in order of creation; the managers are numbered in that order. -/
abbrev Managers := List Int

/-- `getInstance`, `ConfigManager.cpp` 34-41. -/
def getInstance (ms : Managers) (id : Int) : Managers × Nat :=
  match ms.findIdx? (· == id) with
  | some k => (ms, k)
  | none => (ms ++ [id], ms.length)

/-- Calls of `getInstance` one after the other: the managers returned. -/
def getInstances (ms : Managers) : List Int → List Nat
  | [] => []
  | i :: is => (getInstance ms i).2 :: getInstances (getInstance ms i).1 is

end Alexandria.Configuration
