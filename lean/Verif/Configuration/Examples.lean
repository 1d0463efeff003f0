import Verif.Configuration.Props
import Verif.Configuration.Props2
import Verif.Configuration.CycleProps
import Verif.Configuration.LifeProps
import Verif.Configuration.OptionsProps

/-! # Cases that meet all hypotheses of the theorems about configurations -/

namespace Alexandria.Configuration.Examples

/-- Configuration 0 declares 1 and 2. -/
def p : Program := ⟨fun i => if i = 0 then [1, 2] else [], fun _ => true, fun _ => true⟩

/-- All three are built, and 1 is registered to depend on 2. -/
def m : Manager := { dict := [0, 1, 2], built := [0, 1, 2], dep := fun i => if i = 1 then some [2, 7] else none }

theorem closed : ∃ m1, close p 5 m = some (m1, .ok ()) := ⟨_, rfl⟩

theorem acyclic : Spec.Acyclic (Spec.Depends p m) := by
  rcases C25_result p m (by decide) 5 _ _ closed.choose_spec with h | h
  · exact h.2
  · cases h.1

theorem sorted : ∀ i ds, m.dep i = some ds → ds.Pairwise (· < ·) := by
  intro i ds h
  simp only [m] at h
  split at h
  · cases h; decide
  · cases h

example := C25_acyclic_returns p m (by decide) acyclic
example := C25_endless p m (by decide) (by decide) sorted
example := C24_initialize p (fun _ => rfl) m _ (by decide) (by decide) 5 closed.choose_spec
example := C138_returns p (fun i => if i = 0 then [("b", [1, 2])] else [("a", [3]), ("b", [4])]) m (by decide) acyclic

/-- A ring of two. -/
def ring : Manager := { dict := [0, 1], built := [0, 1], dep := fun i => if i = 0 then some [1] else if i = 1 then some [0] else none }

def q : Program := ⟨fun _ => [], fun _ => true, fun _ => true⟩

theorem ring_closed : ∃ m1, close q 5 ring = some (m1, .throw .elements) := ⟨_, rfl⟩

example := C25_result q ring (by decide) 5 _ _ ring_closed.choose_spec
example := C25_reported_cycle q ring 5 0 (by decide) [1, 0] (by decide) (by decide)

/-- Configuration 3 declares 1 and 2, and 2 declares 1. -/
def d : Program := ⟨fun i => if i = 3 then [1, 2] else if i = 2 then [1] else [], fun _ => true, fun _ => true⟩

theorem registered : ∃ m', register d 4 3 {} = some (m', true) := ⟨_, rfl⟩

def ops : List Op := [.get 1, .register 3, .close, .register 4, .init, .get 1]

theorem ran : ∃ m rs, run d 4 {} ops = some (m, rs) ∧ rs = [(.get 1, .threw), (.register 3, .done), (.close, .done), (.register 4, .threw), (.init, .done), (.get 1, .config .final)] :=
  ⟨_, _, rfl, rfl⟩

example := C88_final_partial d 4 ops _ _ ran.choose_spec.choose_spec.1 (fun r hr => by rw [ran.choose_spec.choose_spec.2] at hr; simpa using hr) 1 .final
  (by rw [ran.choose_spec.choose_spec.2]; simp)

example := C87_register d 4 3 {} _ ⟨trivial, by simp⟩ registered.choose_spec

example := C138_distinct ⟨fun i => if i = 2 then [0, 1] else [], fun _ => true, fun _ => true⟩ (fun i => if i = 0 then .catalog else if i = 1 then .bandMapping else .photometry) 5
  { dict := [0, 1, 2], built := [2, 1, 0] } _ _ (by decide) (by decide) rfl

end Alexandria.Configuration.Examples
