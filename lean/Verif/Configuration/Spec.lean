import Mathlib.Logic.Relation
import Verif.Common.Strings

/-! # Specification for configurations -/

namespace Alexandria.Configuration.Spec

/-- A relation without cycles. -/
def Acyclic (r : Nat → Nat → Prop) : Prop := ∀ i, ¬ Relation.TransGen r i i

/-- Each element comes after everything it depends on. -/
def InOrder (r : Nat → Nat → Prop) (order : List Nat) : Prop :=
  ∀ before i after, order = before ++ i :: after → ∀ d, r i d → d ∈ before

/-- Consecutive elements of the list are related, beginning with `a`. -/
def Path (r : Nat → Nat → Prop) : Nat → List Nat → Prop
  | _, [] => True
  | a, b :: l => r a b ∧ Path r b l

end Alexandria.Configuration.Spec
