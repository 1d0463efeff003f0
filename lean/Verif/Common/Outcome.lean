/-!
# Outcomes of C++ calls

A call returns normally, throws, or runs into undefined behaviour (a distinct outcome, never identified with one of the
other two).
-/

namespace Alexandria

inductive Outcome (ε α : Type) where
  | ok (a : α)
  | throw (e : ε)
  | ub
  deriving DecidableEq, Repr

namespace Outcome

variable {ε α β : Type}

def bind (x : Outcome ε α) (f : α → Outcome ε β) : Outcome ε β :=
  match x with
  | .ok a => f a
  | .throw e => .throw e
  | .ub => .ub

instance : Monad (Outcome ε) where
  pure := .ok
  bind := bind

@[simp] theorem pure_eq (a : α) : (pure a : Outcome ε α) = .ok a := rfl
@[simp] theorem bind_ok (a : α) (f : α → Outcome ε β) : ((.ok a : Outcome ε α) >>= f) = f a := rfl
@[simp] theorem bind_throw (e : ε) (f : α → Outcome ε β) : ((.throw e : Outcome ε α) >>= f) = .throw e := rfl
@[simp] theorem bind_ub (f : α → Outcome ε β) : ((.ub : Outcome ε α) >>= f) = .ub := rfl

def isOk : Outcome ε α → Bool
  | .ok _ => true
  | _ => false

def isThrow : Outcome ε α → Bool
  | .throw _ => true
  | _ => false

end Outcome

end Alexandria
