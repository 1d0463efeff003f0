import Verif.Common.Rounding
import Mathlib.Tactic.Linarith

/-!
# Floating point numbers with infinities and NaN

The operations of IEEE 754 on numbers with a greatest finite one: a result that is rounded to more becomes infinite.  The sign of zero is not
modelled: `div` takes zeros for positive ones, which is right where the divisor is a rounded difference `b - a` with `a ≤ b`.
-/

namespace Alexandria

/-- A floating point number. -/
inductive Ext (K : Type) where
  | nan
  | ninf
  | fin (a : K)
  | pinf
  deriving DecidableEq, Repr

namespace Ext

variable {K : Type} [Field K] [LinearOrder K]

/-- The result of an operation on finite numbers: rounding, then overflow beyond the greatest number `M`. -/
def result (R : Rounding K) (M : K) (x : K) : Ext K :=
  if M < R.rnd x then .pinf else if R.rnd x < -M then .ninf else .fin (R.rnd x)

def neg : Ext K → Ext K
  | .nan => .nan
  | .ninf => .pinf
  | .fin a => .fin (-a)
  | .pinf => .ninf

def add (R : Rounding K) (M : K) : Ext K → Ext K → Ext K
  | .fin a, .fin b => result R M (a + b)
  | .nan, _ => .nan
  | _, .nan => .nan
  | .pinf, .ninf => .nan
  | .ninf, .pinf => .nan
  | .pinf, _ => .pinf
  | _, .pinf => .pinf
  | .ninf, _ => .ninf
  | _, .ninf => .ninf

def sub (R : Rounding K) (M : K) (a b : Ext K) : Ext K := add R M a b.neg

/-- An infinity times a number. -/
def scale (a : K) (inf : Ext K) : Ext K := if a = 0 then .nan else if 0 < a then inf else inf.neg

def mul (R : Rounding K) (M : K) : Ext K → Ext K → Ext K
  | .fin a, .fin b => result R M (a * b)
  | .nan, _ => .nan
  | _, .nan => .nan
  | .fin a, b => scale a b
  | a, .fin b => scale b a
  | .pinf, b => b
  | .ninf, b => b.neg

/-- Half of a number. -/
def half (R : Rounding K) (M : K) : Ext K → Ext K
  | .fin a => result R M (a / 2)
  | a => a

/-- `a < b`. -/
def lt : Ext K → Ext K → Bool
  | .fin a, .fin b => decide (a < b)
  | .ninf, .fin _ => true
  | .ninf, .pinf => true
  | .fin _, .pinf => true
  | _, _ => false

/-- `a <= b`. -/
def le : Ext K → Ext K → Bool
  | .fin a, .fin b => decide (a ≤ b)
  | .nan, _ => false
  | _, .nan => false
  | .ninf, _ => true
  | _, .pinf => true
  | _, _ => false

/-- `a == b`. -/
def eq : Ext K → Ext K → Bool
  | .fin a, .fin b => decide (a = b)
  | .pinf, .pinf => true
  | .ninf, .ninf => true
  | _, _ => false

/-- Division; zeros are taken for positive ones. -/
def div (R : Rounding K) (M : K) : Ext K → Ext K → Ext K
  | .fin a, .fin b => if b = 0 then (if a = 0 then .nan else if 0 < a then .pinf else .ninf) else result R M (a / b)
  | .fin _, .pinf => .fin 0
  | .fin _, .ninf => .fin 0
  | .pinf, .fin b => if b < 0 then .ninf else .pinf
  | .ninf, .fin b => if b < 0 then .pinf else .ninf
  | _, _ => .nan

instance : LT (Ext K) := ⟨fun a b => lt a b = true⟩
instance : DecidableLT (Ext K) := fun a b => inferInstanceAs (Decidable (lt a b = true))

variable {R : Rounding K} {M : K}

theorem result_fin {x : K} (h1 : R.rnd x ≤ M) (h2 : -M ≤ R.rnd x) : result R M x = .fin (R.rnd x) := by
  rw [result, if_neg (not_lt.mpr h1), if_neg (not_lt.mpr h2)]

@[simp] theorem lt_nan (a : Ext K) : a.lt .nan = false := by cases a <;> rfl
@[simp] theorem nan_lt (a : Ext K) : Ext.nan.lt a = false := by cases a <;> rfl
@[simp] theorem pinf_lt (a : Ext K) : Ext.pinf.lt a = false := by cases a <;> rfl
@[simp] theorem lt_ninf (a : Ext K) : a.lt .ninf = false := by cases a <;> rfl

end Ext

end Alexandria
