import Mathlib.Algebra.Order.Field.Basic

/-!
# Rounded arithmetic

What the models with rounded arithmetic know about the rounding of each operation. `Binary.lean` has the rounding of binary floating point numbers.
-/

namespace Alexandria

/-- The rounding of arithmetic (to nearest, without overflow): monotone, leaving alone what is representable, symmetric; twice a
representable number is representable. -/
structure Rounding (K : Type) [Field K] [LinearOrder K] where
  rnd : K → K
  mono : ∀ x y, x ≤ y → rnd x ≤ rnd y
  idem : ∀ x, rnd (rnd x) = rnd x
  neg : ∀ x, rnd (-x) = -rnd x
  twice : ∀ x, rnd (2 * rnd x) = 2 * rnd x

namespace Rounding

/-- Exact arithmetic. -/
def exact (K : Type) [Field K] [LinearOrder K] : Rounding K :=
  ⟨id, fun _ _ h => h, fun _ => rfl, fun _ => rfl, fun _ => rfl⟩

section
variable {K : Type} [Field K] [LinearOrder K] [IsStrictOrderedRing K] (R : Rounding K)

theorem zero : R.rnd 0 = 0 := by
  have h := R.neg 0
  rw [neg_zero] at h
  exact self_eq_neg.mp h

theorem one (half : R.rnd (1 / 2) = 1 / 2) : R.rnd 1 = 1 := by
  have h := R.twice (1 / 2)
  rw [half, mul_one_div, div_self two_ne_zero] at h
  exact h

theorem nonneg {x : K} (h : 0 ≤ x) : 0 ≤ R.rnd x := by
  have := R.mono 0 x h
  rwa [R.zero] at this

theorem le_fix {x y : K} (h : x ≤ y) (hy : R.rnd y = y) : R.rnd x ≤ y := by
  rw [← hy]; exact R.mono x y h

theorem fix_le {x y : K} (h : x ≤ y) (hx : R.rnd x = x) : x ≤ R.rnd y := by
  rw [← hx]; exact R.mono x y h

end

end Rounding

end Alexandria
