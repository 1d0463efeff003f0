import Verif.Common.Rounding
import Mathlib.Algebra.Order.Ring.Abs
import Mathlib.Algebra.Order.AbsoluteValue.Basic
import Mathlib.Tactic.Ring
import Mathlib.Tactic.Linarith
import Mathlib.Tactic.Positivity

/-!
# Propagation of rounding errors

`Close u k A a' a`: the number `a'` is what is left of `a` after `k` roundings with relative error `u`, where `A` is the sum of the absolute values
of the terms that `a` is made of.
-/

namespace Alexandria

section
variable {K : Type} [Field K] [LinearOrder K]

/-- `a'` is `a` up to `k` roundings of terms that sum up to `A`. -/
def Close (u : K) (k : Nat) (A a' a : K) : Prop := |a' - a| ≤ ((1 + u) ^ k - 1) * A ∧ |a| ≤ A

variable [IsStrictOrderedRing K] {u : K} {k m : Nat} {A B a a' b b' : K}

theorem one_le_pow_u (hu : 0 ≤ u) (k : Nat) : 1 ≤ (1 + u) ^ k := one_le_pow₀ (by linarith)

namespace Close

theorem nonneg (h : Close u k A a' a) : 0 ≤ A := (abs_nonneg a).trans h.2

theorem refl (u a : K) : Close u 0 |a| a a := by simp [Close]

theorem zero (u : K) : Close u 0 0 0 0 := by simp [Close]

theorem abs_le (h : Close u k A a' a) : |a'| ≤ (1 + u) ^ k * A := by
  have := abs_add_le (a' - a) a
  rw [sub_add_cancel] at this
  have h1 := h.1
  have h2 := h.2
  linarith

theorem mono (hu : 0 ≤ u) (h : Close u k A a' a) (hk : k ≤ m) : Close u m A a' a := by
  refine ⟨h.1.trans (mul_le_mul_of_nonneg_right ?_ h.nonneg), h.2⟩
  have := pow_le_pow_right₀ (by linarith : (1 : K) ≤ 1 + u) hk
  linarith

theorem monoA (hu : 0 ≤ u) (h : Close u k A a' a) (hA : A ≤ B) : Close u k B a' a :=
  ⟨h.1.trans (mul_le_mul_of_nonneg_left hA (by linarith [one_le_pow_u hu k])), h.2.trans hA⟩

/-- One more rounding. -/
theorem rnd {r : K → K} (hu : 0 ≤ u) (hr : ∀ x, |r x - x| ≤ u * |x|) (h : Close u k A a' a) : Close u (k + 1) A (r a') a := by
  refine ⟨?_, h.2⟩
  have h1 := hr a'
  have h2 := mul_le_mul_of_nonneg_left h.abs_le hu
  have h3 := abs_add_le (r a' - a') (a' - a)
  rw [sub_add_sub_cancel] at h3
  have h4 := h.1
  rw [pow_succ]
  linarith

theorem add (ha : Close u k A a' a) (hb : Close u k B b' b) : Close u k (A + B) (a' + b') (a + b) := by
  refine ⟨?_, (abs_add_le a b).trans (add_le_add ha.2 hb.2)⟩
  have := abs_add_le (a' - a) (b' - b)
  rw [show a' - a + (b' - b) = a' + b' - (a + b) by ring] at this
  have h1 := ha.1
  have h2 := hb.1
  linarith

theorem neg (ha : Close u k A a' a) : Close u k A (-a') (-a) := by
  refine ⟨?_, by rw [abs_neg]; exact ha.2⟩
  rw [show -a' - -a = -(a' - a) by ring, abs_neg]
  exact ha.1

theorem sub (ha : Close u k A a' a) (hb : Close u k B b' b) : Close u k (A + B) (a' - b') (a - b) := by
  rw [sub_eq_add_neg, sub_eq_add_neg]
  exact ha.add hb.neg

theorem mul (hu : 0 ≤ u) (ha : Close u k A a' a) (hb : Close u m B b' b) : Close u (k + m) (A * B) (a' * b') (a * b) := by
  have hA := ha.nonneg
  refine ⟨?_, by rw [abs_mul]; exact mul_le_mul ha.2 hb.2 (abs_nonneg b) hA⟩
  have h1 : |a' - a| * |b'| ≤ (((1 + u) ^ k - 1) * A) * ((1 + u) ^ m * B) :=
    mul_le_mul ha.1 hb.abs_le (abs_nonneg b') (mul_nonneg (by linarith [one_le_pow_u hu k]) hA)
  have h2 : |a| * |b' - b| ≤ A * (((1 + u) ^ m - 1) * B) := mul_le_mul ha.2 hb.1 (abs_nonneg _) hA
  have h3 := abs_add_le ((a' - a) * b') (a * (b' - b))
  rw [show (a' - a) * b' + a * (b' - b) = a' * b' - a * b by ring, abs_mul, abs_mul] at h3
  rw [pow_add]
  calc _ ≤ _ := h3
    _ ≤ _ := add_le_add h1 h2
    _ = _ := by ring

/-- Multiplication with a number that is known exactly. -/
theorem scale (hu : 0 ≤ u) (c : K) (ha : Close u k A a' a) : Close u k (|c| * A) (c * a') (c * a) := by
  have := (refl u c).mul hu ha
  rwa [Nat.zero_add] at this

/-- Division by a number that is known exactly. -/
theorem div (hu : 0 ≤ u) (c : K) (ha : Close u k A a' a) : Close u k (A / |c|) (a' / c) (a / c) := by
  have := ha.scale hu c⁻¹
  rw [abs_inv] at this
  rwa [div_eq_inv_mul, div_eq_inv_mul, div_eq_inv_mul]

end Close

end

end Alexandria
