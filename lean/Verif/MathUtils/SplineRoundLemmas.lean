import Verif.MathUtils.SplineRoundModel
import Verif.MathUtils.SplineProps
import Verif.MathUtils.PolyRoundProps
import Verif.Common.Close
import Mathlib.Tactic.LinearCombination
import Mathlib.Data.Finset.Max

/-! # Lemmas about cubic splines with rounding (C146) -/

namespace Alexandria

section
variable {K : Type} [Field K] [LinearOrder K] [IsStrictOrderedRing K] {u : K} {k : Nat} {A a a' : K}

/-- Division by a number that is rounded counts as two roundings. -/
theorem Close.div_rnd {r : K → K} (hu : 0 ≤ u) (hu1 : u ≤ 1 / 2) (hr : ∀ x, |r x - x| ≤ u * |x|) (x : K) (h : Close u k A (a' / x) a) : Close u (k + 2) A (a' / r x) a := by
  refine ⟨?_, h.2⟩
  by_cases hx : x = 0
  · have h0 : r x = 0 := by
      have := hr x
      rw [hx, abs_zero, mul_zero, sub_zero] at this
      rw [hx]
      exact abs_eq_zero.mp (le_antisymm this (abs_nonneg _))
    rw [h0, ← hx]
    exact (h.mono hu (Nat.le_add_right k 2)).1
  have hx' : 0 < |x| := abs_pos.mpr hx
  have h1 : (1 - u) * |x| ≤ |r x| := by
    have := abs_sub_abs_le_abs_sub x (r x)
    rw [abs_sub_comm] at this
    have := hr x
    linarith
  have hrx : 0 < |r x| := lt_of_lt_of_le (mul_pos (by linarith) hx') h1
  have hrx' : r x ≠ 0 := abs_pos.mp hrx
  have h2 : |a' / r x - a' / x| ≤ |a' / x| * (2 * u + u ^ 2) := by
    have e : a' / r x - a' / x = a' / x * ((x - r x) / r x) := by field_simp
    rw [e, abs_mul]
    refine mul_le_mul_of_nonneg_left ?_ (abs_nonneg _)
    rw [abs_div, div_le_iff₀ hrx, abs_sub_comm]
    calc |r x - x| ≤ u * |x| := hr x
      _ ≤ (2 * u + u ^ 2) * ((1 - u) * |x|) := by
        rw [← mul_assoc]
        refine mul_le_mul_of_nonneg_right ?_ hx'.le
        have : 0 ≤ u * (1 - u - u ^ 2) := mul_nonneg hu (by nlinarith)
        linarith [show (2 * u + u ^ 2) * (1 - u) = u + u * (1 - u - u ^ 2) by ring]
      _ ≤ _ := mul_le_mul_of_nonneg_left h1 (by positivity)
  have h3 := mul_le_mul_of_nonneg_right h.abs_le (show 0 ≤ 2 * u + u ^ 2 by positivity)
  have h4 := abs_add_le (a' / r x - a' / x) (a' / x - a)
  rw [sub_add_sub_cancel] at h4
  have h5 := h.1
  rw [pow_add]
  linarith [show (1 + u) ^ k * A * (2 * u + u ^ 2) = (1 + u) ^ k * (1 + u) ^ 2 * A - (1 + u) ^ k * A by ring]

theorem one_sub_mul_pow (hu : 0 ≤ u) (k : Nat) : (1 - k * u) * (1 + u) ^ k ≤ 1 := by
  induction k with
  | zero => simp
  | succ k ih =>
    refine le_trans ?_ ih
    rw [pow_succ', ← mul_assoc]
    refine mul_le_mul_of_nonneg_right ?_ (by positivity)
    push_cast
    nlinarith [mul_nonneg (Nat.cast_nonneg (α := K) k) (mul_nonneg hu hu), mul_nonneg hu hu]

/-- A few roundings. -/
theorem pow_le_of_small (hu : 0 ≤ u) (k : Nat) (hk : (k : K) * (k + 1) * u ≤ 1) : (1 + u) ^ k - 1 ≤ (k + 1) * u := by
  have h1 := one_sub_mul_pow hu k
  have hk0 : (0 : K) ≤ k := Nat.cast_nonneg k
  by_cases hpos : 0 < 1 - k * u
  · have h2 : 1 ≤ (1 - k * u) * (1 + (k + 1) * u) := by
      have : 0 ≤ u * (1 - (k : K) * (k + 1) * u) := mul_nonneg hu (by linarith)
      linarith [show (1 - (k : K) * u) * (1 + (k + 1) * u) = 1 + u * (1 - (k : K) * (k + 1) * u) by ring]
    have := le_of_mul_le_mul_left (h1.trans h2) hpos
    linarith
  · exfalso
    by_cases h0 : k = 0
    · rw [h0] at hpos; simp at hpos
    · have : (1 : K) ≤ k := by exact_mod_cast Nat.one_le_iff_ne_zero.mpr h0
      have h3 : 1 ≤ (k : K) * u := by linarith
      nlinarith

end

namespace MathUtils

section
variable {K : Type} [Field K] [LinearOrder K] [IsStrictOrderedRing K] {u : K}

/-- The sum of the terms of the right side of the equation at a point. -/
def rhsTerms (p q r : K × K) : K :=
  3 * (|r.2| * (q.1 - p.1) + |q.2| * (r.1 - p.1) + |p.2| * (r.1 - q.1)) / ((q.1 - p.1) * (r.1 - q.1))

/-- The right side. -/
def rhs (p q r : K × K) : K := 3 * ((r.2 - q.2) / (r.1 - q.1) - (q.2 - p.2) / (q.1 - p.1))

/-- The equation for the quadratic coefficients at three points holds up to rounding. -/
def Resid (u : K) (p q r : K × K) (a b c : K) : Prop :=
  |(q.1 - p.1) * a + 2 * (r.1 - p.1) * b + (r.1 - q.1) * c - rhs p q r| ≤ u * ((r.1 - p.1) * (19 * |a| + 37 * |b| + 9 * |c|) + 15 * rhsTerms p q r)

variable {R : Rounding K}

theorem rnd_pos (hu1 : u ≤ 1 / 1000) (hr : ∀ x, |R.rnd x - x| ≤ u * |x|) {x : K} (hx : 0 < x) : 0 < R.rnd x := by
  have := (abs_le.mp (hr x)).1
  rw [abs_of_pos hx] at this
  nlinarith

/-- The right side as it is calculated. -/
theorem rhs_close (hu : 0 ≤ u) (hu1 : u ≤ 1 / 1000) (hr : ∀ x, |R.rnd x - x| ≤ u * |x|) {p q r : K × K} (h1 : p.1 < q.1) (h2 : q.1 < r.1) :
    Close u 12 (rhsTerms p q r) (R.rnd (R.rnd (3 * R.rnd (R.rnd (R.rnd (r.2 * R.rnd (q.1 - p.1)) - R.rnd (q.2 * R.rnd (r.1 - p.1))) + R.rnd (p.2 * R.rnd (r.1 - q.1)))) /
      R.rnd (R.rnd (q.1 - p.1) * R.rnd (r.1 - q.1)))) (rhs p q r) := by
  have a0 : 0 < q.1 - p.1 := sub_pos.mpr h1
  have a1 : 0 < r.1 - q.1 := sub_pos.mpr h2
  have a2 : 0 < r.1 - p.1 := sub_pos.mpr (h1.trans h2)
  have hh : u ≤ 1 / 2 := by linarith
  have c0 := (Close.refl u (q.1 - p.1)).rnd hu hr
  have c1 := (Close.refl u (r.1 - q.1)).rnd hu hr
  have c2 := (Close.refl u (r.1 - p.1)).rnd hu hr
  rw [abs_of_pos a0] at c0
  rw [abs_of_pos a1] at c1
  rw [abs_of_pos a2] at c2
  have s1 := (((c0.scale hu r.2).rnd hu hr).sub ((c2.scale hu q.2).rnd hu hr)).rnd hu hr
  have s2 := ((s1.add (((c1.scale hu p.2).rnd hu hr).mono hu (by omega : 0 + 1 + 1 ≤ 0 + 1 + 1 + 1))).rnd hu hr).scale hu 3
  have s3 := (s2.rnd hu hr).div hu ((q.1 - p.1) * (r.1 - q.1))
  rw [div_mul_eq_div_div_swap] at s3
  have s4 := s3.div_rnd hu hh hr
  rw [div_right_comm] at s4
  have s5 := s4.div_rnd hu hh hr
  rw [div_div] at s5
  have s6 := (s5.div_rnd hu hh hr).rnd hu hr
  have e1 : |(3 : K)| * (|r.2| * (q.1 - p.1) + |q.2| * (r.1 - p.1) + |p.2| * (r.1 - q.1)) / |(q.1 - p.1) * (r.1 - q.1)| = rhsTerms p q r := by
    rw [abs_of_pos (mul_pos a0 a1), abs_of_pos (by norm_num : (0 : K) < 3)]
    rfl
  have e2 : 3 * (r.2 * (q.1 - p.1) - q.2 * (r.1 - p.1) + p.2 * (r.1 - q.1)) / ((q.1 - p.1) * (r.1 - q.1)) = rhs p q r := by
    rw [rhs]
    have b0 := a0.ne'
    have b1 := a1.ne'
    field_simp
    ring
  rw [e1, e2] at s6
  exact s6

/-- The pivot and `mu`. -/
theorem pivot_bounds (hu : 0 ≤ u) (hu1 : u ≤ 1 / 1000) (hr : ∀ x, |R.rnd x - x| ≤ u * |x|) {p q r : K × K} (h1 : p.1 < q.1) (h2 : q.1 < r.1) {mu g : K} (m0 : 0 ≤ mu) (m1 : mu ≤ 3 / 4)
    (hg : g = R.rnd (R.rnd (2 * R.rnd (r.1 - p.1)) - R.rnd (R.rnd (q.1 - p.1) * mu))) :
    |g - (2 * (r.1 - p.1) - (q.1 - p.1) * mu)| ≤ 12 * u * (r.1 - p.1) ∧ 0 < g ∧ g ≤ 3 * (r.1 - p.1) ∧ 0 ≤ R.rnd (R.rnd (r.1 - q.1) / g) ∧ R.rnd (R.rnd (r.1 - q.1) / g) ≤ 3 / 4 ∧
      |g * R.rnd (R.rnd (r.1 - q.1) / g) - (r.1 - q.1)| ≤ 3 * u * (r.1 - q.1) := by
  have a0 : 0 < q.1 - p.1 := sub_pos.mpr h1
  have a1 : 0 < r.1 - q.1 := sub_pos.mpr h2
  have a2 : 0 < r.1 - p.1 := sub_pos.mpr (h1.trans h2)
  have c0 := (Close.refl u (q.1 - p.1)).rnd hu hr
  have c1 := (Close.refl u (r.1 - q.1)).rnd hu hr
  have c2 := (Close.refl u (r.1 - p.1)).rnd hu hr
  rw [abs_of_pos a0] at c0
  rw [abs_of_pos a1] at c1
  rw [abs_of_pos a2] at c2
  have e1 : (r.1 - p.1) = (q.1 - p.1) + (r.1 - q.1) := by ring
  have s1 := ((c2.scale hu 2).rnd hu hr).sub ((c0.scale hu mu).rnd hu hr)
  have s2 := (s1.rnd hu hr).1
  rw [mul_comm mu, ← hg, abs_of_nonneg m0, abs_of_pos (by norm_num : (0 : K) < 2)] at s2
  have b1 : |g - (2 * (r.1 - p.1) - mu * (q.1 - p.1))| ≤ 12 * u * (r.1 - p.1) := by
    refine s2.trans ?_
    have k1 := pow_le_of_small hu 3 (by push_cast; linarith)
    have k2 : 2 * (r.1 - p.1) + mu * (q.1 - p.1) ≤ 3 * (r.1 - p.1) := by nlinarith
    have k3 : 0 ≤ 2 * (r.1 - p.1) + mu * (q.1 - p.1) := by positivity
    calc _ ≤ (((3 : Nat) : K) + 1) * u * (2 * (r.1 - p.1) + mu * (q.1 - p.1)) := mul_le_mul_of_nonneg_right k1 k3
      _ ≤ (((3 : Nat) : K) + 1) * u * (3 * (r.1 - p.1)) := mul_le_mul_of_nonneg_left k2 (by positivity)
      _ = _ := by push_cast; ring
  rw [mul_comm mu] at b1
  obtain ⟨l1, l2⟩ := abs_le.mp b1
  have hma : (q.1 - p.1) * mu ≤ 3 / 4 * (q.1 - p.1) := by nlinarith
  have hma0 : 0 ≤ (q.1 - p.1) * mu := mul_nonneg a0.le m0
  have hua : 12 * u * (r.1 - p.1) ≤ 12 / 1000 * (r.1 - p.1) := by nlinarith
  have hg1 : 19 / 10 * (r.1 - q.1) ≤ g := by linarith
  have hg0 : 0 < g := by linarith
  have t1 := (c1.div hu g).rnd hu hr
  have t2 := (t1.scale hu g).1
  rw [abs_of_pos hg0, mul_div_cancel₀ _ hg0.ne'] at t2
  have t3 : |g * R.rnd (R.rnd (r.1 - q.1) / g) - (r.1 - q.1)| ≤ 3 * u * (r.1 - q.1) := by
    refine t2.trans (mul_le_mul_of_nonneg_right ?_ a1.le)
    have := pow_le_of_small hu 2 (by push_cast; linarith)
    push_cast at this
    exact this.trans (by linarith)
  refine ⟨b1, hg0, by linarith, R.nonneg (div_nonneg (R.nonneg a1.le) hg0.le), ?_, t3⟩
  have t4 := (abs_le.mp t3).2
  have t5 : g * R.rnd (R.rnd (r.1 - q.1) / g) ≤ g * (3 / 4) := by nlinarith
  exact le_of_mul_le_mul_left t5 hg0

/-- A difference of which the subtrahend was rounded before. -/
theorem back_error (hu : 0 ≤ u) (hu1 : u ≤ 1 / 1000) (hr : ∀ x, |R.rnd x - x| ≤ u * |x|) {z mu d : K} (m0 : 0 ≤ mu) (m1 : mu ≤ 1) :
    |z - R.rnd (z - R.rnd (mu * d)) - mu * d| ≤ 2 * u * (|R.rnd (z - R.rnd (mu * d))| + |d|) := by
  have h1 := hr (mu * d)
  have h2 := hr (z - R.rnd (mu * d))
  set v := R.rnd (mu * d)
  set w := R.rnd (z - v)
  have h3 : |z - v| ≤ 1001 / 1000 * |w| * (1001 / 1000) := by
    have := abs_sub_abs_le_abs_sub (z - v) w
    rw [abs_sub_comm (z - v) w] at this
    have h0 := mul_le_mul_of_nonneg_right hu1 (abs_nonneg (z - v))
    have h9 := abs_nonneg w
    linarith
  have h4 : |mu * d| ≤ |d| := by
    rw [abs_mul, abs_of_nonneg m0]
    exact mul_le_of_le_one_left (abs_nonneg _) m1
  have h5 : z - w - mu * d = (v - mu * d) - (w - (z - v)) := by ring
  rw [h5]
  have h6 := abs_sub (v - mu * d) (w - (z - v))
  have h7 := mul_le_mul_of_nonneg_left h3 hu
  have h8 := mul_le_mul_of_nonneg_left h4 hu
  have h9 := mul_nonneg hu (abs_nonneg w)
  have h10 := mul_nonneg hu (abs_nonneg d)
  linarith

/-- The equation at three points. -/
theorem resid_ok (hu : 0 ≤ u) (hu1 : u ≤ 1 / 1000) (hr : ∀ x, |R.rnd x - x| ≤ u * |x|) {p q r : K × K} (h1 : p.1 < q.1) (h2 : q.1 < r.1) {mu z g mu' t z' d0 d1 d2 : K}
    (m0 : 0 ≤ mu) (m1 : mu ≤ 3 / 4) (hg : g = R.rnd (R.rnd (2 * R.rnd (r.1 - p.1)) - R.rnd (R.rnd (q.1 - p.1) * mu))) (hm : mu' = R.rnd (R.rnd (r.1 - q.1) / g))
    (ht : Close u 12 (rhsTerms p q r) t (rhs p q r)) (hz : z' = R.rnd (R.rnd (t - R.rnd (R.rnd (q.1 - p.1) * z)) / g))
    (hd0 : d0 = R.rnd (z - R.rnd (mu * d1))) (hd1 : d1 = R.rnd (z' - R.rnd (mu' * d2))) : Resid u p q r d0 d1 d2 := by
  obtain ⟨b1, hg0, hg3, n0, n1, b2⟩ := pivot_bounds hu hu1 hr h1 h2 m0 m1 hg
  rw [← hm] at n0 n1 b2
  have a0 : 0 < q.1 - p.1 := sub_pos.mpr h1
  have a1 : 0 < r.1 - q.1 := sub_pos.mpr h2
  have a2 : 0 < r.1 - p.1 := sub_pos.mpr (h1.trans h2)
  have e1 : (r.1 - p.1) = (q.1 - p.1) + (r.1 - q.1) := by ring
  have b3 := back_error (z := z) (d := d1) hu hu1 hr m0 (by linarith : mu ≤ 1)
  have b4 := back_error (z := z') (d := d2) hu hu1 hr n0 (by linarith : mu' ≤ 1)
  rw [← hd0] at b3
  rw [← hd1] at b4
  -- the error of g z'
  have c0 := (Close.refl u (q.1 - p.1)).rnd hu hr
  rw [abs_of_pos a0] at c0
  have s1 := ((c0.scale hu z).rnd hu hr).mono hu (by omega : 0 + 1 + 1 ≤ 12)
  have s2 := ((((ht.sub s1).rnd hu hr).div hu g).rnd hu hr).scale hu g
  rw [abs_of_pos hg0, mul_div_cancel₀ _ hg0.ne', mul_div_cancel₀ _ hg0.ne', mul_comm z (R.rnd (q.1 - p.1)), ← hz] at s2
  have b5 : |g * z' - (rhs p q r - z * (q.1 - p.1))| ≤ 15 * u * (rhsTerms p q r + |z| * (q.1 - p.1)) := by
    refine s2.1.trans (mul_le_mul_of_nonneg_right ?_ s2.nonneg)
    have := pow_le_of_small hu 14 (by push_cast; linarith)
    push_cast at this
    exact this.trans (by linarith)
  have hz1 : |z| ≤ 11 / 10 * (|d0| + |d1|) := by
    have k1 : |z - d0 - mu * d1| ≤ 2 / 1000 * (|d0| + |d1|) := b3.trans (mul_le_mul_of_nonneg_right (by linarith) (by positivity))
    have k2 : |z| ≤ |z - d0 - mu * d1| + |d0| + |mu * d1| := by
      have := abs_add_three (z - d0 - mu * d1) d0 (mu * d1)
      rwa [show z - d0 - mu * d1 + d0 + mu * d1 = z by ring] at this
    have k3 : |mu * d1| ≤ |d1| := by
      rw [abs_mul, abs_of_nonneg m0]
      exact mul_le_of_le_one_left (abs_nonneg _) (by linarith)
    have := abs_nonneg d0
    have := abs_nonneg d1
    linarith
  unfold Resid
  have key : (q.1 - p.1) * d0 + 2 * (r.1 - p.1) * d1 + (r.1 - q.1) * d2 - rhs p q r =
      (g * z' - (rhs p q r - z * (q.1 - p.1))) - (g - (2 * (r.1 - p.1) - (q.1 - p.1) * mu)) * d1 - (g * mu' - (r.1 - q.1)) * d2 - g * (z' - d1 - mu' * d2) - (q.1 - p.1) * (z - d0 - mu * d1) := by
    ring
  rw [key]
  have t1 := abs_sub ((g * z' - (rhs p q r - z * (q.1 - p.1))) - (g - (2 * (r.1 - p.1) - (q.1 - p.1) * mu)) * d1 - (g * mu' - (r.1 - q.1)) * d2 - g * (z' - d1 - mu' * d2))
    ((q.1 - p.1) * (z - d0 - mu * d1))
  have t2 := abs_sub ((g * z' - (rhs p q r - z * (q.1 - p.1))) - (g - (2 * (r.1 - p.1) - (q.1 - p.1) * mu)) * d1 - (g * mu' - (r.1 - q.1)) * d2) (g * (z' - d1 - mu' * d2))
  have t3 := abs_sub ((g * z' - (rhs p q r - z * (q.1 - p.1))) - (g - (2 * (r.1 - p.1) - (q.1 - p.1) * mu)) * d1) ((g * mu' - (r.1 - q.1)) * d2)
  have t4 := abs_sub (g * z' - (rhs p q r - z * (q.1 - p.1))) ((g - (2 * (r.1 - p.1) - (q.1 - p.1) * mu)) * d1)
  rw [abs_mul, abs_of_pos a0] at t1
  rw [abs_mul, abs_of_pos hg0] at t2
  rw [abs_mul] at t3 t4
  have v0 := abs_nonneg d0
  have v1 := abs_nonneg d1
  have v2 := abs_nonneg d2
  have w1 := mul_le_mul_of_nonneg_left b3 a0.le
  have w2 : g * |z' - d1 - mu' * d2| ≤ 3 * (r.1 - p.1) * (2 * u * (|d1| + |d2|)) := mul_le_mul hg3 b4 (abs_nonneg _) (by linarith)
  have w3 := mul_le_mul_of_nonneg_right b2 v2
  have w4 := mul_le_mul_of_nonneg_right b1 v1
  have w5 : 15 * u * (rhsTerms p q r + |z| * (q.1 - p.1)) ≤ 15 * u * (rhsTerms p q r + 11 / 10 * (|d0| + |d1|) * (r.1 - p.1)) := by
    refine mul_le_mul_of_nonneg_left (add_le_add_right (mul_le_mul hz1 (by linarith) a0.le (by positivity)) _) (by positivity)
  have w6 : (q.1 - p.1) * (2 * u * (|d0| + |d1|)) ≤ (r.1 - p.1) * (2 * u * (|d0| + |d1|)) := mul_le_mul_of_nonneg_right (by linarith) (by positivity)
  have w7 : 3 * u * (r.1 - q.1) * |d2| ≤ 3 * u * (r.1 - p.1) * |d2| := mul_le_mul_of_nonneg_right (mul_le_mul_of_nonneg_left (by linarith) (by positivity)) v2
  have y0 : 0 ≤ u * ((r.1 - p.1) * |d0|) := by positivity
  have y1 : 0 ≤ u * ((r.1 - p.1) * |d1|) := by positivity
  have y2 : 0 ≤ u * ((r.1 - p.1) * |d2|) := by positivity
  generalize rhsTerms p q r = T at *
  generalize r.1 - p.1 = H at *
  linarith

/-! ### One function of the spline -/

/-- The coefficients of a function of the spline. -/
def mPiece (R : Rounding K) (p q : K × K) (c c1 : K) : List K :=
  machineShifted R p.1 p.2 (R.rnd (R.rnd (R.rnd (q.2 - p.2) / R.rnd (q.1 - p.1)) - R.rnd (R.rnd (R.rnd (q.1 - p.1) * R.rnd (c1 + R.rnd (2 * c))) / 3))) c
    (R.rnd (R.rnd (c1 - c) / R.rnd (3 * R.rnd (q.1 - p.1))))

theorem machineSplinePiece_eq (hu1 : u ≤ 1 / 1000) (hr : ∀ x, |R.rnd x - x| ≤ u * |x|) {p q : K × K} (h : p.1 < q.1) (c c1 : K) : machineSplinePiece R p q c c1 = .ok (mPiece R p q c c1) := by
  have h1 := rnd_pos hu1 hr (sub_pos.mpr h)
  have h2 := rnd_pos hu1 hr (mul_pos (by norm_num : (0 : K) < 3) h1)
  simp only [machineSplinePiece, div?, if_neg h1.ne', if_neg h2.ne']
  rfl

/-- The sum of the terms of the slope at the beginning of a function. -/
def slopeTerms (p q : K × K) (c c1 : K) : K := |q.2 - p.2| / (q.1 - p.1) + (q.1 - p.1) * (|c1| + 2 * |c|) / 3

/-- The sum of the terms of the value at `t`. -/
def valueTerms (p q : K × K) (c c1 t : K) : K :=
  |p.2| + slopeTerms p q c c1 * (|p.1| + |t|) + |c| * (|p.1| + |t|) ^ 2 + (|c| + |c1|) / (3 * (q.1 - p.1)) * (|p.1| + |t|) ^ 3

theorem mPiece_close (hu : 0 ≤ u) (hu1 : u ≤ 1 / 1000) (hr : ∀ x, |R.rnd x - x| ≤ u * |x|) {p q : K × K} (h : p.1 < q.1) (c c1 t : K) :
    Close u 15 (valueTerms p q c c1 t) (machinePolyEval R (mPiece R p q c c1) t) (Spec.value0 (pieceOf p q c c1) t) := by
  have a0 : 0 < q.1 - p.1 := sub_pos.mpr h
  have hh : u ≤ 1 / 2 := by linarith
  have cp1 : Close u 0 |p.1| (-p.1) (-p.1) := by simpa using Close.refl u (-p.1)
  have cp2 := (cp1.mul hu cp1).rnd hu hr
  have cp3 := (cp1.mul hu cp2).rnd hu hr
  have cc := Close.refl u c
  have cc1 := Close.refl u c1
  have ch := (Close.refl u (q.1 - p.1)).rnd hu hr
  rw [abs_of_pos a0] at ch
  have cpp := Close.refl u p.2
  have b1 := ((((Close.refl u (q.2 - p.2)).rnd hu hr).div hu (q.1 - p.1)).div_rnd hu hh hr).rnd hu hr
  have c2 := (cc.scale hu 2).rnd hu hr
  have b2 := ((((ch.mul hu ((cc1.mono hu (by omega : 0 ≤ 0 + 1)).add c2 |>.rnd hu hr)).rnd hu hr).div hu 3)).rnd hu hr
  have b3 := ((b1.mono hu (by omega : 0 + 1 + 2 + 1 ≤ 0 + 1 + (0 + 1 + 1) + 1 + 1)).sub b2).rnd hu hr
  have d0 := ((((cc1.sub cc).rnd hu hr).div hu 3).div hu (q.1 - p.1)).div_rnd hu hh hr
  rw [div_div (R.rnd (c1 - c))] at d0
  have d1 := (d0.div_rnd hu hh hr).rnd hu hr
  rw [abs_of_pos a0, abs_of_pos (by norm_num : (0 : K) < 3), div_div, div_div] at d1
  rw [abs_of_pos a0, abs_of_pos (by norm_num : (0 : K) < 3), abs_of_pos (by norm_num : (0 : K) < 2)] at b3
  have b4 : Close u 6 (slopeTerms p q c c1) _ _ := b3.monoA hu (le_of_eq (by rw [slopeTerms]))
  have d2 : Close u 6 ((|c| + |c1|) / (3 * (q.1 - p.1))) _ _ := d1.monoA hu (le_of_eq (by rw [add_comm |c1|]))
  generalize hb' : R.rnd (R.rnd (R.rnd (q.2 - p.2) / R.rnd (q.1 - p.1)) - R.rnd (R.rnd (R.rnd (q.1 - p.1) * R.rnd (c1 + R.rnd (2 * c))) / 3)) = b' at b4
  generalize hd' : R.rnd (R.rnd (c1 - c) / R.rnd (3 * R.rnd (q.1 - p.1))) = d' at d2
  generalize hB : slopeTerms p q c c1 = B at b4
  generalize hD : (|c| + |c1|) / (3 * (q.1 - p.1)) = D at d2
  generalize hb : (q.2 - p.2) / (q.1 - p.1) - (q.1 - p.1) * (c1 + 2 * c) / 3 = b at b4
  generalize hd : (c1 - c) / (3 * (q.1 - p.1)) = d at d2
  have d3 := (d2.scale hu 3).rnd hu hr
  rw [abs_of_pos (by norm_num : (0 : K) < 3)] at d3
  rw [abs_of_pos (by norm_num : (0 : K) < 2)] at c2
  have k0 := ((((cpp.mono hu (by omega : 0 ≤ 7)).add (((b4.mul hu cp1).rnd hu hr).mono hu (le_refl 7))).rnd hu hr).add
    (((cc.mul hu cp2).rnd hu hr).mono hu (by omega : 0 + (0 + 0 + 1) + 1 ≤ 7 + 1))).rnd hu hr
  have k0' := (k0.add (((d2.mul hu cp3).rnd hu hr).mono hu (le_refl 9))).rnd hu hr
  have k1 := ((b4.add (((c2.mul hu cp1).rnd hu hr).mono hu (by omega : 0 + 1 + 0 + 1 ≤ 6))).rnd hu hr).mono hu (by omega : 6 + 1 ≤ 9)
  have k1' := (k1.add (((d3.mul hu cp2).rnd hu hr).mono hu (le_refl 9))).rnd hu hr
  have k2 := (((cc.mono hu (by omega : 0 ≤ 8)).add (((d3.mul hu cp1).rnd hu hr).mono hu (le_refl 8))).rnd hu hr).mono hu (by omega : 8 + 1 ≤ 10)
  have k3 := d2.mono hu (by omega : 6 ≤ 10)
  have key := machinePolyEval_close (R := R) hu hr 10 t [(_, _, _), (_, _, _), (_, _, _), (_, _, _)] (by
    intro e he
    simp only [List.mem_cons, List.not_mem_nil, or_false] at he
    rcases he with rfl | rfl | rfl | rfl
    · exact k0'
    · exact k1'
    · exact k2
    · exact k3)
  simp only [List.map_cons, List.map_nil] at key
  rw [mPiece, hb', hd', pieceOf, hb, hd, valueTerms, hB, hD, value0_shifted]
  have e1 : ∀ (x1 x2 x3 x4 y : K), polyEval [x1, x2, x3, x4] y = x1 + x2 * y + x3 * y ^ 2 + x4 * y ^ 3 := by
    intros
    simp only [polyEval, polyLoop]
    ring
  rw [e1, e1] at key
  refine ⟨le_trans (le_of_eq ?_) (key.1.trans (le_of_eq ?_)), le_trans (le_of_eq ?_) (key.2.trans (le_of_eq ?_))⟩
  · congr 2
    ring
  · simp only [List.length_cons, List.length_nil]
    ring
  · congr 1
    ring
  · ring

/-! ### The loops -/

/-- The two loops, from a point `p` on. -/
theorem machine_loops (hu : 0 ≤ u) (hu1 : u ≤ 1 / 1000) (hr : ∀ x, |R.rnd x - x| ≤ u * |x|) (l : List (K × K)) : ∀ (p q : K × K) (mu z : K),
    (p :: q :: l).Pairwise (fun a b => a.1 < b.1) → 0 ≤ mu → mu ≤ 3 / 4 →
    ∃ ms d1 ds fs, machineForward R mu z (p :: q :: l) = .ok ms ∧ machineSplineBack R (p :: q :: l) ((mu, z) :: ms) = .ok (R.rnd (z - R.rnd (mu * d1)), fs) ∧
      ds.length = l.length ∧ fs.length = l.length + 1 ∧ (d1 :: ds)[l.length]? = some 0 ∧
      (∀ (i : Nat) a b c d, (p :: q :: l)[i]? = some a → (q :: l)[i]? = some b → (R.rnd (z - R.rnd (mu * d1)) :: d1 :: ds)[i]? = some c → (d1 :: ds)[i]? = some d →
        fs[i]? = some (mPiece R a b c d)) ∧
      (∀ (i : Nat) a b e c0 c1 c2, (p :: q :: l)[i]? = some a → (q :: l)[i]? = some b → l[i]? = some e → (R.rnd (z - R.rnd (mu * d1)) :: d1 :: ds)[i]? = some c0 →
        (d1 :: ds)[i]? = some c1 → ds[i]? = some c2 → Resid u a b e c0 c1 c2) := by
  induction l with
  | nil =>
    intro p q mu z hs m0 m1
    have hpq : p.1 < q.1 := (List.pairwise_cons.mp hs).1 q List.mem_cons_self
    refine ⟨[], 0, [], [mPiece R p q (R.rnd (z - R.rnd (mu * 0))) 0], rfl, ?_, rfl, rfl, rfl, ?_, by simp⟩
    · rw [machineSplineBack, machineSplineBack, Outcome.bind_ok]
      simp only
      rw [machineSplinePiece_eq hu1 hr hpq]
      rfl
    · intro i a b c d ha hb hc hd
      cases i with
      | zero => simp at ha hb hc hd; subst ha hb hd; simp [← hc]
      | succ i => simp at hb
  | cons r l ih =>
    intro p q mu z hs m0 m1
    obtain ⟨hp, hs'⟩ := List.pairwise_cons.mp hs
    have hpq : p.1 < q.1 := hp q List.mem_cons_self
    have hqr : q.1 < r.1 := (List.pairwise_cons.mp hs').1 r List.mem_cons_self
    have a0 : 0 < q.1 - p.1 := sub_pos.mpr hpq
    have a1 : 0 < r.1 - q.1 := sub_pos.mpr hqr
    generalize hg : R.rnd (R.rnd (2 * R.rnd (r.1 - p.1)) - R.rnd (R.rnd (q.1 - p.1) * mu)) = g
    obtain ⟨_, g0, _, n0, n1, _⟩ := pivot_bounds hu hu1 hr hpq hqr m0 m1 hg.symm
    generalize hmu : R.rnd (R.rnd (r.1 - q.1) / g) = mu' at n0 n1
    have hden := rnd_pos hu1 hr (mul_pos (rnd_pos hu1 hr a0) (rnd_pos hu1 hr a1))
    have ht := rhs_close hu hu1 hr hpq hqr
    generalize hT : R.rnd (R.rnd (3 * R.rnd (R.rnd (R.rnd (r.2 * R.rnd (q.1 - p.1)) - R.rnd (q.2 * R.rnd (r.1 - p.1))) + R.rnd (p.2 * R.rnd (r.1 - q.1)))) /
      R.rnd (R.rnd (q.1 - p.1) * R.rnd (r.1 - q.1))) = T at ht
    generalize hz : R.rnd (R.rnd (T - R.rnd (R.rnd (q.1 - p.1) * z)) / g) = z'
    obtain ⟨ms, d2, ds, fs, hf, hb, hl1, hl2, hend, hpiece, hres⟩ := ih q r mu' z' hs' n0 n1
    refine ⟨(mu', z') :: ms, R.rnd (z' - R.rnd (mu' * d2)), d2 :: ds, mPiece R p q (R.rnd (z - R.rnd (mu * R.rnd (z' - R.rnd (mu' * d2))))) (R.rnd (z' - R.rnd (mu' * d2))) :: fs,
      ?_, ?_, by simp [hl1], by simp [hl2], by simpa using hend, ?_, ?_⟩
    · rw [machineForward]
      simp only [div?, hg, if_neg g0.ne', if_neg hden.ne', Outcome.bind_ok, hmu, hT, hz, hf]
      rfl
    · rw [machineSplineBack, hb, Outcome.bind_ok]
      simp only
      rw [machineSplinePiece_eq hu1 hr hpq]
      rfl
    · intro i a b c d ha hb hc hd
      cases i with
      | zero =>
        simp only [List.getElem?_cons_zero, Option.some.injEq] at ha hb hc hd ⊢
        subst ha hb hc hd
        rfl
      | succ i => exact hpiece i a b c d (by simpa using ha) (by simpa using hb) (by simpa using hc) (by simpa using hd)
    · intro i a b e c0 c1 c2 ha hb he h0 h1 h2
      cases i with
      | zero =>
        simp only [List.getElem?_cons_zero, Option.some.injEq] at ha hb he h0 h1 h2
        subst ha hb he h0 h1 h2
        exact resid_ok hu hu1 hr hpq hqr m0 m1 hg.symm hmu.symm ht hz.symm rfl rfl
      | succ i => exact hres i a b e c0 c1 c2 (by simpa using ha) (by simpa using hb) (by simpa using he) (by simpa using h0) (by simpa using h1) (by simpa using h2)

/-- Equations with a dominant diagonal: the largest unknown. -/
theorem dominant (n : Nat) (e : Nat → K) (h : Nat → K) (hh : ∀ i < n, 0 < h i) (h0 : e 0 = 0) (hn : e n = 0) {β γ : K} (hβ : 0 ≤ β)
    (heq : ∀ M, (∀ i ≤ n, |e i| ≤ M) → ∀ i, i + 2 ≤ n → |h i * e i + 2 * (h i + h (i + 1)) * e (i + 1) + h (i + 1) * e (i + 2)| ≤ (h i + h (i + 1)) * (β + γ * M)) :
    ∃ M, (∀ i ≤ n, |e i| ≤ M) ∧ 0 ≤ M ∧ M ≤ β + γ * M := by
  obtain ⟨j, hj, hmax⟩ := Finset.exists_max_image (Finset.range (n + 1)) (fun i => |e i|) ⟨0, by simp⟩
  have hM : ∀ i ≤ n, |e i| ≤ |e j| := fun i hi => hmax i (Finset.mem_range.mpr (by omega))
  have hjn : j ≤ n := by have := Finset.mem_range.mp hj; omega
  have hM0 : 0 ≤ |e j| := abs_nonneg _
  refine ⟨|e j|, hM, hM0, ?_⟩
  have triv : e j = 0 → |e j| ≤ β + γ * |e j| := by
    intro h
    rw [h, abs_zero, mul_zero, add_zero]
    exact hβ
  rcases Nat.eq_zero_or_pos j with rfl | hj0
  · exact triv h0
  rcases Nat.lt_or_eq_of_le hjn with hj1 | rfl
  · obtain ⟨i, rfl⟩ : ∃ i, j = i + 1 := ⟨j - 1, by omega⟩
    have hE := heq _ hM i (by omega)
    have p0 := hh i (by omega)
    have p1 := hh (i + 1) (by omega)
    have t0 := mul_le_mul_of_nonneg_left (hM i (by omega)) p0.le
    have t2 := mul_le_mul_of_nonneg_left (hM (i + 2) (by omega)) p1.le
    have q1 := abs_sub (h i * e i + 2 * (h i + h (i + 1)) * e (i + 1) + h (i + 1) * e (i + 2)) (h i * e i + h (i + 1) * e (i + 2))
    have q2 := abs_add_le (h i * e i) (h (i + 1) * e (i + 2))
    rw [show h i * e i + 2 * (h i + h (i + 1)) * e (i + 1) + h (i + 1) * e (i + 2) - (h i * e i + h (i + 1) * e (i + 2)) = 2 * (h i + h (i + 1)) * e (i + 1) by ring, abs_mul,
      abs_of_pos (by linarith : 0 < 2 * (h i + h (i + 1)))] at q1
    rw [abs_mul, abs_mul, abs_of_pos p0, abs_of_pos p1] at q2
    have : (h i + h (i + 1)) * |e (i + 1)| ≤ (h i + h (i + 1)) * (β + γ * |e (i + 1)|) := by linarith
    exact le_of_mul_le_mul_left this (by linarith)
  · exact triv hn

/-! ### Without rounding -/

theorem machineForward_exact (l : List (K × K)) : ∀ mu z : K, machineForward (Rounding.exact K) mu z l = splineForward mu z l := by
  induction l with
  | nil => intros; rfl
  | cons p l ih =>
    intro mu z
    match l with
    | [] => rfl
    | [_] => rfl
    | q :: r :: l =>
      rw [machineForward, splineForward]
      simp only [ih]
      rfl

theorem machineSplineBack_exact (l : List (K × K)) : ∀ ms : List (K × K), machineSplineBack (Rounding.exact K) l ms = splineBack l ms := by
  induction l with
  | nil => intro ms; cases ms <;> rfl
  | cons p l ih =>
    intro ms
    match l, ms with
    | [], [] => rfl
    | [], _ :: _ => rfl
    | q :: l, [] => rfl
    | q :: l, (mu, z) :: ms =>
      rw [machineSplineBack, splineBack, ih]
      rfl

theorem mPiece_exact (p q : K × K) (c c1 : K) : mPiece (Rounding.exact K) p q c c1 = pieceOf p q c c1 := rfl

theorem exact_err (x : K) : |(Rounding.exact K).rnd x - x| ≤ 0 * |x| := by
  show |x - x| ≤ _
  simp

theorem abs_rhs_le {p q r : K × K} (h1 : p.1 < q.1) (h2 : q.1 < r.1) : |rhs p q r| ≤ rhsTerms p q r :=
  (rhs_close (le_refl (0 : K)) (by norm_num) exact_err h1 h2).2

theorem some_getD {α : Type} {l : List α} {i : Nat} (d : α) (h : i < l.length) : l[i]? = some (l.getD i d) := by
  rw [List.getD_eq_getElem _ _ h]
  exact List.getElem?_eq_getElem h

/-- Both splines: the loops, and how far the quadratic coefficients are apart. -/
theorem both_loops (hu : 0 ≤ u) (hu1 : u ≤ 1 / 1000) (hr : ∀ x, |R.rnd x - x| ≤ u * |x|) {Q : K} (hQ : 0 ≤ Q) (p q : K × K) (l : List (K × K))
    (hs : (p :: q :: l).Pairwise (fun a b => a.1 < b.1))
    (hT : ∀ (i : Nat) a b c, (p :: q :: l)[i]? = some a → (q :: l)[i]? = some b → l[i]? = some c → rhsTerms a b c ≤ Q * (c.1 - a.1)) :
    ∃ ms d0 fs ms' c0 cs, machineForward R 0 0 (p :: q :: l) = .ok ms ∧ machineSplineBack R (p :: q :: l) ((0, 0) :: ms) = .ok (d0, fs) ∧ fs.length = l.length + 1 ∧
      splineForward 0 0 (p :: q :: l) = .ok ms' ∧ splineBack (p :: q :: l) ((0, 0) :: ms') = .ok (c0, cs) ∧ cs.length = l.length + 1 ∧
      ∀ (i : Nat) a b, (p :: q :: l)[i]? = some a → (q :: l)[i]? = some b → ∃ d d1 c c1, fs[i]? = some (mPiece R a b d d1) ∧ cs[i]? = some (pieceOf a b c c1) ∧
        |c| ≤ Q ∧ |c1| ≤ Q ∧ |d - c| ≤ 90 * u * Q ∧ |d1 - c1| ≤ 90 * u * Q := by
  obtain ⟨ms, d1, ds, fs, hf, hb, hl1, hl2, hend, hpiece, hres⟩ := machine_loops hu hu1 hr l p q 0 0 hs (le_refl _) (by norm_num)
  obtain ⟨ms', c1, cs, gs, hf', hb', hl1', hl2', hend', hpiece', hres'⟩ := machine_loops (le_refl (0 : K)) (by norm_num) exact_err l p q 0 0 hs (le_refl _) (by norm_num)
  rw [machineForward_exact] at hf'
  rw [machineSplineBack_exact] at hb'
  have z1 : R.rnd (0 - R.rnd (0 * d1)) = 0 := by rw [zero_mul, R.zero, sub_zero, R.zero]
  have z2 : (Rounding.exact K).rnd (0 - (Rounding.exact K).rnd (0 * c1)) = 0 := by rw [zero_mul, Rounding.zero, sub_zero, Rounding.zero]
  rw [z1] at hb hpiece hres
  rw [z2] at hb' hpiece' hres'
  have hP : ∀ i, i < l.length + 2 → (p :: q :: l)[i]? = some ((p :: q :: l).getD i p) := fun i h => some_getD p (by simp; omega)
  have hD : ∀ i, i < l.length + 2 → (0 :: d1 :: ds)[i]? = some ((0 :: d1 :: ds).getD i 0) := fun i h => some_getD 0 (by simp [hl1]; omega)
  have hC : ∀ i, i < l.length + 2 → (0 :: c1 :: cs)[i]? = some ((0 :: c1 :: cs).getD i 0) := fun i h => some_getD 0 (by simp [hl1']; omega)
  generalize hPd : (fun i => (p :: q :: l).getD i p) = P
  generalize hDd : (fun i => (0 :: d1 :: ds).getD i 0) = D
  generalize hCd : (fun i => (0 :: c1 :: cs).getD i 0) = C
  replace hP : ∀ i, i < l.length + 2 → (p :: q :: l)[i]? = some (P i) := by rw [← hPd]; exact hP
  replace hD : ∀ i, i < l.length + 2 → (0 :: d1 :: ds)[i]? = some (D i) := by rw [← hDd]; exact hD
  replace hC : ∀ i, i < l.length + 2 → (0 :: c1 :: cs)[i]? = some (C i) := by rw [← hCd]; exact hC
  have hD0 : D 0 = 0 := by rw [← hDd]; rfl
  have hC0 : C 0 = 0 := by rw [← hCd]; rfl
  have hDn : D (l.length + 1) = 0 := by
    have := hD (l.length + 1) (by omega)
    rw [List.getElem?_cons_succ, hend] at this
    exact (Option.some.inj this).symm
  have hCn : C (l.length + 1) = 0 := by
    have := hC (l.length + 1) (by omega)
    rw [List.getElem?_cons_succ, hend'] at this
    exact (Option.some.inj this).symm
  have hinc : ∀ i < l.length + 1, 0 < (P (i + 1)).1 - (P i).1 := by
    intro i hi
    obtain ⟨h1, e1⟩ := List.getElem?_eq_some_iff.mp (hP i (by omega))
    obtain ⟨h2, e2⟩ := List.getElem?_eq_some_iff.mp (hP (i + 1) (by omega))
    rw [← e1, ← e2]
    exact sub_pos.mpr (List.pairwise_iff_getElem.mp hs i (i + 1) h1 h2 (Nat.lt_succ_self i))
  have hT' : ∀ i, i + 2 ≤ l.length + 1 → rhsTerms (P i) (P (i + 1)) (P (i + 2)) ≤ Q * ((P (i + 2)).1 - (P i).1) := fun i hi =>
    hT i _ _ _ (hP i (by omega)) (by simpa using hP (i + 1) (by omega)) (by simpa using hP (i + 2) (by omega))
  have hRd : ∀ i, i + 2 ≤ l.length + 1 → Resid u (P i) (P (i + 1)) (P (i + 2)) (D i) (D (i + 1)) (D (i + 2)) := fun i hi =>
    hres i _ _ _ _ _ _ (hP i (by omega)) (by simpa using hP (i + 1) (by omega)) (by simpa using hP (i + 2) (by omega)) (hD i (by omega)) (by simpa using hD (i + 1) (by omega))
      (by simpa using hD (i + 2) (by omega))
  have hRc : ∀ i, i + 2 ≤ l.length + 1 → Resid 0 (P i) (P (i + 1)) (P (i + 2)) (C i) (C (i + 1)) (C (i + 2)) := fun i hi =>
    hres' i _ _ _ _ _ _ (hP i (by omega)) (by simpa using hP (i + 1) (by omega)) (by simpa using hP (i + 2) (by omega)) (hC i (by omega)) (by simpa using hC (i + 1) (by omega))
      (by simpa using hC (i + 2) (by omega))
  have hRc' : ∀ i, i + 2 ≤ l.length + 1 → ((P (i + 1)).1 - (P i).1) * C i + 2 * ((P (i + 2)).1 - (P i).1) * C (i + 1) + ((P (i + 2)).1 - (P (i + 1)).1) * C (i + 2) =
      rhs (P i) (P (i + 1)) (P (i + 2)) := by
    intro i hi
    have := hRc i hi
    rw [Resid, zero_mul] at this
    exact sub_eq_zero.mp (abs_nonpos_iff.mp this)
  obtain ⟨M, hM, hM0, hM1⟩ := dominant (l.length + 1) C (fun i => (P (i + 1)).1 - (P i).1) hinc hC0 hCn (β := Q) (γ := 0) hQ (by
    intro M hM i hi
    have e1 : (P (i + 1)).1 - (P i).1 + ((P (i + 1 + 1)).1 - (P (i + 1)).1) = (P (i + 2)).1 - (P i).1 := by ring
    rw [e1, hRc' i hi, zero_mul, add_zero, mul_comm]
    exact (abs_rhs_le (sub_pos.mp (hinc i (by omega))) (sub_pos.mp (hinc (i + 1) (by omega)))).trans (hT' i hi))
  have hCQ : ∀ i ≤ l.length + 1, |C i| ≤ Q := fun i hi => (hM i hi).trans (by linarith)
  obtain ⟨N, hN, hN0, hN1⟩ := dominant (l.length + 1) (fun i => D i - C i) (fun i => (P (i + 1)).1 - (P i).1) hinc (by simp [hD0, hC0]) (by simp [hDn, hCn])
    (β := 80 * u * Q) (γ := 65 * u) (by positivity) (by
    intro N hN i hi
    have e1 : (P (i + 1)).1 - (P i).1 + ((P (i + 1 + 1)).1 - (P (i + 1)).1) = (P (i + 2)).1 - (P i).1 := by ring
    rw [e1]
    have h1 := hRd i hi
    rw [Resid, ← hRc' i hi] at h1
    have hH : 0 < (P (i + 2)).1 - (P i).1 := by have := hinc i (by omega); have := hinc (i + 1) (by omega); linarith
    have dl : ∀ j ≤ l.length + 1, |D j| ≤ Q + N := by
      intro j hj
      have := abs_add_le (C j) (D j - C j)
      rw [add_sub_cancel] at this
      exact this.trans (add_le_add (hCQ j hj) (hN j hj))
    refine le_trans (le_of_eq ?_) (h1.trans ?_)
    · congr 1
      ring
    · have t0 := dl i (by omega)
      have t1 := dl (i + 1) (by omega)
      have t2 := dl (i + 2) (by omega)
      have w1 : ((P (i + 2)).1 - (P i).1) * (19 * |D i| + 37 * |D (i + 1)| + 9 * |D (i + 2)|) ≤ ((P (i + 2)).1 - (P i).1) * (65 * (Q + N)) :=
        mul_le_mul_of_nonneg_left (by linarith) hH.le
      have w2 : ((P (i + 2)).1 - (P i).1) * (19 * |D i| + 37 * |D (i + 1)| + 9 * |D (i + 2)|) + 15 * rhsTerms (P i) (P (i + 1)) (P (i + 2)) ≤
          ((P (i + 2)).1 - (P i).1) * (80 * Q + 65 * N) := by linarith [hT' i hi]
      refine (mul_le_mul_of_nonneg_left w2 hu).trans (le_of_eq ?_)
      ring)
  have hN2 : N ≤ 90 * u * Q := by
    have := mul_le_mul_of_nonneg_right hu1 hN0
    have := mul_nonneg hu hQ
    linarith
  refine ⟨ms, 0, fs, ms', 0, gs, hf, hb, hl2, hf', hb', hl2', ?_⟩
  intro i a b ha hb
  have hi : i < l.length + 1 := by
    have := (List.getElem?_eq_some_iff.mp hb).1
    simpa using this
  refine ⟨D i, D (i + 1), C i, C (i + 1), hpiece i a b _ _ ha hb (hD i (by omega)) (by simpa using hD (i + 1) (by omega)), ?_, hCQ _ (by omega), hCQ _ (by omega),
    (hN i (by omega)).trans hN2, (hN (i + 1) (by omega)).trans hN2⟩
  rw [← mPiece_exact]
  exact hpiece' i a b _ _ ha hb (hC i (by omega)) (by simpa using hC (i + 1) (by omega))

/-! ### Values -/

/-- Two functions through the same points with different quadratic coefficients. -/
theorem pieceOf_diff {p q : K × K} (h : p.1 < q.1) {c c1 d d1 E t : K} (h0 : |d - c| ≤ E) (h1 : |d1 - c1| ≤ E) (t0 : p.1 ≤ t) (t1 : t ≤ q.1) :
    |Spec.value0 (pieceOf p q d d1) t - Spec.value0 (pieceOf p q c c1) t| ≤ E * (q.1 - p.1) ^ 2 / 3 := by
  have a0 : 0 < q.1 - p.1 := sub_pos.mpr h
  have hE : 0 ≤ E := (abs_nonneg _).trans h0
  obtain ⟨s, rfl⟩ : ∃ s, t = p.1 + s * (q.1 - p.1) := ⟨(t - p.1) / (q.1 - p.1), by field_simp; ring⟩
  have s0 : 0 ≤ s := by
    by_contra hc
    nlinarith [mul_pos_of_neg_of_neg (not_le.mp hc) (neg_neg_of_pos a0)]
  have s1 : s ≤ 1 := by
    by_contra hc
    nlinarith [mul_pos (sub_pos.mpr (not_le.mp hc)) a0]
  rw [pieceOf, pieceOf, value0_shifted, value0_shifted]
  have e1 : p.2 + ((q.2 - p.2) / (q.1 - p.1) - (q.1 - p.1) * (d1 + 2 * d) / 3) * (p.1 + s * (q.1 - p.1) - p.1) + d * (p.1 + s * (q.1 - p.1) - p.1) ^ 2 +
        (d1 - d) / (3 * (q.1 - p.1)) * (p.1 + s * (q.1 - p.1) - p.1) ^ 3 -
      (p.2 + ((q.2 - p.2) / (q.1 - p.1) - (q.1 - p.1) * (c1 + 2 * c) / 3) * (p.1 + s * (q.1 - p.1) - p.1) + c * (p.1 + s * (q.1 - p.1) - p.1) ^ 2 +
        (c1 - c) / (3 * (q.1 - p.1)) * (p.1 + s * (q.1 - p.1) - p.1) ^ 3) =
      -((q.1 - p.1) ^ 2 / 3 * (s * (1 - s)) * ((d - c) * (2 - s) + (d1 - c1) * (1 + s))) := by
    have b0 := a0.ne'
    field_simp
    ring
  rw [e1, abs_neg, abs_mul, abs_of_nonneg (mul_nonneg (by positivity) (mul_nonneg s0 (by linarith)))]
  have h2 : |(d - c) * (2 - s) + (d1 - c1) * (1 + s)| ≤ E * 3 := by
    refine (abs_add_le _ _).trans ?_
    rw [abs_mul, abs_mul, abs_of_nonneg (by linarith : 0 ≤ 2 - s), abs_of_nonneg (by linarith : 0 ≤ 1 + s)]
    have := mul_le_mul_of_nonneg_right h0 (by linarith : 0 ≤ 2 - s)
    have := mul_le_mul_of_nonneg_right h1 (by linarith : 0 ≤ 1 + s)
    linarith
  have h3 : s * (1 - s) ≤ 1 / 4 := by nlinarith [sq_nonneg (s - 1 / 2)]
  have h4 : (q.1 - p.1) ^ 2 / 3 * (s * (1 - s)) ≤ (q.1 - p.1) ^ 2 / 3 * (1 / 4) := mul_le_mul_of_nonneg_left h3 (by positivity)
  calc _ ≤ (q.1 - p.1) ^ 2 / 3 * (1 / 4) * (E * 3) := mul_le_mul h4 h2 (abs_nonneg _) (by positivity)
    _ ≤ _ := by
      have : 0 ≤ E * (q.1 - p.1) ^ 2 := by positivity
      linarith

/-- The terms of a value in terms of the largest abscissa and ordinate and the smallest distance. -/
theorem valueTerms_le {p q : K × K} {c c1 t h k Y : K} (hh : 0 < h) (hk : 1 / 2 ≤ k) (hY : 0 ≤ Y) (hgap : h ≤ q.1 - p.1) (p1 : |p.1| ≤ k * h) (q1 : |q.1| ≤ k * h) (ht : |t| ≤ k * h)
    (p2 : |p.2| ≤ Y) (q2 : |q.2| ≤ Y) (hc : |c| ≤ 109 / 100 * (6 * Y / h ^ 2)) (hc1 : |c1| ≤ 109 / 100 * (6 * Y / h ^ 2)) : valueTerms p q c c1 t ≤ 167 * (Y * k ^ 3) := by
  have a0 : 0 < q.1 - p.1 := lt_of_lt_of_le hh hgap
  have k0 : 0 < k := by linarith
  have g2 : q.1 - p.1 ≤ 2 * (k * h) := by linarith [(abs_le.mp p1).1, (abs_le.mp q1).2]
  have d2 : |q.2 - p.2| ≤ 2 * Y := (abs_sub _ _).trans (by linarith)
  have hx : |p.1| + |t| ≤ 2 * (k * h) := by linarith
  have hx0 : 0 ≤ |p.1| + |t| := by positivity
  generalize hZ : 6 * Y / h ^ 2 = Z at hc hc1
  have hZ0 : 0 ≤ Z := by rw [← hZ]; positivity
  have hZh : Z * h ^ 2 = 6 * Y := by rw [← hZ]; field_simp
  unfold valueTerms slopeTerms
  have y1 : Y ≤ 8 * (Y * k ^ 3) := by
    have : (1 / 2) ^ 3 ≤ k ^ 3 := pow_le_pow_left₀ (by norm_num) hk 3
    have := mul_le_mul_of_nonneg_left this hY
    linarith
  have y2 : Y * k ≤ 4 * (Y * k ^ 3) := by
    have : (1 / 2) ^ 2 ≤ k ^ 2 := pow_le_pow_left₀ (by norm_num) hk 2
    have := mul_le_mul_of_nonneg_left this (by positivity : 0 ≤ Y * k)
    linarith [show Y * k * k ^ 2 = Y * k ^ 3 by ring]
  have y3 : Y * k ^ 2 ≤ 2 * (Y * k ^ 3) := by
    have := mul_le_mul_of_nonneg_left hk (by positivity : 0 ≤ Y * k ^ 2)
    linarith [show Y * k ^ 2 * k = Y * k ^ 3 by ring]
  have t1 : |q.2 - p.2| / (q.1 - p.1) * (|p.1| + |t|) ≤ 4 * (Y * k) := by
    calc _ ≤ 2 * Y / h * (2 * (k * h)) := mul_le_mul (div_le_div₀ (by positivity) d2 hh hgap) hx hx0 (by positivity)
      _ = _ := by field_simp; ring
  have t2 : (q.1 - p.1) * (|c1| + 2 * |c|) / 3 * (|p.1| + |t|) ≤ 27 * (Y * k ^ 2) := by
    calc _ ≤ 2 * (k * h) * (327 / 100 * Z) / 3 * (2 * (k * h)) := by
          refine mul_le_mul (div_le_div_of_nonneg_right (mul_le_mul g2 (by linarith) (by positivity) (by positivity)) (by norm_num)) hx hx0 (by positivity)
      _ = 436 / 100 * k ^ 2 * (Z * h ^ 2) := by ring
      _ = 2616 / 100 * (Y * k ^ 2) := by rw [hZh]; ring
      _ ≤ _ := mul_le_mul_of_nonneg_right (by norm_num) (by positivity)
  have t3 : |c| * (|p.1| + |t|) ^ 2 ≤ 27 * (Y * k ^ 2) := by
    calc _ ≤ 109 / 100 * Z * (2 * (k * h)) ^ 2 := mul_le_mul hc (pow_le_pow_left₀ hx0 hx 2) (by positivity) (by positivity)
      _ = 436 / 100 * k ^ 2 * (Z * h ^ 2) := by ring
      _ = 2616 / 100 * (Y * k ^ 2) := by rw [hZh]; ring
      _ ≤ _ := mul_le_mul_of_nonneg_right (by norm_num) (by positivity)
  have t4 : (|c| + |c1|) / (3 * (q.1 - p.1)) * (|p.1| + |t|) ^ 3 ≤ 3488 / 100 * (Y * k ^ 3) := by
    calc _ ≤ (218 / 100 * Z) / (3 * h) * (2 * (k * h)) ^ 3 :=
          mul_le_mul (div_le_div₀ (by positivity) (by linarith) (by positivity) (by linarith)) (pow_le_pow_left₀ hx0 hx 3) (by positivity) (by positivity)
      _ = 218 * 8 / 300 * k ^ 3 * (Z * h ^ 2) := by field_simp; ring
      _ = 3488 / 100 * (Y * k ^ 3) := by rw [hZh]; ring
  have y0 : 0 ≤ Y * k ^ 3 := by positivity
  rw [add_mul]
  linarith

end

end MathUtils

end Alexandria
