import Verif.MathUtils.Model
import Mathlib.Data.List.GetD
import Mathlib.Algebra.BigOperators.Ring.Finset
import Mathlib.Analysis.Calculus.Deriv.Pow
import Mathlib.Analysis.Calculus.Deriv.Add
import Mathlib.Analysis.Calculus.Deriv.Mul
import Mathlib.MeasureTheory.Integral.IntervalIntegral.FundThmCalculus
import Mathlib.Tactic.Ring
import Mathlib.Tactic.FieldSimp

/-! # Polynomials (C31) -/

namespace Alexandria.MathUtils

open Finset

section
variable {K : Type} [Field K] [LinearOrder K]

/-- The value of the polynomial with the coefficients `c`. -/
def Spec.polyValue (c : List K) (x : K) : K := ∑ i ∈ range c.length, c.getD i 0 * x ^ i

theorem polyLoop_eq (x : K) (c : List K) (r p : K) : polyLoop x c r p = r + p * Spec.polyValue c x := by
  induction c generalizing r p with
  | nil => simp [polyLoop, Spec.polyValue]
  | cons a c ih =>
    rw [polyLoop, ih]
    simp only [Spec.polyValue, List.length_cons]
    rw [sum_range_succ']
    simp only [List.getD_cons_succ, List.getD_cons_zero, pow_zero, mul_one, pow_succ, mul_add, mul_sum]
    have : ∀ i, p * (c.getD i 0 * (x ^ i * x)) = p * x * (c.getD i 0 * x ^ i) := fun i => by ring
    simp only [this]
    ring

/-- `operator()` evaluates the polynomial. -/
theorem C31_eval (c : List K) (x : K) : polyEval c x = Spec.polyValue c x := by
  rw [polyEval, polyLoop_eq]; ring

theorem polyEval_nil (x : K) : polyEval ([] : List K) x = 0 := by simp [C31_eval, Spec.polyValue]

theorem polyEval_cons (a : K) (c : List K) (x : K) : polyEval (a :: c) x = a + x * polyEval c x := by
  simp only [polyEval, polyLoop, polyLoop_eq]; ring

theorem length_polyDeriv (c : List K) : (polyDeriv c).length = c.length - 1 := by simp [polyDeriv]

theorem getD_polyDeriv (c : List K) (i : Nat) : (polyDeriv c).getD i 0 = ((i + 1 : Nat) : K) * c.getD (i + 1) 0 := by
  by_cases h : i + 1 < c.length
  · have h' : i < (polyDeriv c).length := by rw [length_polyDeriv]; omega
    rw [List.getD_eq_getElem _ _ h', List.getD_eq_getElem _ _ h]
    simp [polyDeriv, Nat.add_comm]
  · have h' : (polyDeriv c).length ≤ i := by rw [length_polyDeriv]; omega
    rw [List.getD_eq_default _ _ h', List.getD_eq_default _ _ (by omega)]
    simp

theorem polyDeriv_polyIntegral [CharZero K] (c : List K) : polyDeriv (polyIntegral c) = c := by
  apply List.ext_getElem
  · simp [polyDeriv, polyIntegral]
  · intro i h1 h2
    have h3 : ((i : K) + 1) ≠ 0 := by exact_mod_cast Nat.succ_ne_zero i
    simp [polyDeriv, polyIntegral]
    field_simp
    ring

theorem getD_modify_add (r : List K) (k i : Nat) (v : K) (hk : k < r.length) :
    (r.modify k fun w => w + v).getD i 0 = r.getD i 0 + if i = k then v else 0 := by
  by_cases hi : i < r.length
  · rw [List.getD_eq_getElem _ _ (by simpa using hi), List.getD_eq_getElem _ _ hi, List.getElem_modify]
    by_cases h : k = i
    · simp [h]
    · simp [h, Ne.symm h]
  · rw [List.getD_eq_default _ _ (by simp; omega), List.getD_eq_default _ _ (by omega), if_neg (by omega)]
    simp

theorem polyEval_modify (r : List K) (k : Nat) (v x : K) (hk : k < r.length) :
    polyEval (r.modify k fun w => w + v) x = polyEval r x + v * x ^ k := by
  simp only [C31_eval, Spec.polyValue, List.length_modify]
  simp only [getD_modify_add r k _ v hk, add_mul, sum_add_distrib]
  congr 1
  rw [sum_eq_single k]
  · simp
  · intro b _ hb; simp [hb]
  · intro h; exact absurd (mem_range.mpr hk) h

theorem inner_loop (a : K) (i : Nat) (c2 : List K) (x : K) (j0 : Nat) (r : List K) (hr : ∀ j, j0 ≤ j → j < j0 + c2.length → i + j < r.length) :
    polyEval ((c2.zipIdx j0).foldl (fun r q => r.modify (i + q.2) fun v => v + a * q.1) r) x =
        polyEval r x + a * x ^ (i + j0) * polyEval c2 x ∧
      ((c2.zipIdx j0).foldl (fun r q => r.modify (i + q.2) fun v => v + a * q.1) r).length = r.length := by
  induction c2 generalizing j0 r with
  | nil => simp [polyEval_nil]
  | cons b c2 ih =>
    rw [List.zipIdx_cons, List.foldl_cons]
    obtain ⟨h1, h2⟩ := ih (j0 + 1) (r.modify (i + j0) fun v => v + a * b) (by
      intro j hj hj'
      rw [List.length_modify]
      exact hr j (by omega) (by simp; omega))
    refine ⟨?_, by rw [h2, List.length_modify]⟩
    rw [h1, polyEval_modify _ _ _ _ (hr j0 (le_refl _) (by simp)), polyEval_cons]
    ring

theorem outer_loop (c1 c2 : List K) (x : K) (i0 : Nat) (r : List K) (hr : i0 + c1.length + c2.length ≤ r.length + 1) (h2 : c2 ≠ []) :
    polyEval ((c1.zipIdx i0).foldl (fun r p => c2.zipIdx.foldl (fun r q => r.modify (p.2 + q.2) fun v => v + p.1 * q.1) r) r) x =
      polyEval r x + x ^ i0 * polyEval c1 x * polyEval c2 x := by
  induction c1 generalizing i0 r with
  | nil => simp [polyEval_nil]
  | cons a c1 ih =>
    rw [List.zipIdx_cons, List.foldl_cons]
    obtain ⟨e1, e2⟩ := inner_loop a i0 c2 x 0 r (by
      intro j _ hj
      simp at hr
      omega)
    rw [ih (i0 + 1) _ (by rw [e2]; simp at hr; omega), e1, polyEval_cons]
    ring

theorem polyEval_replicate (n : Nat) (x : K) : polyEval (List.replicate n 0) x = 0 := by
  induction n with
  | zero => exact polyEval_nil x
  | succ n ih => rw [List.replicate_succ, polyEval_cons, ih]; ring

/-- The product of two polynomials evaluates to the product; it exists unless both have no coefficients at all. -/
theorem C31_product (c1 c2 : List K) :
    (¬ (c1 = [] ∧ c2 = []) → ∃ c, mulPoly c1 c2 = .ok c ∧ c.length = c1.length + c2.length - 1 ∧ ∀ x, polyEval c x = polyEval c1 x * polyEval c2 x) ∧
      (c1 = [] ∧ c2 = [] → mulPoly c1 c2 = .throw .length) := by
  constructor
  · intro h
    refine ⟨_, by rw [mulPoly, if_neg h], ?_, ?_⟩
    · have inner : ∀ (a : K) (i : Nat) (l : List (K × Nat)) (r : List K), (l.foldl (fun r q => r.modify (i + q.2) fun v => v + a * q.1) r).length = r.length := by
        intro a i l
        induction l with
        | nil => intro r; rfl
        | cons q l ih => intro r; rw [List.foldl_cons, ih, List.length_modify]
      have outer : ∀ (l : List (K × Nat)) (r : List K),
          (l.foldl (fun r p => c2.zipIdx.foldl (fun r q => r.modify (p.2 + q.2) fun v => v + p.1 * q.1) r) r).length = r.length := by
        intro l
        induction l with
        | nil => intro r; rfl
        | cons q l ih => intro r; rw [List.foldl_cons, ih, inner]
      rw [mulLoop, outer, List.length_replicate]
    · intro x
      by_cases h2 : c2 = []
      · subst h2
        have : mulLoop c1 [] (List.replicate (c1.length + ([] : List K).length - 1) 0) = List.replicate (c1.length + ([] : List K).length - 1) 0 := by
          simp [mulLoop]
        rw [this, polyEval_replicate, polyEval_nil]; ring
      · rw [mulLoop, outer_loop c1 c2 x 0 _ (by simp; omega) h2, polyEval_replicate]; ring
  · intro h; rw [mulPoly, if_pos h]

end

/-- `derivative` gives the derivative, everywhere. -/
theorem C31_derivative (c : List ℝ) (x : ℝ) : HasDerivAt (polyEval c) (polyEval (polyDeriv c) x) x := by
  have h1 : polyEval c = fun x => ∑ i ∈ range c.length, c.getD i 0 * x ^ i := by
    funext x; exact C31_eval c x
  have h2 : polyEval (polyDeriv c) x = ∑ i ∈ range c.length, c.getD i 0 * ((i : ℝ) * x ^ (i - 1)) := by
    rw [C31_eval, Spec.polyValue, length_polyDeriv]
    cases c with
    | nil => simp
    | cons a c =>
      rw [List.length_cons, Nat.add_sub_cancel, sum_range_succ' (fun i => (a :: c).getD i 0 * ((i : ℝ) * x ^ (i - 1)))]
      simp only [getD_polyDeriv, Nat.cast_zero, zero_mul, mul_zero, add_zero, Nat.add_sub_cancel]
      apply sum_congr rfl
      intro i _
      ring
  rw [h1, h2]
  apply HasDerivAt.fun_sum
  intro i _
  exact (hasDerivAt_pow i x).const_mul _

/-- `indefiniteIntegral` gives the antiderivative that vanishes at zero. -/
theorem C31_antiderivative (c : List ℝ) (x : ℝ) :
    HasDerivAt (polyEval (polyIntegral c)) (polyEval c x) x ∧ polyEval (polyIntegral c) 0 = 0 := by
  refine ⟨?_, by rw [polyIntegral, polyEval_cons]; ring⟩
  have := C31_derivative (polyIntegral c) x
  rwa [polyDeriv_polyIntegral] at this

theorem continuous_polyEval (c : List ℝ) : Continuous (polyEval c) :=
  continuous_iff_continuousAt.mpr fun x => (C31_derivative c x).continuousAt

/-- `integrate` gives the definite integral. -/
theorem C31_integral (c : List ℝ) (a b : ℝ) : polyIntegrate c a b = ∫ x in a..b, polyEval c x := by
  rw [intervalIntegral.integral_eq_sub_of_hasDerivAt (fun x _ => (C31_antiderivative c x).1)
    ((continuous_polyEval c).intervalIntegrable a b)]
  rfl

/-- 1 + 2 x + 3 x²; its derivative and antiderivative, its square, its integral from 0 to 2. -/
example : polyEval [(1 : ℚ), 2, 3] 2 = 17 ∧ polyDeriv [(1 : ℚ), 2, 3] = [2, 6] ∧ polyIntegral [(1 : ℚ), 2, 3] = [0, 1, 1, 1] ∧
    mulPoly [(1 : ℚ), 2, 3] [1, 2, 3] = .ok [1, 4, 10, 12, 9] ∧ polyIntegrate [(1 : ℚ), 2, 3] 0 2 = 14 := by
  decide +kernel

end Alexandria.MathUtils
