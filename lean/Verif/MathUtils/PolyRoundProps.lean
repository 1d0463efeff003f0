import Verif.MathUtils.PolyRoundModel
import Verif.MathUtils.PolyProps
import Verif.Common.Close
import Verif.Common.Binary
import Mathlib.Algebra.Order.BigOperators.Ring.Finset

/-! # Polynomials in floating point arithmetic (C130) -/

namespace Alexandria.MathUtils

open Finset

section
variable {K : Type} [Field K] [LinearOrder K]

/-- The sum of the absolute values of the terms of a polynomial. -/
def Spec.polyTerms (c : List K) (x : K) : K := ∑ i ∈ range c.length, |c.getD i 0| * |x| ^ i

variable [IsStrictOrderedRing K] {R : Rounding K} {u : K}

theorem polyTerms_eq (c : List K) (x : K) : Spec.polyTerms c x = polyEval (c.map fun a => |a|) |x| := by
  rw [C31_eval, Spec.polyTerms, Spec.polyValue, List.length_map]
  refine sum_congr rfl fun i hi => ?_
  have h := mem_range.mp hi
  rw [List.getD_eq_getElem _ _ h, List.getD_eq_getElem _ _ (by simpa using h), List.getElem_map]

/-- The loop on coefficients that are themselves rounded. -/
theorem machinePolyLoop_close (hu : 0 ≤ u) (hr : ∀ x, |R.rnd x - x| ≤ u * |x|) (m : Nat) (x : K) (t : List (K × K × K)) :
    (∀ e ∈ t, Close u m e.2.2 e.1 e.2.1) → ∀ (k : Nat) (S r' r p' p : K), Close u (m + k + 1) S r' r → Close u k |p| p' p →
    Close u (m + k + 1 + t.length) (polyLoop |x| (t.map fun e => e.2.2) S |p|) (machinePolyLoop R x (t.map fun e => e.1) r' p')
      (polyLoop x (t.map fun e => e.2.1) r p) := by
  induction t with
  | nil => intro _ k S r' r p' p h1 _; exact h1
  | cons e t ih =>
    intro h k S r' r p' p h1 h2
    simp only [List.map_cons, polyLoop, machinePolyLoop, List.length_cons]
    have h3 := ((h e (by simp)).mul hu h2).rnd hu hr
    have h4 := (h1.add h3).rnd hu hr
    have h5 := (h2.mul hu (Close.refl u x)).rnd hu hr
    rw [Nat.add_zero, ← abs_mul] at h5
    have h6 := ih (fun e he => h e (List.mem_cons_of_mem _ he)) (k + 1) _ _ _ _ _ h4 h5
    rw [abs_mul] at h6
    rwa [show m + (k + 1) + 1 + t.length = m + k + 1 + (t.length + 1) by omega] at h6

theorem machinePolyEval_close (hu : 0 ≤ u) (hr : ∀ x, |R.rnd x - x| ≤ u * |x|) (m : Nat) (x : K) (t : List (K × K × K))
    (h : ∀ e ∈ t, Close u m e.2.2 e.1 e.2.1) :
    Close u (m + 1 + t.length) (polyEval (t.map fun e => e.2.2) |x|) (machinePolyEval R (t.map fun e => e.1) x)
      (polyEval (t.map fun e => e.2.1) x) := by
  have := machinePolyLoop_close hu hr m x t h 0 0 0 0 1 1 ((Close.zero u).mono hu (by omega)) (by simpa using Close.refl u (1 : K))
  rw [abs_one] at this
  exact this

/-- **C130**: the value of a polynomial with `n` coefficients is right up to `n + 1` roundings of its terms. -/
theorem C130_eval (hu : 0 ≤ u) (hr : ∀ x, |R.rnd x - x| ≤ u * |x|) (c : List K) (x : K) :
    |machinePolyEval R c x - Spec.polyValue c x| ≤ ((1 + u) ^ (c.length + 1) - 1) * Spec.polyTerms c x := by
  have h := machinePolyEval_close hu hr 0 x (c.map fun a => (a, a, |a|)) (by
    intro e he
    obtain ⟨a, _, rfl⟩ := List.mem_map.mp he
    exact Close.refl u a)
  simp only [List.map_map, Function.comp_def, List.map_id', List.length_map] at h
  rw [polyTerms_eq, ← C31_eval, show c.length + 1 = 0 + 1 + c.length by omega]
  exact h.1

/-- **C130**: the value of the derivative. -/
theorem C130_derivative (hu : 0 ≤ u) (hr : ∀ x, |R.rnd x - x| ≤ u * |x|) (c : List K) (hn : ∀ i < c.length, R.rnd (i : K) = i) (x : K) :
    |machinePolyEval R (machinePolyDeriv R c) x - Spec.polyValue (polyDeriv c) x| ≤ ((1 + u) ^ (c.length + 1) - 1) * Spec.polyTerms (polyDeriv c) x := by
  by_cases hc : c = []
  · simp [hc, machinePolyDeriv, polyDeriv, machinePolyEval, machinePolyLoop, Spec.polyValue, Spec.polyTerms]
  have hc' := List.length_pos_iff.mpr hc
  have h := machinePolyEval_close hu hr 1 x ((c.zipIdx.drop 1).map fun p => (R.rnd (R.rnd (p.2 : K) * p.1), (p.2 : K) * p.1, |(p.2 : K) * p.1|)) (by
    intro e he
    obtain ⟨p, hp, rfl⟩ := List.mem_map.mp he
    have := List.snd_lt_of_mem_zipIdx (List.mem_of_mem_drop hp)
    show Close u 1 _ (R.rnd (R.rnd (p.2 : K) * p.1)) _
    rw [hn p.2 (by simpa using this)]
    exact (Close.refl u _).rnd hu hr)
  simp only [List.map_map, Function.comp_def, List.length_map] at h
  have e : (polyDeriv c).map (fun a => |a|) = (c.zipIdx.drop 1).map fun p => |(p.2 : K) * p.1| := by simp [polyDeriv, Function.comp_def]
  rw [polyTerms_eq, ← C31_eval, e]
  refine (h.mono hu ?_).1
  simp
  omega

/-- **C130**: the integral over an interval. -/
theorem C130_integral (hu : 0 ≤ u) (hr : ∀ x, |R.rnd x - x| ≤ u * |x|) (c : List K) (hn : ∀ i ≤ c.length, R.rnd (i : K) = i) (a b : K) :
    |machinePolyIntegrate R c a b - polyIntegrate c a b| ≤
      ((1 + u) ^ (c.length + 4) - 1) * (Spec.polyTerms (polyIntegral c) b + Spec.polyTerms (polyIntegral c) a) := by
  have h : ∀ x, Close u (c.length + 3) (Spec.polyTerms (polyIntegral c) x) (machinePolyEval R (machinePolyIntegral R c) x) (polyEval (polyIntegral c) x) := by
    intro x
    have h := machinePolyEval_close hu hr 1 x ((0, 0, 0) :: c.zipIdx.map fun p =>
        (R.rnd (p.1 / R.rnd ((p.2 + 1 : Nat) : K)), p.1 / ((p.2 + 1 : Nat) : K), |p.1 / ((p.2 + 1 : Nat) : K)|)) (by
      intro e he
      rcases List.mem_cons.mp he with rfl | he
      · exact (Close.zero u).mono hu (by omega)
      obtain ⟨p, hp, rfl⟩ := List.mem_map.mp he
      have := List.snd_lt_of_mem_zipIdx hp
      show Close u 1 _ (R.rnd (p.1 / R.rnd ((p.2 + 1 : Nat) : K))) _
      rw [hn (p.2 + 1) (by simp at this; omega)]
      exact (Close.refl u _).rnd hu hr)
    simp only [List.map_map, Function.comp_def, List.map_cons, List.length_map, List.length_cons, List.length_zipIdx] at h
    have e : (polyIntegral c).map (fun a => |a|) = 0 :: c.zipIdx.map fun p => |p.1 / ((p.2 + 1 : Nat) : K)| := by
      simp [polyIntegral, Function.comp_def]
    rw [polyTerms_eq, e, show c.length + 3 = 1 + 1 + (c.length + 1) by omega]
    exact h
  exact (((h b).sub (h a)).rnd hu hr).1

/-- The inner loop of the product. -/
theorem inner_close (hu : 0 ≤ u) (hr : ∀ x, |R.rnd x - x| ≤ u * |x|) (m i : Nat) (a : K) (c2 : List K) : ∀ (j : Nat) (r' r S : List K),
    r'.length = r.length → S.length = r.length →
    (∀ n, Close u (if n < i + j then m + 2 else m + 1) (S.getD n 0) (r'.getD n 0) (r.getD n 0)) →
    ∀ n, Close u (if n < i + (j + c2.length) then m + 2 else m + 1)
      ((((c2.map fun b => |b|).zipIdx j).foldl (fun r q => r.modify (i + q.2) fun v => v + |a| * q.1) S).getD n 0)
      (((c2.zipIdx j).foldl (fun r q => r.modify (i + q.2) fun v => R.rnd (v + R.rnd (a * q.1))) r').getD n 0)
      (((c2.zipIdx j).foldl (fun r q => r.modify (i + q.2) fun v => v + a * q.1) r).getD n 0) := by
  induction c2 with
  | nil => intro j r' r S _ _ h; simpa using h
  | cons b c2 ih =>
    intro j r' r S hl hS h n
    simp only [List.map_cons, List.zipIdx_cons, List.foldl_cons, List.length_cons]
    have e : i + (j + (c2.length + 1)) = i + (j + 1 + c2.length) := by omega
    simp only [e]
    refine ih (j + 1) _ _ _ (by simpa using hl) (by simpa using hS) (fun n => ?_) n
    clear e
    have hn := h n
    by_cases e : n = i + j
    · rw [e, if_pos (by omega)]
      rw [e, if_neg (by omega)] at hn
      by_cases hlt : i + j < r.length
      · rw [List.getD_eq_getElem _ _ (by omega), List.getD_eq_getElem _ _ (by omega), List.getD_eq_getElem _ _ hlt] at hn
        rw [List.getD_eq_getElem _ _ (by simp; omega), List.getD_eq_getElem _ _ (by simp; omega), List.getD_eq_getElem _ _ (by simpa using hlt)]
        simp only [List.getElem_modify, if_true]
        have h1 := ((Close.refl u (a * b)).rnd hu hr).mono hu (show 0 + 1 ≤ m + 1 by omega)
        rw [abs_mul] at h1
        exact (hn.add h1).rnd hu hr
      · rw [List.getD_eq_default _ _ (by simp; omega), List.getD_eq_default _ _ (by simp; omega), List.getD_eq_default _ _ (by simp; omega)]
        exact (Close.zero u).mono hu (by omega)
    · have e1 : ∀ (f : K → K) (l : List K), (l.modify (i + j) f).getD n 0 = l.getD n 0 := by
        intro f l
        simp only [List.getD_eq_getElem?_getD, List.getElem?_modify]
        have e' : ¬ i + j = n := fun h => e h.symm
        simp [e']
      rw [e1, e1, e1]
      by_cases hlt : n < i + j
      · rw [if_pos (by omega)]; rwa [if_pos hlt] at hn
      · rw [if_neg (by omega)]; rwa [if_neg hlt] at hn

theorem length_inner (f : K → K → K) (i : Nat) (l : List (K × Nat)) : ∀ r : List K, (l.foldl (fun r q => r.modify (i + q.2) fun v => f v q.1) r).length = r.length := by
  induction l with
  | nil => simp
  | cons q l ih => intro r; rw [List.foldl_cons, ih]; simp

/-- The outer loop of the product. -/
theorem outer_close (hu : 0 ≤ u) (hr : ∀ x, |R.rnd x - x| ≤ u * |x|) (c2 c1 : List K) : ∀ (i : Nat) (r' r S : List K),
    r'.length = r.length → S.length = r.length → (∀ n, Close u (i + 1) (S.getD n 0) (r'.getD n 0) (r.getD n 0)) →
    ∀ n, Close u (i + 1 + c1.length)
      ((((c1.map fun b => |b|).zipIdx i).foldl
        (fun r p => (c2.map fun b => |b|).zipIdx.foldl (fun r q => r.modify (p.2 + q.2) fun v => v + p.1 * q.1) r) S).getD n 0)
      (((c1.zipIdx i).foldl (fun r p => c2.zipIdx.foldl (fun r q => r.modify (p.2 + q.2) fun v => R.rnd (v + R.rnd (p.1 * q.1))) r) r').getD n 0)
      (((c1.zipIdx i).foldl (fun r p => c2.zipIdx.foldl (fun r q => r.modify (p.2 + q.2) fun v => v + p.1 * q.1) r) r).getD n 0) := by
  induction c1 with
  | nil => intro i r' r S _ _ h; simpa using h
  | cons a c1 ih =>
    intro i r' r S hl hS h n
    simp only [List.map_cons, List.zipIdx_cons, List.foldl_cons, List.length_cons]
    rw [show i + 1 + (c1.length + 1) = i + 1 + 1 + c1.length by omega]
    refine ih (i + 1) _ _ _ ?_ ?_ (fun n => ?_) n
    · rw [length_inner (fun v b => R.rnd (v + R.rnd (a * b))), length_inner (fun v b => v + a * b)]; exact hl
    · rw [length_inner (fun v b => v + |a| * b), length_inner (fun v b => v + a * b)]; exact hS
    · have := inner_close hu hr i i a c2 0 r' r S hl hS (fun n => by
        split_ifs
        · exact (h n).mono hu (by omega)
        · exact h n) n
      refine this.mono hu ?_
      split_ifs <;> omega

/-- **C130**: the coefficients of a product: its value is the product of the values up to `n + 1` roundings, where `n` is the number of coefficients of
the first factor. -/
theorem C130_product (hu : 0 ≤ u) (hr : ∀ x, |R.rnd x - x| ≤ u * |x|) (c1 c2 : List K) (hne : ¬ (c1 = [] ∧ c2 = [])) :
    ∃ c, machineMulPoly R c1 c2 = .ok c ∧ c.length = c1.length + c2.length - 1 ∧ ∀ x,
      |Spec.polyValue c x - Spec.polyValue c1 x * Spec.polyValue c2 x| ≤ ((1 + u) ^ (c1.length + 1) - 1) * (Spec.polyTerms c1 x * Spec.polyTerms c2 x) := by
  have hlen : ∀ (f : K → K → K → K) (l l2 : List K) (i : Nat) (r : List K),
      ((l.zipIdx i).foldl (fun r p => l2.zipIdx.foldl (fun r q => r.modify (p.2 + q.2) fun v => f p.1 v q.1) r) r).length = r.length := by
    intro f l l2
    induction l with
    | nil => simp
    | cons a l ih =>
      intro i r
      rw [List.zipIdx_cons, List.foldl_cons, ih, length_inner (fun v b => f a v b)]
  refine ⟨_, by rw [machineMulPoly, if_neg hne], ?_, fun x => ?_⟩
  · rw [machineMulLoop, hlen (fun a v b => R.rnd (v + R.rnd (a * b))), List.length_replicate]
  obtain ⟨c, hc, hcl, hcv⟩ := (C31_product c1 c2).1 hne
  obtain ⟨d, hd, hdl, hdv⟩ := (C31_product (c1.map fun a => |a|) (c2.map fun a => |a|)).1 (by simpa using hne)
  rw [mulPoly, if_neg hne] at hc
  rw [mulPoly, if_neg (by simpa using hne)] at hd
  cases hc
  cases hd
  have key := outer_close hu hr c2 c1 0 (List.replicate (c1.length + c2.length - 1) 0) (List.replicate (c1.length + c2.length - 1) 0)
    (List.replicate (c1.length + c2.length - 1) 0) rfl rfl (fun n => by
      have : (List.replicate (c1.length + c2.length - 1) (0 : K)).getD n 0 = 0 := by
        simp only [List.getD_eq_getElem?_getD, List.getElem?_replicate]; split_ifs <;> rfl
      rw [this]
      exact (Close.zero u).mono hu (by omega))
  rw [← C31_eval c1, ← C31_eval c2, polyTerms_eq, polyTerms_eq, ← hcv x, ← hdv |x|, C31_eval, C31_eval]
  simp only [List.length_map] at hdl ⊢
  simp only [Spec.polyValue, hcl, hdl]
  rw [machineMulLoop, hlen (fun a v b => R.rnd (v + R.rnd (a * b))), List.length_replicate, ← sum_sub_distrib, mul_sum]
  refine (abs_sum_le_sum_abs _ _).trans (sum_le_sum fun n _ => ?_)
  have hk := (key n).1
  rw [← sub_mul, abs_mul, abs_pow, ← mul_assoc]
  refine mul_le_mul_of_nonneg_right ?_ (pow_nonneg (abs_nonneg x) n)
  rw [show c1.length + 1 = 0 + 1 + c1.length by omega]
  exact hk

end

/-! ## Doubles -/

theorem rnd_int {p : Nat} (hp : 1 ≤ p) {n : Int} (h : |n| ≤ 2 ^ p) : Binary.rnd p (n : ℚ) = n :=
  Binary.rnd_of_rep hp ⟨n, 0, h, by simp⟩

theorem polyTerms_cons (a : ℚ) (c : List ℚ) (x : ℚ) : Spec.polyTerms (a :: c) x = |a| + |x| * Spec.polyTerms c x := by
  rw [polyTerms_eq, polyTerms_eq, List.map_cons, polyEval_cons]

theorem polyTerms_nonneg (c : List ℚ) (x : ℚ) : 0 ≤ Spec.polyTerms c x := sum_nonneg fun _ _ => by positivity

theorem exact_loop {p : Nat} (hp : 1 ≤ p) (x : Int) (c : List Int) : ∀ (r q : Int) (q' : ℚ),
    |(r : ℚ)| + |(q : ℚ)| * Spec.polyTerms (c.map fun a : Int => (a : ℚ)) x ≤ 2 ^ p → (c ≠ [] → |(q : ℚ)| * |(x : ℚ)| ^ (c.length - 1) ≤ 2 ^ p) → (c ≠ [] → q' = q) →
    machinePolyLoop (Binary.rounding p hp) x (c.map fun a : Int => (a : ℚ)) r q' = polyLoop (x : ℚ) (c.map fun a : Int => (a : ℚ)) r q := by
  induction c with
  | nil => intros; rfl
  | cons a c ih =>
    intro r q q' h1 h2 h3
    replace h2 := h2 (by simp)
    rw [h3 (by simp)]
    rw [List.map_cons, polyTerms_cons] at h1
    have ht := polyTerms_nonneg (c.map fun a : Int => (a : ℚ)) x
    have h4 : |(q : ℚ)| * |(a : ℚ)| + |(q : ℚ)| * (|(x : ℚ)| * Spec.polyTerms (c.map fun a : Int => (a : ℚ)) x) + |(r : ℚ)| ≤ 2 ^ p := by linarith
    have h5 : 0 ≤ |(q : ℚ)| * (|(x : ℚ)| * Spec.polyTerms (c.map fun a : Int => (a : ℚ)) x) := by positivity
    have e1 : Binary.rnd p ((a : ℚ) * q) = ((a * q : Int) : ℚ) := by
      rw [← Int.cast_mul]
      refine rnd_int hp ?_
      have : |((a * q : Int) : ℚ)| ≤ 2 ^ p := by
        push_cast
        rw [abs_mul, mul_comm]
        have := abs_nonneg (r : ℚ)
        linarith
      exact_mod_cast this
    have e2 : Binary.rnd p ((r : ℚ) + ((a * q : Int) : ℚ)) = ((r + a * q : Int) : ℚ) := by
      rw [← Int.cast_add]
      refine rnd_int hp ?_
      have : |((r + a * q : Int) : ℚ)| ≤ 2 ^ p := by
        push_cast
        have := abs_add_le (r : ℚ) (a * q)
        rw [abs_mul, mul_comm |(a : ℚ)|] at this
        linarith
      exact_mod_cast this
    simp only [List.map_cons, machinePolyLoop, polyLoop]
    show machinePolyLoop (Binary.rounding p hp) x _ (Binary.rnd p ((r : ℚ) + Binary.rnd p ((a : ℚ) * q))) (Binary.rnd p ((q : ℚ) * x)) = _
    rw [e1, e2]
    have e3 : ((r : ℚ) + (a : ℚ) * q) = ((r + a * q : Int) : ℚ) := by push_cast; rfl
    rw [e3, ← Int.cast_mul]
    have hx : c ≠ [] → |((q * x : Int) : ℚ)| ≤ 2 ^ p ∧ |((q * x : Int) : ℚ)| * |(x : ℚ)| ^ (c.length - 1) ≤ 2 ^ p := by
      intro hc
      have hl := List.length_pos_iff.mpr hc
      have e4 : |((q * x : Int) : ℚ)| * |(x : ℚ)| ^ (c.length - 1) = |(q : ℚ)| * |(x : ℚ)| ^ ((a :: c).length - 1) := by
        push_cast
        rw [abs_mul, mul_assoc, ← pow_succ', List.length_cons]
        congr 2
        omega
      refine ⟨?_, e4 ▸ h2⟩
      by_cases h0 : x = 0
      · rw [h0]; simp
      · have h1 : (1 : ℚ) ≤ |(x : ℚ)| ^ (c.length - 1) := by
          refine one_le_pow₀ ?_
          have := Int.one_le_abs h0
          exact_mod_cast this
        calc _ ≤ |((q * x : Int) : ℚ)| * |(x : ℚ)| ^ (c.length - 1) := le_mul_of_one_le_right (abs_nonneg _) h1
          _ = _ := e4
          _ ≤ _ := h2
    refine ih _ _ _ ?_ ?_ (fun hc => ?_)
    · push_cast
      have := abs_add_le (r : ℚ) (a * q)
      rw [abs_mul, mul_comm |(a : ℚ)|] at this
      rw [abs_mul, mul_assoc]
      linarith
    · exact fun hc => (hx hc).2
    · refine rnd_int hp ?_
      exact_mod_cast (hx hc).1

/-- **C130**: with whole coefficients and argument nothing is lost as long as the terms stay within the mantissa. -/
theorem C130_exact (p : Nat) (hp : 1 ≤ p) (c : List Int) (x : Int) (h1 : Spec.polyTerms (c.map fun a : Int => (a : ℚ)) x ≤ 2 ^ p)
    (h2 : |(x : ℚ)| ^ (c.length - 1) ≤ 2 ^ p) :
    machinePolyEval (Binary.rounding p hp) (c.map fun a : Int => (a : ℚ)) x = Spec.polyValue (c.map fun a : Int => (a : ℚ)) x := by
  rw [← C31_eval]
  have := exact_loop hp x c 0 1 1 (by simpa using h1) (fun _ => by simpa using h2) (by simp)
  rw [Int.cast_zero, Int.cast_one] at this
  exact this

/-- The hypotheses hold for doubles; a product, a value and an integral that are not exact. -/
example : (∀ x, |(Binary.rounding 53 (by decide)).rnd x - x| ≤ (1 / 2) ^ 53 * |x|) ∧ (∀ i : Nat, i ≤ 3 → (Binary.rounding 53 (by decide)).rnd (i : ℚ) = i) ∧
    machinePolyEval (Binary.rounding 53 (by decide)) [1, 1 / 2 ^ 53] 1 = 1 ∧
    machinePolyEval (Binary.rounding 53 (by decide)) [1, 2, 3] 2 = 17 ∧
    machinePolyIntegrate (Binary.rounding 53 (by decide)) [0, 0, 1] 0 1 ≠ 1 / 3 :=
  ⟨fun x => by rw [mul_comm]; exact Binary.rnd_err 53 x,
    fun i hi => Binary.rnd_of_rep (by decide) (Binary.rep_nat (hi.trans (by decide))), by decide +kernel, by decide +kernel, by decide +kernel⟩

end Alexandria.MathUtils
