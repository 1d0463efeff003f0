import Verif.Overflow.SolveModel
import Verif.MathUtils.InverseRoundModel
import Verif.Common.Gradual

/-!
# Quadratic equations with overflow and underflow (C131)
-/

namespace Alexandria.Overflow

variable {K : Type} [Field K] [LinearOrder K] [IsStrictOrderedRing K] (R : Rounding K) (M : K)

/-! ## Specification -/

/-- The rounded value of an expression is a finite number. -/
def Spec.Within (R : Rounding K) (M x : K) : Prop := |R.rnd x| ≤ M

/-- Half of the coefficient of `x`, divided by the leading one, as it is computed: zero if twice the leading coefficient is too great. -/
def Spec.halfB (R : Rounding K) (M a b : K) : K := if |2 * a| ≤ M then R.rnd (b / (2 * a)) else 0

/-- The discriminant as it is computed. -/
def Spec.discr (R : Rounding K) (M a b c y : K) : K :=
  R.rnd (R.rnd (R.rnd (y - c) / a) + R.rnd (Spec.halfB R M a b * Spec.halfB R M a b))

/-- All the intermediate results are in the range of the numbers, and the discriminant is not negative. -/
structure Spec.Solvable (R : Rounding K) (M : K) (sqrt : K → K) (a b c y : K) : Prop where
  half : |2 * a| ≤ M → Spec.Within R M (b / (2 * a))
  square : Spec.Within R M (Spec.halfB R M a b * Spec.halfB R M a b)
  difference : Spec.Within R M (y - c)
  quotient : Spec.Within R M (R.rnd (y - c) / a)
  sum : Spec.Within R M (R.rnd (R.rnd (y - c) / a) + R.rnd (Spec.halfB R M a b * Spec.halfB R M a b))
  real : 0 ≤ Spec.discr R M a b c y
  first : Spec.Within R M (-sqrt (Spec.discr R M a b c y) - Spec.halfB R M a b)
  second : Spec.Within R M (sqrt (Spec.discr R M a b c y) - Spec.halfB R M a b)

/-! ## Lemmas -/

theorem result_eq_fin {x v : K} : Ext.result R M x = .fin v ↔ Spec.Within R M x ∧ v = R.rnd x := by
  unfold Ext.result Spec.Within
  rw [abs_le]
  by_cases h1 : M < R.rnd x
  · rw [if_pos h1]
    constructor
    · intro h; cases h
    · rintro ⟨⟨_, h⟩, _⟩; exact absurd h1 (not_lt.mpr h)
  · rw [if_neg h1]
    by_cases h2 : R.rnd x < -M
    · rw [if_pos h2]
      constructor
      · intro h; cases h
      · rintro ⟨⟨h, _⟩, _⟩; exact absurd h2 (not_lt.mpr h)
    · rw [if_neg h2, Ext.fin.injEq]
      exact ⟨fun h => ⟨⟨not_lt.mp h2, not_lt.mp h1⟩, h.symm⟩, fun h => h.2.symm⟩

theorem add_eq_fin {a b : Ext K} {v : K} : Ext.add R M a b = .fin v ↔ ∃ x y, a = .fin x ∧ b = .fin y ∧ Spec.Within R M (x + y) ∧ v = R.rnd (x + y) := by
  cases a <;> cases b <;> simp [Ext.add, result_eq_fin]

theorem sub_eq_fin {a b : Ext K} {v : K} : Ext.sub R M a b = .fin v ↔ ∃ x y, a = .fin x ∧ b = .fin y ∧ Spec.Within R M (x - y) ∧ v = R.rnd (x - y) := by
  cases a <;> cases b <;> simp [Ext.sub, Ext.add, Ext.neg, result_eq_fin, sub_eq_add_neg]

theorem square_eq_fin {a : Ext K} {v : K} : Ext.mul R M a a = .fin v ↔ ∃ x, a = .fin x ∧ Spec.Within R M (x * x) ∧ v = R.rnd (x * x) := by
  cases a <;> simp [Ext.mul, Ext.neg, result_eq_fin]

theorem div_eq_fin {a : Ext K} {b v : K} (hb : b ≠ 0) : Ext.div R M a (.fin b) = .fin v ↔ ∃ x, a = .fin x ∧ Spec.Within R M (x / b) ∧ v = R.rnd (x / b) := by
  cases a <;> simp [Ext.div, result_eq_fin, hb]
  all_goals split <;> simp

omit [IsStrictOrderedRing K] in
theorem root_eq_fin {sqrt : K → K} {a : Ext K} {v : K} : rootOf sqrt a = .fin v ↔ ∃ x, a = .fin x ∧ 0 ≤ x ∧ v = sqrt x := by
  cases a with
  | fin a =>
    by_cases h : a < 0
    · simp [rootOf, h]
    · simp [rootOf, h, not_lt.mp h, eq_comm]
  | _ => simp [rootOf]

omit [IsStrictOrderedRing K] in
theorem neg_eq_fin {a : Ext K} {v : K} : a.neg = .fin v ↔ ∃ x, a = .fin x ∧ v = -x := by
  cases a <;> simp [Ext.neg, eq_comm]

theorem half_eq_fin {a b v : K} (ha : R.rnd a = a) (ha0 : a ≠ 0) :
    Ext.div R M (.fin b) (Ext.mul R M (.fin 2) (.fin a)) = .fin v ↔ (|2 * a| ≤ M → Spec.Within R M (b / (2 * a))) ∧ v = Spec.halfB R M a b := by
  have h2 : R.rnd (2 * a) = 2 * a := by
    have := R.twice a
    rwa [ha] at this
  have h3 : (2 : K) * a ≠ 0 := mul_ne_zero two_ne_zero ha0
  show Ext.div R M (.fin b) (Ext.result R M (2 * a)) = .fin v ↔ _
  unfold Spec.halfB
  by_cases h : |2 * a| ≤ M
  · rw [(result_eq_fin R M).2 ⟨by unfold Spec.Within; rw [h2]; exact h, rfl⟩, h2, div_eq_fin R M h3, if_pos h]
    constructor
    · rintro ⟨x, e, h5, h6⟩
      cases e
      exact ⟨fun _ => h5, h6⟩
    · rintro ⟨h5, h6⟩
      exact ⟨b, rfl, h5 h, h6⟩
  · rw [if_neg h]
    have : Ext.result R M (2 * a) = .pinf ∨ Ext.result R M (2 * a) = .ninf := by
      unfold Ext.result
      rw [h2]
      rcases lt_abs.mp (not_le.mp h) with h | h
      · rw [if_pos h]; exact .inl rfl
      · by_cases h4 : M < 2 * a
        · rw [if_pos h4]; exact .inl rfl
        · rw [if_neg h4, if_pos (by linarith)]; exact .inr rfl
    have hv : (Ext.fin 0 : Ext K) = .fin v ↔ (|2 * a| ≤ M → Spec.Within R M (b / (2 * a))) ∧ v = 0 := by
      rw [Ext.fin.injEq]
      exact ⟨fun e => ⟨fun h' => absurd h' h, e.symm⟩, fun e => e.2.symm⟩
    rcases this with e | e <;> rw [e] <;> exact hv

/-! ## Theorems -/

/-- **C131**, with overflow: exactly when the two results are finite numbers, and which ones. -/
theorem C131_finite_iff (sqrt : K → K) {a : K} (ha : R.rnd a = a) (ha0 : a ≠ 0) (b c y x1 x2 : K) :
    solve R M sqrt a b c y = .ok (.fin x1, .fin x2) ↔ Spec.Solvable R M sqrt a b c y ∧
      x1 = R.rnd (-sqrt (Spec.discr R M a b c y) - Spec.halfB R M a b) ∧ x2 = R.rnd (sqrt (Spec.discr R M a b c y) - Spec.halfB R M a b) := by
  unfold solve
  rw [if_pos ha0]
  simp only [Outcome.ok.injEq, Prod.mk.injEq, sub_eq_fin, half_eq_fin R M ha ha0, neg_eq_fin, root_eq_fin, add_eq_fin, square_eq_fin, div_eq_fin R M ha0, Ext.fin.injEq]
  constructor
  · rintro ⟨⟨_, _, ⟨_, ⟨_, ⟨_, _, ⟨_, ⟨_, _, rfl, rfl, h1, rfl⟩, h2, rfl⟩, ⟨_, ⟨h3, rfl⟩, h4, rfl⟩, h5, rfl⟩, h6, rfl⟩, rfl⟩, ⟨_, rfl⟩, h7, rfl⟩,
      ⟨_, _, ⟨_, ⟨_, _, ⟨_, ⟨_, _, rfl, rfl, _, rfl⟩, _, rfl⟩, ⟨_, ⟨_, rfl⟩, _, rfl⟩, _, rfl⟩, _, rfl⟩, ⟨_, rfl⟩, h8, rfl⟩⟩
    exact ⟨⟨h3, h4, h1, h2, h5, h6, h7, h8⟩, rfl, rfl⟩
  · rintro ⟨⟨h3, h4, h1, h2, h5, h6, h7, h8⟩, rfl, rfl⟩
    exact ⟨⟨_, _, ⟨_, ⟨_, ⟨_, _, ⟨_, ⟨_, _, rfl, rfl, h1, rfl⟩, h2, rfl⟩, ⟨_, ⟨h3, rfl⟩, h4, rfl⟩, h5, rfl⟩, h6, rfl⟩, rfl⟩, ⟨h3, rfl⟩, h7, rfl⟩,
      ⟨_, _, ⟨_, ⟨_, _, ⟨_, ⟨_, _, rfl, rfl, h1, rfl⟩, h2, rfl⟩, ⟨_, ⟨h3, rfl⟩, h4, rfl⟩, h5, rfl⟩, h6, rfl⟩, ⟨h3, rfl⟩, h8, rfl⟩⟩

/-- A linear equation: exactly when the result is finite, and which one it is, twice; and an equation without unknown. -/
theorem C131_linear_iff (sqrt : K → K) (b c y x1 x2 : K) :
    (b ≠ 0 → (solve R M sqrt 0 b c y = .ok (.fin x1, .fin x2) ↔ Spec.Within R M (y - c) ∧ Spec.Within R M (R.rnd (y - c) / b) ∧ x1 = R.rnd (R.rnd (y - c) / b) ∧ x2 = x1)) ∧
    (b = 0 → solve R M sqrt 0 b c y = .throw ()) := by
  constructor
  · intro hb
    unfold solve
    rw [if_neg (by simp), if_pos hb]
    simp only [Outcome.ok.injEq, Prod.mk.injEq, div_eq_fin R M hb, sub_eq_fin, Ext.fin.injEq]
    constructor
    · rintro ⟨⟨_, ⟨_, _, rfl, rfl, h1, rfl⟩, h2, rfl⟩, ⟨_, ⟨_, _, rfl, rfl, _, rfl⟩, _, rfl⟩⟩
      exact ⟨h1, h2, rfl, rfl⟩
    · rintro ⟨h1, h2, rfl, rfl⟩
      exact ⟨⟨_, ⟨_, _, rfl, rfl, h1, rfl⟩, h2, rfl⟩, ⟨_, ⟨_, _, rfl, rfl, h1, rfl⟩, h2, rfl⟩⟩
  · rintro rfl
    unfold solve
    rw [if_neg (by simp), if_neg (by simp)]

/-- Where nothing overflows the results are those of the arithmetic without limits, to which `C131_defined_partial` and `C131_residual_partial` apply. -/
theorem C131_no_overflow (sqrt : K → K) {a : K} (ha : R.rnd a = a) (ha0 : a ≠ 0) (h2a : |2 * a| ≤ M) (b c y : K) (h : Spec.Solvable R M sqrt a b c y) :
    ∃ x1 x2, solve R M sqrt a b c y = .ok (.fin x1, .fin x2) ∧ MathUtils.machineSolve R sqrt a b c y = .ok (x1, x2) := by
  refine ⟨_, _, (C131_finite_iff R M sqrt ha ha0 b c y _ _).2 ⟨h, rfl, rfl⟩, ?_⟩
  have h2 : R.rnd (2 * a) = 2 * a := by
    have := R.twice a
    rwa [ha] at this
  have h3 : (2 : K) * a ≠ 0 := mul_ne_zero two_ne_zero ha0
  have hd := h.real
  simp only [Spec.discr, Spec.halfB, if_pos h2a] at hd ⊢
  rw [MathUtils.machineSolve, if_pos ha0, h2, MathUtils.div?, if_neg h3, MathUtils.div?, if_neg ha0]
  simp only [Outcome.bind_ok]
  rw [if_neg (not_lt.mpr hd)]
  rfl

/-- What is returned otherwise if the terms are finite: not numbers if the discriminant is negative, both infinities if the square of the half coefficient or the discriminant is too great. -/
theorem C131_not_finite (sqrt : K → K) {a : K} (ha : R.rnd a = a) (ha0 : a ≠ 0) (b c y : K) (hh : |2 * a| ≤ M → Spec.Within R M (b / (2 * a)))
    (h1 : Spec.Within R M (y - c)) (h2 : Spec.Within R M (R.rnd (y - c) / a)) :
    (M < R.rnd (Spec.halfB R M a b * Spec.halfB R M a b) → solve R M sqrt a b c y = .ok (.ninf, .pinf)) ∧
    (Spec.Within R M (Spec.halfB R M a b * Spec.halfB R M a b) → M < Spec.discr R M a b c y → solve R M sqrt a b c y = .ok (.ninf, .pinf)) ∧
    (Spec.Within R M (Spec.halfB R M a b * Spec.halfB R M a b) → Spec.discr R M a b c y < 0 → solve R M sqrt a b c y = .ok (.nan, .nan)) := by
  have e1 := (half_eq_fin R M (b := b) ha ha0).2 ⟨hh, rfl⟩
  have e2 : Ext.div R M (Ext.sub R M (.fin y) (.fin c)) (.fin a) = .fin (R.rnd (R.rnd (y - c) / a)) :=
    (div_eq_fin R M ha0).2 ⟨_, (sub_eq_fin R M).2 ⟨_, _, rfl, rfl, h1, rfl⟩, h2, rfl⟩
  have hsol : ∀ d, Ext.add R M (.fin (R.rnd (R.rnd (y - c) / a))) (Ext.mul R M (.fin (Spec.halfB R M a b)) (.fin (Spec.halfB R M a b))) = d →
      solve R M sqrt a b c y = .ok (Ext.sub R M (rootOf sqrt d).neg (.fin (Spec.halfB R M a b)), Ext.sub R M (rootOf sqrt d) (.fin (Spec.halfB R M a b))) := by
    rintro d rfl
    unfold solve
    rw [if_pos ha0]
    simp only [e1, e2]
  refine ⟨fun h => ?_, fun hs h => ?_, fun hs h => ?_⟩
  · have e : Ext.mul R M (.fin (Spec.halfB R M a b)) (.fin (Spec.halfB R M a b)) = .pinf := by
      simp only [Ext.mul, Ext.result]; rw [if_pos h]
    exact hsol .pinf (by rw [e]; rfl)
  · have e : Ext.mul R M (.fin (Spec.halfB R M a b)) (.fin (Spec.halfB R M a b)) = .fin _ := (result_eq_fin R M).2 ⟨hs, rfl⟩
    refine hsol .pinf ?_
    rw [e]
    simp only [Ext.add, Ext.result]
    exact if_pos h
  · have e : Ext.mul R M (.fin (Spec.halfB R M a b)) (.fin (Spec.halfB R M a b)) = .fin _ := (result_eq_fin R M).2 ⟨hs, rfl⟩
    have hneg : ∀ d, Ext.add R M (.fin (R.rnd (R.rnd (y - c) / a))) (.fin (R.rnd (Spec.halfB R M a b * Spec.halfB R M a b))) = d → rootOf sqrt d = .nan := by
      rintro d rfl
      have h : R.rnd (R.rnd (R.rnd (y - c) / a) + R.rnd (Spec.halfB R M a b * Spec.halfB R M a b)) < 0 := h
      simp only [Ext.add, Ext.result]
      by_cases h5 : M < R.rnd (R.rnd (R.rnd (y - c) / a) + R.rnd (Spec.halfB R M a b * Spec.halfB R M a b))
      · have : 0 ≤ M := le_trans (abs_nonneg _) h1
        exact absurd h5 (by linarith)
      · rw [if_neg h5]
        split
        · rfl
        · rw [rootOf, if_pos h]
    have := hsol _ rfl
    rw [e, hneg _ rfl] at this
    exact this

/-- `x^2 + 2^600 x = 0` and `x^2 + 1 = 0`. -/
example : solve Binary.double Binary.doubleMax id 1 (2 ^ 600) 0 0 = .ok (.ninf, .pinf) ∧ solve Binary.double Binary.doubleMax id 1 0 1 0 = .ok (.nan, .nan) :=
  ⟨by decide +kernel, by decide +kernel⟩

/-- The second result is never less than the first one, whatever overflows. -/
theorem C131_ordered (sqrt : K → K) (hs : ∀ x, 0 ≤ x → 0 ≤ sqrt x) (a b c y : K) (r1 r2 : Ext K) (h : solve R M sqrt a b c y = .ok (r1, r2)) : r2.lt r1 = false := by
  have hres : ∀ x y : K, x ≤ y → (Ext.result R M y).lt (Ext.result R M x) = false := by
    intro x y hxy
    have hm := R.mono _ _ hxy
    unfold Ext.result
    by_cases h1 : M < R.rnd x
    · rw [if_pos h1, if_pos (lt_of_lt_of_le h1 hm)]; rfl
    · rw [if_neg h1]
      by_cases h2 : M < R.rnd y
      · rw [if_pos h2]; exact Ext.pinf_lt _
      · rw [if_neg h2]
        by_cases h3 : R.rnd x < -M
        · rw [if_pos h3]; exact Ext.lt_ninf _
        · rw [if_neg h3, if_neg (by intro h4; exact h3 (lt_of_le_of_lt hm h4))]
          simpa [Ext.lt] using hm
  have hlt : ∀ e : Ext K, e.lt e = false := by intro e; cases e <;> simp [Ext.lt]
  unfold solve at h
  by_cases ha0 : a ≠ 0
  · rw [if_pos ha0] at h
    simp only [Outcome.ok.injEq, Prod.mk.injEq] at h
    obtain ⟨rfl, rfl⟩ := h
    generalize Ext.div R M (.fin b) (Ext.mul R M (.fin 2) (.fin a)) = q
    generalize Ext.add R M (Ext.div R M (Ext.sub R M (.fin y) (.fin c)) (.fin a)) (Ext.mul R M q q) = d
    cases d with
    | nan => cases q <;> rfl
    | ninf => cases q <;> rfl
    | pinf => cases q <;> rfl
    | fin d =>
      by_cases hd : d < 0
      · rw [rootOf, if_pos hd]; cases q <;> rfl
      · rw [rootOf, if_neg hd]
        have := hs d (not_lt.mp hd)
        cases q with
        | fin q => exact hres _ _ (by linarith)
        | _ => rfl
  · rw [if_neg ha0] at h
    by_cases hb0 : b ≠ 0
    · rw [if_pos hb0] at h
      simp only [Outcome.ok.injEq, Prod.mk.injEq] at h
      obtain ⟨rfl, rfl⟩ := h
      exact hlt _
    · rw [if_neg hb0] at h
      cases h

/-- `3 x^2 + 6 x = 9` in doubles; the root is that of 4. -/
example : Spec.Solvable Binary.double Binary.doubleMax (fun _ => 2) 3 6 0 9 ∧
    solve Binary.double Binary.doubleMax (fun _ => 2) 3 6 0 9 = .ok (.fin (-3), .fin 1) :=
  ⟨⟨fun _ => by unfold Spec.Within; decide +kernel, by unfold Spec.Within; decide +kernel, by unfold Spec.Within; decide +kernel, by unfold Spec.Within; decide +kernel,
    by unfold Spec.Within; decide +kernel, by decide +kernel, by unfold Spec.Within; decide +kernel, by unfold Spec.Within; decide +kernel⟩, by decide +kernel⟩

/-! ## Where the results are not the solutions -/

/-- The statement without the condition on the size of the coefficients: the equation `a x^2 + b x = 0`, whose discriminant is a square, has finite results, and the smaller one is within a
quarter of the solution `-b / a`. -/
def C131_range_full (sqrt : Rat → Rat) : Prop :=
  ∀ a b : Rat, (∀ v ∈ [a, b, b / a], Binary.double.rnd v = v ∧ 0 < v ∧ v ≤ Binary.doubleMax) →
    ∃ x1 x2, solve Binary.double Binary.doubleMax sqrt a b 0 0 = .ok (.fin x1, .fin x2) ∧ |x1 - -b / a| ≤ |b / a| / 4

/-- **C131, violated**: `x^2 + 2^600 x = 0` has the solutions `-2^600` and 0, the results are infinite. -/
theorem C131_overflow_violated (sqrt : Rat → Rat) : ¬ C131_range_full sqrt := by
  intro h
  obtain ⟨x1, x2, h, _⟩ := h 1 (2 ^ 600) (by
    intro v hv
    simp only [List.mem_cons, List.not_mem_nil, or_false] at hv
    rcases hv with rfl | rfl | rfl <;> exact ⟨by decide +kernel, by decide +kernel, by decide +kernel⟩)
  have := ((C131_finite_iff _ _ sqrt (by decide +kernel) (by decide) _ _ _ _ _).1 h).1.square
  revert this
  unfold Spec.Within
  decide +kernel

/-- **C131, violated**: `2^1023 x^2 + 2^1023 x = 0` has the solutions -1 and 0, both results are 0. -/
theorem C131_silent_violated (sqrt : Rat → Rat) (h0 : sqrt 0 = 0) : ¬ C131_range_full sqrt := by
  intro h
  obtain ⟨x1, x2, h, hx⟩ := h (2 ^ 1023) (2 ^ 1023) (by
    intro v hv
    simp only [List.mem_cons, List.not_mem_nil, or_false] at hv
    rcases hv with rfl | rfl | rfl <;> exact ⟨by decide +kernel, by decide +kernel, by decide +kernel⟩)
  have h1 := ((C131_finite_iff _ _ sqrt (by decide +kernel) (by decide +kernel) _ _ _ _ _).1 h).2.1
  rw [show Spec.discr Binary.double Binary.doubleMax (2 ^ 1023) (2 ^ 1023) 0 0 = 0 by decide +kernel,
    show Spec.halfB Binary.double Binary.doubleMax (2 ^ 1023) (2 ^ 1023) = 0 by decide +kernel, h0, show Binary.double.rnd (-0 - 0) = 0 by decide +kernel] at h1
  subst h1
  revert hx
  decide +kernel

/-- **C131, violated**: the solutions of `x^2 + 2^-540 x = 0` are `-2^-540` and 0, both results are `-2^-541`. -/
theorem C131_underflow_violated (sqrt : Rat → Rat) (h0 : sqrt 0 = 0) : ¬ C131_range_full sqrt := by
  intro h
  obtain ⟨x1, x2, h, hx⟩ := h 1 (2 ^ (-540 : Int)) (by
    intro v hv
    simp only [List.mem_cons, List.not_mem_nil, or_false] at hv
    rcases hv with rfl | rfl | rfl <;> exact ⟨by decide +kernel, by decide +kernel, by decide +kernel⟩)
  have h1 := ((C131_finite_iff _ _ sqrt (by decide +kernel) (by decide +kernel) _ _ _ _ _).1 h).2.1
  rw [show Spec.discr Binary.double Binary.doubleMax 1 (2 ^ (-540 : Int)) 0 0 = 0 by decide +kernel,
    show Spec.halfB Binary.double Binary.doubleMax 1 (2 ^ (-540 : Int)) = 2 ^ (-541 : Int) by decide +kernel, h0,
    show Binary.double.rnd (-0 - 2 ^ (-541 : Int)) = -2 ^ (-541 : Int) by decide +kernel] at h1
  subst h1
  revert hx
  decide +kernel

end Alexandria.Overflow
