import Verif.Overflow.Model
import Verif.Overflow.CumulativeProps
import Verif.Histogram.Lemmas
import Verif.MathUtils.LinearRoundModel
import Verif.KdTree.OverflowProps
import Verif.SOM.RoundModel

/-!
# Property C156: histograms, linear interpolation and maps with overflow and underflow
-/

namespace Alexandria.Overflow

variable {K : Type} [Field K] [LinearOrder K] [IsStrictOrderedRing K] (R : Rounding K) (M : K)

/-! ## Histograms -/

section Histogram
variable [FloorRing K]

theorem trunc_nonneg {x : K} (h : 0 ≤ x) : Histogram.trunc x = ⌊x⌋ := by
  unfold Histogram.trunc
  rw [if_neg (not_lt.mpr h)]

/-- **C156**: the step that `Sqrt` calculates is zero, a positive number or infinite. -/
theorem C156_step {n : Nat} (hn : 1 ≤ n) (hnfix : R.rnd n = n) (hnM : (n : K) ≤ M) {vmin vmax : K} (h : vmin ≤ vmax) :
    (step R M n vmin vmax = .pinf ∧ M < R.rnd (vmax - vmin)) ∨
    (step R M n vmin vmax = .fin (R.rnd (R.rnd (vmax - vmin) / n)) ∧ R.rnd (vmax - vmin) ≤ M ∧ 0 ≤ R.rnd (R.rnd (vmax - vmin) / n)) := by
  have hn1 : (1 : K) ≤ n := by exact_mod_cast hn
  have hn0 : (0 : K) < n := by linarith
  have hr : 0 ≤ R.rnd (vmax - vmin) := R.nonneg (by linarith)
  unfold step
  rw [sub_fin, Ext.result_fin (x := (n : K)) (by rw [hnfix]; exact hnM) (by rw [hnfix]; linarith), hnfix]
  by_cases h1 : M < R.rnd (vmax - vmin)
  · left
    refine ⟨?_, h1⟩
    rw [show Ext.result R M (vmax - vmin) = .pinf by rw [Ext.result, if_pos h1]]
    simp only [Ext.div]
    rw [if_neg (by linarith)]
  · right
    have h1' := not_lt.mp h1
    have hq : R.rnd (vmax - vmin) / n ≤ R.rnd (vmax - vmin) := div_le_self hr hn1
    have hq0 : 0 ≤ R.rnd (R.rnd (vmax - vmin) / n) := R.nonneg (div_nonneg hr hn0.le)
    have hqM : R.rnd (R.rnd (vmax - vmin) / n) ≤ M := by
      have := R.mono _ _ hq
      rw [R.idem] at this
      linarith
    rw [Ext.result_fin h1' (by linarith)]
    simp only [Ext.div]
    rw [if_neg (ne_of_gt hn0), Ext.result_fin hqM (by linarith)]
    exact ⟨rfl, h1', hq0⟩

/-- **C156**: which bins the values get.  If the range overflows, the values whose distance to the least one does not are in the first bin, and the
others, but for the greatest, are undefined behaviour.  If the step is rounded to zero, all but the greatest are undefined behaviour.  Otherwise the
index is defined and at most twice the number of bins. -/
theorem C156_bins (hdouble : ∀ x : K, R.rnd (2 * R.rnd x) = 2 * R.rnd x) {n : Nat} (hn : 1 ≤ n) (hn62 : n < 2 ^ 62) (hnfix : R.rnd n = n)
    (hnM : 2 * (n : K) ≤ M) {vmin vmax v : K} (h1 : vmin ≤ v) (h2 : v < vmax) :
    (M < R.rnd (vmax - vmin) → R.rnd (v - vmin) ≤ M → binIndex R M n vmin vmax v = .ok 0) ∧
    (M < R.rnd (vmax - vmin) → M < R.rnd (v - vmin) → binIndex R M n vmin vmax v = .ub) ∧
    (R.rnd (vmax - vmin) ≤ M → R.rnd (R.rnd (vmax - vmin) / n) = 0 → binIndex R M n vmin vmax v = .ub) ∧
    (R.rnd (vmax - vmin) ≤ M → 0 < R.rnd (R.rnd (vmax - vmin) / n) → ∃ i : Nat, i ≤ 2 * n ∧ binIndex R M n vmin vmax v = .ok i ∧
      (i : Int) = ⌊R.rnd (R.rnd (v - vmin) / R.rnd (R.rnd (vmax - vmin) / n))⌋) := by
  have hn1 : (1 : K) ≤ n := by exact_mod_cast hn
  have hn0 : (0 : K) < n := by linarith
  have hM : 0 ≤ M := by linarith
  have hd : 0 ≤ R.rnd (v - vmin) := R.nonneg (by linarith)
  have hdr : R.rnd (v - vmin) ≤ R.rnd (vmax - vmin) := R.mono _ _ (by linarith)
  have hstep := C156_step R M hn hnfix (by linarith) (h1.trans h2.le)
  have hidx : binIndex R M n vmin vmax v = toIndex (Ext.div R M (Ext.result R M (v - vmin)) (step R M n vmin vmax)) := by
    rw [binIndex, if_neg (ne_of_lt h2), sub_fin]
  refine ⟨fun hi hv => ?_, fun hi hv => ?_, fun hi hz => ?_, fun hi hp => ?_⟩
  · rcases hstep with ⟨e, -⟩ | ⟨-, h, -⟩
    · rw [hidx, e, Ext.result_fin hv (by linarith)]
      simp only [Ext.div, toIndex]
      rw [trunc_nonneg le_rfl, Int.floor_zero]
      norm_num
    · linarith
  · rcases hstep with ⟨e, -⟩ | ⟨-, h, -⟩
    · rw [hidx, e, Ext.result, if_pos hv]
      rfl
    · linarith
  · rcases hstep with ⟨-, h⟩ | ⟨e, -, -⟩
    · linarith
    · rw [hidx, e, hz, Ext.result_fin (by linarith) (by linarith)]
      simp only [Ext.div, if_pos trivial]
      by_cases h0 : R.rnd (v - vmin) = 0
      · rw [if_pos h0]; rfl
      · rw [if_neg h0, if_pos (lt_of_le_of_ne hd (Ne.symm h0))]; rfl
  · rcases hstep with ⟨-, h⟩ | ⟨e, -, -⟩
    · linarith
    · obtain ⟨s, hs⟩ : ∃ s, s = R.rnd (R.rnd (vmax - vmin) / n) := ⟨_, rfl⟩
      rw [← hs] at e hp ⊢
      have hlt : R.rnd (vmax - vmin) / n < 2 * s := by
        by_contra hc
        have := R.mono _ _ (not_lt.mp hc)
        rw [hs, hdouble, ← hs] at this
        linarith
      have hq0 : 0 ≤ R.rnd (R.rnd (v - vmin) / s) := R.nonneg (div_nonneg hd hp.le)
      have h2n : R.rnd (2 * (n : K)) = 2 * n := by
        have := hdouble n
        rwa [hnfix] at this
      have hq : R.rnd (R.rnd (v - vmin) / s) ≤ 2 * n := by
        rw [← h2n]
        apply R.mono
        rw [div_le_iff₀ hp]
        rw [div_lt_iff₀ hn0] at hlt
        nlinarith
      rw [hidx, e, Ext.result_fin (by linarith) (by linarith)]
      simp only [Ext.div, if_neg (ne_of_gt hp)]
      rw [Ext.result_fin (by linarith) (by linarith)]
      have hfl0 : 0 ≤ ⌊R.rnd (R.rnd (v - vmin) / s)⌋ := Int.floor_nonneg.mpr hq0
      have hfl : ⌊R.rnd (R.rnd (v - vmin) / s)⌋ ≤ 2 * n := by
        have h3 := le_trans (Int.floor_le (R.rnd (R.rnd (v - vmin) / s))) hq
        exact_mod_cast h3
      refine ⟨⌊R.rnd (R.rnd (v - vmin) / s)⌋.toNat, by omega, ?_, by omega⟩
      simp only [toIndex, trunc_nonneg hq0]
      rw [if_pos ⟨by omega, by omega⟩, Int.toNat_of_nonneg hfl0]

/-- **C156**: the greatest value is always in the last bin. -/
theorem C156_greatest (n : Nat) (vmin vmax : K) : binIndex R M n vmin vmax vmax = .ok ((n : Int) - 1) := by
  rw [binIndex, if_pos rfl]

/-- The hypotheses hold for `double` and any number of bins up to `2^53`. -/
theorem double_bins {n : Nat} (hn : n ≤ 2 ^ 53) : (∀ x, Binary.double.rnd (2 * Binary.double.rnd x) = 2 * Binary.double.rnd x) ∧
    Binary.double.rnd n = n ∧ 2 * (n : Rat) ≤ Binary.doubleMax := by
  refine ⟨Binary.grad_twice (by decide), Binary.grad_of_rep (by decide) ⟨n, 0, ?_, by decide, by simp⟩, ?_⟩
  · rw [Nat.abs_cast]; exact_mod_cast hn
  · have h1 : (n : Rat) ≤ 2 ^ 53 := by exact_mod_cast hn
    have h2 : (2 : Rat) * 2 ^ 53 ≤ Binary.doubleMax := by decide +kernel
    linarith

end Histogram

/-- For finite doubles the index of every value is defined. -/
def C156_bins_full : Prop :=
  ∀ (values : List Rat) (vmin vmax : Rat), (∀ v ∈ values, Binary.double.rnd v = v ∧ |v| ≤ Binary.doubleMax) →
    Histogram.minmax values = some (vmin, vmax) →
    ∀ v ∈ values, ∃ i, binIndex Binary.double Binary.doubleMax (Histogram.ceilSqrt values.length) vmin vmax v = .ok i

/-- **C156, violated**: five values, four of them zero and one the least positive double: the step is rounded to zero. -/
theorem C156_bins_violated : ¬ C156_bins_full := by
  intro h
  obtain ⟨i, hi⟩ := h [0, 0, 0, 0, 2 ^ (-1074 : Int)] 0 (2 ^ (-1074 : Int)) (by
    intro v hv
    simp only [List.mem_cons, List.not_mem_nil, or_false] at hv
    rcases hv with rfl | rfl | rfl | rfl | rfl <;> exact ⟨by decide +kernel, by decide +kernel⟩) (by decide +kernel) 0 (by simp)
  rw [show Histogram.ceilSqrt [0, 0, 0, 0, (2 : Rat) ^ (-1074 : Int)].length = 3 by simp [Histogram.ceilSqrt]; decide +kernel] at hi
  obtain ⟨hd, hf, hM⟩ := double_bins (n := 3) (by decide)
  rw [(C156_bins Binary.double Binary.doubleMax hd (n := 3) (by decide) (by decide) hf hM (le_refl (0 : Rat)) (by decide +kernel)).2.2.1
    (by decide +kernel) (by decide +kernel)] at hi
  cases hi

/-- Also for great values: of `-M`, `M / 2` and `M` the second is as far from the first as no double is. -/
theorem C156_range_violated : ¬ C156_bins_full := by
  intro h
  obtain ⟨i, hi⟩ := h [-Binary.doubleMax, Binary.doubleMax / 2, Binary.doubleMax] (-Binary.doubleMax) Binary.doubleMax (by
    intro v hv
    simp only [List.mem_cons, List.not_mem_nil, or_false] at hv
    rcases hv with rfl | rfl | rfl <;> exact ⟨by decide +kernel, by decide +kernel⟩) (by decide +kernel) (Binary.doubleMax / 2) (by simp)
  rw [show Histogram.ceilSqrt [-Binary.doubleMax, Binary.doubleMax / 2, Binary.doubleMax].length = 2 by simp [Histogram.ceilSqrt]; decide +kernel] at hi
  obtain ⟨hd, hf, hM⟩ := double_bins (n := 2) (by decide)
  rw [(C156_bins Binary.double Binary.doubleMax hd (n := 2) (by decide) (by decide) hf hM (by decide +kernel) (by decide +kernel)).2.1
    (by decide +kernel) (by decide +kernel)] at hi
  cases hi

/-- The values 0, 1 and 4 in two bins. -/
example : ∃ i : Nat, i ≤ 4 ∧ binIndex Binary.double Binary.doubleMax 2 0 4 1 = .ok i := by
  obtain ⟨hd, hf, hM⟩ := double_bins (n := 2) (by decide)
  obtain ⟨i, h1, h2, -⟩ := (C156_bins Binary.double Binary.doubleMax hd (n := 2) (by decide) (by decide) hf hM (show (0 : Rat) ≤ 1 by decide +kernel)
    (show (1 : Rat) < 4 by decide +kernel)).2.2.2 (by decide +kernel) (by decide +kernel)
  exact ⟨i, h1, h2⟩

/-! ## Linear interpolation -/

/-- Infinite or NaN. -/
def Spec.NotFinite : Ext K → Prop
  | .fin _ => False
  | _ => True

theorem notFinite_add {a : Ext K} (h : Spec.NotFinite a) (b : Ext K) : Spec.NotFinite (Ext.add R M a b) := by
  cases a <;> cases b <;> first | trivial | exact h.elim

theorem notFinite_add' {b : Ext K} (h : Spec.NotFinite b) (a : Ext K) : Spec.NotFinite (Ext.add R M a b) := by
  cases a <;> cases b <;> first | trivial | exact h.elim

theorem notFinite_mul {a : Ext K} (h : Spec.NotFinite a) (b : K) : Spec.NotFinite (Ext.mul R M a (.fin b)) := by
  cases a with
  | fin a => exact h.elim
  | nan => trivial
  | pinf =>
    simp only [Ext.mul, Ext.scale]
    by_cases h1 : b = 0
    · rw [if_pos h1]; trivial
    · rw [if_neg h1]
      by_cases h2 : 0 < b
      · rw [if_pos h2]; trivial
      · rw [if_neg h2]; trivial
  | ninf =>
    simp only [Ext.mul, Ext.scale]
    by_cases h1 : b = 0
    · rw [if_pos h1]; trivial
    · rw [if_neg h1]
      by_cases h2 : 0 < b
      · rw [if_pos h2]; trivial
      · rw [if_neg h2]; trivial

/-- **C156**: if the slope between two points overflows, the interpolation is nowhere finite between them, not even at the points. -/
theorem C156_slope (p q : K × K) (h : Spec.NotFinite (coefs R M p q).2) (x : K) :
    Spec.NotFinite (line R M p q x) := by
  have hc : Spec.NotFinite (coefs R M p q).1 := by
    have h2 := notFinite_mul R M h p.1
    change Spec.NotFinite (Ext.sub R M (.fin p.2) (Ext.mul R M (coefs R M p q).2 (.fin p.1)))
    refine notFinite_add' R M ?_ _
    revert h2
    cases Ext.mul R M (coefs R M p q).2 (.fin p.1) <;> intro h2 <;> first | trivial | exact h2.elim
  unfold line polyEval polyLoop polyLoop polyLoop
  refine notFinite_add R M (notFinite_add' R M (notFinite_mul R M hc 1) _) _

/-- Between `(0, 0)` and `(2^-600, 2^500)`. -/
example (x : Rat) : Spec.NotFinite (line Binary.double Binary.doubleMax (0, 0) (2 ^ (-600 : Int), 2 ^ 500) x) :=
  C156_slope Binary.double Binary.doubleMax _ _ (by
    rw [show (coefs Binary.double Binary.doubleMax (0, 0) (2 ^ (-600 : Int), 2 ^ 500)).2 = .pinf by decide +kernel]; trivial) x

/-- No overflow in the calculation of a line and its value at `x`. -/
structure Spec.InRange (p q : K × K) (x : K) : Prop where
  dy : |R.rnd (q.2 - p.2)| ≤ M
  dx : |R.rnd (q.1 - p.1)| ≤ M
  slope : |R.rnd (R.rnd (q.2 - p.2) / R.rnd (q.1 - p.1))| ≤ M
  product : |R.rnd (R.rnd (R.rnd (q.2 - p.2) / R.rnd (q.1 - p.1)) * p.1)| ≤ M
  zero : |R.rnd (p.2 - R.rnd (R.rnd (R.rnd (q.2 - p.2) / R.rnd (q.1 - p.1)) * p.1))| ≤ M
  term : |R.rnd (R.rnd (R.rnd (q.2 - p.2) / R.rnd (q.1 - p.1)) * x)| ≤ M
  value : |R.rnd (R.rnd (p.2 - R.rnd (R.rnd (R.rnd (q.2 - p.2) / R.rnd (q.1 - p.1)) * p.1)) +
    R.rnd (R.rnd (R.rnd (q.2 - p.2) / R.rnd (q.1 - p.1)) * x))| ≤ M

theorem result_abs {x : K} (h : |R.rnd x| ≤ M) : Ext.result R M x = .fin (R.rnd x) :=
  Ext.result_fin (abs_le.mp h).2 (abs_le.mp h).1

/-- **C156**: without overflow the value is that of the calculation without bound of the exponents (C123). -/
theorem C156_line (p q : K × K) (x : K) (hx : R.rnd x = x) (hxM : |x| ≤ M) (hne : R.rnd (q.1 - p.1) ≠ 0)
    (h : Spec.InRange R M p q x) : ∃ c, MathUtils.machineCoefs R p q = .ok c ∧ line R M p q x = .fin (MathUtils.machinePolyEval R [c.1, c.2] x) := by
  obtain ⟨s, hs⟩ : ∃ s, s = R.rnd (R.rnd (q.2 - p.2) / R.rnd (q.1 - p.1)) := ⟨_, rfl⟩
  obtain ⟨z, hz⟩ : ∃ z, z = R.rnd (p.2 - R.rnd (s * p.1)) := ⟨_, rfl⟩
  have hc1 : (coefs R M p q).2 = .fin s := by
    simp only [coefs]
    rw [sub_fin, sub_fin, result_abs R M h.dy, result_abs R M h.dx]
    simp only [Ext.div, if_neg hne]
    rw [result_abs R M h.slope, hs]
  have hc0 : (coefs R M p q).1 = .fin z := by
    have e : (coefs R M p q).1 = Ext.sub R M (.fin p.2) (Ext.mul R M (coefs R M p q).2 (.fin p.1)) := rfl
    rw [e, hc1]
    simp only [Ext.mul]
    rw [result_abs R M (by rw [hs]; exact h.product), sub_fin, result_abs R M (by rw [hs]; exact h.zero), hz]
  have hzfix : R.rnd z = z := by rw [hz, R.idem]
  have hzM : |z| ≤ M := by rw [hz, hs]; exact h.zero
  refine ⟨(z, s), ?_, ?_⟩
  · unfold MathUtils.machineCoefs MathUtils.div?
    rw [if_neg hne, Outcome.bind_ok, ← hs]
    simp only [← hz]
    rfl
  · unfold line polyEval polyLoop polyLoop polyLoop
    rw [hc0, hc1]
    have r1 : Ext.mul R M (.fin z) (.fin 1) = .fin z := by
      simp only [Ext.mul]; rw [mul_one, result_abs R M (by rw [hzfix]; exact hzM), hzfix]
    have r2 : Ext.add R M (.fin 0) (.fin z) = .fin z := by
      simp only [Ext.add]; rw [zero_add, result_abs R M (by rw [hzfix]; exact hzM), hzfix]
    have r3 : Ext.mul R M (.fin 1) (.fin x) = .fin x := by
      simp only [Ext.mul]; rw [one_mul, result_abs R M (by rw [hx]; exact hxM), hx]
    have r4 : Ext.mul R M (.fin s) (.fin x) = .fin (R.rnd (s * x)) := by
      simp only [Ext.mul]; rw [result_abs R M (by rw [hs]; exact h.term)]
    have r5 : Ext.add R M (.fin z) (.fin (R.rnd (s * x))) = .fin (R.rnd (z + R.rnd (s * x))) := by
      simp only [Ext.add]; rw [result_abs R M (by rw [hz, hs]; exact h.value)]
    rw [r1, r2, r3, r4, r5]
    simp [MathUtils.machinePolyEval, MathUtils.machinePolyLoop, hzfix, hx]

/-- Interpolation between doubles is finite at the points. -/
def C156_line_full : Prop :=
  ∀ p q : Rat × Rat, p.1 < q.1 → (∀ v ∈ [p.1, p.2, q.1, q.2], Binary.double.rnd v = v ∧ |v| ≤ Binary.doubleMax) →
    ∃ v, line Binary.double Binary.doubleMax p q p.1 = .fin v

/-- **C156, violated**: between `(0, 0)` and `(2^-600, 2^500)` the value at 0 is NaN. -/
theorem C156_line_violated : ¬ C156_line_full := by
  intro h
  obtain ⟨v, hv⟩ := h (0, 0) (2 ^ (-600 : Int), 2 ^ 500) (by decide +kernel) (by
    intro v hv
    simp only [List.mem_cons, List.not_mem_nil, or_false] at hv
    rcases hv with rfl | rfl | rfl | rfl <;> exact ⟨by decide +kernel, by decide +kernel⟩)
  rw [show line Binary.double Binary.doubleMax (0, 0) (2 ^ (-600 : Int), 2 ^ 500) 0 = .nan by decide +kernel] at hv
  cases hv

/-- Between `(1, 2)` and `(3, 8)` at 2. -/
example : ∃ c, MathUtils.machineCoefs Binary.double ((1 : Rat), (2 : Rat)) (3, 8) = .ok c ∧
    line Binary.double Binary.doubleMax (1, 2) (3, 8) 2 = .fin (MathUtils.machinePolyEval Binary.double [c.1, c.2] 2) :=
  C156_line Binary.double Binary.doubleMax _ _ 2 (by decide +kernel) (by decide +kernel) (by decide +kernel)
    ⟨by decide +kernel, by decide +kernel, by decide +kernel, by decide +kernel, by decide +kernel, by decide +kernel, by decide +kernel⟩

/-! ## Self organising maps -/

theorem lt_iff_ext (a b : Ext K) : a < b ↔ Ext.lt a b = true := Iff.rfl

theorem bmuLoop_ext {W : Type} (dist : W → Ext K) (ws : List W) (hd : ∀ w ∈ ws, dist w ≠ .ninf) (i best : Nat) (c : K) :
    ∃ b c', SOM.bmuLoop dist ws i best (.fin c) = (b, .fin c') ∧ c' ≤ c ∧ (∀ w ∈ ws, ∀ d, dist w = .fin d → c' ≤ d) ∧
      ((b = best ∧ c' = c) ∨ ∃ j w, b = i + j ∧ ws[j]? = some w ∧ dist w = .fin c' ∧ c' < c ∧
        ∀ k < j, ∀ v, ws[k]? = some v → ∀ d, dist v = .fin d → c' < d) := by
  induction ws generalizing i best c with
  | nil => exact ⟨best, c, rfl, le_rfl, by simp, .inl ⟨rfl, rfl⟩⟩
  | cons w ws ih =>
    have ih := ih (fun v hv => hd v (List.mem_cons_of_mem _ hv))
    rw [SOM.bmuLoop]
    by_cases h : dist w < .fin c
    · rw [if_pos h]
      obtain ⟨d, hd, hdc⟩ : ∃ d, dist w = .fin d ∧ d < c := by
        rw [lt_iff_ext] at h
        cases hw : dist w with
        | nan => rw [hw] at h; simp at h
        | pinf => rw [hw] at h; simp at h
        | ninf => exact absurd hw (hd w List.mem_cons_self)
        | fin d => rw [hw] at h; exact ⟨d, rfl, by simpa [Ext.lt] using h⟩
      rw [hd]
      obtain ⟨b, c', e, h1, h2, h3⟩ := ih (i + 1) i d
      refine ⟨b, c', e, h1.trans hdc.le, ?_, .inr ?_⟩
      · intro v hv x hx
        rcases List.mem_cons.mp hv with rfl | hv
        · rw [hd] at hx; cases hx; exact h1
        · exact h2 v hv x hx
      · rcases h3 with ⟨rfl, rfl⟩ | ⟨j, v, hb, hj, hv, hlt, hk⟩
        · exact ⟨0, w, rfl, rfl, hd, hdc, fun k hk => absurd hk (Nat.not_lt_zero k)⟩
        · refine ⟨j + 1, v, by omega, by simpa using hj, hv, hlt.trans hdc, fun k hkj u hu x hx => ?_⟩
          cases k with
          | zero =>
            simp only [List.getElem?_cons_zero, Option.some.injEq] at hu
            subst hu
            rw [hd] at hx; cases hx; exact hlt
          | succ k => exact hk k (by omega) u (by simpa using hu) x hx
    · rw [if_neg h]
      obtain ⟨b, c', e, h1, h2, h3⟩ := ih (i + 1) best c
      have hw : ∀ d, dist w = .fin d → c ≤ d := fun d hx => by
        rw [lt_iff_ext, hx] at h
        simpa [Ext.lt] using h
      refine ⟨b, c', e, h1, ?_, ?_⟩
      · intro v hv x hx
        rcases List.mem_cons.mp hv with rfl | hv
        · exact h1.trans (hw x hx)
        · exact h2 v hv x hx
      · rcases h3 with h3 | ⟨j, v, hb, hj, hv, hlt, hk⟩
        · exact .inl h3
        · refine .inr ⟨j + 1, v, by omega, by simpa using hj, hv, hlt, fun k hkj u hu x hx => ?_⟩
          cases k with
          | zero =>
            simp only [List.getElem?_cons_zero, Option.some.injEq] at hu
            subst hu
            exact lt_of_lt_of_le hlt (hw x hx)
          | succ k => exact hk k (by omega) u (by simpa using hu) x hx

/-- A number that is not negative, or infinity. -/
def Spec.Distance : Ext K → Prop
  | .fin d => 0 ≤ d
  | .pinf => True
  | _ => False

theorem square_distance (hM : 0 ≤ M) (a b : K) :
    Spec.Distance (Ext.mul R M (Ext.sub R M (.fin a) (.fin b)) (Ext.sub R M (.fin a) (.fin b))) := by
  rw [sub_fin]
  unfold Ext.result
  by_cases h1 : M < R.rnd (a - b)
  · rw [if_pos h1]; trivial
  · rw [if_neg h1]
    by_cases h2 : R.rnd (a - b) < -M
    · rw [if_pos h2]; trivial
    · rw [if_neg h2]
      simp only [Ext.mul, Ext.result]
      have h0 := R.nonneg (mul_self_nonneg (R.rnd (a - b)))
      by_cases h3 : M < R.rnd (R.rnd (a - b) * R.rnd (a - b))
      · rw [if_pos h3]; trivial
      · rw [if_neg h3, if_neg (not_lt.mpr (by linarith))]
        exact h0

theorem add_distance (hM : 0 ≤ M) {x y : Ext K} (hx : Spec.Distance x) (hy : Spec.Distance y) : Spec.Distance (Ext.add R M x y) := by
  cases x with
  | nan => exact hx.elim
  | ninf => exact hx.elim
  | pinf => cases y <;> first | trivial | exact hy
  | fin a =>
    cases y with
    | nan => exact hy
    | ninf => exact hy
    | pinf => trivial
    | fin b =>
      have h0 := R.nonneg (add_nonneg (show 0 ≤ a from hx) (show 0 ≤ b from hy))
      simp only [Ext.add, Ext.result]
      by_cases h3 : M < R.rnd (a + b)
      · rw [if_pos h3]; trivial
      · rw [if_neg h3, if_neg (not_lt.mpr (by linarith))]
        exact h0

/-- **C156**: the distance between finite weights is a number that is not negative, or infinite; never NaN. -/
theorem C156_distance (hM : 0 ≤ M) {root : K → K} (hroot : ∀ x, 0 ≤ x → 0 ≤ root x) {nd : Nat} (left right : Fin nd → K) :
    Spec.Distance (l2 R M root (fun i => .fin (left i)) (fun i => .fin (right i))) := by
  have key : ∀ (is : List (Fin nd)) (t : Ext K), Spec.Distance t → Spec.Distance (is.foldl (fun r i =>
      Ext.add R M r (Ext.mul R M (Ext.sub R M (.fin (left i)) (.fin (right i))) (Ext.sub R M (.fin (left i)) (.fin (right i))))) t) := by
    intro is
    induction is with
    | nil => intro t ht; exact ht
    | cons i is ih => intro t ht; exact ih _ (add_distance R M hM ht (square_distance R M hM _ _))
  have := key (List.finRange nd) (.fin 0) le_rfl
  unfold l2
  revert this
  generalize (List.finRange nd).foldl _ _ = s
  intro h
  cases s with
  | nan => exact h
  | ninf => exact h
  | pinf => trivial
  | fin s => exact hroot s h

/-- A number, or infinity beyond the greatest number. -/
def Spec.capped (s : K) : Ext K := if M < s then .pinf else .fin s

theorem capped_step {s d : K} (hM : 0 ≤ M) (hs : 0 ≤ s) (hfix : R.rnd s = s) :
    Ext.add R M (Spec.capped M s) (Ext.result R M (d * d)) = Spec.capped M (R.rnd (s + R.rnd (d * d))) := by
  have hd : 0 ≤ R.rnd (d * d) := R.nonneg (mul_self_nonneg d)
  have h1 : s ≤ R.rnd (s + R.rnd (d * d)) := by
    have := R.mono s (s + R.rnd (d * d)) (by linarith)
    rwa [hfix] at this
  have h2 : R.rnd (d * d) ≤ R.rnd (s + R.rnd (d * d)) := by
    have := R.mono (R.rnd (d * d)) (s + R.rnd (d * d)) (by linarith)
    rwa [R.idem] at this
  unfold Spec.capped
  by_cases hsM : M < s
  · rw [if_pos hsM, if_pos (by linarith)]
    unfold Ext.result
    by_cases hdM : M < R.rnd (d * d)
    · rw [if_pos hdM]; rfl
    · rw [if_neg hdM, if_neg (by linarith)]; rfl
  · rw [if_neg hsM]
    by_cases hdM : M < R.rnd (d * d)
    · rw [if_pos (by linarith), Ext.result, if_pos hdM]; rfl
    · rw [Ext.result_fin (not_lt.mp hdM) (by linarith)]
      simp only [Ext.add, Ext.result]
      by_cases h : M < R.rnd (s + R.rnd (d * d))
      · rw [if_pos h, if_pos h]
      · rw [if_neg h, if_neg h, if_neg (by linarith)]

/-- **C156**: the distance if no difference overflows: that of the calculation without bound of the exponents (C124), or infinite if the sum of squares
is beyond the greatest number. -/
theorem C156_l2 (hM : 0 ≤ M) (root : K → K) {nd : Nat} (left right : Fin nd → K) (h : ∀ i, |R.rnd (left i - right i)| ≤ M) :
    l2 R M root (fun i => .fin (left i)) (fun i => .fin (right i)) =
      if M < SOM.machineSquares R left right then .pinf else .fin (root (SOM.machineSquares R left right)) := by
  have key : ∀ (is : List (Fin nd)) (t : K), 0 ≤ t → R.rnd t = t → is.foldl (fun r i =>
      Ext.add R M r (Ext.mul R M (Ext.sub R M (.fin (left i)) (.fin (right i))) (Ext.sub R M (.fin (left i)) (.fin (right i))))) (Spec.capped M t) =
      Spec.capped M (is.foldl (fun result i => R.rnd (result + R.rnd (R.rnd (left i - right i) * R.rnd (left i - right i)))) t) := by
    intro is
    induction is with
    | nil => intro t _ _; rfl
    | cons i is ih =>
      intro t ht hf
      rw [List.foldl_cons, List.foldl_cons, sub_fin, result_abs R M (h i)]
      simp only [Ext.mul]
      rw [capped_step R M hM ht hf]
      exact ih _ (R.nonneg (add_nonneg ht (R.nonneg (mul_self_nonneg _)))) (R.idem _)
  have h0 : (.fin 0 : Ext K) = Spec.capped M 0 := by rw [Spec.capped, if_neg (not_lt.mpr hM)]
  unfold l2
  rw [h0, key _ 0 le_rfl R.zero]
  unfold SOM.machineSquares Spec.capped
  by_cases h1 : M < (List.finRange nd).foldl (fun result i => R.rnd (result + R.rnd (R.rnd (left i - right i) * R.rnd (left i - right i)))) 0
  · rw [if_pos h1, if_pos h1]
  · rw [if_neg h1, if_neg h1]

/-- **C156**: the distance is infinite if a difference overflows. -/
theorem C156_l2_overflow (hM : 0 ≤ M) (root : K → K) {nd : Nat} (left right : Fin nd → K) (i : Fin nd) (h : M < |R.rnd (left i - right i)|) :
    l2 R M root (fun i => .fin (left i)) (fun i => .fin (right i)) = .pinf := by
  have hi : Ext.mul R M (Ext.sub R M (.fin (left i)) (.fin (right i))) (Ext.sub R M (.fin (left i)) (.fin (right i))) = .pinf := by
    rw [sub_fin, Ext.result]
    rcases lt_abs.mp h with h | h
    · rw [if_pos h]; rfl
    · rw [if_neg (by linarith), if_pos (by linarith)]; rfl
  have stay : ∀ is : List (Fin nd), is.foldl (fun r i =>
      Ext.add R M r (Ext.mul R M (Ext.sub R M (.fin (left i)) (.fin (right i))) (Ext.sub R M (.fin (left i)) (.fin (right i))))) .pinf = .pinf := by
    intro is
    induction is with
    | nil => rfl
    | cons j is ih =>
      have hj := square_distance R M hM (left j) (right j)
      rw [List.foldl_cons]
      have : Ext.add R M .pinf (Ext.mul R M (Ext.sub R M (.fin (left j)) (.fin (right j))) (Ext.sub R M (.fin (left j)) (.fin (right j)))) = .pinf := by
        revert hj
        generalize Ext.mul R M (Ext.sub R M (.fin (left j)) (.fin (right j))) (Ext.sub R M (.fin (left j)) (.fin (right j))) = y
        intro hj
        cases y with
        | nan => exact hj.elim
        | ninf => exact hj.elim
        | pinf => rfl
        | fin _ => rfl
      rw [this, ih]
  have key : ∀ (is : List (Fin nd)) (t : Ext K), Spec.Distance t → i ∈ is → is.foldl (fun r i =>
      Ext.add R M r (Ext.mul R M (Ext.sub R M (.fin (left i)) (.fin (right i))) (Ext.sub R M (.fin (left i)) (.fin (right i))))) t = .pinf := by
    intro is
    induction is with
    | nil => intro t _ hm; simp at hm
    | cons j is ih =>
      intro t ht hm
      rw [List.foldl_cons]
      by_cases hj : j = i
      · subst hj
        have : Ext.add R M t .pinf = .pinf := by
          cases t with
          | nan => exact ht.elim
          | ninf => exact ht.elim
          | pinf => rfl
          | fin _ => rfl
        rw [hi, this, stay]
      · refine ih _ (add_distance R M hM ht (square_distance R M hM _ _)) ?_
        rcases List.mem_cons.mp hm with h | h
        · exact absurd h.symm hj
        · exact h
  unfold l2
  rw [key _ _ le_rfl (List.mem_finRange i)]

/-- The distance of `(0, 0)` to `(3, 4)`. -/
example : l2 Binary.double Binary.doubleMax (fun x => x) (fun (_ : Fin 2) => .fin 0) (fun i => .fin (if i = 0 then 3 else 4)) = .fin 25 := by
  have h := C156_l2 Binary.double Binary.doubleMax (by decide +kernel) (fun x => x) (fun (_ : Fin 2) => 0) (fun i => if i = 0 then 3 else 4)
    (by decide +kernel)
  have e : SOM.machineSquares Binary.double (fun (_ : Fin 2) => 0) (fun i => if i = 0 then 3 else 4) = 25 := by decide +kernel
  rw [e, if_neg (by decide +kernel)] at h
  exact h

/-- The distance of `-M` to `M`. -/
example : l2 Binary.double Binary.doubleMax (fun x => x) (fun (_ : Fin 1) => .fin (-Binary.doubleMax)) (fun _ => .fin Binary.doubleMax) = .pinf :=
  C156_l2_overflow Binary.double Binary.doubleMax (by decide +kernel) _ _ _ 0 (by decide +kernel)

/-- The distance of a cell to itself is zero. -/
theorem l2_self (hM : 0 ≤ M) {root : K → K} (h0 : root 0 = 0) {nd : Nat} (w : Fin nd → K) :
    l2 R M root (fun i => .fin (w i)) (fun i => .fin (w i)) = .fin 0 := by
  have z : R.rnd 0 = 0 := R.zero
  have r0 : Ext.result R M 0 = .fin 0 := by rw [Ext.result_fin (by rw [z]; exact hM) (by rw [z]; linarith), z]
  have key : ∀ is : List (Fin nd), is.foldl (fun r i =>
      Ext.add R M r (Ext.mul R M (Ext.sub R M (.fin (w i)) (.fin (w i))) (Ext.sub R M (.fin (w i)) (.fin (w i))))) (.fin 0) = (.fin 0 : Ext K) := by
    intro is
    induction is with
    | nil => rfl
    | cons i is ih =>
      rw [List.foldl_cons, sub_fin, sub_self, r0]
      simp only [Ext.mul, mul_zero, r0, Ext.add, add_zero]
      exact ih
  unfold l2
  rw [key]
  simp only [h0]

/-- **C156**: the best matching unit of a map of finite weights.  Either every distance is at least the greatest number, and the first cell is returned
with that number in place of its distance; or the cell returned is the first whose distance is the least. -/
theorem C156_bmu (hM : 0 ≤ M) {root : K → K} (hroot : ∀ x, 0 ≤ x → 0 ≤ root x) {nd : Nat} (sx sy : Nat) (cells : List (Fin nd → K))
    (hx : sx ≠ 0) (hy : sy ≠ 0) (input : Fin nd → K) :
    ∃ b c, SOM.findBMU ⟨sx, sy, cells.map fun w i => .fin (w i)⟩ (fun w => l2 R M root w (fun i => .fin (input i))) (.fin M) =
        .ok ((SOM.coords sx sy b).1, (SOM.coords sx sy b).2, .fin c) ∧
      ((b = 0 ∧ c = M ∧ ∀ w ∈ cells, ∀ d, l2 R M root (fun i => .fin (w i)) (fun i => .fin (input i)) = .fin d → M ≤ d) ∨
       ∃ w, cells[b]? = some w ∧ l2 R M root (fun i => .fin (w i)) (fun i => .fin (input i)) = .fin c ∧ c < M ∧
        (∀ v ∈ cells, ∀ d, l2 R M root (fun i => .fin (v i)) (fun i => .fin (input i)) = .fin d → c ≤ d) ∧
        ∀ k < b, ∀ v, cells[k]? = some v → ∀ d, l2 R M root (fun i => .fin (v i)) (fun i => .fin (input i)) = .fin d → c < d) := by
  obtain ⟨b, c, e, -, h2, h3⟩ := bmuLoop_ext (fun w => l2 R M root w (fun i => .fin (input i))) (cells.map fun w i => .fin (w i)) (by
    intro w hw hn
    obtain ⟨v, -, rfl⟩ := List.mem_map.mp hw
    have := C156_distance R M hM hroot v input
    rw [hn] at this
    exact this) 0 0 M
  refine ⟨b, c, ?_, ?_⟩
  · rw [SOM.findBMU, if_neg (by simp [hx, hy]), e]
  · rcases h3 with ⟨hb, hc⟩ | ⟨j, w, hb, hj, hw, hlt, hk⟩
    · refine .inl ⟨hb, hc, fun w hw d hd => ?_⟩
      rw [← hc]
      exact h2 _ (List.mem_map.mpr ⟨w, hw, rfl⟩) d hd
    · rw [Nat.zero_add] at hb
      subst hb
      rw [List.getElem?_map, Option.map_eq_some_iff] at hj
      obtain ⟨v, hv, rfl⟩ := hj
      refine .inr ⟨v, hv, hw, hlt, fun u hu d hd => h2 _ (List.mem_map.mpr ⟨u, hu, rfl⟩) d hd, fun k hkb u hu d hd => ?_⟩
      exact hk k hkb _ (by rw [List.getElem?_map, hu]; rfl) d hd

/-- **C156**: if a cell has the weights of the input, the distance returned is zero. -/
theorem C156_bmu_zero (hM : 0 < M) {root : K → K} (hroot : ∀ x, 0 ≤ x → 0 ≤ root x) (h0 : root 0 = 0) {nd : Nat} (sx sy : Nat)
    (cells : List (Fin nd → K)) (hx : sx ≠ 0) (hy : sy ≠ 0) (input : Fin nd → K) (hin : input ∈ cells) :
    ∃ b w, SOM.findBMU ⟨sx, sy, cells.map fun w i => .fin (w i)⟩ (fun w => l2 R M root w (fun i => .fin (input i))) (.fin M) =
        .ok ((SOM.coords sx sy b).1, (SOM.coords sx sy b).2, .fin 0) ∧
      cells[b]? = some w ∧ l2 R M root (fun i => .fin (w i)) (fun i => .fin (input i)) = .fin 0 := by
  have hs := l2_self R M hM.le h0 input
  obtain ⟨b, c, e, h | ⟨w, hw, hd, -, hmin, -⟩⟩ := C156_bmu R M hM.le hroot sx sy cells hx hy input
  · have := h.2.2 input hin 0 hs
    linarith
  · have h1 := hmin input hin 0 hs
    have h2 := C156_distance R M hM.le hroot w input
    rw [hd] at h2
    have : c = 0 := le_antisymm h1 h2
    subst this
    exact ⟨b, w, e, hw, hd⟩

/-- The cell with the weights of the input is returned. -/
def C156_map_full (root : Rat → Rat) : Prop :=
  ∀ (nd sx sy : Nat) (cells : List (Fin nd → Rat)) (input : Fin nd → Rat), sx ≠ 0 → sy ≠ 0 → cells.length = sx * sy →
    (∀ w ∈ cells, ∀ i, Binary.double.rnd (w i) = w i ∧ |w i| ≤ Binary.doubleMax) → input ∈ cells →
    ∃ x y d, SOM.findBMU ⟨sx, sy, cells.map fun w i => .fin (w i)⟩ (fun w => l2 Binary.double Binary.doubleMax root w (fun i => .fin (input i)))
      (.fin Binary.doubleMax) = .ok (x, y, d) ∧ cells[y * sx + x]? = some input

/-- **C156, violated**: of the cells 0 and `2^-600` the first is returned for the input `2^-600`, with the distance 0: the square underflows. -/
theorem C156_map_violated (root : Rat → Rat) (h0 : root 0 = 0) : ¬ C156_map_full root := by
  intro h
  obtain ⟨x, y, d, e, hc⟩ := h 1 2 1 [fun _ => 0, fun _ => 2 ^ (-600 : Int)] (fun _ => 2 ^ (-600 : Int)) (by decide) (by decide) rfl (by
    intro w hw i
    simp only [List.mem_cons, List.not_mem_nil, or_false] at hw
    rcases hw with rfl | rfl
    · exact ⟨show Binary.double.rnd 0 = 0 by decide +kernel, show |(0 : Rat)| ≤ Binary.doubleMax by decide +kernel⟩
    · exact ⟨show Binary.double.rnd (2 ^ (-600 : Int)) = 2 ^ (-600 : Int) by decide +kernel,
        show |(2 : Rat) ^ (-600 : Int)| ≤ Binary.doubleMax by decide +kernel⟩) (by simp)
  have hl : ∀ a : Rat, a = 0 ∨ a = 2 ^ (-600 : Int) →
      l2 Binary.double Binary.doubleMax root (nd := 1) (fun _ => .fin a) (fun _ => .fin (2 ^ (-600 : Int))) = .fin 0 := by
    intro a ha
    have : (List.finRange 1).foldl (fun (r : Ext Rat) _ => Ext.add Binary.double Binary.doubleMax r
        (Ext.mul Binary.double Binary.doubleMax (Ext.sub Binary.double Binary.doubleMax (.fin a) (.fin (2 ^ (-600 : Int))))
          (Ext.sub Binary.double Binary.doubleMax (.fin a) (.fin (2 ^ (-600 : Int)))))) (.fin 0) = .fin 0 := by
      rcases ha with rfl | rfl <;> decide +kernel
    unfold l2
    rw [this]
    simp only [h0]
  have hlt : Ext.fin (0 : Rat) < .fin Binary.doubleMax := by decide +kernel
  have hlt2 : ¬ Ext.fin (0 : Rat) < .fin 0 := by decide +kernel
  simp only [SOM.findBMU, List.map_cons, List.map_nil, SOM.bmuLoop, hl 0 (.inl rfl), hl _ (.inr rfl), if_pos hlt, if_neg hlt2] at e
  rw [if_neg (by decide)] at e
  simp only [Outcome.ok.injEq, Prod.mk.injEq] at e
  obtain ⟨rfl, rfl, -⟩ := e
  have : (fun _ : Fin 1 => (0 : Rat)) = fun _ => 2 ^ (-600 : Int) := by simpa [SOM.coords] using hc
  exact absurd (congrFun this 0) (by decide +kernel)

/-- Three cells: the third matches. -/
example : ∃ b w, SOM.findBMU ⟨3, 1, [fun _ => 1, fun _ => 2, fun _ => 3].map fun (w : Fin 2 → Rat) i => .fin (w i)⟩
    (fun w => l2 Binary.double Binary.doubleMax (fun x => x) w (fun _ => .fin 3)) (.fin Binary.doubleMax) =
      .ok ((SOM.coords 3 1 b).1, (SOM.coords 3 1 b).2, .fin 0) ∧
    ([fun _ => 1, fun _ => 2, fun _ => 3] : List (Fin 2 → Rat))[b]? = some w ∧
      l2 Binary.double Binary.doubleMax (fun x => x) (fun i => .fin (w i)) (fun _ => .fin 3) = .fin 0 :=
  C156_bmu_zero Binary.double Binary.doubleMax (by decide +kernel) (fun x h => h) rfl 3 1 [fun _ => 1, fun _ => 2, fun _ => 3] (by decide) (by decide)
    (fun _ => 3) (by simp)

end Alexandria.Overflow
