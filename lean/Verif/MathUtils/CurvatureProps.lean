import Verif.MathUtils.ApproxProps
import Mathlib.Analysis.Convex.Jensen
import Mathlib.MeasureTheory.Integral.IntervalIntegral.FundThmCalculus
import Mathlib.Analysis.SpecialFunctions.Integrals.Basic

/-!
# C142: the spline is the interpolation with the smallest curvature

Whatever twice continuously differentiable function the points were taken from, the integral of the square of its second derivative is that of the spline plus that of the difference.
-/

namespace Alexandria.MathUtils

/-- The third derivative of a cubic polynomial is a constant. -/
theorem value2_deriv {c : List ℝ} (h : c.length = 4) : ∃ κ, ∀ t, HasDerivAt (Spec.value2 c) κ t := by
  match c, h with
  | [c0, c1, c2, c3], _ =>
    refine ⟨6 * c3, fun t => ?_⟩
    have e : Spec.value2 [c0, c1, c2, c3] = fun t => 2 * c2 + 6 * c3 * t := by
      funext t
      simp [Spec.value2, polyDeriv, polyEval, polyLoop, List.zipIdx]
      ring_nf
      simp
    rw [e]
    simpa using ((hasDerivAt_id t).const_mul (6 * c3)).const_add (2 * c2)

theorem value2_continuous {c : List ℝ} (h : c.length = 4) : Continuous (Spec.value2 c) := by
  obtain ⟨κ, hk⟩ := value2_deriv h
  exact continuous_iff_continuousAt.mpr fun t => (hk t).continuousAt

/-- One piece: integration by parts twice. -/
theorem piece_orthogonal {c : List ℝ} (hc : c.length = 4) {a b : ℝ} (hab : a < b) {g g1 g2 : ℝ → ℝ} (k0 : ContinuousOn g (Set.Icc a b)) (k1 : ContinuousOn g1 (Set.Icc a b))
    (k2 : ContinuousOn g2 (Set.Icc a b)) (hd : ∀ s ∈ Set.Ioo a b, HasDerivAt g (g1 s) s ∧ HasDerivAt g1 (g2 s) s) (ha : Spec.value0 c a = g a) (hb : Spec.value0 c b = g b) :
    ∫ t in a..b, g2 t ^ 2 = (∫ t in a..b, Spec.value2 c t ^ 2) + (∫ t in a..b, (g2 t - Spec.value2 c t) ^ 2) +
      2 * ((g1 b - Spec.value1 c b) * Spec.value2 c b - (g1 a - Spec.value1 c a) * Spec.value2 c a) := by
  obtain ⟨κ, hk⟩ := value2_deriv hc
  have v0 : Continuous (Spec.value0 c) := continuous_iff_continuousAt.mpr fun t => (C35_derivatives c t).1.continuousAt
  have v1 : Continuous (Spec.value1 c) := continuous_iff_continuousAt.mpr fun t => (C35_derivatives c t).2.continuousAt
  have v2 := value2_continuous hc
  have hI : ∀ f : ℝ → ℝ, ContinuousOn f (Set.Icc a b) → IntervalIntegrable f MeasureTheory.volume a b := fun f hf => by
    refine ContinuousOn.intervalIntegrable ?_
    rw [Set.uIcc_of_le hab.le]
    exact hf
  have hparts : ∫ t in a..b, (g2 t - Spec.value2 c t) * Spec.value2 c t = (g1 b - Spec.value1 c b) * Spec.value2 c b - (g1 a - Spec.value1 c a) * Spec.value2 c a := by
    have := intervalIntegral.integral_eq_sub_of_hasDerivAt_of_le (f := fun t => (g1 t - Spec.value1 c t) * Spec.value2 c t - (g t - Spec.value0 c t) * κ)
      (f' := fun t => (g2 t - Spec.value2 c t) * Spec.value2 c t) hab.le (((k1.sub v1.continuousOn).mul v2.continuousOn).sub ((k0.sub v0.continuousOn).mul continuousOn_const)) ?_
      (hI _ ((k2.sub v2.continuousOn).mul v2.continuousOn))
    · rw [this, ha, hb]
      ring
    · intro s hs
      obtain ⟨d0, d1⟩ := hd s hs
      obtain ⟨e0, e1⟩ := C35_derivatives c s
      have := ((d1.sub e1).mul (hk s)).sub ((d0.sub e0).mul_const κ)
      refine this.congr_deriv ?_
      simp only [Pi.sub_apply]
      ring
  have j1 : IntervalIntegrable (fun t => Spec.value2 c t ^ 2) MeasureTheory.volume a b := hI _ (v2.continuousOn.pow 2)
  have j2 : IntervalIntegrable (fun t => (g2 t - Spec.value2 c t) ^ 2) MeasureTheory.volume a b := hI _ ((k2.sub v2.continuousOn).pow 2)
  have j3 : IntervalIntegrable (fun t => 2 * ((g2 t - Spec.value2 c t) * Spec.value2 c t)) MeasureTheory.volume a b := (hI _ ((k2.sub v2.continuousOn).mul v2.continuousOn)).const_mul 2
  rw [← hparts, ← intervalIntegral.integral_const_mul, ← intervalIntegral.integral_add j1 j2, ← intervalIntegral.integral_add (j1.add j2) j3]
  congr 1
  funext t
  ring

/-- A function without curvature that vanishes at the ends of an interval vanishes between them. -/
theorem flat_zero {a b : ℝ} {w w1 : ℝ → ℝ} (k0 : ContinuousOn w (Set.Icc a b)) (hd : ∀ s ∈ Set.Ioo a b, HasDerivAt w (w1 s) s ∧ HasDerivAt w1 0 s) (ha : w a = 0) (hb : w b = 0)
    {t : ℝ} (ht : t ∈ Set.Icc a b) : w t = 0 := by
  have hab : a ≤ b := ht.1.trans ht.2
  have key : ∀ f f1 : ℝ → ℝ, ContinuousOn f (Set.Icc a b) → (∀ s ∈ Set.Ioo a b, HasDerivAt f (f1 s) s ∧ HasDerivAt f1 0 s) → f a = 0 → f b = 0 → f t ≤ 0 := by
    intro f f1 hc hf h1 h2
    have hconv : ConvexOn ℝ (Set.Icc a b) f := by
      refine convexOn_of_hasDerivWithinAt2_nonneg (f' := f1) (f'' := fun _ => 0) (convex_Icc a b) hc ?_ ?_ fun _ _ => le_refl _
      · intro s hs
        rw [interior_Icc] at hs ⊢
        exact (hf s hs).1.hasDerivWithinAt
      · intro s hs
        rw [interior_Icc] at hs ⊢
        exact (hf s hs).2.hasDerivWithinAt
    have := hconv.le_max_of_mem_Icc (Set.left_mem_Icc.mpr hab) (Set.right_mem_Icc.mpr hab) ht
    rwa [h1, h2, max_self] at this
  have h1 := key w w1 k0 hd ha hb
  have h2 := key (fun s => -w s) (fun s => -w1 s) k0.neg (fun s hs => ⟨(hd s hs).1.neg, (hd s hs).2.neg.congr_deriv neg_zero⟩) (by simp [ha]) (by simp [hb])
  linarith

/-- The distance of a function from its chord is controlled by the curvature (the Green function of the second derivative). -/
theorem chord_distance {a b t : ℝ} (h1 : a < t) (h2 : t < b) {w w1 w2 : ℝ → ℝ} (k0 : ContinuousOn w (Set.Icc a b)) (k1 : ContinuousOn w1 (Set.Icc a b)) (k2 : ContinuousOn w2 (Set.Icc a b))
    (hd : ∀ s ∈ Set.Ioo a b, HasDerivAt w (w1 s) s ∧ HasDerivAt w1 (w2 s) s) (ha : w a = 0) (hb : w b = 0) :
    w t ^ 2 ≤ (b - a) ^ 3 / 48 * ∫ s in a..b, w2 s ^ 2 := by
  have hI : ∀ {l r : ℝ}, a ≤ l → l ≤ r → r ≤ b → ∀ f : ℝ → ℝ, ContinuousOn f (Set.Icc a b) → IntervalIntegrable f MeasureTheory.volume l r := fun {l r} hl hlr hr f hf => by
    refine ContinuousOn.intervalIntegrable ?_
    rw [Set.uIcc_of_le hlr]
    exact hf.mono (Set.Icc_subset_Icc hl hr)
  -- what comes out of the two halves for any slope of the comparison
  have half : ∀ (l r u κ : ℝ), a ≤ l → l ≤ r → r ≤ b → ∫ s in l..r, (w2 s + κ * (s - u)) ^ 2 = (∫ s in l..r, w2 s ^ 2) +
      2 * κ * ((w1 r * (r - u) - w r) - (w1 l * (l - u) - w l)) + κ ^ 2 * ((r - u) ^ 3 / 3 - (l - u) ^ 3 / 3) := by
    intro l r u κ hl hlr hr
    have cu : ContinuousOn (fun s : ℝ => s - u) (Set.Icc a b) := (continuous_id.sub continuous_const).continuousOn
    have p1 : ∫ s in l..r, w2 s * (s - u) = (w1 r * (r - u) - w r) - (w1 l * (l - u) - w l) := by
      refine intervalIntegral.integral_eq_sub_of_hasDerivAt_of_le (f := fun s => w1 s * (s - u) - w s) (f' := fun s => w2 s * (s - u)) hlr
        (((k1.mul cu).sub k0).mono (Set.Icc_subset_Icc hl hr)) ?_ (hI hl hlr hr _ (k2.mul cu))
      intro s hs
      obtain ⟨d0, d1⟩ := hd s (Set.Ioo_subset_Ioo hl hr hs)
      have du : HasDerivAt (fun s : ℝ => s - u) 1 s := (hasDerivAt_id s).sub_const u
      refine ((d1.mul du).sub d0).congr_deriv ?_
      ring
    have p2 : ∫ s in l..r, (s - u) ^ 2 = (r - u) ^ 3 / 3 - (l - u) ^ 3 / 3 := by
      refine intervalIntegral.integral_eq_sub_of_hasDerivAt_of_le (f := fun s => (s - u) ^ 3 / 3) (f' := fun s => (s - u) ^ 2) hlr
        (((cu.pow 3).div_const 3).mono (Set.Icc_subset_Icc hl hr)) ?_ (hI hl hlr hr _ (cu.pow 2))
      intro s _
      have du : HasDerivAt (fun s : ℝ => s - u) 1 s := (hasDerivAt_id s).sub_const u
      refine ((du.pow 3).div_const 3).congr_deriv ?_
      norm_num
    have j1 : IntervalIntegrable (fun s => w2 s ^ 2) MeasureTheory.volume l r := hI hl hlr hr _ (k2.pow 2)
    have j2 : IntervalIntegrable (fun s => 2 * κ * (w2 s * (s - u))) MeasureTheory.volume l r := (hI hl hlr hr _ (k2.mul cu)).const_mul _
    have j3 : IntervalIntegrable (fun s => κ ^ 2 * (s - u) ^ 2) MeasureTheory.volume l r := (hI hl hlr hr _ (cu.pow 2)).const_mul _
    rw [← p1, ← p2, ← intervalIntegral.integral_const_mul, ← intervalIntegral.integral_const_mul, ← intervalIntegral.integral_add j1 j2, ← intervalIntegral.integral_add (j1.add j2) j3]
    congr 1
    funext s
    ring
  have hE := intervalIntegral.integral_add_adjacent_intervals (hI (le_refl a) h1.le h2.le _ (k2.pow 2)) (hI h1.le h2.le (le_refl b) _ (k2.pow 2))
  simp only [Pi.pow_apply] at hE
  have n1 : ∀ κ, 0 ≤ ∫ s in a..t, (w2 s + κ * (s - a)) ^ 2 := fun κ => intervalIntegral.integral_nonneg h1.le fun _ _ => sq_nonneg _
  have n2 : ∀ κ, 0 ≤ ∫ s in t..b, (w2 s + κ * (s - b)) ^ 2 := fun κ => intervalIntegral.integral_nonneg h2.le fun _ _ => sq_nonneg _
  have hq : ∀ μ : ℝ, 0 ≤ (∫ s in a..b, w2 s ^ 2) - 2 * μ * (b - a) * w t + μ ^ 2 * ((b - t) ^ 2 * (t - a) ^ 2 * (b - a) / 3) := by
    intro μ
    have m1 := n1 (μ * (b - t))
    have m2 := n2 (-(μ * (t - a)))
    rw [half a t a _ (le_refl a) h1.le h2.le] at m1
    rw [half t b b _ h1.le h2.le (le_refl b)] at m2
    rw [ha] at m1
    rw [hb] at m2
    rw [← hE]
    nlinarith [m1, m2]
  have pa : 0 < t - a := by linarith
  have pb : 0 < b - t := by linarith
  have hsplit : b - a = (b - t) + (t - a) := by ring
  set E := ∫ s in a..b, w2 s ^ 2 with hEdef
  have hD : 0 < (b - t) ^ 2 * (t - a) ^ 2 := by positivity
  have h3 := hq (3 * w t / ((b - t) ^ 2 * (t - a) ^ 2))
  have h4 : E - 3 * (b - a) * w t ^ 2 / ((b - t) ^ 2 * (t - a) ^ 2) = E - 2 * (3 * w t / ((b - t) ^ 2 * (t - a) ^ 2)) * (b - a) * w t +
      (3 * w t / ((b - t) ^ 2 * (t - a) ^ 2)) ^ 2 * ((b - t) ^ 2 * (t - a) ^ 2 * (b - a) / 3) := by
    field_simp
    ring
  rw [← h4, sub_nonneg, div_le_iff₀ hD] at h3
  have hE0 : 0 ≤ E := intervalIntegral.integral_nonneg (h1.trans h2).le fun _ _ => sq_nonneg _
  -- the product is largest in the middle
  have h5 : (b - t) ^ 2 * (t - a) ^ 2 ≤ (b - a) ^ 4 / 16 := by
    have : (b - t) * (t - a) ≤ (b - a) ^ 2 / 4 := by nlinarith [sq_nonneg ((b - t) - (t - a))]
    have h0 : 0 ≤ (b - t) * (t - a) := by positivity
    calc (b - t) ^ 2 * (t - a) ^ 2 = ((b - t) * (t - a)) ^ 2 := by ring
      _ ≤ ((b - a) ^ 2 / 4) ^ 2 := pow_le_pow_left₀ h0 this 2
      _ = (b - a) ^ 4 / 16 := by ring
  have h6 : 3 * (b - a) * w t ^ 2 ≤ E * ((b - a) ^ 4 / 16) := h3.trans (mul_le_mul_of_nonneg_left h5 hE0)
  have hba : 0 < b - a := by linarith
  have h7 : (3 * (b - a)) * w t ^ 2 ≤ (3 * (b - a)) * ((b - a) ^ 3 / 48 * E) := by
    calc (3 * (b - a)) * w t ^ 2 ≤ E * ((b - a) ^ 4 / 16) := h6
      _ = _ := by ring
  exact le_of_mul_le_mul_left h7 (by linarith)

/-- All that is shown about the spline and the function it was made from. -/
theorem spline_curvature (lo hi first last : ℝ) (x : List ℝ) (g g1 g2 : ℝ → ℝ) (hs : x.Pairwise (· < ·)) (hn : 2 ≤ x.length) (hfirst : x.head? = some first) (hlast : x.getLast? = some last)
    (k0 : ContinuousOn g (Set.Icc first last)) (k1 : ContinuousOn g1 (Set.Icc first last)) (k2 : ContinuousOn g2 (Set.Icc first last))
    (hd : ∀ s ∈ Set.Ioo first last, HasDerivAt g (g1 s) s ∧ HasDerivAt g1 (g2 s) s)
    (F : Fn ℝ) (hF : interpolate lo hi x (x.map g) .cubicSpline false = .ok F) (f f1 f2 : ℝ → ℝ) (hf : ∀ t, eval F t = .ok (f t))
    (hfd : ∀ s ∈ Set.Ioo first last, HasDerivAt f (f1 s) s ∧ HasDerivAt f1 (f2 s) s) :
    (∫ t in first..last, g2 t ^ 2) = (∫ t in first..last, f2 t ^ 2) + (∫ t in first..last, (g2 t - f2 t) ^ 2) ∧
    (∫ t in first..last, f2 t ^ 2) ≤ (∫ t in first..last, g2 t ^ 2) ∧
    ((∫ t in first..last, f2 t ^ 2) = (∫ t in first..last, g2 t ^ 2) → ∀ t ∈ Set.Icc first last, g t = f t) ∧
    ∀ (i : Nat) a a', x[i]? = some a → x[i + 1]? = some a' → ∀ t ∈ Set.Icc a a', (f t - g t) ^ 2 ≤ (a' - a) ^ 3 / 48 * ∫ t in first..last, g2 t ^ 2 := by
  obtain ⟨F', cs, hF', hN, hev, _⟩ := C35_spline lo hi x (x.map g) false (by simp) hs hn (by simp)
  rw [hF] at hF'
  cases hF'
  have hlen : x.length = cs.length + 1 := by rw [← hN.length, List.length_zip, List.length_map]; omega
  -- the knots and the pieces
  obtain ⟨a, ha⟩ : ∃ a : Nat → ℝ, ∀ i, i < x.length → x[i]? = some (a i) := ⟨fun i => x.getD i 0, fun i h => by simp [List.getD, h]⟩
  obtain ⟨p, hp⟩ : ∃ p : Nat → List ℝ, ∀ i, i < cs.length → cs[i]? = some (p i) := ⟨fun i => cs.getD i [], fun i h => by simp [List.getD, h]⟩
  have hpt : ∀ i, i < x.length → (x.zip (x.map g))[i]? = some (a i, g (a i)) := fun i h => by
    rw [List.getElem?_zip_eq_some]
    exact ⟨ha i h, by rw [List.getElem?_map, ha i h]; rfl⟩
  have hdeg : ∀ i, i < cs.length → (p i).length = 4 := fun i h => hN.degree _ (List.mem_of_getElem? (hp i h))
  have hmono : ∀ i j, i < j → j < x.length → a i < a j := by
    intro i j hij hj
    obtain ⟨q1, e1⟩ := List.getElem?_eq_some_iff.mp (ha i (by omega))
    obtain ⟨q2, e2⟩ := List.getElem?_eq_some_iff.mp (ha j hj)
    have := List.pairwise_iff_getElem.mp hs i j q1 q2 hij
    rwa [e1, e2] at this
  have a0 : a 0 = first := by
    have := ha 0 (by omega)
    rw [← List.head?_eq_getElem?, hfirst, Option.some.injEq] at this
    exact this.symm
  have an : a cs.length = last := by
    have := ha cs.length (by omega)
    rw [List.getLast?_eq_getElem?, hlen, Nat.add_sub_cancel, this, Option.some.injEq] at hlast
    exact hlast
  have hle : ∀ i j, i ≤ j → j < x.length → a i ≤ a j := fun i j hij hj => by
    rcases Nat.lt_or_eq_of_le hij with h | h
    · exact (hmono i j h hj).le
    · rw [h]
  have hfl : ∀ i, i < x.length → first ≤ a i ∧ a i ≤ last := fun i h => ⟨a0 ▸ hle 0 i (by omega) h, an ▸ hle i cs.length (by omega) (by omega)⟩
  have hsub : ∀ i, i < cs.length → Set.Icc (a i) (a (i + 1)) ⊆ Set.Icc first last := fun i h => Set.Icc_subset_Icc (hfl i (by omega)).1 (hfl (i + 1) (by omega)).2
  have hsub' : ∀ i, i < cs.length → Set.Ioo (a i) (a (i + 1)) ⊆ Set.Ioo first last := fun i h => Set.Ioo_subset_Ioo (hfl i (by omega)).1 (hfl (i + 1) (by omega)).2
  -- the function on a piece
  have hfp : ∀ i, i < cs.length → ∀ t, a i < t → t ≤ a (i + 1) → f t = Spec.value0 (p i) t := by
    intro i h t h1 h2
    have := hev i _ _ _ (hpt i (by omega)) (hpt (i + 1) (by omega)) (hp i h) t ⟨Or.inl h1, h2⟩
    rw [hf] at this
    exact Outcome.ok.inj this
  have hf2 : ∀ i, i < cs.length → Set.EqOn f2 (Spec.value2 (p i)) (Set.Ioo (a i) (a (i + 1))) := by
    intro i h
    have e1 : ∀ t ∈ Set.Ioo (a i) (a (i + 1)), f1 t = Spec.value1 (p i) t := by
      intro t ht
      refine (hfd t (hsub' i h ht)).1.unique ((C35_derivatives (p i) t).1.congr_of_eventuallyEq ?_)
      filter_upwards [Ioo_mem_nhds ht.1 ht.2] with s hs
      exact hfp i h s hs.1 hs.2.le
    intro t ht
    refine (hfd t (hsub' i h ht)).2.unique ((C35_derivatives (p i) t).2.congr_of_eventuallyEq ?_)
    filter_upwards [Ioo_mem_nhds ht.1 ht.2] with s hs
    exact e1 s hs
  have hstep : ∀ i, i < cs.length → a i < a (i + 1) := fun i h => hmono i (i + 1) (Nat.lt_succ_self i) (by omega)
  have hI : ∀ i, i < cs.length → ∀ u : ℝ → ℝ, ContinuousOn u (Set.Icc (a i) (a (i + 1))) → IntervalIntegrable u MeasureTheory.volume (a i) (a (i + 1)) := fun i h u hu => by
    refine ContinuousOn.intervalIntegrable ?_
    rw [Set.uIcc_of_le (hstep i h).le]
    exact hu
  have q0 : ∀ i, i < cs.length → Spec.value0 (p i) (a i) = g (a i) := fun i h => hN.left i _ _ (hpt i (by omega)) (hp i h)
  have q1 : ∀ i, i < cs.length → Spec.value0 (p i) (a (i + 1)) = g (a (i + 1)) := fun i h => hN.right i _ _ (hpt (i + 1) (by omega)) (hp i h)
  -- what remains of the integration by parts at the knots
  let B : Nat → ℝ := fun i => if i < cs.length then (g1 (a i) - Spec.value1 (p i) (a i)) * Spec.value2 (p i) (a i) else 0
  have hpiece : ∀ i, i < cs.length → ∫ t in (a i)..(a (i + 1)), g2 t ^ 2 = (∫ t in (a i)..(a (i + 1)), f2 t ^ 2) + (∫ t in (a i)..(a (i + 1)), (g2 t - f2 t) ^ 2) + 2 * (B (i + 1) - B i) := by
    intro i h
    rw [piece_orthogonal (hdeg i h) (hstep i h) (k0.mono (hsub i h)) (k1.mono (hsub i h)) (k2.mono (hsub i h)) (fun s hs => hd s (hsub' i h hs)) (q0 i h) (q1 i h)]
    rw [intervalIntegral.integral_congr_Ioo_of_le (f := fun t => f2 t ^ 2) (g := fun t => Spec.value2 (p i) t ^ 2) (hstep i h).le fun t ht => by simp only [hf2 i h ht]]
    rw [intervalIntegral.integral_congr_Ioo_of_le (f := fun t => (g2 t - f2 t) ^ 2) (g := fun t => (g2 t - Spec.value2 (p i) t) ^ 2) (hstep i h).le fun t ht => by simp only [hf2 i h ht]]
    have b1 : B i = (g1 (a i) - Spec.value1 (p i) (a i)) * Spec.value2 (p i) (a i) := if_pos h
    have b2 : B (i + 1) = (g1 (a (i + 1)) - Spec.value1 (p i) (a (i + 1))) * Spec.value2 (p i) (a (i + 1)) := by
      by_cases h' : i + 1 < cs.length
      · have : B (i + 1) = (g1 (a (i + 1)) - Spec.value1 (p (i + 1)) (a (i + 1))) * Spec.value2 (p (i + 1)) (a (i + 1)) := if_pos h'
        rw [this, hN.first i _ _ _ (hpt (i + 1) (by omega)) (hp i h) (hp (i + 1) h'), hN.second i _ _ _ (hpt (i + 1) (by omega)) (hp i h) (hp (i + 1) h')]
      · have : B (i + 1) = 0 := if_neg h'
        rw [this, hN.ends i _ _ (by rw [hN.length]; omega) (hpt (i + 1) (by omega)) (hp i h), mul_zero]
    rw [b1, b2]
  have i1 : ∀ i, i < cs.length → IntervalIntegrable (fun t => g2 t ^ 2) MeasureTheory.volume (a i) (a (i + 1)) := fun i h => hI i h _ ((k2.mono (hsub i h)).pow 2)
  have i2 : ∀ i, i < cs.length → IntervalIntegrable (fun t => f2 t ^ 2) MeasureTheory.volume (a i) (a (i + 1)) := fun i h => by
    refine (hI i h (fun t => Spec.value2 (p i) t ^ 2) ((value2_continuous (hdeg i h)).continuousOn.pow 2)).congr_uIoo fun t ht => ?_
    rw [Set.uIoo_of_le (hstep i h).le] at ht
    simp only [hf2 i h ht]
  have i3 : ∀ i, i < cs.length → IntervalIntegrable (fun t => (g2 t - f2 t) ^ 2) MeasureTheory.volume (a i) (a (i + 1)) := fun i h => by
    refine (hI i h (fun t => (g2 t - Spec.value2 (p i) t) ^ 2) (((k2.mono (hsub i h)).sub (value2_continuous (hdeg i h)).continuousOn).pow 2)).congr_uIoo fun t ht => ?_
    rw [Set.uIoo_of_le (hstep i h).le] at ht
    simp only [hf2 i h ht]
  have hB : B cs.length - B 0 = 0 := by
    have b1 : B cs.length = 0 := if_neg (lt_irrefl _)
    have b0 : B 0 = (g1 (a 0) - Spec.value1 (p 0) (a 0)) * Spec.value2 (p 0) (a 0) := if_pos (by omega)
    rw [b1, b0, hN.begins _ _ (hpt 0 (by omega)) (hp 0 (by omega)), mul_zero, sub_zero]
  have s1 := intervalIntegral.sum_integral_adjacent_intervals i1
  have s2 := intervalIntegral.sum_integral_adjacent_intervals i2
  have s3 := intervalIntegral.sum_integral_adjacent_intervals i3
  rw [a0, an] at s1 s2 s3
  have main : (∫ t in first..last, g2 t ^ 2) = (∫ t in first..last, f2 t ^ 2) + (∫ t in first..last, (g2 t - f2 t) ^ 2) := by
    rw [← s1, ← s2, ← s3, Finset.sum_congr rfl fun i hi => hpiece i (Finset.mem_range.mp hi), Finset.sum_add_distrib, Finset.sum_add_distrib, ← Finset.mul_sum, Finset.sum_range_sub, hB]
    ring
  have hfl' : first ≤ last := by
    have := hfl 0 (by omega)
    linarith
  have hnn : ∀ i ∈ Finset.range cs.length, 0 ≤ ∫ t in (a i)..(a (i + 1)), (g2 t - f2 t) ^ 2 := fun i hi =>
    intervalIntegral.integral_nonneg (hstep i (Finset.mem_range.mp hi)).le fun t _ => sq_nonneg _
  refine ⟨main, ?_, ?_, ?_⟩
  · have : 0 ≤ ∫ t in first..last, (g2 t - f2 t) ^ 2 := intervalIntegral.integral_nonneg hfl' fun t _ => sq_nonneg _
    linarith
  · intro heq
    have hz : ∑ i ∈ Finset.range cs.length, ∫ t in (a i)..(a (i + 1)), (g2 t - f2 t) ^ 2 = 0 := by rw [s3]; linarith
    have hz' := (Finset.sum_eq_zero_iff_of_nonneg hnn).mp hz
    -- equal on every piece
    have hin : ∀ i, i < cs.length → ∀ t ∈ Set.Icc (a i) (a (i + 1)), g t = Spec.value0 (p i) t := by
      intro i h t ht
      have hzi := hz' i (Finset.mem_range.mpr h)
      rw [intervalIntegral.integral_congr_Ioo_of_le (f := fun t => (g2 t - f2 t) ^ 2) (g := fun t => (g2 t - Spec.value2 (p i) t) ^ 2) (hstep i h).le fun t ht => by simp only [hf2 i h ht]] at hzi
      have e2 : ∀ s ∈ Set.Icc (a i) (a (i + 1)), g2 s = Spec.value2 (p i) s := by
        intro s hs
        by_contra hne
        have := intervalIntegral.integral_pos (hstep i h) (((k2.mono (hsub i h)).sub (value2_continuous (hdeg i h)).continuousOn).pow 2) (fun t _ => sq_nonneg _)
          ⟨s, hs, pow_two_pos_of_ne_zero (sub_ne_zero.mpr hne)⟩
        exact absurd hzi (ne_of_gt this)
      have v0 : Continuous (Spec.value0 (p i)) := continuous_iff_continuousAt.mpr fun t => (C35_derivatives (p i) t).1.continuousAt
      have := flat_zero (w := fun s => g s - Spec.value0 (p i) s) (w1 := fun s => g1 s - Spec.value1 (p i) s) ((k0.mono (hsub i h)).sub v0.continuousOn) (fun s hs => by
        obtain ⟨d0, d1⟩ := hd s (hsub' i h hs)
        obtain ⟨c0, c1⟩ := C35_derivatives (p i) s
        refine ⟨d0.sub c0, ?_⟩
        have := d1.sub c1
        rwa [e2 s ⟨hs.1.le, hs.2.le⟩, sub_self] at this) (by simp only [q0 i h, sub_self]) (by simp only [q1 i h, sub_self]) ht
      exact sub_eq_zero.mp this
    have hall : ∀ n, n ≤ cs.length → ∀ t, first < t → t ≤ a n → g t = f t := by
      intro n
      induction n with
      | zero => intro _ t h1 h2; rw [a0] at h2; linarith
      | succ n ih =>
        intro hn' t h1 h2
        rcases le_or_gt t (a n) with h | h
        · exact ih (by omega) t h1 h
        · rw [hin n (by omega) t ⟨h.le, h2⟩, hfp n (by omega) t h h2]
    intro t ht
    rcases lt_or_eq_of_le ht.1 with h | h
    · exact hall cs.length (le_refl _) t h (by rw [an]; exact ht.2)
    · have := C35_nodes lo hi x (x.map g) false (by simp) hs hn (by simp) F hF 0 first (g first) (by rw [ha 0 (by omega), a0]) (by rw [List.getElem?_map, ha 0 (by omega), a0]; rfl)
      rw [hf, Outcome.ok.injEq] at this
      rw [← h, this]
  · intro i b b' hb hb' t ht
    have hi' := (List.getElem?_eq_some_iff.mp hb').1
    have h : i < cs.length := by omega
    rw [ha i (by omega), Option.some.injEq] at hb
    rw [ha (i + 1) hi', Option.some.injEq] at hb'
    subst hb hb'
    have hE0 : 0 ≤ ∫ t in first..last, g2 t ^ 2 := intervalIntegral.integral_nonneg hfl' fun _ _ => sq_nonneg _
    have hba := hstep i h
    have hrhs : 0 ≤ (a (i + 1) - a i) ^ 3 / 48 * ∫ t in first..last, g2 t ^ 2 := mul_nonneg (div_nonneg (pow_nonneg (by linarith) 3) (by norm_num)) hE0
    have hnode : ∀ k, k < x.length → f (a k) = g (a k) := by
      intro k hk
      have := C35_nodes lo hi x (x.map g) false (by simp) hs hn (by simp) F hF k (a k) (g (a k)) (ha k hk) (by rw [List.getElem?_map, ha k hk]; rfl)
      rwa [hf, Outcome.ok.injEq] at this
    rcases lt_or_eq_of_le ht.1 with h1 | h1
    · rcases lt_or_eq_of_le ht.2 with h2 | h2
      · have v0 : Continuous (Spec.value0 (p i)) := continuous_iff_continuousAt.mpr fun t => (C35_derivatives (p i) t).1.continuousAt
        have v1 : Continuous (Spec.value1 (p i)) := continuous_iff_continuousAt.mpr fun t => (C35_derivatives (p i) t).2.continuousAt
        have key := chord_distance h1 h2 (w := fun s => g s - Spec.value0 (p i) s) (w1 := fun s => g1 s - Spec.value1 (p i) s) (w2 := fun s => g2 s - Spec.value2 (p i) s)
          ((k0.mono (hsub i h)).sub v0.continuousOn) ((k1.mono (hsub i h)).sub v1.continuousOn) ((k2.mono (hsub i h)).sub (value2_continuous (hdeg i h)).continuousOn)
          (fun s hs => ⟨(hd s (hsub' i h hs)).1.sub (C35_derivatives (p i) s).1, (hd s (hsub' i h hs)).2.sub (C35_derivatives (p i) s).2⟩)
          (by simp only [q0 i h, sub_self]) (by simp only [q1 i h, sub_self])
        have hc := intervalIntegral.integral_congr_Ioo_of_le (f := fun t => (g2 t - f2 t) ^ 2) (g := fun t => (g2 t - Spec.value2 (p i) t) ^ 2) (μ := MeasureTheory.volume) (hstep i h).le
          fun t ht => by simp only [hf2 i h ht]
        have hle1 : ∫ t in (a i)..(a (i + 1)), (g2 t - f2 t) ^ 2 ≤ ∫ t in first..last, g2 t ^ 2 := by
          have := Finset.single_le_sum hnn (Finset.mem_range.mpr h)
          rw [s3] at this
          have hf0 : 0 ≤ ∫ t in first..last, f2 t ^ 2 := intervalIntegral.integral_nonneg hfl' fun _ _ => sq_nonneg _
          linarith
        rw [hc] at hle1
        rw [hfp i h t h1 ht.2]
        calc (Spec.value0 (p i) t - g t) ^ 2 = (g t - Spec.value0 (p i) t) ^ 2 := by ring
          _ ≤ _ := key
          _ ≤ _ := mul_le_mul_of_nonneg_left hle1 (div_nonneg (pow_nonneg (by linarith) 3) (by norm_num))
      · rw [h2, hnode (i + 1) hi', sub_self]
        simpa using hrhs
    · rw [← h1, hnode i (by omega), sub_self]
      simpa using hrhs

/-- **C142 (smallest curvature).** Take any function `g` that is twice continuously differentiable, the spline through its values at `x`, and let `f`, `f1`, `f2` be the spline and its
derivatives. The integral of `g2²` is that of `f2²` plus that of `(g2 - f2)²`; so the spline has the smallest integral, and only the spline has it. -/
theorem C142_curvature (lo hi first last : ℝ) (x : List ℝ) (g g1 g2 : ℝ → ℝ) (hs : x.Pairwise (· < ·)) (hn : 2 ≤ x.length) (hfirst : x.head? = some first) (hlast : x.getLast? = some last)
    (k0 : ContinuousOn g (Set.Icc first last)) (k1 : ContinuousOn g1 (Set.Icc first last)) (k2 : ContinuousOn g2 (Set.Icc first last))
    (hd : ∀ s ∈ Set.Ioo first last, HasDerivAt g (g1 s) s ∧ HasDerivAt g1 (g2 s) s)
    (F : Fn ℝ) (hF : interpolate lo hi x (x.map g) .cubicSpline false = .ok F) (f f1 f2 : ℝ → ℝ) (hf : ∀ t, eval F t = .ok (f t))
    (hfd : ∀ s ∈ Set.Ioo first last, HasDerivAt f (f1 s) s ∧ HasDerivAt f1 (f2 s) s) :
    (∫ t in first..last, g2 t ^ 2) = (∫ t in first..last, f2 t ^ 2) + (∫ t in first..last, (g2 t - f2 t) ^ 2) ∧
    (∫ t in first..last, f2 t ^ 2) ≤ (∫ t in first..last, g2 t ^ 2) ∧
    ((∫ t in first..last, f2 t ^ 2) = (∫ t in first..last, g2 t ^ 2) → ∀ t ∈ Set.Icc first last, g t = f t) := by
  obtain ⟨h1, h2, h3, _⟩ := spline_curvature lo hi first last x g g1 g2 hs hn hfirst hlast k0 k1 k2 hd F hF f f1 f2 hf hfd
  exact ⟨h1, h2, h3⟩

/-- **C142 (distance of the spline).** The spline through values of a function that is twice continuously differentiable is at no point further from the function than the root of
`h³/48 · ∫ g2²`, where `h` is the distance of the neighbouring nodes: it converges when the nodes are chosen closer. -/
theorem C142_spline (lo hi first last : ℝ) (x : List ℝ) (g g1 g2 : ℝ → ℝ) (hs : x.Pairwise (· < ·)) (hn : 2 ≤ x.length) (hfirst : x.head? = some first) (hlast : x.getLast? = some last)
    (k0 : ContinuousOn g (Set.Icc first last)) (k1 : ContinuousOn g1 (Set.Icc first last)) (k2 : ContinuousOn g2 (Set.Icc first last))
    (hd : ∀ s ∈ Set.Ioo first last, HasDerivAt g (g1 s) s ∧ HasDerivAt g1 (g2 s) s) :
    ∃ F, interpolate lo hi x (x.map g) .cubicSpline false = .ok F ∧ ∀ (i : Nat) a a', x[i]? = some a → x[i + 1]? = some a' → ∀ t ∈ Set.Icc a a',
      ∃ v, eval F t = .ok v ∧ (v - g t) ^ 2 ≤ (a' - a) ^ 3 / 48 * ∫ t in first..last, g2 t ^ 2 := by
  obtain ⟨F, hF, f, f1, f2, hf, hfd⟩ := C35_smooth lo hi x (x.map g) (by simp) hs hn
  have hm1 : first ∈ x := List.mem_of_mem_head? hfirst
  have hm2 : last ∈ x := List.mem_of_getLast? hlast
  obtain ⟨_, _, _, h4⟩ := spline_curvature lo hi first last x g g1 g2 hs hn hfirst hlast k0 k1 k2 hd F hF f f1 f2 hf
    fun s hs => ⟨(hfd s ⟨first, hm1, hs.1⟩ ⟨last, hm2, hs.2⟩).1, (hfd s ⟨first, hm1, hs.1⟩ ⟨last, hm2, hs.2⟩).2.1⟩
  exact ⟨F, hF, fun i a a' h1 h2 t ht => ⟨f t, hf t, h4 i a a' h1 h2 t ht⟩⟩

/-- Squares at three points: the curvature of the spline is smaller, for the square is no natural spline (its curvature does not vanish at the ends). -/
example : ∃ F, interpolate 0 2 [(0 : ℝ), 1, 2] ([(0 : ℝ), 1, 2].map fun t => t ^ 2) .cubicSpline false = .ok F ∧ ∃ f f1 f2 : ℝ → ℝ, (∀ t, eval F t = .ok (f t)) ∧
    (∀ s ∈ Set.Ioo (0 : ℝ) 2, HasDerivAt f (f1 s) s ∧ HasDerivAt f1 (f2 s) s) ∧ (∫ t in (0 : ℝ)..2, f2 t ^ 2) ≤ 8 := by
  obtain ⟨F, hF, f, f1, f2, hf, hfd⟩ := C35_smooth 0 2 [0, 1, 2] ([(0 : ℝ), 1, 2].map fun t => t ^ 2) (by simp) (by simp) (by simp)
  have hd : ∀ s ∈ Set.Ioo (0 : ℝ) 2, HasDerivAt f (f1 s) s ∧ HasDerivAt f1 (f2 s) s := fun s hs =>
    ⟨(hfd s ⟨0, by simp, hs.1⟩ ⟨2, by simp, hs.2⟩).1, (hfd s ⟨0, by simp, hs.1⟩ ⟨2, by simp, hs.2⟩).2.1⟩
  refine ⟨F, hF, f, f1, f2, hf, hd, ?_⟩
  have := (C142_curvature 0 2 0 2 [0, 1, 2] (fun t => t ^ 2) (fun t => 2 * t) (fun _ => 2) (by simp) (by simp) rfl rfl (by fun_prop) (by fun_prop) (by fun_prop) (fun s _ => by
    refine ⟨?_, ?_⟩
    · simpa using hasDerivAt_pow 2 s
    · simpa using (hasDerivAt_id s).const_mul 2) F hF f f1 f2 hf hd).2.1
  refine this.trans (le_of_eq ?_)
  simp
  norm_num

/-- Squares at three points: the spline is closer to the square than the root of `8/48`. -/
example : ∃ F, interpolate 0 2 [(0 : ℝ), 1, 2] ([(0 : ℝ), 1, 2].map fun t => t ^ 2) .cubicSpline false = .ok F ∧
    ∀ t ∈ Set.Icc (0 : ℝ) 1, ∃ v, eval F t = .ok v ∧ (v - t ^ 2) ^ 2 ≤ 8 / 48 := by
  obtain ⟨F, hF, h⟩ := C142_spline 0 2 0 2 [0, 1, 2] (fun t => t ^ 2) (fun t => 2 * t) (fun _ => 2) (by simp) (by simp) rfl rfl (by fun_prop) (by fun_prop) (by fun_prop) (fun s _ => by
    refine ⟨?_, ?_⟩
    · simpa using hasDerivAt_pow 2 s
    · simpa using (hasDerivAt_id s).const_mul 2)
  refine ⟨F, hF, fun t ht => ?_⟩
  obtain ⟨v, hv, hle⟩ := h 0 0 1 rfl rfl t ht
  refine ⟨v, hv, hle.trans (le_of_eq ?_)⟩
  simp
  norm_num

end Alexandria.MathUtils
