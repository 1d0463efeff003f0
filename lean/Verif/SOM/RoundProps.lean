import Verif.SOM.RoundModel
import Verif.SOM.Props
import Verif.Common.Binary

/-! # Distances and training with rounding (C124) -/

namespace Alexandria.SOM

open scoped BigOperators

/-! ## Lemmas: one weight -/

section
variable {K : Type} [Field K] [LinearOrder K] [IsStrictOrderedRing K] (R : Rounding K)

theorem machineUpdate_neg (nf lf s w : K) : machineUpdate R nf lf (-s) (-w) = -machineUpdate R nf lf s w := by
  unfold machineUpdate
  rw [show -s - -w = -(s - w) by ring, R.neg, mul_neg, R.neg, ← neg_add, R.neg]

theorem machineUpdate_ge {nf lf s w : K} (hn : 0 ≤ nf) (hl : 0 ≤ lf) (hw : R.rnd w = w) (h : w ≤ s) : w ≤ machineUpdate R nf lf s w := by
  refine R.fix_le ?_ hw
  have := R.nonneg (mul_nonneg (R.nonneg (mul_nonneg hn hl)) (R.nonneg (sub_nonneg.mpr h)))
  linarith

theorem machineUpdate_le {nf lf s w : K} (hn : 0 ≤ nf) (hl : 0 ≤ lf) (hw : R.rnd w = w) (h : s ≤ w) : machineUpdate R nf lf s w ≤ w := by
  have := machineUpdate_ge R hn hl (s := -s) (w := -w) (by rw [R.neg, hw]) (by linarith)
  rw [machineUpdate_neg] at this
  linarith

end

/-- Not beyond the sample if the factor leaves room for the rounding. -/
theorem update_below {p : Nat} (hp : 1 ≤ p) {nf lf s w : ℚ} (hn : 0 ≤ nf) (hl : 0 ≤ lf) (hf : nf * lf * (1 + (1 / 2) ^ p) ^ 3 ≤ 1) (hs : Binary.Rep p s) (h : w ≤ s) :
    machineUpdate (Binary.rounding p hp) nf lf s w ≤ s := by
  have hu : (0 : ℚ) ≤ (1 / 2) ^ p := by positivity
  refine (Binary.rounding p hp).le_fix ?_ (Binary.rnd_of_rep hp hs)
  show w + Binary.rnd p (Binary.rnd p (nf * lf) * Binary.rnd p (s - w)) ≤ s
  have hd : 0 ≤ s - w := sub_nonneg.mpr h
  have h0 := mul_nonneg hn hl
  have e1 := Binary.rnd_le p h0
  have e2 := Binary.rnd_le p hd
  have f1 := Binary.rnd_nonneg hp h0
  have f2 := Binary.rnd_nonneg hp hd
  have e3 : Binary.rnd p (nf * lf) * Binary.rnd p (s - w) ≤ nf * lf * (1 + (1 / 2) ^ p) * ((s - w) * (1 + (1 / 2) ^ p)) :=
    mul_le_mul e1 e2 f2 (mul_nonneg h0 (by linarith))
  have e4 := Binary.rnd_le p (mul_nonneg f1 f2)
  have e5 : Binary.rnd p (nf * lf) * Binary.rnd p (s - w) * (1 + (1 / 2) ^ p) ≤ nf * lf * (1 + (1 / 2) ^ p) * ((s - w) * (1 + (1 / 2) ^ p)) * (1 + (1 / 2) ^ p) :=
    mul_le_mul_of_nonneg_right e3 (by linarith)
  have e6 : nf * lf * (1 + (1 / 2) ^ p) * ((s - w) * (1 + (1 / 2) ^ p)) * (1 + (1 / 2) ^ p) = nf * lf * (1 + (1 / 2) ^ p) ^ 3 * (s - w) := by ring
  have e7 := mul_le_mul_of_nonneg_right hf hd
  linarith

/-- Not beyond a power of two. -/
theorem update_le_pow {p : Nat} (hp : 2 ≤ p) {k : Int} {nf lf s w : ℚ} (hn : 0 ≤ nf ∧ nf ≤ 1) (hl : 0 ≤ lf ∧ lf ≤ 1) (hw : |w| ≤ 2 ^ k) (hs : |s| ≤ 2 ^ k) :
    machineUpdate (Binary.rounding p (by omega)) nf lf s w ≤ 2 ^ k := by
  have h1p : 1 ≤ p := by omega
  have hw' := abs_le.mp hw
  have hs' := abs_le.mp hs
  show Binary.rnd p (w + Binary.rnd p (Binary.rnd p (nf * lf) * Binary.rnd p (s - w))) ≤ 2 ^ k
  have h0 := mul_nonneg hn.1 hl.1
  have f1 := Binary.rnd_nonneg h1p h0
  have f3 : Binary.rnd p (nf * lf) ≤ 1 := (Binary.rounding p h1p).le_fix (mul_le_one₀ hn.2 hl.1 hl.2) (Binary.rnd_of_rep h1p (x := 1) (by simpa using Binary.rep_pow p 0))
  have h2k : (0 : ℚ) < 2 ^ k := zpow_pos (by norm_num) _
  rcases le_total s w with h | h
  · have f4 : Binary.rnd p (Binary.rnd p (nf * lf) * Binary.rnd p (s - w)) ≤ 0 := by
      refine (Binary.rounding p h1p).le_fix (mul_nonpos_of_nonneg_of_nonpos f1 ?_) (Binary.rnd_zero p)
      exact (Binary.rounding p h1p).le_fix (sub_nonpos.mpr h) (Binary.rnd_zero p)
    exact (Binary.rounding p h1p).le_fix (by linarith) (Binary.rnd_of_rep h1p (Binary.rep_pow p k))
  · have f2 := Binary.rnd_nonneg h1p (sub_nonneg.mpr h)
    have g1 : Binary.rnd p (Binary.rnd p (nf * lf) * Binary.rnd p (s - w)) ≤ Binary.rnd p (s - w) :=
      (Binary.rounding p h1p).le_fix (mul_le_of_le_one_left f2 f3) (Binary.rnd_idem h1p _)
    have g2 : Binary.rnd p (s - w) ≤ Binary.rnd p (2 ^ k - w) := Binary.rnd_mono h1p _ _ (by linarith)
    have g3 := (abs_le.mp (Binary.rnd_err_pow h1p (k := k) (x := 2 ^ k - w) (by linarith) (by rw [zpow_add₀ (by norm_num), zpow_one]; linarith))).2
    refine Binary.rnd_le_pow hp ?_
    linarith

theorem update_abs_le_pow {p : Nat} (hp : 2 ≤ p) {k : Int} {nf lf s w : ℚ} (hn : 0 ≤ nf ∧ nf ≤ 1) (hl : 0 ≤ lf ∧ lf ≤ 1) (hw : |w| ≤ 2 ^ k) (hs : |s| ≤ 2 ^ k) :
    |machineUpdate (Binary.rounding p (by omega)) nf lf s w| ≤ 2 ^ k := by
  rw [abs_le]
  refine ⟨?_, update_le_pow hp hn hl hw hs⟩
  have := update_le_pow hp hn hl (w := -w) (s := -s) (by rwa [abs_neg]) (by rwa [abs_neg])
  rw [machineUpdate_neg] at this
  linarith

/-! ## Lemmas: distances -/

/-- A sum of nonnegative terms, each known up to `k` relative errors. -/
theorem fold_error {p : Nat} (hp : 1 ≤ p) {ι : Type} (a b : ι → ℚ) (k : Nat) (ha : ∀ i, 0 ≤ a i)
    (hb : ∀ i, a i * (1 - (1 / 2) ^ p) ^ k ≤ b i ∧ b i ≤ a i * (1 + (1 / 2) ^ p) ^ k) :
    ∀ (l : List ι) (r e : ℚ) (j : Nat), k ≤ j → 0 ≤ e → e * (1 - (1 / 2) ^ p) ^ j ≤ r → r ≤ e * (1 + (1 / 2) ^ p) ^ j →
      (e + (l.map a).sum) * (1 - (1 / 2) ^ p) ^ (j + l.length) ≤ l.foldl (fun r i => Binary.rnd p (r + b i)) r ∧
        l.foldl (fun r i => Binary.rnd p (r + b i)) r ≤ (e + (l.map a).sum) * (1 + (1 / 2) ^ p) ^ (j + l.length) := by
  have hu0 : (0 : ℚ) ≤ (1 / 2) ^ p := by positivity
  have hu1 : ((1 : ℚ) / 2) ^ p ≤ 1 := pow_le_one₀ (by norm_num) (by norm_num)
  intro l
  induction l with
  | nil =>
    intro r e j _ _ h1 h2
    simp only [List.map_nil, List.sum_nil, add_zero, List.length_nil, List.foldl_nil]
    exact ⟨h1, h2⟩
  | cons i l ih =>
    intro r e j hj he h1 h2
    have hai := ha i
    obtain ⟨b1, b2⟩ := hb i
    have c1 : a i * (1 - (1 / 2) ^ p) ^ j ≤ b i := (mul_le_mul_of_nonneg_left (pow_le_pow_of_le_one (by linarith) (by linarith) hj) hai).trans b1
    have c2 : b i ≤ a i * (1 + (1 / 2) ^ p) ^ j := b2.trans (mul_le_mul_of_nonneg_left (pow_le_pow_right₀ (by linarith) hj) hai)
    have hlow : (0 : ℚ) ≤ (1 - (1 / 2) ^ p) ^ j := pow_nonneg (by linarith) _
    have r0 : 0 ≤ r + b i := by
      have := mul_nonneg he hlow
      have := mul_nonneg hai hlow
      linarith
    have d1 : (e + a i) * (1 - (1 / 2) ^ p) ^ (j + 1) ≤ Binary.rnd p (r + b i) := by
      refine le_trans ?_ (Binary.rnd_ge p r0)
      rw [pow_succ, ← mul_assoc]
      exact mul_le_mul_of_nonneg_right (by linarith) (by linarith)
    have d2 : Binary.rnd p (r + b i) ≤ (e + a i) * (1 + (1 / 2) ^ p) ^ (j + 1) := by
      refine le_trans (Binary.rnd_le p r0) ?_
      rw [pow_succ, ← mul_assoc]
      exact mul_le_mul_of_nonneg_right (by linarith) (by linarith)
    have := ih (Binary.rnd p (r + b i)) (e + a i) (j + 1) (by omega) (by linarith) d1 d2
    simp only [List.foldl_cons, List.map_cons, List.sum_cons, List.length_cons]
    rw [← add_assoc e, show j + (l.length + 1) = j + 1 + l.length by omega]
    exact this

/-- The product of a rounded difference with itself. -/
theorem square_error {p : Nat} (hp : 1 ≤ p) (d : ℚ) :
    d ^ 2 * (1 - (1 / 2) ^ p) ^ 3 ≤ Binary.rnd p (Binary.rnd p d * Binary.rnd p d) ∧ Binary.rnd p (Binary.rnd p d * Binary.rnd p d) ≤ d ^ 2 * (1 + (1 / 2) ^ p) ^ 3 := by
  have hu0 : (0 : ℚ) ≤ (1 / 2) ^ p := by positivity
  have hu1 : ((1 : ℚ) / 2) ^ p ≤ 1 := pow_le_one₀ (by norm_num) (by norm_num)
  have key : ∀ d : ℚ, 0 ≤ d → d ^ 2 * (1 - (1 / 2) ^ p) ^ 3 ≤ Binary.rnd p (Binary.rnd p d * Binary.rnd p d) ∧
      Binary.rnd p (Binary.rnd p d * Binary.rnd p d) ≤ d ^ 2 * (1 + (1 / 2) ^ p) ^ 3 := by
    intro d hd
    have e1 := Binary.rnd_ge p hd
    have e2 := Binary.rnd_le p hd
    have e0 := Binary.rnd_nonneg hp hd
    have g0 := mul_nonneg e0 e0
    have l0 : 0 ≤ d * (1 - (1 / 2) ^ p) := mul_nonneg hd (by linarith)
    constructor
    · refine le_trans ?_ (Binary.rnd_ge p g0)
      have := mul_le_mul_of_nonneg_right (mul_le_mul e1 e1 l0 e0) (by linarith : (0 : ℚ) ≤ 1 - (1 / 2) ^ p)
      refine le_trans (le_of_eq ?_) this
      ring
    · refine le_trans (Binary.rnd_le p g0) ?_
      have := mul_le_mul_of_nonneg_right (mul_le_mul e2 e2 e0 (mul_nonneg hd (by linarith))) (by linarith : (0 : ℚ) ≤ 1 + (1 / 2) ^ p)
      refine le_trans this (le_of_eq ?_)
      ring
  rcases le_total 0 d with h | h
  · exact key d h
  · have := key (-d) (by linarith)
    rw [Binary.rnd_neg, neg_mul_neg, neg_sq] at this
    exact this

theorem squares_error {p : Nat} (hp : 1 ≤ p) {nd : Nat} (w s : Fin nd → ℚ) :
    (∑ i, (w i - s i) ^ 2) * (1 - (1 / 2) ^ p) ^ (nd + 3) ≤ machineSquares (Binary.rounding p hp) w s ∧
      machineSquares (Binary.rounding p hp) w s ≤ (∑ i, (w i - s i) ^ 2) * (1 + (1 / 2) ^ p) ^ (nd + 3) := by
  have := fold_error hp (fun i => (w i - s i) ^ 2) (fun i => Binary.rnd p (Binary.rnd p (w i - s i) * Binary.rnd p (w i - s i))) 3 (fun i => sq_nonneg _)
    (fun i => square_error hp _) (List.finRange nd) 0 0 3 (le_refl _) (le_refl _) (by simp) (by simp)
  rw [zero_add, List.length_finRange, ← List.ofFn_eq_map, List.sum_ofFn, add_comm 3] at this
  exact this

theorem quotient_error {p : Nat} (hp : 1 ≤ p) (d e : ℚ) (he : e ≠ 0) :
    (d / e) ^ 2 * (1 - (1 / 2) ^ p) ^ 6 ≤ Binary.rnd p (Binary.rnd p (Binary.rnd p d * Binary.rnd p d) / Binary.rnd p (e * e)) ∧
      Binary.rnd p (Binary.rnd p (Binary.rnd p d * Binary.rnd p d) / Binary.rnd p (e * e)) ≤ (d / e) ^ 2 * (1 + (1 / 2) ^ p) ^ 6 := by
  obtain ⟨h1, h2⟩ := square_error hp d
  have hu0 : (0 : ℚ) < (1 / 2) ^ p := by positivity
  have hu1 : ((1 : ℚ) / 2) ^ p ≤ 1 / 2 := by
    calc ((1 : ℚ) / 2) ^ p ≤ (1 / 2) ^ 1 := pow_le_pow_of_le_one (by norm_num) (by norm_num) hp
      _ = 1 / 2 := pow_one _
  have hee : 0 < e * e := mul_self_pos.mpr he
  have g1 := Binary.rnd_ge p hee.le
  have g2 := Binary.rnd_le p hee.le
  have hN0 : 0 ≤ Binary.rnd p (Binary.rnd p d * Binary.rnd p d) := Binary.rnd_nonneg hp (mul_self_nonneg _)
  have hD0 : 0 < Binary.rnd p (e * e) := lt_of_lt_of_le (mul_pos hee (by linarith)) g1
  have hq0 : 0 ≤ Binary.rnd p (Binary.rnd p d * Binary.rnd p d) / Binary.rnd p (e * e) := div_nonneg hN0 hD0.le
  have r1 := Binary.rnd_ge p hq0
  have r2 := Binary.rnd_le p hq0
  have hd : d ^ 2 = (d / e) ^ 2 * (e * e) := by field_simp
  have hX : 0 ≤ (d / e) ^ 2 := sq_nonneg _
  rw [hd] at h1 h2
  generalize ((1 : ℚ) / 2) ^ p = u at *
  generalize (d / e) ^ 2 = X at *
  generalize Binary.rnd p (Binary.rnd p d * Binary.rnd p d) = N at *
  generalize Binary.rnd p (e * e) = D at *
  generalize e * e = E at *
  have p0 : 0 ≤ u * (1 - u - u ^ 2) := mul_nonneg hu0.le (by nlinarith)
  have p1 : 1 ≤ (1 + u) ^ 2 * (1 - u) := by linear_combination p0
  have p2 : (1 - u) * (1 + u) ≤ 1 := by nlinarith
  have hXE : 0 ≤ X * E := mul_nonneg hX hee.le
  have q1 : X * (1 - u) ^ 4 ≤ N / D := by
    rw [le_div_iff₀ hD0]
    refine le_trans ?_ h1
    have a1 : 0 ≤ X * (1 - u) ^ 4 := mul_nonneg hX (pow_nonneg (by linarith) _)
    refine le_trans (mul_le_mul_of_nonneg_left g2 a1) ?_
    have a2 : 0 ≤ X * E * (1 - u) ^ 3 := mul_nonneg hXE (pow_nonneg (by linarith) _)
    have := mul_le_mul_of_nonneg_left p2 a2
    refine le_trans (le_of_eq ?_) (le_trans this (le_of_eq ?_)) <;> ring
  have q2 : N / D ≤ X * (1 + u) ^ 5 := by
    rw [div_le_iff₀ hD0]
    refine le_trans h2 ?_
    have a1 : 0 ≤ X * (1 + u) ^ 5 := mul_nonneg hX (pow_nonneg (by linarith) _)
    refine le_trans ?_ (mul_le_mul_of_nonneg_left g1 a1)
    have a2 : 0 ≤ X * E * (1 + u) ^ 3 := mul_nonneg hXE (pow_nonneg (by linarith) _)
    have := mul_le_mul_of_nonneg_left p1 a2
    refine le_trans (le_of_eq ?_) (le_trans this (le_of_eq ?_)) <;> ring
  constructor
  · refine le_trans ?_ r1
    have a1 := mul_le_mul_of_nonneg_right q1 (by linarith : 0 ≤ 1 - u)
    refine le_trans ?_ a1
    have a2 : 0 ≤ X * (1 - u) ^ 5 := mul_nonneg hX (pow_nonneg (by linarith) _)
    have a3 := mul_le_mul_of_nonneg_left (by linarith : 1 - u ≤ 1) a2
    refine le_trans (le_of_eq ?_) (le_trans a3 (le_of_eq ?_)) <;> ring
  · refine le_trans r2 ?_
    have a1 := mul_le_mul_of_nonneg_right q2 (by linarith : 0 ≤ 1 + u)
    refine le_trans a1 (le_of_eq ?_)
    ring

theorem squaresU_error {p : Nat} (hp : 1 ≤ p) {nd : Nat} (w s e : Fin nd → ℚ) (he : ∀ i, e i ≠ 0) :
    (∑ i, ((w i - s i) / e i) ^ 2) * (1 - (1 / 2) ^ p) ^ (nd + 6) ≤ machineSquaresU (Binary.rounding p hp) w s e ∧
      machineSquaresU (Binary.rounding p hp) w s e ≤ (∑ i, ((w i - s i) / e i) ^ 2) * (1 + (1 / 2) ^ p) ^ (nd + 6) := by
  have := fold_error hp (fun i => ((w i - s i) / e i) ^ 2)
    (fun i => Binary.rnd p (Binary.rnd p (Binary.rnd p (w i - s i) * Binary.rnd p (w i - s i)) / Binary.rnd p (e i * e i))) 6 (fun i => sq_nonneg _)
    (fun i => quotient_error hp _ _ (he i)) (List.finRange nd) 0 0 6 (le_refl _) (le_refl _) (by simp) (by simp)
  rw [zero_add, List.length_finRange, ← List.ofFn_eq_map, List.sum_ofFn, add_comm 6] at this
  exact this

/-! ## Specification -/

/-- A square root with a relative error of not more than `u`: what IEEE 754 asks of `sqrt` for `p` bits with `u = 2⁻ᵖ`. -/
def Spec.Root (u : ℚ) (root : ℚ → ℚ) : Prop := ∀ x, 0 ≤ x → 0 ≤ root x ∧ x * (1 - u) ^ 2 ≤ root x ^ 2 ∧ root x ^ 2 ≤ x * (1 + u) ^ 2

/-- There are such functions. -/
theorem Root_exists (u : ℚ) (h0 : 0 < u) (h1 : u < 1) : ∃ root, Spec.Root u root := by
  have key : ∀ x : ℚ, 0 ≤ x → ∃ r : ℚ, 0 ≤ r ∧ x * (1 - u) ^ 2 ≤ r ^ 2 ∧ r ^ 2 ≤ x * (1 + u) ^ 2 := by
    intro x hx
    rcases eq_or_lt_of_le hx with rfl | hx
    · exact ⟨0, by simp⟩
    have hxr : (0 : ℝ) < x := by exact_mod_cast hx
    have hs : 0 < Real.sqrt x := Real.sqrt_pos.mpr hxr
    have hsq : Real.sqrt x ^ 2 = x := Real.sq_sqrt hxr.le
    have hur : (0 : ℝ) < u := by exact_mod_cast h0
    have hur1 : (u : ℝ) < 1 := by exact_mod_cast h1
    obtain ⟨r, h2, h3⟩ := exists_rat_btwn (show Real.sqrt x * (1 - u) < Real.sqrt x * (1 + u) by nlinarith)
    have hl : 0 ≤ Real.sqrt x * (1 - (u : ℝ)) := mul_nonneg hs.le (by linarith)
    have hr : (0 : ℝ) ≤ r := hl.trans h2.le
    refine ⟨r, by exact_mod_cast hr, ?_, ?_⟩
    · have : (x : ℝ) * (1 - u) ^ 2 ≤ (r : ℝ) ^ 2 := by
        have := pow_le_pow_left₀ hl h2.le 2
        rw [mul_pow, hsq] at this
        exact this
      exact_mod_cast this
    · have : (r : ℝ) ^ 2 ≤ (x : ℝ) * (1 + u) ^ 2 := by
        have := pow_le_pow_left₀ hr h3.le 2
        rw [mul_pow, hsq] at this
        exact this
      exact_mod_cast this
  classical
  refine ⟨fun x => if h : 0 ≤ x then (key x h).choose else 0, ?_⟩
  intro x hx
  simp only [dif_pos hx]
  exact (key x hx).choose_spec

/-- The cell at `(x, y)` has the least distance up to the factor that `k` relative errors of `u` make. -/
def Spec.NearlyBMU {nd : Nat} (m : Map nd ℚ) (d2 : (Fin nd → ℚ) → ℚ) (u : ℚ) (k x y : Nat) : Prop :=
  x < m.sx ∧ y < m.sy ∧ ∃ w, m.at x y = .ok w ∧ ∀ w' ∈ m.cells, d2 w * (1 - u) ^ k ≤ d2 w' * (1 + u) ^ k

/-! ## Theorems: best matching unit -/

theorem nearly_bmu {nd : Nat} (m : Map nd ℚ) (hw : m.WF) (hx : 0 < m.sx) (hy : 0 < m.sy) (u : ℚ) (hu0 : 0 ≤ u) (hu1 : u ≤ 1) (root : ℚ → ℚ) (hr : Spec.Root u root) (big : ℚ)
    (sq d2 : (Fin nd → ℚ) → ℚ) (k : Nat) (hd : ∀ w, 0 ≤ d2 w) (hsq : ∀ w, d2 w * (1 - u) ^ k ≤ sq w ∧ sq w ≤ d2 w * (1 + u) ^ k) (hbig : ∀ w ∈ m.cells, root (sq w) ≤ big) :
    ∃ x y d, findBMU m (fun w => root (sq w)) big = .ok (x, y, d) ∧ Spec.NearlyBMU m d2 u (k + 2) x y := by
  obtain ⟨x, y, d, h1, h2⟩ := C55_bmu m hw hx hy (fun w => root (sq w)) big hbig
    (fun x y => match m.at x y with | .ok w => w | _ => fun _ => 0) (by
      intro x y hx hy
      obtain ⟨w, _, h⟩ := at_eq hw hx hy
      rw [h])
  refine ⟨x, y, d, h1, h2.inX, h2.inY, ?_⟩
  obtain ⟨w, hwc, hwat⟩ := at_eq hw h2.inX h2.inY
  refine ⟨w, hwat, ?_⟩
  intro w' hw'
  obtain ⟨i, hi, hiw⟩ := List.mem_iff_getElem.mp hw'
  have hi' : i < m.sx * m.sy := by rw [← hw]; exact hi
  obtain ⟨c1, c2⟩ := coords_lt hi'
  have hat : m.at (coords m.sx m.sy i).1 (coords m.sx m.sy i).2 = .ok w' := by
    unfold Map.at
    rw [coords_index hi', List.getElem?_eq_getElem hi, hiw]
  have hle := h2.least _ _ c1 c2
  rw [h2.own] at hle
  simp only [hwat, hat] at hle
  have s0 : ∀ w, 0 ≤ sq w := fun w => le_trans (mul_nonneg (hd w) (pow_nonneg (by linarith) _)) (hsq w).1
  obtain ⟨a1, a2, a3⟩ := hr _ (s0 w)
  obtain ⟨b1, b2, b3⟩ := hr _ (s0 w')
  have hsqle : root (sq w) ^ 2 ≤ root (sq w') ^ 2 := pow_le_pow_left₀ a1 hle 2
  have e1 : d2 w * (1 - u) ^ (k + 2) ≤ sq w * (1 - u) ^ 2 := by
    rw [pow_add, ← mul_assoc]; exact mul_le_mul_of_nonneg_right (hsq w).1 (sq_nonneg _)
  have e2 : sq w' * (1 + u) ^ 2 ≤ d2 w' * (1 + u) ^ (k + 2) := by
    rw [pow_add, ← mul_assoc]; exact mul_le_mul_of_nonneg_right (hsq w').2 (sq_nonneg _)
  linarith

/-- **C124 (best matching unit).** With `p` bits the cell that `findBMU` reports has the least distance to the object up to `nd + 5` relative rounding errors (of the square). -/
theorem C124_bmu (p : Nat) (hp : 1 ≤ p) {nd : Nat} (m : Map nd ℚ) (hw : m.WF) (hx : 0 < m.sx) (hy : 0 < m.sy) (root : ℚ → ℚ) (hr : Spec.Root ((1 / 2) ^ p) root) (big : ℚ)
    (s : Fin nd → ℚ) (hbig : ∀ w ∈ m.cells, root (machineSquares (Binary.rounding p hp) w s) ≤ big) :
    ∃ x y d, machineBMU (Binary.rounding p hp) root big m s = .ok (x, y, d) ∧ Spec.NearlyBMU m (fun w => ∑ i, (w i - s i) ^ 2) ((1 / 2) ^ p) (nd + 5) x y :=
  nearly_bmu m hw hx hy _ (by positivity) (pow_le_one₀ (by norm_num) (by norm_num)) root hr big _ _ (nd + 3) (fun w => Finset.sum_nonneg fun i _ => sq_nonneg _)
    (fun w => squares_error hp w s) hbig

/-- **C124 (best matching unit with uncertainties).** -/
theorem C124_bmu_uncertain (p : Nat) (hp : 1 ≤ p) {nd : Nat} (m : Map nd ℚ) (hw : m.WF) (hx : 0 < m.sx) (hy : 0 < m.sy) (root : ℚ → ℚ) (hr : Spec.Root ((1 / 2) ^ p) root) (big : ℚ)
    (s e : Fin nd → ℚ) (he : ∀ i, e i ≠ 0) (hbig : ∀ w ∈ m.cells, root (machineSquaresU (Binary.rounding p hp) w s e) ≤ big) :
    ∃ x y d, machineBMUU (Binary.rounding p hp) root big m s e = .ok (x, y, d) ∧ Spec.NearlyBMU m (fun w => ∑ i, ((w i - s i) / e i) ^ 2) ((1 / 2) ^ p) (nd + 8) x y :=
  nearly_bmu m hw hx hy _ (by positivity) (pow_le_one₀ (by norm_num) (by norm_num)) root hr big _ _ (nd + 6) (fun w => Finset.sum_nonneg fun i _ => sq_nonneg _)
    (fun w => squaresU_error hp w s e he) hbig

/-! ## Theorems: training -/

/-- **C124 (towards the sample).** However the operations are rounded, no weight moves away from the sample. -/
theorem C124_towards {K : Type} [Field K] [LinearOrder K] [IsStrictOrderedRing K] (R : Rounding K) {nd : Nat} (nf lf : K) (hn : 0 ≤ nf) (hl : 0 ≤ lf) (s w : Fin nd → K)
    (hw : ∀ j, R.rnd (w j) = w j) (j : Fin nd) :
    (w j ≤ s j → w j ≤ machineUpdateCell R nf lf s w j) ∧ (s j ≤ w j → machineUpdateCell R nf lf s w j ≤ w j) := by
  unfold machineUpdateCell
  by_cases h : nf ≠ 0
  · rw [if_pos h]
    exact ⟨machineUpdate_ge R hn hl (hw j), machineUpdate_le R hn hl (hw j)⟩
  · rw [if_neg h]
    exact ⟨fun _ => le_refl _, fun _ => le_refl _⟩

/-- **C124 (not beyond the sample).** With `p` bits a weight does not pass the sample if the product of the factors is less than 1 by a few units in the last place. -/
theorem C124_step_partial (p : Nat) (hp : 1 ≤ p) {nd : Nat} (nf lf : ℚ) (hn : 0 ≤ nf) (hl : 0 ≤ lf) (hf : nf * lf * (1 + (1 / 2) ^ p) ^ 3 ≤ 1) (s w : Fin nd → ℚ)
    (hs : ∀ j, Binary.Rep p (s j)) (hw : ∀ j, Binary.Rep p (w j)) (j : Fin nd) :
    min (w j) (s j) ≤ machineUpdateCell (Binary.rounding p hp) nf lf s w j ∧ machineUpdateCell (Binary.rounding p hp) nf lf s w j ≤ max (w j) (s j) := by
  obtain ⟨h1, h2⟩ := C124_towards (Binary.rounding p hp) nf lf hn hl s w (fun j => Binary.rnd_of_rep hp (hw j)) j
  by_cases h0 : nf ≠ 0
  · have e : machineUpdateCell (Binary.rounding p hp) nf lf s w j = machineUpdate (Binary.rounding p hp) nf lf (s j) (w j) := by
      rw [machineUpdateCell, if_pos h0]
    rcases le_total (w j) (s j) with h | h
    · rw [min_eq_left h, max_eq_right h]
      exact ⟨h1 h, by rw [e]; exact update_below hp hn hl hf (hs j) h⟩
    · rw [min_eq_right h, max_eq_left h]
      refine ⟨?_, h2 h⟩
      have hns : Binary.Rep p (-s j) := by
        obtain ⟨a, b, h3, h4⟩ := hs j
        exact ⟨-a, b, by rwa [abs_neg], by rw [h4]; push_cast; ring⟩
      have := update_below hp hn hl hf hns (w := -w j) (by linarith)
      rw [machineUpdate_neg] at this
      rw [e]
      linarith
  · rw [machineUpdateCell, if_neg h0]
    exact ⟨min_le_left _ _, le_max_left _ _⟩

/-- **C124 (range).** With `p` bits: if all weights and all objects are between `-2ᵏ` and `2ᵏ`, a training with factors in `[0, 1]` completes, and all weights still are. -/
theorem C124_range (p : Nat) (hp : 2 ≤ p) {nd : Nat} (root : ℚ → ℚ) (big : ℚ) (neigh : Neigh ℚ) (learn : Nat → Nat → ℚ) (n : Nat) (samples : Nat → List (Fin nd → ℚ))
    (hn : ∀ b c i, i < n → 0 ≤ neigh b c i n ∧ neigh b c i n ≤ 1) (hl : ∀ i, i < n → 0 ≤ learn i n ∧ learn i n ≤ 1) (k : Int) (m : Map nd ℚ) (hw : m.WF) (hx : 0 < m.sx) (hy : 0 < m.sy)
    (hm : ∀ w ∈ m.cells, ∀ j, |w j| ≤ 2 ^ k) (hs : ∀ i < n, ∀ s ∈ samples i, ∀ j, |s j| ≤ 2 ^ k) :
    ∃ m', machineTrain (Binary.rounding p (by omega)) root big neigh learn n samples m = .ok m' ∧ m'.sx = m.sx ∧ m'.sy = m.sy ∧ m'.WF ∧ ∀ w ∈ m'.cells, ∀ j, |w j| ≤ 2 ^ k := by
  let P : Map nd ℚ → Prop := fun m' => m'.sx = m.sx ∧ m'.sy = m.sy ∧ m'.WF ∧ ∀ w ∈ m'.cells, ∀ j, |w j| ≤ 2 ^ k
  have h1 : ∀ (i : Nat), i < n → ∀ (s : Fin nd → ℚ), (∀ j, |s j| ≤ 2 ^ k) → ∀ m1, P m1 →
      ∃ m2, machineTrainSample (Binary.rounding p (by omega)) root big neigh i n (learn i n) m1 s = .ok m2 ∧ P m2 := by
    intro i hi s hs m1 ⟨p1, p2, p3, p4⟩
    have hpos : 0 < m1.sx * m1.sy := Nat.mul_pos (by omega) (by omega)
    have hb : ∃ r, machineBMU (Binary.rounding p (by omega)) root big m1 s = .ok r := by
      unfold machineBMU findBMU
      rw [if_neg (by omega)]
      exact ⟨_, rfl⟩
    obtain ⟨⟨bx, by', d⟩, hr⟩ := hb
    unfold machineTrainSample
    rw [hr]
    refine ⟨_, rfl, p1, p2, by simpa [Map.WF] using p3, ?_⟩
    intro w hw j
    simp only [List.mem_mapIdx] at hw
    obtain ⟨q, hq, rfl⟩ := hw
    unfold machineUpdateCell
    split
    · exact update_abs_le_pow hp (hn _ _ i hi) (hl i hi) (p4 _ (List.getElem_mem _) j) (hs j)
    · exact p4 _ (List.getElem_mem _) j
  have h2 : ∀ (i : Nat), i < n → ∀ (ss : List (Fin nd → ℚ)), (∀ s ∈ ss, ∀ j, |s j| ≤ 2 ^ k) → ∀ m1, P m1 →
      ∃ m2, machineTrainList (Binary.rounding p (by omega)) root big neigh i n (learn i n) m1 ss = .ok m2 ∧ P m2 := by
    intro i hi ss
    induction ss with
    | nil => intro _ m1 hP; exact ⟨m1, rfl, hP⟩
    | cons s ss ih =>
      intro hss m1 hP
      obtain ⟨m2, e1, e2⟩ := h1 i hi s (hss s List.mem_cons_self) m1 hP
      obtain ⟨m3, f1, f2⟩ := ih (fun s hs => hss s (List.mem_cons_of_mem _ hs)) m2 e2
      exact ⟨m3, by rw [machineTrainList, e1, Outcome.bind_ok, f1], f2⟩
  have h3 : ∀ (left i : Nat), i + left = n → ∀ m1, P m1 →
      ∃ m2, machineTrainFrom (Binary.rounding p (by omega)) root big neigh learn n samples i left m1 = .ok m2 ∧ P m2 := by
    intro left
    induction left with
    | zero => intro i _ m1 hP; exact ⟨m1, rfl, hP⟩
    | succ left ih =>
      intro i hi m1 hP
      rw [machineTrainFrom]
      by_cases h0 : learn i n = 0
      · simp only [h0, if_true]; exact ih (i + 1) (by omega) m1 hP
      · simp only [h0, if_false]
        obtain ⟨m2, e1, e2⟩ := h2 i (by omega) (samples i) (hs i (by omega)) m1 hP
        obtain ⟨m3, f1, f2⟩ := ih (i + 1) (by omega) m2 e2
        exact ⟨m3, by rw [e1, Outcome.bind_ok, f1], f2⟩
  obtain ⟨m', e1, e2, e3, e4, e5⟩ := h3 n 0 (by omega) m ⟨rfl, rfl, hw, hm⟩
  exact ⟨m', e1, e2, e3, e4, e5⟩

/-! ## What does not hold for doubles -/

/-- No weight would pass the sample. -/
def C124_step_full : Prop := ∀ (nf lf s w : ℚ), 0 ≤ nf → nf ≤ 1 → 0 ≤ lf → lf ≤ 1 → Binary.Rep 53 s → Binary.Rep 53 w →
  min w s ≤ machineUpdateCell (Binary.rounding 53 (by decide)) nf lf (fun _ : Fin 1 => s) (fun _ => w) 0 ∧
    machineUpdateCell (Binary.rounding 53 (by decide)) nf lf (fun _ : Fin 1 => s) (fun _ => w) 0 ≤ max w s

/-- **C124 (violated).** With factors of 1 the weight 1.5 is moved to 4503599627370500 by the object 4503599627370499. -/
theorem C124_step_violated : ¬ C124_step_full := by
  intro h
  have h1 := (h 1 1 4503599627370499 (3 / 2) (by norm_num) (by norm_num) (by norm_num) (by norm_num) ⟨4503599627370499, 0, by decide, by norm_num⟩ ⟨3, -1, by decide, by norm_num⟩).2
  revert h1
  decide +kernel

/-- Any training would keep the weights in the range of the initial weights and the objects. -/
def C124_range_full : Prop := ∀ (a b : ℚ) (n : Nat) (samples : Nat → List (Fin 1 → ℚ)) (m m' : Map 1 ℚ), Binary.Rep 53 a → Binary.Rep 53 b →
  (∀ w ∈ m.cells, ∀ j, a ≤ w j ∧ w j ≤ b ∧ Binary.Rep 53 (w j)) → (∀ i < n, ∀ s ∈ samples i, ∀ j, a ≤ s j ∧ s j ≤ b ∧ Binary.Rep 53 (s j)) →
  machineTrain (Binary.rounding 53 (by decide)) id (10 ^ 300) (fun _ _ _ _ => 1) (fun _ _ => 1) n samples m = .ok m' → ∀ w ∈ m'.cells, ∀ j, a ≤ w j ∧ w j ≤ b

/-- **C124 (violated).** The map with one cell after the same object. -/
theorem C124_range_violated : ¬ C124_range_full := by
  intro h
  have h1 := h 0 4503599627370499 1 (fun _ => [fun _ => 4503599627370499]) ⟨1, 1, [fun _ => 3 / 2]⟩ ⟨1, 1, [fun _ => 4503599627370500]⟩ ⟨0, 0, by decide, by norm_num⟩
    ⟨4503599627370499, 0, by decide, by norm_num⟩
    (by
      intro w hw j
      simp only [List.mem_cons, List.not_mem_nil, or_false] at hw
      subst hw
      exact ⟨by norm_num, by norm_num, 3, -1, by decide, by norm_num⟩)
    (by
      intro i _ w hw j
      simp only [List.mem_cons, List.not_mem_nil, or_false] at hw
      subst hw
      exact ⟨by norm_num, by norm_num, 4503599627370499, 0, by decide, by norm_num⟩)
    (by
      have e : machineUpdateCell (Binary.rounding 53 (by decide)) 1 1 (fun _ : Fin 1 => 4503599627370499) (fun _ => 3 / 2) = fun _ => 4503599627370500 := by decide +kernel
      rw [machineTrain, machineTrainFrom, machineTrainFrom]
      simp [machineTrainList, machineTrainSample, machineBMU, findBMU, e, machineTrainFrom])
    (fun _ => 4503599627370500) (by simp) 0
  exact absurd h1.2 (by norm_num)

/-! ## Examples -/

/-- A training step: half of the way. -/
example : machineUpdateCell (Binary.rounding 53 (by decide)) 1 (1 / 2) (fun _ : Fin 2 => 3) (fun i => if i = 0 then 1 else 7) = fun i => if i = 0 then 2 else 5 := by
  decide +kernel

example : (1 : ℚ) * (1 / 2) * (1 + (1 / 2) ^ 53) ^ 3 ≤ 1 := by norm_num

/-- Squares of distances without and with uncertainties. -/
example : machineSquares (Binary.rounding 53 (by decide)) (fun i : Fin 2 => if i = 0 then 3 else 4) (fun _ => 0) = (25 : ℚ) ∧
    machineSquaresU (Binary.rounding 53 (by decide)) (fun i : Fin 2 => if i = 0 then 3 else 4) (fun _ => 0) (fun _ => 1 / 2) = (100 : ℚ) := by
  decide +kernel

example : Map.WF (⟨2, 1, [fun _ => 1, fun _ => 4]⟩ : Map 2 ℚ) ∧ ∃ root, Spec.Root ((1 / 2) ^ 53) root := ⟨rfl, Root_exists _ (by norm_num) (by norm_num)⟩

end Alexandria.SOM
