import Verif.MathUtils.AdaptiveRoundModel
import Verif.MathUtils.NumericRoundProps

/-! # The adaptive integration in floating point arithmetic (C166) -/

namespace Alexandria.MathUtils

section
variable {K : Type} [Field K] [LinearOrder K]

/-- The most roundings that one term of a result goes through: with `2^30` steps. -/
def Spec.mostRoundings : Nat := 2 ^ 29 + 5

theorem le_mostRoundings {m : Nat} (h : m ≤ 29) : 2 ^ m + 5 ≤ Spec.mostRoundings := Nat.add_le_add_right (Nat.pow_le_pow_right (by omega) h) 5

/-- How much the nodes may be displaced: four roundings. -/
def Spec.displacement (u a b : K) : K := ((1 + u) ^ 4 - 1) * (2 * (|a| + |b|))

/-- The samples `f` at displaced points are the values of `g` up to `ε`, and those are at most `G`. -/
def Spec.Samples (u a b : K) (f g : K → K) (ε G : K) : Prop :=
  (∀ x, a ≤ x → x ≤ b → |g x| ≤ G) ∧ ∀ x y, a ≤ x → x ≤ b → |y - x| ≤ Spec.displacement u a b → |f y - g x| ≤ ε

/-- The bound on the error, with the length of the interval, of a result of order at most `k + 1`. -/
def Spec.adaptiveError (u a b ε G : K) (k : Nat) : K := (b - a) * (5 / 4 * (ε + 2 * ((1 + u) ^ (2 ^ k + 5) - 1) * (G + ε)))

variable [IsStrictOrderedRing K] {R : Rounding K} {u : K}

theorem rule_weights (g : K → K) (a b : K) (N : Nat) :
    Spec.rule g a b N = (b - a) / N * ∑ i ∈ Finset.range (N + 1), Spec.simpsonWeight N i * g (a + i * ((b - a) / N)) := rfl

theorem weight_nonneg (N i : Nat) : (0 : K) ≤ Spec.simpsonWeight N i := by
  unfold Spec.simpsonWeight; split_ifs <;> norm_num

theorem sum_weights (N : Nat) (hN : 8 ≤ N) : ∑ i ∈ Finset.range (N + 1), (Spec.simpsonWeight N i : K) = N := by
  have := inner_eq (fun _ => (1 : K)) N (by omega)
  simp only [mul_one] at this
  simp only [Spec.simpsonWeight]
  rw [this, inner]
  simp only [Finset.sum_const, Nat.card_Ico, nsmul_eq_mul, mul_one]
  obtain ⟨n, rfl⟩ := Nat.exists_eq_add_of_le hN
  rw [show 8 + n - 2 - 3 = n + 3 by omega]
  push_cast
  ring

theorem node_mem {a b : K} (hab : a ≤ b) {N i : Nat} (hN : 0 < N) (hi : i ≤ N) : a ≤ a + i * ((b - a) / N) ∧ a + i * ((b - a) / N) ≤ b := by
  have h0 : (0 : K) < N := by exact_mod_cast hN
  have h1 : (i : K) ≤ N := by exact_mod_cast hi
  have h2 : 0 ≤ (b - a) / N := div_nonneg (by linarith) h0.le
  have h3 := mul_le_mul_of_nonneg_right h1 h2
  rw [mul_div_cancel₀ _ h0.ne'] at h3
  have h4 : (0 : K) ≤ i * ((b - a) / N) := mul_nonneg (Nat.cast_nonneg i) h2
  exact ⟨by linarith, by linarith⟩

theorem weighted_bound {N : Nat} (hN : 8 ≤ N) (y : Nat → K) {M : K} (h : ∀ i ≤ N, |y i| ≤ M) :
    |∑ i ∈ Finset.range (N + 1), Spec.simpsonWeight N i * y i| ≤ N * M := by
  calc _ ≤ ∑ i ∈ Finset.range (N + 1), |Spec.simpsonWeight N i * y i| := Finset.abs_sum_le_sum_abs _ _
    _ ≤ ∑ i ∈ Finset.range (N + 1), Spec.simpsonWeight N i * M := Finset.sum_le_sum fun i hi => by
        rw [abs_mul, abs_of_nonneg (weight_nonneg N i)]
        exact mul_le_mul_of_nonneg_left (h i (by have := Finset.mem_range.mp hi; omega)) (weight_nonneg N i)
    _ = N * M := by rw [← Finset.sum_mul, sum_weights N hN]

theorem rule_bound {g : K → K} {a b G : K} (hab : a ≤ b) (h : ∀ x, a ≤ x → x ≤ b → |g x| ≤ G) {N : Nat} (hN : 8 ≤ N) : |Spec.rule g a b N| ≤ (b - a) * G := by
  have h0 : (0 : K) < N := by exact_mod_cast (show 0 < N by omega)
  rw [rule_weights, abs_mul, abs_of_nonneg (div_nonneg (by linarith) h0.le)]
  have := weighted_bound (M := G) hN (fun i => g (a + i * ((b - a) / N))) fun i hi => h _ (node_mem hab (by omega) hi).1 (node_mem hab (by omega) hi).2
  calc _ ≤ (b - a) / N * (N * G) := mul_le_mul_of_nonneg_left this (div_nonneg (by linarith) h0.le)
    _ = _ := by field_simp

theorem added_bound {N : Nat} (hN : 16 ≤ N) (c : K) (hc : |c| ≤ 1) (y : Nat → K) {M : K} (h : ∀ i ≤ N, |y i| ≤ M) : |Spec.added c y N| ≤ N * (53 / 96 * M) := by
  have hM : 0 ≤ M := (abs_nonneg _).trans (h 0 (by omega))
  have h1 : |∑ j ∈ Finset.Ico 1 (N / 2 - 1), y (2 * j + 1)| ≤ (N / 2 - 1 - 1 : Nat) * M := by
    calc _ ≤ ∑ j ∈ Finset.Ico 1 (N / 2 - 1), |y (2 * j + 1)| := Finset.abs_sum_le_sum_abs _ _
      _ ≤ ∑ j ∈ Finset.Ico 1 (N / 2 - 1), M := Finset.sum_le_sum fun j hj => h _ (by have := Finset.mem_Ico.mp hj; omega)
      _ = _ := by rw [Finset.sum_const, Nat.card_Ico, nsmul_eq_mul]
  have h2 : ((N / 2 - 1 - 1 : Nat) : K) ≤ N / 2 - 2 := by
    have : (2 * (N / 2 - 1 - 1) + 4 : Nat) ≤ N := by omega
    have : ((2 * (N / 2 - 1 - 1) + 4 : Nat) : K) ≤ N := by exact_mod_cast this
    push_cast at this ⊢
    linarith
  have h16 : (16 : K) ≤ N := by exact_mod_cast hN
  have p : ∀ i j, i ≤ N → j ≤ N → |y i + y j| ≤ 2 * M := fun i j hi hj => (abs_add_le _ _).trans (by have := h i hi; have := h j hj; linarith)
  have q1 : |7 / 6 * (y 1 + y (N - 1))| ≤ 7 / 3 * M := by
    rw [abs_mul, abs_of_pos (by norm_num)]; have := p 1 (N - 1) (by omega) (by omega); linarith
  have q2 : |c * (5 / 24) * (y 2 + y (N - 2))| ≤ 5 / 12 * M := by
    rw [abs_mul, abs_mul, abs_of_pos (by norm_num : (0 : K) < 5 / 24)]
    have h5 := p 2 (N - 2) (by omega) (by omega)
    have h6 : |c| * (5 / 24) * |y 2 + y (N - 2)| ≤ 1 * (5 / 24) * (2 * M) := by gcongr
    linarith
  have q3 : |1 / 24 * (y 4 + y (N - 4))| ≤ 1 / 12 * M := by
    rw [abs_mul, abs_of_pos (by norm_num)]; have := p 4 (N - 4) (by omega) (by omega); linarith
  have h3 := mul_le_mul_of_nonneg_right h2 hM
  have h4 := mul_le_mul_of_nonneg_right h16 hM
  unfold Spec.added
  have t1 := abs_add_le (∑ j ∈ Finset.Ico 1 (N / 2 - 1), y (2 * j + 1) + 7 / 6 * (y 1 + y (N - 1)) + c * (5 / 24) * (y 2 + y (N - 2))) (1 / 24 * (y 4 + y (N - 4)))
  have t2 := abs_add_le (∑ j ∈ Finset.Ico 1 (N / 2 - 1), y (2 * j + 1) + 7 / 6 * (y 1 + y (N - 1))) (c * (5 / 24) * (y 2 + y (N - 2)))
  have t3 := abs_add_le (∑ j ∈ Finset.Ico 1 (N / 2 - 1), y (2 * j + 1)) (7 / 6 * (y 1 + y (N - 1)))
  linarith

theorem added_sub (y z : Nat → K) (c : K) (N : Nat) : Spec.added c y N - Spec.added c z N = Spec.added c (fun i => y i - z i) N := by
  simp only [Spec.added, Finset.sum_sub_distrib]; ring

theorem rule_refine (g : K → K) (a b : K) (m : Nat) (h1 : 3 ≤ m) (h2 : m + 1 < 31) :
    Spec.rule g a b (2 ^ (m + 1)) = (b - a) / (2 ^ (m + 1) : Nat) * Spec.added (-1) (fun i => g (a + i * ((b - a) / (2 ^ (m + 1) : Nat)))) (2 ^ (m + 1)) + Spec.rule g a b (2 ^ m) / 2 := by
  have h := refine_rule g a b m h1 h2
  rw [simpsonRefine, if_neg (by omega), if_neg (by omega)] at h
  simp only [show ((m : Int) + 1).toNat = m + 1 by omega] at h
  have hN : 16 ≤ 2 ^ (m + 1) := pow_ge (by omega : 4 ≤ m + 1)
  generalize 2 ^ (m + 1) = N at h hN ⊢
  injection h with h
  rw [← h, Spec.added, sumFrom_eq, show 1 + (N / 2 - 1 - 1) = N / 2 - 1 by omega]
  have h0 : (N : K) ≠ 0 := by exact_mod_cast (show N ≠ 0 by omega)
  have e : ∀ j ≤ N, a + ((N - j : Nat) : K) * ((b - a) / N) = b - j * ((b - a) / N) := by
    intro j hj
    rw [Nat.cast_sub hj, sub_mul, mul_div_cancel₀ _ h0]; ring
  rw [e 1 (by omega), e 2 (by omega), e 4 (by omega)]
  simp only [Nat.cast_one, one_mul, Nat.cast_ofNat]
  ring

/-! ## One evaluation -/

theorem direct_error (hu : 0 ≤ u) (hr : ∀ x, |R.rnd x - x| ≤ u * |x|) {f g : K → K} {a b ε G : K} (hab : a ≤ b) (hs : Spec.Samples u a b f g ε G) (order : Nat) (h1 : 3 ≤ order)
    (h2 : order < 31) : ∃ v, machineSimpson R f a b order = .ok v ∧
      |v - Spec.rule g a b (2 ^ order)| ≤ (b - a) * (ε + ((1 + u) ^ (2 ^ order + 1) - 1) * (G + ε)) := by
  obtain ⟨x, v, _, _, hx, hv, he⟩ := C134_direct hu hr f a b order h1 h2
  refine ⟨v, hv, ?_⟩
  have hN : 8 ≤ 2 ^ order := pow_ge h1
  have hg : 0 ≤ (1 + u) ^ (2 ^ order + 1) - 1 := by linarith [one_le_pow_u hu (2 ^ order + 1)]
  generalize (1 + u) ^ (2 ^ order + 1) - 1 = γ at he hg ⊢
  generalize 2 ^ order = N at hN hx he ⊢
  have h0 : (0 : K) < N := by exact_mod_cast (show 0 < N by omega)
  have hL : 0 ≤ (b - a) / N := div_nonneg (by linarith) h0.le
  have hm := fun i (hi : i ≤ N) => node_mem hab (show 0 < N by omega) hi
  have hf : ∀ i ≤ N, |f (x i) - g (a + i * ((b - a) / N))| ≤ ε := fun i hi => hs.2 _ _ (hm i hi).1 (hm i hi).2 (hx i hi)
  have hf' : ∀ i ≤ N, |f (x i)| ≤ G + ε := fun i hi => by
    have q1 := abs_add_le (f (x i) - g (a + i * ((b - a) / N))) (g (a + i * ((b - a) / N)))
    rw [sub_add_cancel] at q1
    have := hf i hi
    have := hs.1 _ (hm i hi).1 (hm i hi).2
    linarith
  have b1 := weighted_bound hN _ hf
  have b2 := weighted_bound (M := G + ε) hN (fun i => |f (x i)|) (fun i hi => by rw [abs_abs]; exact hf' i hi)
  have b3 := mul_le_mul_of_nonneg_left ((le_abs_self _).trans b2) hL
  have b4 := mul_le_mul_of_nonneg_left b1 hL
  rw [abs_of_nonneg (show 0 ≤ b - a by linarith)] at he
  have e1 : ∀ M : K, (b - a) / N * (N * M) = (b - a) * M := fun M => by field_simp
  rw [e1] at b3 b4
  have b5 := mul_le_mul_of_nonneg_left b3 hg
  rw [rule_weights]
  have e2 : (b - a) / N * ∑ i ∈ Finset.range (N + 1), Spec.simpsonWeight N i * f (x i) - (b - a) / N * ∑ i ∈ Finset.range (N + 1), Spec.simpsonWeight N i * g (a + i * ((b - a) / N)) =
      (b - a) / N * ∑ i ∈ Finset.range (N + 1), Spec.simpsonWeight N i * (f (x i) - g (a + i * ((b - a) / N))) := by
    rw [← mul_sub, ← Finset.sum_sub_distrib]; congr 1; refine Finset.sum_congr rfl fun i _ => by ring
  have b6 : |(b - a) / N * ∑ i ∈ Finset.range (N + 1), Spec.simpsonWeight N i * (f (x i) - g (a + i * ((b - a) / N)))| ≤ (b - a) * ε := by rw [abs_mul, abs_of_nonneg hL]; exact b4
  rw [← e2] at b6
  have b7 := abs_sub_le v ((b - a) / N * ∑ i ∈ Finset.range (N + 1), Spec.simpsonWeight N i * f (x i))
    ((b - a) / N * ∑ i ∈ Finset.range (N + 1), Spec.simpsonWeight N i * g (a + i * ((b - a) / N)))
  linarith

theorem refine_error (hu : 0 ≤ u) (hr : ∀ x, |R.rnd x - x| ≤ u * |x|) {f g : K → K} {a b ε G : K} (hab : a ≤ b) (hs : Spec.Samples u a b f g ε G) (m : Nat) (h1 : 3 ≤ m)
    (h2 : m + 1 < 31) (prev e : K) (hp : |prev - Spec.rule g a b (2 ^ m)| ≤ (b - a) * e) : ∃ v, machineRefine R f a b prev (m + 1) = .ok v ∧
      |v - Spec.rule g a b (2 ^ (m + 1))| ≤ (b - a) * (53 / 96 * ε + e / 2 + ((1 + u) ^ (2 ^ m + 5) - 1) * (53 / 96 * (G + ε) + (G + e) / 2)) := by
  obtain ⟨x, v, hx, hv, he⟩ := C134_refine hu hr f a b prev (m + 1) (by omega) h2
  refine ⟨v, by exact_mod_cast hv, ?_⟩
  rw [rule_refine g a b m h1 h2]
  have hpr := rule_bound hab hs.1 (N := 2 ^ m) (pow_ge h1)
  have hN : 16 ≤ 2 ^ (m + 1) := pow_ge (by omega : 4 ≤ m + 1)
  rw [show 2 ^ (m + 1) / 2 = 2 ^ m by rw [pow_succ]; omega] at he
  have hg : 0 ≤ (1 + u) ^ (2 ^ m + 5) - 1 := by linarith [one_le_pow_u hu (2 ^ m + 5)]
  generalize (1 + u) ^ (2 ^ m + 5) - 1 = γ at he hg ⊢
  generalize Spec.rule g a b (2 ^ m) = w at hp hpr ⊢
  generalize 2 ^ (m + 1) = N at hN hx he ⊢
  have h0 : (0 : K) < N := by exact_mod_cast (show 0 < N by omega)
  have hL : 0 ≤ (b - a) / N := div_nonneg (by linarith) h0.le
  have hm := fun i (hi : i ≤ N) => node_mem hab (show 0 < N by omega) hi
  have hf : ∀ i ≤ N, |f (x i) - g (a + i * ((b - a) / N))| ≤ ε := fun i hi => hs.2 _ _ (hm i hi).1 (hm i hi).2 (hx i hi)
  have hf' : ∀ i ≤ N, |f (x i)| ≤ G + ε := fun i hi => by
    have q1 := abs_add_le (f (x i) - g (a + i * ((b - a) / N))) (g (a + i * ((b - a) / N)))
    rw [sub_add_cancel] at q1
    have := hf i hi
    have := hs.1 _ (hm i hi).1 (hm i hi).2
    linarith
  have b1 := added_bound hN (-1 : K) (by norm_num) _ hf
  rw [← added_sub (fun i => f (x i)) (fun i => g (a + i * ((b - a) / N)))] at b1
  have b2 := added_bound (M := G + ε) hN (1 : K) (by norm_num) (fun i => |f (x i)|) (fun i hi => by rw [abs_abs]; exact hf' i hi)
  have b3 := mul_le_mul_of_nonneg_left ((le_abs_self _).trans b2) hL
  have b4 := mul_le_mul_of_nonneg_left b1 hL
  rw [abs_of_nonneg (show 0 ≤ b - a by linarith)] at he
  have e1 : ∀ M : K, (b - a) / N * (N * M) = (b - a) * M := fun M => by field_simp
  rw [e1] at b3 b4
  rw [← abs_of_nonneg hL, ← abs_mul, abs_of_nonneg hL, mul_sub] at b4
  have q1 := abs_add_le (prev - w) w
  rw [sub_add_cancel] at q1
  have b5 := mul_le_mul_of_nonneg_left (add_le_add b3 (show |prev| / 2 ≤ (b - a) * ((G + e) / 2) by linarith)) hg
  generalize (b - a) / N * Spec.added (-1) (fun i => f (x i)) N = s at he b4
  generalize (b - a) / N * Spec.added (-1) (fun i => g (a + i * ((b - a) / N))) N = t at b4 ⊢
  have b6 := abs_add_le (v - (s + prev / 2)) (s + prev / 2 - (t + w / 2))
  have b7 := abs_add_le (s - t) ((prev - w) / 2)
  rw [show v - (s + prev / 2) + (s + prev / 2 - (t + w / 2)) = v - (t + w / 2) by ring] at b6
  rw [show s - t + (prev - w) / 2 = s + prev / 2 - (t + w / 2) by ring, abs_div, abs_of_pos (by norm_num : (0 : K) < 2)] at b7
  linarith

/-! ## The loop -/

/-- The bound for one level, without the length. -/
theorem level_le (hu : 0 ≤ u) (hb : (1 + u) ^ Spec.mostRoundings ≤ 13 / 12) {ε G : K} (hε : 0 ≤ ε) (hG : 0 ≤ G) {m : Nat} (hm : m ≤ 29) :
    53 / 96 * ε + 5 / 4 * (ε + 2 * ((1 + u) ^ (2 ^ m + 5) - 1) * (G + ε)) / 2 +
      ((1 + u) ^ (2 ^ m + 5) - 1) * (53 / 96 * (G + ε) + (G + 5 / 4 * (ε + 2 * ((1 + u) ^ (2 ^ m + 5) - 1) * (G + ε))) / 2) ≤
    5 / 4 * (ε + 2 * ((1 + u) ^ (2 ^ m + 5) - 1) * (G + ε)) := by
  have h1 : (1 + u) ^ (2 ^ m + 5) ≤ (1 + u) ^ Spec.mostRoundings := pow_le_pow_right₀ (by linarith) (le_mostRoundings hm)
  have h2 : 0 ≤ (1 + u) ^ (2 ^ m + 5) - 1 := by linarith [one_le_pow_u hu (2 ^ m + 5)]
  have h3 : (1 + u) ^ (2 ^ m + 5) - 1 ≤ 1 / 12 := by linarith
  generalize (1 + u) ^ (2 ^ m + 5) - 1 = γ at h2 h3
  have h4 := mul_le_mul_of_nonneg_right h3 hε
  have h5 := mul_nonneg h2 hG
  have h6 := mul_nonneg h2 hε
  have h7 := mul_le_mul_of_nonneg_right h3 h5
  have h8 := mul_le_mul_of_nonneg_right h3 h6
  nlinarith

theorem error_mono (hu : 0 ≤ u) {a b ε G : K} (hab : a ≤ b) (hε : 0 ≤ ε) (hG : 0 ≤ G) {k l : Nat} (h : k ≤ l) : Spec.adaptiveError u a b ε G k ≤ Spec.adaptiveError u a b ε G l := by
  have h1 : (1 + u) ^ (2 ^ k + 5) ≤ (1 + u) ^ (2 ^ l + 5) := pow_le_pow_right₀ (by linarith) (by have := pow_ge h; omega)
  have h2 := mul_le_mul_of_nonneg_right h1 (add_nonneg hG hε)
  unfold Spec.adaptiveError
  refine mul_le_mul_of_nonneg_left ?_ (by linarith)
  linarith

theorem samples_nonneg (hu : 0 ≤ u) {f g : K → K} {a b ε G : K} (hab : a ≤ b) (hs : Spec.Samples u a b f g ε G) : 0 ≤ ε ∧ 0 ≤ G := by
  refine ⟨(abs_nonneg _).trans (hs.2 a a le_rfl hab ?_), (abs_nonneg _).trans (hs.1 a le_rfl hab)⟩
  rw [sub_self, abs_zero]
  exact mul_nonneg (by linarith [one_le_pow_u hu 4]) (by positivity)

/-- What the loop has checked when it ends. -/
theorem machineNotPrecise_le (hu1 : u < 1) (hr : ∀ x, |R.rnd x - x| ≤ u * |x|) {precision v w : K} (h : ¬ machineNotPrecise R precision v w) :
    |v - w| * (1 - u) ^ 2 ≤ precision * |w| := by
  have low : ∀ x, |x| * (1 - u) ≤ |R.rnd x| := fun x => by
    have h1 := hr x
    have h2 := abs_sub_abs_le_abs_sub x (R.rnd x)
    rw [abs_sub_comm] at h2
    linarith
  unfold machineNotPrecise at h
  by_cases hw : w = 0
  · simp only [hw, if_true, sub_zero, not_not, ne_eq] at h ⊢
    have := low v
    rw [h, abs_zero] at this
    have h3 : |v| * (1 - u) ^ 2 = |v| * (1 - u) * (1 - u) := by ring
    rw [h3, abs_zero, mul_zero]
    exact mul_nonpos_of_nonpos_of_nonneg this (by linarith)
  · simp only [hw, if_false, gt_iff_lt, not_lt] at h
    have hw' := abs_pos.mpr hw
    have h1 := (low _).trans h
    rw [abs_div] at h1
    have h2 := mul_le_mul_of_nonneg_right (low (v - w)) (show 0 ≤ 1 - u by linarith)
    rw [div_mul_eq_mul_div, div_le_iff₀ hw'] at h1
    calc _ = |v - w| * (1 - u) * (1 - u) := by ring
      _ ≤ _ := h2.trans h1

/-- When the loop ends. -/
theorem not_machineNotPrecise (hu : 0 ≤ u) (hr : ∀ x, |R.rnd x - x| ≤ u * |x|) {precision v w : K} (hp : 0 ≤ precision) (h : |v - w| * (1 + u) ^ 2 ≤ precision * |w|) :
    ¬ machineNotPrecise R precision v w := by
  have up : ∀ x, |R.rnd x| ≤ |x| * (1 + u) := fun x => by
    have h1 := hr x
    have h2 := abs_sub_abs_le_abs_sub (R.rnd x) x
    linarith
  unfold machineNotPrecise
  by_cases hw : w = 0
  · simp only [hw, if_true, sub_zero, not_not, ne_eq, abs_zero, mul_zero] at h ⊢
    have h1 : |v| ≤ 0 := by
      by_contra hlt
      have := mul_pos (not_le.mp hlt) (show 0 < (1 + u) ^ 2 by positivity)
      linarith
    rw [abs_nonpos_iff.mp h1, R.zero]
  · simp only [hw, if_false, gt_iff_lt, not_lt]
    have hw' := abs_pos.mpr hw
    refine (up _).trans ?_
    rw [abs_div, div_mul_eq_mul_div, div_le_iff₀ hw']
    have h2 := mul_le_mul_of_nonneg_right (up (v - w)) (show 0 ≤ 1 + u by linarith)
    calc _ ≤ _ := h2
      _ = |v - w| * (1 + u) ^ 2 := by ring
      _ ≤ _ := h

theorem machineLoop_spec (hu : 0 ≤ u) (hb : (1 + u) ^ Spec.mostRoundings ≤ 13 / 12) (hr : ∀ x, |R.rnd x - x| ≤ u * |x|) {f g : K → K} {a b ε G precision : K} (hab : a ≤ b)
    (hs : Spec.Samples u a b f g ε G) : ∀ (fuel m : Nat) (value : K), 3 ≤ m → m ≤ 30 → 31 ≤ fuel + m → |value - Spec.rule g a b (2 ^ m)| ≤ Spec.adaptiveError u a b ε G m →
    (∃ k w v, m ≤ k ∧ k + 1 < 31 ∧ machineLoop R f a b precision fuel m value = .ok v ∧ |w - Spec.rule g a b (2 ^ k)| ≤ Spec.adaptiveError u a b ε G k ∧
      |v - Spec.rule g a b (2 ^ (k + 1))| ≤ Spec.adaptiveError u a b ε G k ∧ ¬ machineNotPrecise R precision v w ∧
      ∀ j, m ≤ j → j < k → ∃ w' v', |w' - Spec.rule g a b (2 ^ j)| ≤ Spec.adaptiveError u a b ε G j ∧ |v' - Spec.rule g a b (2 ^ (j + 1))| ≤ Spec.adaptiveError u a b ε G j ∧
        machineNotPrecise R precision v' w') ∨
    (machineLoop R f a b precision fuel m value = .ub ∧
      ∀ j, m ≤ j → j + 1 < 31 → ∃ w' v', |w' - Spec.rule g a b (2 ^ j)| ≤ Spec.adaptiveError u a b ε G j ∧ |v' - Spec.rule g a b (2 ^ (j + 1))| ≤ Spec.adaptiveError u a b ε G j ∧
        machineNotPrecise R precision v' w') := by
  obtain ⟨hε, hG⟩ := samples_nonneg hu hab hs
  intro fuel
  induction fuel with
  | zero => intro m value h1 h2 h3; omega
  | succ fuel ih =>
    intro m value h1 h2 h3 hv
    rw [machineLoop]
    by_cases hm : m = 30
    · right
      subst hm
      constructor
      · rw [machineRefine, if_neg (by decide), if_pos (by decide)]
        rfl
      · intro j hj1 hj2; omega
    · obtain ⟨v, e1, e2⟩ := refine_error hu hr hab hs m h1 (by omega) value _ hv
      have e3 : |v - Spec.rule g a b (2 ^ (m + 1))| ≤ Spec.adaptiveError u a b ε G m :=
        e2.trans (mul_le_mul_of_nonneg_left (level_le hu hb hε hG (by omega)) (by linarith))
      rw [e1]
      simp only [Outcome.bind_ok, Outcome.pure_eq]
      by_cases hc : machineNotPrecise R precision v value
      · rw [if_pos hc]
        have := ih (m + 1) v (by omega) (by omega) (by omega) (e3.trans (error_mono hu hab hε hG (by omega)))
        push_cast at this
        rcases this with ⟨k, w, v', k1, k2, k3, k4, k5, k6, k7⟩ | ⟨k1, k2⟩
        · left
          refine ⟨k, w, v', by omega, k2, k3, k4, k5, k6, ?_⟩
          intro j hj1 hj2
          by_cases hj : j = m
          · subst hj; exact ⟨value, v, hv, e3, hc⟩
          · exact k7 j (by omega) hj2
        · right
          refine ⟨k1, ?_⟩
          intro j hj1 hj2
          by_cases hj : j = m
          · subst hj; exact ⟨value, v, hv, e3, hc⟩
          · exact k2 j (by omega) hj2
      · rw [if_neg hc]
        left
        exact ⟨m, value, v, le_refl _, by omega, rfl, hv, e3, hc, fun j hj1 hj2 => by omega⟩

theorem start_error (hu : 0 ≤ u) (hr : ∀ x, |R.rnd x - x| ≤ u * |x|) {f g : K → K} {a b ε G : K} (hab : a ≤ b)
    (hs : Spec.Samples u a b f g ε G) (order : Nat) (h1 : 3 ≤ order) (h2 : order < 31) :
    ∃ v, machineSimpson R f a b order = .ok v ∧ |v - Spec.rule g a b (2 ^ order)| ≤ Spec.adaptiveError u a b ε G order := by
  obtain ⟨hε, hG⟩ := samples_nonneg hu hab hs
  obtain ⟨v, e1, e2⟩ := direct_error hu hr hab hs order h1 h2
  refine ⟨v, e1, e2.trans ?_⟩
  unfold Spec.adaptiveError
  refine mul_le_mul_of_nonneg_left ?_ (by linarith)
  have g1 : (1 + u) ^ (2 ^ order + 1) ≤ (1 + u) ^ (2 ^ order + 5) := pow_le_pow_right₀ (by linarith) (by omega)
  have g2 : 0 ≤ (1 + u) ^ (2 ^ order + 1) - 1 := by linarith [one_le_pow_u hu (2 ^ order + 1)]
  have g3 := mul_le_mul_of_nonneg_right g1 (add_nonneg hG hε)
  have g4 := mul_nonneg g2 (add_nonneg hG hε)
  linarith

/-- **C166 (result).** A result is, up to the rounding errors, the rule for the last order, and up to these and to two roundings the last two orders agree within the precision. -/
theorem C166_result (hu : 0 ≤ u) (hb : (1 + u) ^ Spec.mostRoundings ≤ 13 / 12) (hr : ∀ x, |R.rnd x - x| ≤ u * |x|) (f g : K → K) (a b ε G precision v : K) (hab : a ≤ b)
    (hs : Spec.Samples u a b f g ε G) (order : Int) (hv : machineAdaptive R precision order f a b = .ok v) :
    ∃ (k : Nat) (w : K), 3 ≤ order ∧ order ≤ k ∧ k + 1 < 31 ∧ |w - Spec.rule g a b (2 ^ k)| ≤ Spec.adaptiveError u a b ε G k ∧
      |v - Spec.rule g a b (2 ^ (k + 1))| ≤ Spec.adaptiveError u a b ε G k ∧ |v - w| * (1 - u) ^ 2 ≤ precision * |w| := by
  have hu1 : u < 1 := by
    have : (1 + u) ^ 1 ≤ (1 + u) ^ Spec.mostRoundings := pow_le_pow_right₀ (by linarith) ((by omega : 1 ≤ 2 ^ 0 + 5).trans (le_mostRoundings (by omega)))
    rw [pow_one] at this
    linarith
  rw [machineAdaptive] at hv
  by_cases h1 : order < 3
  · rw [machineSimpson, if_pos h1] at hv; cases hv
  by_cases h2 : order ≥ 31
  · rw [machineSimpson, if_neg h1, if_pos h2] at hv; cases hv
  obtain ⟨m, rfl⟩ := Int.eq_ofNat_of_zero_le (show 0 ≤ order by omega)
  obtain ⟨v0, e1, e2⟩ := start_error hu hr hab hs m (by omega) (by omega)
  rw [e1] at hv
  simp only [Outcome.bind_ok] at hv
  rcases machineLoop_spec (precision := precision) hu hb hr hab hs 31 m v0 (by omega) (by omega) (by omega) e2 with ⟨k, w, v', k1, k2, k3, k4, k5, k6, _⟩ | ⟨k1, _⟩
  · rw [k3] at hv
    injection hv with hv
    subst hv
    exact ⟨k, w, by omega, by omega, k2, k4, k5, machineNotPrecise_le hu1 hr k6⟩
  · rw [k1] at hv; cases hv

/-- **C166 (end).** The integration ends with a result at the latest when two successive orders agree so well that the rounding errors do not matter. -/
theorem C166_ends (hu : 0 ≤ u) (hb : (1 + u) ^ Spec.mostRoundings ≤ 13 / 12) (hr : ∀ x, |R.rnd x - x| ≤ u * |x|) (f g : K → K) (a b ε G precision : K) (hab : a ≤ b) (hp : 0 ≤ precision)
    (hs : Spec.Samples u a b f g ε G) (order k0 : Nat) (h3 : 3 ≤ order) (hk : order ≤ k0) (hk2 : k0 + 1 < 31)
    (hc : (|Spec.rule g a b (2 ^ (k0 + 1)) - Spec.rule g a b (2 ^ k0)| + 2 * Spec.adaptiveError u a b ε G k0) * (1 + u) ^ 2 ≤
      precision * (|Spec.rule g a b (2 ^ k0)| - Spec.adaptiveError u a b ε G k0)) :
    ∃ (v : K) (k : Nat), machineAdaptive R precision order f a b = .ok v ∧ order ≤ k ∧ k ≤ k0 ∧
      |v - Spec.rule g a b (2 ^ (k + 1))| ≤ Spec.adaptiveError u a b ε G k := by
  have key : ∀ w v, |w - Spec.rule g a b (2 ^ k0)| ≤ Spec.adaptiveError u a b ε G k0 → |v - Spec.rule g a b (2 ^ (k0 + 1))| ≤ Spec.adaptiveError u a b ε G k0 →
      ¬ machineNotPrecise R precision v w := by
    intro w v hw hv
    refine not_machineNotPrecise hu hr hp ?_
    generalize Spec.rule g a b (2 ^ k0) = s at *
    generalize Spec.rule g a b (2 ^ (k0 + 1)) = t at *
    have q1 := abs_add_le (v - t) (t - s)
    have q2 := abs_add_le (v - s) (s - w)
    rw [sub_add_sub_cancel] at q1 q2
    rw [abs_sub_comm s w] at q2
    have q3 := abs_sub_abs_le_abs_sub s w
    rw [abs_sub_comm s w] at q3
    calc _ ≤ (|t - s| + 2 * Spec.adaptiveError u a b ε G k0) * (1 + u) ^ 2 := mul_le_mul_of_nonneg_right (by linarith) (by positivity)
      _ ≤ _ := hc
      _ ≤ _ := mul_le_mul_of_nonneg_left (by linarith) hp
  rw [machineAdaptive]
  obtain ⟨v0, e1, e2⟩ := start_error hu hr hab hs order h3 (by omega)
  rw [e1]
  simp only [Outcome.bind_ok]
  rcases machineLoop_spec (precision := precision) hu hb hr hab hs 31 order v0 h3 (by omega) (by omega) e2 with ⟨k, w, v', k1, k2, k3, k4, k5, k6, k7⟩ | ⟨_, k1⟩
  · refine ⟨v', k, k3, k1, ?_, k5⟩
    by_contra hlt
    obtain ⟨w', v'', q1, q2, q3⟩ := k7 k0 hk (by omega)
    exact key w' v'' q1 q2 q3
  · obtain ⟨w', v'', q1, q2, q3⟩ := k1 k0 hk hk2
    exact absurd q3 (key w' v'' q1 q2)

end

/-- **C166 (orders).** Orders less than 3 are refused, and there is no other exception; orders greater than 29 have no result. -/
theorem C166_orders {K : Type} [Field K] [LinearOrder K] (R : Rounding K) (precision : K) (order : Int) (f : K → K) (a b : K) :
    ((∃ e, machineAdaptive R precision order f a b = .throw e) ↔ order < 3) ∧ (29 < order → machineAdaptive R precision order f a b = .ub) := by
  have ref : ∀ (m : Int) (v : K), 3 ≤ m → (m ≤ 29 → ∃ w, machineRefine R f a b v (m + 1) = .ok w) ∧ (29 < m → machineRefine R f a b v (m + 1) = .ub) := by
    intro m v h3
    refine ⟨fun h => ⟨_, by rw [machineRefine, if_neg (by omega), if_neg (by omega)]⟩, fun h => by rw [machineRefine, if_neg (by omega), if_pos (by omega)]⟩
  have loop : ∀ (fuel : Nat) (m : Int) (v : K), 3 ≤ m → ¬ ∃ e, machineLoop R f a b precision fuel m v = .throw e := by
    intro fuel
    induction fuel with
    | zero => rintro m v _ ⟨e, he⟩; cases he
    | succ fuel ih =>
      rintro m v h3 ⟨e, he⟩
      rw [machineLoop] at he
      by_cases h29 : m ≤ 29
      · obtain ⟨w, hw⟩ := (ref m v h3).1 h29
        rw [hw] at he
        simp only [Outcome.bind_ok, Outcome.pure_eq] at he
        by_cases hc : machineNotPrecise R precision w v
        · rw [if_pos hc] at he; exact ih (m + 1) w (by omega) ⟨e, he⟩
        · rw [if_neg hc] at he; cases he
      · rw [(ref m v h3).2 (by omega)] at he; cases he
  refine ⟨⟨?_, fun h => ⟨.elements, ?_⟩⟩, fun h => ?_⟩
  · rintro ⟨e, he⟩
    by_contra h3
    rw [machineAdaptive, machineSimpson, if_neg h3] at he
    by_cases h31 : order ≥ 31
    · rw [if_pos h31] at he; cases he
    · rw [if_neg h31] at he
      exact loop _ _ _ (by omega) ⟨e, he⟩
  · rw [machineAdaptive, machineSimpson, if_pos h]; rfl
  · rw [machineAdaptive, machineSimpson, if_neg (by omega)]
    by_cases h31 : order ≥ 31
    · rw [if_pos h31]; rfl
    · rw [if_neg h31]
      simp only [Outcome.bind_ok]
      rw [machineLoop, (ref order _ (by omega)).2 h]
      rfl

/-- Doubles: the square from 0 to 1, computed with a rounded product. -/
example : Spec.Samples (1 / 2 ^ 53 : ℚ) 0 1 (fun x => Binary.rnd 53 (x * x)) (fun x => x * x) (1 / 2 ^ 40) 1 ∧
    ∃ v : ℚ, machineAdaptive (Binary.rounding 53 (by decide)) (1 / 10 ^ 7) 3 (fun x => Binary.rnd 53 (x * x)) 0 1 = .ok v ∧ |v - 1 / 3| ≤ 1 / 2 ^ 39 := by
  have hs : Spec.Samples (1 / 2 ^ 53 : ℚ) 0 1 (fun x => Binary.rnd 53 (x * x)) (fun x => x * x) (1 / 2 ^ 40) 1 := by
    constructor
    · intro x h0 h1
      rw [abs_of_nonneg (mul_nonneg h0 h0)]
      nlinarith
    · intro x y h0 h1 hxy
      have hd : Spec.displacement (1 / 2 ^ 53 : ℚ) 0 1 ≤ 1 / 2 ^ 45 := by unfold Spec.displacement; norm_num
      have h2 := hxy.trans hd
      obtain ⟨h3, h4⟩ := abs_le.mp h2
      have h5 := Binary.rnd_err 53 (y * y)
      have h6 : |y * y| ≤ 4 := by
        have : (1 : ℚ) / 2 ^ 45 ≤ 1 := by norm_num
        rw [abs_of_nonneg (mul_self_nonneg y)]
        nlinarith
      have h7 : |y * y - x * x| ≤ 1 / 2 ^ 45 * 3 := by
        rw [show y * y - x * x = (y - x) * (y + x) by ring, abs_mul]
        have : (1 : ℚ) / 2 ^ 45 ≤ 1 / 2 := by norm_num
        have h8 : |y + x| ≤ 3 := abs_le.mpr ⟨by linarith, by linarith⟩
        exact mul_le_mul h2 h8 (abs_nonneg _) (by norm_num)
      have h9 := abs_add_le (Binary.rnd 53 (y * y) - y * y) (y * y - x * x)
      rw [sub_add_sub_cancel] at h9
      show |Binary.rnd 53 (y * y) - x * x| ≤ _
      rw [abs_of_nonneg (mul_self_nonneg y)] at h6
      norm_num at h5 h6 h7 ⊢
      linarith
  refine ⟨hs, ?_⟩
  have hr : ∀ x : ℚ, |(Binary.rounding 53 (by decide)).rnd x - x| ≤ (1 / 2 ^ 53) * |x| := fun x => by
    have := Binary.rnd_err 53 x
    rw [mul_comm, one_div_pow] at this
    exact this
  have rule : ∀ k, 3 ≤ k → k < 31 → Spec.rule (fun x : ℚ => x * x) 0 1 (2 ^ k) = 1 / 3 := by
    intro k h3 h31
    have h := C41_cubic (0 : ℚ) 0 1 0 0 1 k h3 h31
    rw [C41_rule _ _ _ k h3 h31] at h
    injection h with h
    have e : (fun x : ℚ => (0 : ℚ) + 0 * x + 1 * x ^ 2 + 0 * x ^ 3) = fun x => x * x := by funext x; ring
    rw [e] at h
    rw [h]; norm_num
  have bern : ∀ n : Nat, (n : ℚ) ≤ 2 ^ 49 → (1 + 1 / 2 ^ 53 : ℚ) ^ n ≤ 13 / 12 := by
    intro n hn
    have h1 : 1 + (n : ℚ) * (-(1 / 2 ^ 53)) ≤ (1 + -(1 / 2 ^ 53)) ^ n := one_add_mul_le_pow (by norm_num) n
    have h2 : (1 + 1 / 2 ^ 53 : ℚ) ^ n * (1 + -(1 / 2 ^ 53)) ^ n ≤ 1 := by
      rw [← mul_pow]
      exact pow_le_one₀ (by norm_num) (by norm_num)
    have h3 : (12 / 13 : ℚ) ≤ (1 + -(1 / 2 ^ 53)) ^ n := by
      refine le_trans ?_ h1
      norm_num at hn ⊢
      have : (n : ℚ) ≤ 562949953421312 := by exact_mod_cast hn
      linarith
    have h4 : (0 : ℚ) ≤ (1 + 1 / 2 ^ 53) ^ n := by positivity
    have h5 := (mul_le_mul_of_nonneg_left h3 h4).trans h2
    linarith
  have hb := bern Spec.mostRoundings (by unfold Spec.mostRoundings; norm_num)
  have err : Spec.adaptiveError (1 / 2 ^ 53 : ℚ) 0 1 (1 / 2 ^ 40) 1 3 ≤ 1 / 2 ^ 39 := by unfold Spec.adaptiveError; norm_num
  obtain ⟨v, k, h1, h2, h3, h4⟩ := C166_ends (by norm_num) hb hr (fun x => Binary.rnd 53 (x * x)) (fun x => x * x) 0 1 (1 / 2 ^ 40) 1 (1 / 10 ^ 7) (by norm_num) (by norm_num) hs 3 3 le_rfl le_rfl
    (by norm_num) (by
      rw [rule 3 le_rfl (by norm_num), rule (3 + 1) (by norm_num) (by norm_num)]
      generalize Spec.adaptiveError (1 / 2 ^ 53 : ℚ) 0 1 (1 / 2 ^ 40) 1 3 = E at err
      norm_num at err ⊢
      linarith)
  have hk : k = 3 := by omega
  subst hk
  rw [rule (3 + 1) (by norm_num) (by norm_num)] at h4
  exact ⟨v, by exact_mod_cast h1, h4.trans err⟩

end Alexandria.MathUtils
