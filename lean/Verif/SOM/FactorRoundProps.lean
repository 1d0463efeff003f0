import Verif.SOM.FactorRoundModel
import Verif.SOM.RoundProps

/-! # C175: the factors of a training in floating point arithmetic -/

namespace Alexandria.SOM

/-! ## Specification -/

namespace Spec

/-- What is assumed of the exponential function of the library on numbers that are not positive. -/
def ExpLike {K : Type} [Field K] [LinearOrder K] (exp : K → K) : Prop := exp 0 = 1 ∧ ∀ x, x ≤ 0 → 0 ≤ exp x ∧ exp x ≤ 1

/-- It does not decrease. -/
def ExpMono {K : Type} [Field K] [LinearOrder K] (exp : K → K) : Prop := ∀ x y, x ≤ y → y ≤ 0 → exp x ≤ exp y

/-- The number of cells between two coordinates. -/
def gap (a b : Nat) : Nat := (a - b) + (b - a)

/-- The cell `c'` is at least as far from `b` as `c`, in both directions. -/
def Farther (b c c' : Nat × Nat) : Prop := gap b.1 c.1 ≤ gap b.1 c'.1 ∧ gap b.2 c.2 ≤ gap b.2 c'.2

end Spec

/-! ## Lemmas -/

section
variable {K : Type} [Field K] [LinearOrder K] [IsStrictOrderedRing K] {R : Rounding K}

theorem linearR_eq {i n : Nat} (hi : i ≤ n) (h0 : 0 < n) (hn : n < 2 ^ 64) : linearR R i n = R.rnd (R.rnd ((n - i : Nat) : K) / R.rnd (n : K)) := by
  unfold linearR
  rw [one_mul, R.idem]
  by_cases h : i = 0
  · subst h
    rw [Nat.sub_zero, Nat.sub_zero, Nat.add_mod_right, Nat.mod_eq_of_lt hn]
  · rw [show n + 2 ^ 64 - i = n - i + 2 ^ 64 by omega, Nat.add_mod_right, Nat.mod_eq_of_lt (by omega)]

theorem rnd_natCast_ge_one (h1 : R.rnd (1 : K) = 1) {n : Nat} (h0 : 0 < n) : 1 ≤ R.rnd (n : K) :=
  R.fix_le (by exact_mod_cast h0) h1

theorem gaussR_range (exp : K → K) (he : Spec.ExpLike exp) (mult sigma : K) (b c : Nat × Nat) : 0 ≤ gaussR R exp mult sigma b c ∧ gaussR R exp mult sigma b c ≤ 1 := by
  unfold gaussR
  simp only
  split
  · apply he.2
    rw [← R.zero]
    apply R.mono
    apply div_nonpos_of_nonpos_of_nonneg
    · have : R.rnd (-1 * R.rnd (R.rnd (R.rnd (R.rnd (b.1 : K) - R.rnd (c.1 : K)) * R.rnd (R.rnd (b.1 : K) - R.rnd (c.1 : K))) +
          R.rnd (R.rnd (R.rnd (b.2 : K) - R.rnd (c.2 : K)) * R.rnd (R.rnd (b.2 : K) - R.rnd (c.2 : K))))) ≤ R.rnd 0 := by
        apply R.mono
        rw [neg_one_mul, neg_nonpos]
        exact R.nonneg (add_nonneg (R.nonneg (mul_self_nonneg _)) (R.nonneg (mul_self_nonneg _)))
      rwa [R.zero] at this
    · exact R.nonneg (mul_nonneg (by norm_num) (R.nonneg (mul_self_nonneg _)))
  · exact ⟨le_refl _, zero_le_one⟩

theorem square_gap {a b a' : Nat} (h : Spec.gap a b ≤ Spec.gap a a') (hb : ∀ k ≤ max a (max b a'), R.rnd ((k : Nat) : K) = k) :
    R.rnd (R.rnd (R.rnd (a : K) - R.rnd (b : K)) * R.rnd (R.rnd (a : K) - R.rnd (b : K))) ≤ R.rnd (R.rnd (R.rnd (a : K) - R.rnd (a' : K)) * R.rnd (R.rnd (a : K) - R.rnd (a' : K))) := by
  have key : ∀ c ≤ max a (max b a'), R.rnd (R.rnd (a : K) - R.rnd (c : K)) * R.rnd (R.rnd (a : K) - R.rnd (c : K)) = ((Spec.gap a c : Nat) : K) * (Spec.gap a c : Nat) := by
    intro c hc
    rw [hb a (by omega), hb c hc]
    rcases Nat.le_total a c with h | h
    · have e : (a : K) - c = -((c - a : Nat) : K) := by rw [Nat.cast_sub h]; ring
      have e2 : Spec.gap a c = c - a := by unfold Spec.gap; omega
      rw [e, R.neg, hb (c - a) (by omega), e2]; ring
    · have e : (a : K) - c = ((a - c : Nat) : K) := by rw [Nat.cast_sub h]
      have e2 : Spec.gap a c = a - c := by unfold Spec.gap; omega
      rw [e, hb (a - c) (by omega), e2]
  rw [key b (by omega), key a' (by omega)]
  apply R.mono
  have : ((Spec.gap a b : Nat) : K) ≤ (Spec.gap a a' : Nat) := by exact_mod_cast h
  exact mul_self_le_mul_self (Nat.cast_nonneg _) this

/-! ## Theorems: restraint functions -/

/-- **C175 (linear restraint).** However the operations are rounded, the factor is 1 in the first iteration, between 0 and 1 in all of them, and does not increase. -/
theorem C175_linear (R : Rounding K) (h1 : R.rnd (1 : K) = 1) {n : Nat} (h0 : 0 < n) (hn : n < 2 ^ 64) :
    linearR R 0 n = 1 ∧ (∀ i ≤ n, 0 ≤ linearR R i n ∧ linearR R i n ≤ 1) ∧ ∀ i j, i ≤ j → j ≤ n → linearR R j n ≤ linearR R i n := by
  have hpos : (0 : K) < R.rnd (n : K) := lt_of_lt_of_le zero_lt_one (rnd_natCast_ge_one h1 h0)
  have hmono : ∀ i j, i ≤ j → j ≤ n → linearR R j n ≤ linearR R i n := by
    intro i j hij hj
    rw [linearR_eq hj h0 hn, linearR_eq (hij.trans hj) h0 hn]
    apply R.mono
    apply div_le_div_of_nonneg_right _ hpos.le
    apply R.mono
    exact_mod_cast Nat.sub_le_sub_left hij n
  have hone : linearR R 0 n = 1 := by
    rw [linearR_eq (Nat.zero_le n) h0 hn, Nat.sub_zero, div_self (ne_of_gt hpos), h1]
  refine ⟨hone, fun i hi => ⟨?_, ?_⟩, hmono⟩
  · rw [linearR_eq hi h0 hn]
    exact R.nonneg (div_nonneg (R.nonneg (Nat.cast_nonneg _)) hpos.le)
  · rw [← hone]; exact hmono 0 i (Nat.zero_le i) hi

/-- **C175 (exponential restraint).** With a rate between 0 and 1, the factor is the rate in the first iteration and between 0 and the rate in all of them; it does not increase
if the exponential function of the library does not decrease. -/
theorem C175_exponential (R : Rounding K) (h1 : R.rnd (1 : K) = 1) (exp : K → K) (he : Spec.ExpLike exp) (rate : K) (hr : 0 ≤ rate) (hr2 : R.rnd rate = rate) {n : Nat} (h0 : 0 < n) :
    exponentialDecayR R exp rate 0 n = rate ∧ (∀ i, 0 ≤ exponentialDecayR R exp rate i n ∧ exponentialDecayR R exp rate i n ≤ rate) ∧
    (Spec.ExpMono exp → ∀ i j, i ≤ j → exponentialDecayR R exp rate j n ≤ exponentialDecayR R exp rate i n) := by
  have hpos : (0 : K) < R.rnd (n : K) := lt_of_lt_of_le zero_lt_one (rnd_natCast_ge_one h1 h0)
  have harg : ∀ i j : Nat, i ≤ j → R.rnd (R.rnd (-1 * R.rnd (j : K)) / R.rnd (n : K)) ≤ R.rnd (R.rnd (-1 * R.rnd (i : K)) / R.rnd (n : K)) := by
    intro i j hij
    apply R.mono
    apply div_le_div_of_nonneg_right _ hpos.le
    apply R.mono
    rw [neg_one_mul, neg_one_mul, neg_le_neg_iff]
    apply R.mono
    exact_mod_cast hij
  have hzero : R.rnd (R.rnd (-1 * R.rnd ((0 : Nat) : K)) / R.rnd (n : K)) = 0 := by
    rw [Nat.cast_zero, R.zero, mul_zero, R.zero, zero_div, R.zero]
  have hneg : ∀ i : Nat, R.rnd (R.rnd (-1 * R.rnd (i : K)) / R.rnd (n : K)) ≤ 0 := by
    intro i
    have := harg 0 i (Nat.zero_le i)
    rwa [hzero] at this
  refine ⟨?_, fun i => ?_, fun hm i j hij => ?_⟩
  · unfold exponentialDecayR
    rw [hzero, he.1, mul_one, hr2]
  · obtain ⟨a1, a2⟩ := he.2 _ (hneg i)
    unfold exponentialDecayR
    exact ⟨R.nonneg (mul_nonneg hr a1), R.le_fix (mul_le_of_le_one_right hr a2) hr2⟩
  · unfold exponentialDecayR
    exact R.mono _ _ (mul_le_mul_of_nonneg_left (hm _ _ (harg i j hij) (hneg i)) hr)

/-! ## Theorems: neighbourhood functions -/

/-- **C175 (disk).** The factor of the disk is 0 or 1, and a cell that is outside the disk stays outside in the later iterations. -/
theorem C175_disk (R : Rounding K) (h1 : R.rnd (1 : K) = 1) (radius : K) (b c : Nat × Nat) {n : Nat} (h0 : 0 < n) (hn : n < 2 ^ 64) :
    (∀ i, linearUnitDiskR R radius b c i n = 0 ∨ linearUnitDiskR R radius b c i n = 1) ∧
    ∀ i j, i ≤ j → j ≤ n → linearUnitDiskR R radius b c i n = 0 → linearUnitDiskR R radius b c j n = 0 := by
  constructor
  · intro i
    unfold linearUnitDiskR
    simp only
    split
    · exact .inr rfl
    · exact .inl rfl
  · intro i j hij hj h
    obtain ⟨_, hr, hm⟩ := C175_linear R h1 h0 hn
    have hf := hm i j hij hj
    have hf0 := (hr j hj).1
    have e : ∀ i, linearUnitDiskR R radius b c i n = if R.rnd (R.rnd (R.rnd (((b.1 + 2 ^ 64 - c.1) % 2 ^ 64 : Nat) : K) * R.rnd (((b.1 + 2 ^ 64 - c.1) % 2 ^ 64 : Nat) : K)) +
        R.rnd (R.rnd (((b.2 + 2 ^ 64 - c.2) % 2 ^ 64 : Nat) : K) * R.rnd (((b.2 + 2 ^ 64 - c.2) % 2 ^ 64 : Nat) : K))) <
        R.rnd (R.rnd (radius * radius) * R.rnd (linearR R i n * linearR R i n)) then 1 else 0 := fun i => rfl
    rw [e] at h ⊢
    generalize R.rnd (R.rnd (R.rnd (((b.1 + 2 ^ 64 - c.1) % 2 ^ 64 : Nat) : K) * R.rnd (((b.1 + 2 ^ 64 - c.1) % 2 ^ 64 : Nat) : K)) +
        R.rnd (R.rnd (((b.2 + 2 ^ 64 - c.2) % 2 ^ 64 : Nat) : K) * R.rnd (((b.2 + 2 ^ 64 - c.2) % 2 ^ 64 : Nat) : K))) = d at h
    have h2 : ¬ d < R.rnd (R.rnd (radius * radius) * R.rnd (linearR R i n * linearR R i n)) := by
      intro hc
      rw [if_pos hc] at h
      exact one_ne_zero h
    rw [if_neg]
    intro hc
    refine h2 (lt_of_lt_of_le hc (R.mono _ _ (mul_le_mul_of_nonneg_left (R.mono _ _ (mul_self_le_mul_self hf0 hf)) (R.nonneg (mul_self_nonneg _)))))

/-- **C175 (Kohonen, values).** The values of a function object do not depend on the calls made before (with a positive number of iterations). -/
theorem C175_kohonen_calls (R : Rounding K) (exp log : K → K) (sx sy : Nat) (mult : K) (calls : List ((Nat × Nat) × (Nat × Nat) × Nat × Nat)) (hn : ∀ c ∈ calls, 0 < c.2.2.2) :
    kRunR R exp log sx sy mult (0, 0, 0) calls = calls.map fun c => kohonenR R exp log sx sy mult c.1 c.2.1 c.2.2.1 c.2.2.2 := by
  have gen : ∀ (calls : List ((Nat × Nat) × (Nat × Nat) × Nat × Nat)), (∀ c ∈ calls, 0 < c.2.2.2) → ∀ buf : Nat × Nat × K,
      (buf.2.1 ≠ 0 → buf.2.2 = kSigmaR R exp log (R.rnd (R.rnd ((max sx sy : Nat) : K) / 2)) buf.1 buf.2.1) →
      kRunR R exp log sx sy mult buf calls = calls.map fun c => kohonenR R exp log sx sy mult c.1 c.2.1 c.2.2.1 c.2.2.2 := by
    intro calls
    induction calls with
    | nil => intro _ _ _; rfl
    | cons c cs ih =>
      intro hn buf hbuf
      obtain ⟨b, d, i, n⟩ := c
      have hnp := hn _ List.mem_cons_self
      simp only at hnp
      have hb2 : ∀ buf : Nat × Nat × K, (buf.2.1 ≠ 0 → buf.2.2 = kSigmaR R exp log (R.rnd (R.rnd ((max sx sy : Nat) : K) / 2)) buf.1 buf.2.1) →
          (if buf.1 ≠ i ∨ buf.2.1 ≠ n then ((i, n, kSigmaR R exp log (R.rnd (R.rnd ((max sx sy : Nat) : K) / 2)) i n) : Nat × Nat × K) else buf) =
          (i, n, kSigmaR R exp log (R.rnd (R.rnd ((max sx sy : Nat) : K) / 2)) i n) := by
        intro buf hbuf
        by_cases h : buf.1 ≠ i ∨ buf.2.1 ≠ n
        · rw [if_pos h]
        · rw [if_neg h]
          rw [not_or, not_not, not_not] at h
          obtain ⟨b1, b2, b3⟩ := buf
          simp only at h hbuf ⊢
          obtain ⟨rfl, rfl⟩ := h
          rw [hbuf (by omega)]
      rw [kRunR, List.map_cons]
      simp only [kohonenCallR, kohonenR, hb2 buf hbuf, hb2 (0, 0, 0) (by intro h; exact absurd rfl h)]
      rw [ih (fun c hc => hn c (List.mem_cons_of_mem _ hc)) _ (by intro _; rfl)]
      rfl
  exact gen calls hn (0, 0, 0) (by intro h; exact absurd rfl h)

/-- **C175 (Kohonen, range).** The factor is between 0 and 1, whatever `sigma` has become and however the operations are rounded; at the best matching unit it is 1 or, if
`sigma` or the cutoff is 0, it is 0. -/
theorem C175_kohonen (R : Rounding K) (exp log : K → K) (he : Spec.ExpLike exp) (sx sy : Nat) (mult : K) (b c : Nat × Nat) (i n : Nat) :
    (0 ≤ kohonenR R exp log sx sy mult b c i n ∧ kohonenR R exp log sx sy mult b c i n ≤ 1) ∧
    (kohonenR R exp log sx sy mult b b i n = 1 ∨ kohonenR R exp log sx sy mult b b i n = 0) := by
  refine ⟨gaussR_range exp he _ _ _ _, ?_⟩
  unfold kohonenR kohonenCallR gaussR
  simp only [sub_self, R.zero, mul_zero, add_zero, zero_div, he.1]
  exact ite_eq_or_eq _ _ _

/-- **C175 (Kohonen, distance).** A cell that is farther away, in both directions, has no greater factor, if the coordinates are numbers that the floating point type has. -/
theorem C175_kohonen_farther (R : Rounding K) (exp log : K → K) (he : Spec.ExpLike exp) (hm : Spec.ExpMono exp) (sx sy : Nat) (mult : K) (b c c' : Nat × Nat) (i n N : Nat)
    (hN : ∀ k ≤ N, R.rnd ((k : Nat) : K) = k) (hb : b.1 ≤ N ∧ b.2 ≤ N) (hc : c.1 ≤ N ∧ c.2 ≤ N) (hc' : c'.1 ≤ N ∧ c'.2 ≤ N) (hf : Spec.Farther b c c') :
    kohonenR R exp log sx sy mult b c' i n ≤ kohonenR R exp log sx sy mult b c i n := by
  show gaussR R exp mult _ b c' ≤ gaussR R exp mult _ b c
  generalize hs : (if (0 : Nat) ≠ i ∨ (0 : Nat) ≠ n then ((i, n, kSigmaR R exp log (R.rnd (R.rnd ((max sx sy : Nat) : K) / 2)) i n) : Nat × Nat × K) else (0, 0, 0)).2.2 = sigma
  have hx := square_gap (R := R) hf.1 (fun k hk => hN k (by omega))
  have hy := square_gap (R := R) hf.2 (fun k hk => hN k (by omega))
  have hrange := gaussR_range (R := R) exp he mult sigma b c
  revert hrange
  unfold gaussR
  simp only
  have hd := R.mono _ _ (add_le_add hx hy)
  have hd0 : 0 ≤ R.rnd (R.rnd (R.rnd (R.rnd (b.1 : K) - R.rnd (c.1 : K)) * R.rnd (R.rnd (b.1 : K) - R.rnd (c.1 : K))) +
      R.rnd (R.rnd (R.rnd (b.2 : K) - R.rnd (c.2 : K)) * R.rnd (R.rnd (b.2 : K) - R.rnd (c.2 : K)))) := R.nonneg (add_nonneg (R.nonneg (mul_self_nonneg _)) (R.nonneg (mul_self_nonneg _)))
  generalize R.rnd (R.rnd (R.rnd (R.rnd (b.1 : K) - R.rnd (c.1 : K)) * R.rnd (R.rnd (b.1 : K) - R.rnd (c.1 : K))) +
      R.rnd (R.rnd (R.rnd (b.2 : K) - R.rnd (c.2 : K)) * R.rnd (R.rnd (b.2 : K) - R.rnd (c.2 : K)))) = d at hd hd0
  generalize R.rnd (R.rnd (R.rnd (R.rnd (b.1 : K) - R.rnd (c'.1 : K)) * R.rnd (R.rnd (b.1 : K) - R.rnd (c'.1 : K))) +
      R.rnd (R.rnd (R.rnd (b.2 : K) - R.rnd (c'.2 : K)) * R.rnd (R.rnd (b.2 : K) - R.rnd (c'.2 : K)))) = d' at hd
  have hs2 : 0 ≤ R.rnd (2 * R.rnd (sigma * sigma)) := R.nonneg (mul_nonneg (by norm_num) (R.nonneg (mul_self_nonneg _)))
  intro hrange
  by_cases h : d' < R.rnd (R.rnd (mult * mult) * R.rnd (sigma * sigma))
  · rw [if_pos h, if_pos (lt_of_le_of_lt hd h)]
    apply hm
    · apply R.mono
      apply div_le_div_of_nonneg_right _ hs2
      apply R.mono
      linarith
    · have : R.rnd (R.rnd (-1 * d) / R.rnd (2 * R.rnd (sigma * sigma))) ≤ R.rnd 0 := by
        apply R.mono
        apply div_nonpos_of_nonpos_of_nonneg _ hs2
        have := R.mono (-1 * d) 0 (by linarith)
        rwa [R.zero] at this
      rwa [R.zero] at this
  · rw [if_neg h]
    exact hrange.1

end

/-! ## Theorems: training with these functions -/

theorem rnd_one_binary (p : Nat) (hp : 1 ≤ p) : (Binary.rounding p hp).rnd 1 = 1 :=
  Binary.rnd_of_rep hp (x := 1) ⟨1, 0, by
    have : (2 : Int) ^ 1 ≤ 2 ^ p := pow_le_pow_right₀ (by norm_num) hp
    first | (simp; omega) | (norm_num; omega), by norm_num⟩

/-- **C175 (no iteration is lost).** With `p` bits the linear factor is not 0 in any iteration, so that every iteration of a training adapts the map. -/
theorem C175_linear_pos (p : Nat) (hp : 1 ≤ p) {i n : Nat} (hi : i < n) (hn : n < 2 ^ 64) : 0 < linearR (Binary.rounding p hp) i n := by
  have h1 := rnd_one_binary p hp
  rw [linearR_eq hi.le (by omega) hn]
  have a1 := rnd_natCast_ge_one (R := Binary.rounding p hp) h1 (show 0 < n - i by omega)
  have a2 := rnd_natCast_ge_one (R := Binary.rounding p hp) h1 (show 0 < n by omega)
  have : (0 : ℚ) < (Binary.rounding p hp).rnd ((n - i : Nat) : ℚ) / (Binary.rounding p hp).rnd (n : ℚ) := div_pos (by linarith) (by linarith)
  show 0 < Binary.rnd p _
  rw [Binary.rnd_of_pos this]
  exact Binary.rndPos_pos hp this

/-- **C175 (best matching unit).** With `p` bits, a cutoff that is not 0 and an exponential function with positive values, the best matching unit itself has the factor 1. -/
theorem C175_kohonen_bmu (p : Nat) (hp : 1 ≤ p) (exp log : ℚ → ℚ) (he : Spec.ExpLike exp) (hpos : ∀ x, 0 < exp x) (sx sy : Nat) (hs : 0 < max sx sy) (mult : ℚ) (hm : mult ≠ 0)
    (b : Nat × Nat) (i n : Nat) (hn : 0 < n) : kohonenR (Binary.rounding p hp) exp log sx sy mult b b i n = 1 := by
  have rpos : ∀ x : ℚ, 0 < x → 0 < (Binary.rounding p hp).rnd x := by
    intro x hx
    show 0 < Binary.rnd p x
    rw [Binary.rnd_of_pos hx]
    exact Binary.rndPos_pos hp hx
  have hinit : 0 < (Binary.rounding p hp).rnd ((Binary.rounding p hp).rnd ((max sx sy : Nat) : ℚ) / 2) := by
    apply rpos
    have := rpos ((max sx sy : Nat) : ℚ) (Nat.cast_pos.mpr hs)
    linarith
  have hsigma : 0 < kSigmaR (Binary.rounding p hp) exp log ((Binary.rounding p hp).rnd ((Binary.rounding p hp).rnd ((max sx sy : Nat) : ℚ) / 2)) i n := by
    unfold kSigmaR
    split
    · exact rpos _ (mul_pos hinit (hpos _))
    · exact rpos _ (mul_pos hinit (hpos _))
  unfold kohonenR kohonenCallR
  simp only
  rw [if_pos (show (0 : Nat) ≠ i ∨ (0 : Nat) ≠ n by omega)]
  unfold gaussR
  simp only [sub_self, (Binary.rounding p hp).zero, mul_zero, add_zero, zero_div, he.1]
  exact if_pos (rpos _ (mul_pos (rpos _ (mul_self_pos.mpr hm)) (rpos _ (mul_pos hsigma hsigma))))

/-- **C175 (training).** A training with the linear or the exponential restraint (rate at most 1) and the disk or the Kohonen neighbourhood, all computed with `p` bits, completes,
and if all weights and objects were between `-2ᵏ` and `2ᵏ`, so are the weights afterwards. -/
theorem C175_training (p : Nat) (hp : 2 ≤ p) {nd : Nat} (root exp log : ℚ → ℚ) (he : Spec.ExpLike exp) (big : ℚ) (neigh : Neigh ℚ) (learn : Nat → Nat → ℚ)
    (hneigh : (∃ radius, neigh = linearUnitDiskR (Binary.rounding p (by omega)) radius) ∨ ∃ sx sy mult, neigh = kohonenR (Binary.rounding p (by omega)) exp log sx sy mult)
    (hlearn : learn = linearR (Binary.rounding p (by omega)) ∨ ∃ rate, 0 ≤ rate ∧ rate ≤ 1 ∧ Binary.Rep p rate ∧ learn = exponentialDecayR (Binary.rounding p (by omega)) exp rate)
    (n : Nat) (hn : n < 2 ^ 64) (samples : Nat → List (Fin nd → ℚ)) (k : Int) (m : Map nd ℚ) (hw : m.WF) (hx : 0 < m.sx) (hy : 0 < m.sy)
    (hm : ∀ w ∈ m.cells, ∀ j, |w j| ≤ 2 ^ k) (hs : ∀ i < n, ∀ s ∈ samples i, ∀ j, |s j| ≤ 2 ^ k) :
    ∃ m', machineTrain (Binary.rounding p (by omega)) root big neigh learn n samples m = .ok m' ∧ m'.sx = m.sx ∧ m'.sy = m.sy ∧ m'.WF ∧ ∀ w ∈ m'.cells, ∀ j, |w j| ≤ 2 ^ k := by
  have h1 := rnd_one_binary p (by omega)
  refine C124_range p hp root big neigh learn n samples ?_ ?_ k m hw hx hy hm hs
  · intro b c i hi
    rcases hneigh with ⟨radius, rfl⟩ | ⟨sx, sy, mult, rfl⟩
    · rcases (C175_disk (Binary.rounding p (by omega)) h1 radius b c (show 0 < n by omega) hn).1 i with h | h
      · rw [h]; exact ⟨le_refl _, zero_le_one⟩
      · rw [h]; exact ⟨zero_le_one, le_refl _⟩
    · exact (C175_kohonen _ exp log he sx sy mult b c i n).1
  · intro i hi
    rcases hlearn with rfl | ⟨rate, hr0, hr1, hr2, rfl⟩
    · exact (C175_linear (Binary.rounding p (by omega)) h1 (show 0 < n by omega) hn).2.1 i hi.le
    · obtain ⟨a1, a2⟩ := (C175_exponential (Binary.rounding p (by omega)) h1 exp he rate hr0 (Binary.rnd_of_rep (by omega) hr2) (show 0 < n by omega)).2.1 i
      exact ⟨a1, a2.trans hr1⟩

/-! ## Examples -/

/-- A function like the exponential: 1 / (1 - x). -/
example : Spec.ExpLike (fun x : ℚ => 1 / (1 - x)) ∧ Spec.ExpMono (fun x : ℚ => 1 / (1 - x)) := by
  refine ⟨⟨by norm_num, fun x hx => ⟨by apply div_nonneg <;> linarith, ?_⟩⟩, fun x y hxy hy => ?_⟩
  · rw [div_le_one (by linarith)]; linarith
  · exact one_div_le_one_div_of_le (by linarith) (by linarith)

/-- One with positive values everywhere. -/
example : Spec.ExpLike (fun x : ℚ => if x ≤ 0 then 1 / (1 - x) else 1 + x) ∧ ∀ x : ℚ, 0 < (fun x : ℚ => if x ≤ 0 then 1 / (1 - x) else 1 + x) x := by
  refine ⟨⟨by norm_num, fun x hx => ?_⟩, fun x => ?_⟩
  · simp only [if_pos hx]
    exact ⟨by apply div_nonneg <;> linarith, by rw [div_le_one (by linarith)]; linarith⟩
  · by_cases hx : x ≤ 0
    · simp only [if_pos hx]
      apply div_pos <;> linarith
    · simp only [if_neg hx]
      linarith

example : linearR (Binary.rounding 53 (by decide)) 1 3 = 6004799503160661 / 9007199254740992 ∧ linearR (Binary.rounding 53 (by decide)) 2 3 < 1 / 3 := by
  decide +kernel

/-- In iteration 0 of 2 the cell (0, 1) is in the disk of radius 2 around (1, 1), in iteration 1 it is not; the cell (2, 1) never is, because of the wrapped difference. -/
example : linearUnitDiskR (Binary.rounding 53 (by decide)) 2 (1, 1) (0, 1) 0 2 = 1 ∧ linearUnitDiskR (Binary.rounding 53 (by decide)) 2 (1, 1) (0, 1) 1 2 = 0 ∧
    linearUnitDiskR (Binary.rounding 53 (by decide)) 2 (1, 1) (2, 1) 0 2 = 0 := by
  decide +kernel

example : Spec.Farther (3, 3) (2, 4) (5, 1) := by unfold Spec.Farther; decide

example : kohonenR (Binary.rounding 53 (by decide)) (fun x => 1 / (1 - x)) (fun x => x - 1) 4 4 3 (1, 1) (1, 1) 0 2 = 1 ∧
    kohonenR (Binary.rounding 53 (by decide)) (fun x => 1 / (1 - x)) (fun x => x - 1) 4 4 3 (1, 1) (3, 1) 0 2 = 2 / 3 ∧
    kohonenR (Binary.rounding 53 (by decide)) (fun x => 1 / (1 - x)) (fun x => x - 1) 4 4 3 (1, 1) (3, 1) 1 2 < 1 / 2 ∧
    kohonenR (Binary.rounding 53 (by decide)) (fun x => 1 / (1 - x)) (fun x => x - 1) 2 2 3 (1, 1) (0, 0) 1 2 = 1 / 2 := by
  decide +kernel

end Alexandria.SOM
