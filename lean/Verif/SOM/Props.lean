import Verif.SOM.Lemmas
import Mathlib.Data.Rat.Cast.Order
import Mathlib.Data.List.Nodup
import Mathlib.Data.List.GetD
import Mathlib.Algebra.BigOperators.Group.List.Basic
import Mathlib.Algebra.Order.Ring.Rat
import Mathlib.Algebra.BigOperators.Field

/-! # Properties of the self organizing map (C55-C59, C79-C82) -/

namespace Alexandria.SOM

/-! ## C55: the best matching unit -/

section C55
variable {nd : Nat} {K : Type} [LinearOrder K]

/-- On every map with cells whose distances do not exceed the largest double, `findBMU` reports the best matching unit. -/
theorem C55_bmu (m : Map nd K) (hw : m.WF) (hx : 0 < m.sx) (hy : 0 < m.sy) (dist : (Fin nd → K) → K) (big : K)
    (hbig : ∀ w ∈ m.cells, dist w ≤ big) (wt : Nat → Nat → Fin nd → K)
    (hwt : ∀ x y, x < m.sx → y < m.sy → m.at x y = .ok (wt x y)) :
    ∃ x y d, findBMU m dist big = .ok (x, y, d) ∧ Spec.IsBMU m.sx m.sy (fun x y => dist (wt x y)) x y d := by
  have hpos : 0 < m.sx * m.sy := Nat.mul_pos hx hy
  have hcell : ∀ x y, x < m.sx → y < m.sy → m.cells[x + y * m.sx]? = some (wt x y) := by
    intro x y h1 h2
    obtain ⟨w, h3, h4⟩ := at_eq hw h1 h2
    rw [hwt x y h1 h2, Outcome.ok.injEq] at h4
    rw [h3, h4]
  have hmem : ∀ x y, x < m.sx → y < m.sy → wt x y ∈ m.cells := fun x y h1 h2 => List.mem_of_getElem? (hcell x y h1 h2)
  unfold findBMU
  rw [if_neg (by omega)]
  rcases bmuLoop_spec dist m.cells 0 0 big with ⟨hr, hall⟩ | ⟨k, w, hk, hr, _, hall, hf⟩
  · rw [hr]
    have h0 := coords_of hx hy
    simp only [Nat.zero_mul, Nat.zero_add] at h0
    refine ⟨_, _, _, rfl, ?_⟩
    rw [h0]
    have hd : big = dist (wt 0 0) := le_antisymm (hall _ (hmem 0 0 hx hy)) (hbig _ (hmem 0 0 hx hy))
    refine ⟨hx, hy, hd, fun x' y' h1 h2 => hall _ (hmem x' y' h1 h2), ?_⟩
    intro x' y' _ _ h
    simp at h
  · rw [hr]
    have hk' : k < m.sx * m.sy := by rw [← hw]; exact (List.getElem?_eq_some_iff.mp hk).1
    simp only [Nat.zero_add]
    obtain ⟨hc1, hc2⟩ := coords_lt hk'
    have hci := coords_index hk'
    refine ⟨_, _, _, rfl, hc1, hc2, ?_, fun x' y' h1 h2 => hall _ (hmem x' y' h1 h2), ?_⟩
    · have := hcell _ _ hc1 hc2
      rw [hci, hk, Option.some.injEq] at this
      simp only [this]
    · intro x' y' h1 h2 hlt
      refine hf (x' + y' * m.sx) _ ?_ (hcell x' y' h1 h2)
      rw [← hci]
      rcases hlt with h | ⟨h, h'⟩
      · have : (y' + 1) * m.sx ≤ (coords m.sx m.sy k).2 * m.sx := Nat.mul_le_mul_right _ h
        rw [Nat.add_mul, Nat.one_mul] at this
        omega
      · rw [h]; omega

/-- When every distance exceeds the largest double (an overflow), the first cell is reported with a distance that is not its own. -/
theorem C55_overflow (m : Map nd K) (hx : 0 < m.sx) (hy : 0 < m.sy) (dist : (Fin nd → K) → K) (big : K)
    (h : ∀ w ∈ m.cells, big < dist w) : findBMU m dist big = .ok (0, 0, big) := by
  have hpos : 0 < m.sx * m.sy := Nat.mul_pos hx hy
  unfold findBMU
  rw [if_neg (by omega)]
  rcases bmuLoop_spec dist m.cells 0 0 big with ⟨hr, _⟩ | ⟨k, w, hk, _, hlt, _⟩
  · rw [hr]; simp [coords]
  · exact absurd hlt (not_lt.mpr (le_of_lt (h w (List.mem_of_getElem? hk))))

/-- A map without cells has no best matching unit. -/
theorem C55_empty (m : Map nd K) (h : m.sx = 0 ∨ m.sy = 0) (dist : (Fin nd → K) → K) (big : K) : findBMU m dist big = .ub := by
  unfold findBMU
  rw [if_pos]
  rcases h with h | h <;> simp [h]

end C55

/-- With the shipped distance the reported cell minimises the sum of the squared differences. -/
theorem C55_l2 {nd : Nat} (s w w' : Fin nd → ℝ) :
    l2 w s ≤ l2 w' s ↔ (∑ i, (w i - s i) ^ 2) ≤ ∑ i, (w' i - s i) ^ 2 := by
  have h : ∀ v : Fin nd → ℝ, l2 v s = Real.sqrt (∑ i, (v i - s i) ^ 2) := by
    intro v; unfold l2; congr 1; refine Finset.sum_congr rfl fun i _ => by ring
  rw [h, h]
  exact Real.sqrt_le_sqrt_iff (Finset.sum_nonneg fun i _ => sq_nonneg _)

/-- The uncertainty-weighted distance with equal positive uncertainties orders the cells as the plain one. -/
theorem C55_l2_equal_uncertainties {nd : Nat} (s w w' unc : Fin nd → ℝ) (u : ℝ) (hu : 0 < u) (h : ∀ i, unc i = u) :
    l2u w s unc ≤ l2u w' s unc ↔ l2 w s ≤ l2 w' s := by
  have h2 : ∀ v : Fin nd → ℝ, l2u v s unc = Real.sqrt ((∑ i, (v i - s i) ^ 2) / (u * u)) := by
    intro v; unfold l2u; congr 1; rw [Finset.sum_div]; refine Finset.sum_congr rfl fun i _ => by rw [h]; ring
  rw [C55_l2, h2, h2, Real.sqrt_le_sqrt_iff (div_nonneg (Finset.sum_nonneg fun i _ => sq_nonneg _) (by positivity))]
  exact div_le_div_iff_of_pos_right (by positivity)

example : findBMU (K := ℚ) (nd := 1) ⟨2, 2, [![4], ![1], ![3], ![1]]⟩ (fun w => |w 0 - 1|) 100 = .ok (1, 0, 0) := by
  decide +kernel
example : (⟨2, 2, [![4], ![1], ![3], ![1]]⟩ : Map 1 ℚ).WF := rfl

/-! ## C56: training -/

section C56
variable {nd : Nat} {K : Type} [Field K] [LinearOrder K] [IsStrictOrderedRing K]

/-- One update: with factors in `[0,1]` every component moves towards the sample by the fraction `nf * lf`, and stays between the
old weight and the sample. -/
theorem C56_step (nf lf : K) (hn : 0 ≤ nf ∧ nf ≤ 1) (hl : 0 ≤ lf ∧ lf ≤ 1) (s w : Fin nd → K) (j : Fin nd) :
    updateCell nf lf s w j - s j = (1 - nf * lf) * (w j - s j) ∧ min (w j) (s j) ≤ updateCell nf lf s w j ∧
      updateCell nf lf s w j ≤ max (w j) (s j) := by
  have h1 : 0 ≤ nf * lf := mul_nonneg hn.1 hl.1
  have h2 : nf * lf ≤ 1 := mul_le_one₀ hn.2 hl.1 hl.2
  have he : updateCell nf lf s w j = w j + nf * lf * (s j - w j) := by
    unfold updateCell
    split
    · rfl
    · rename_i h; simp only [ne_eq, not_not] at h; rw [h]; ring
  rw [he]
  refine ⟨by ring, ?_, ?_⟩
  · rcases le_total (w j) (s j) with h | h
    · rw [min_eq_left h]; have := mul_nonneg h1 (sub_nonneg.mpr h); linarith
    · rw [min_eq_right h]
      have := mul_nonneg (sub_nonneg.mpr h2) (sub_nonneg.mpr h)
      have e : (1 - nf * lf) * (w j - s j) = w j + nf * lf * (s j - w j) - s j := by ring
      linarith
  · rcases le_total (w j) (s j) with h | h
    · rw [max_eq_right h]
      have := mul_nonneg (sub_nonneg.mpr h2) (sub_nonneg.mpr h)
      have e : (1 - nf * lf) * (s j - w j) = s j - (w j + nf * lf * (s j - w j)) := by ring
      linarith
    · rw [max_eq_left h]
      have := mul_nonneg h1 (sub_nonneg.mpr h)
      have e : nf * lf * (w j - s j) = -(nf * lf * (s j - w j)) := by ring
      linarith

/-- After any training with factors in `[0,1]` every weight vector lies in every convex set that contains the initial weight vectors
and the samples; in particular in their convex hull. -/
theorem C56_hull (dist : (Fin nd → K) → (Fin nd → K) → K) (big : K) (neigh : Neigh K) (learn : Nat → Nat → K) (n : Nat)
    (samples : Nat → List (Fin nd → K)) (hn : ∀ b c i, i < n → 0 ≤ neigh b c i n ∧ neigh b c i n ≤ 1)
    (hl : ∀ i, i < n → 0 ≤ learn i n ∧ learn i n ≤ 1) (S : Set (Fin nd → K)) (hS : Convex K S) (m m' : Map nd K)
    (hm : ∀ w ∈ m.cells, w ∈ S) (hs : ∀ i < n, ∀ s ∈ samples i, s ∈ S) (h : train dist big neigh learn n samples m = .ok m') :
    ∀ w ∈ m'.cells, w ∈ S := by
  refine train_induct (fun m => ∀ w ∈ m.cells, w ∈ S) ?_ hm h
  intro i m s m' hi _ hs' hP ht w hw
  obtain ⟨bx, by', d, _, rfl⟩ := trainSample_ok ht
  simp only [List.mem_mapIdx] at hw
  obtain ⟨k, hk, rfl⟩ := hw
  exact updateCell_mem hS (hn _ _ i hi) (hl i hi) (hs i hi s hs') (hP _ (List.getElem_mem _))

/-- Training keeps the size, and on maps with cells it always completes. -/
theorem C56_total (dist : (Fin nd → K) → (Fin nd → K) → K) (big : K) (neigh : Neigh K) (learn : Nat → Nat → K) (n : Nat)
    (samples : Nat → List (Fin nd → K)) (m : Map nd K) (hw : m.WF) (hx : 0 < m.sx) (hy : 0 < m.sy) :
    ∃ m', train dist big neigh learn n samples m = .ok m' ∧ m'.sx = m.sx ∧ m'.sy = m.sy ∧ m'.WF := by
  have hb : ∀ (m : Map nd K), 0 < m.sx → 0 < m.sy → ∀ d, ∃ r, findBMU m d big = .ok r := by
    intro m hx hy d
    have hpos : 0 < m.sx * m.sy := Nat.mul_pos hx hy
    unfold findBMU
    rw [if_neg (by omega)]
    exact ⟨_, rfl⟩
  have h1 : ∀ (i : Nat) (lf : K) (s : Fin nd → K) (m : Map nd K), m.WF → 0 < m.sx → 0 < m.sy →
      ∃ m', trainSample dist big neigh i n lf m s = .ok m' ∧ m'.sx = m.sx ∧ m'.sy = m.sy ∧ m'.WF := by
    intro i lf s m hw hx hy
    obtain ⟨⟨bx, by', d⟩, hr⟩ := hb m hx hy (fun w => dist w s)
    unfold trainSample
    rw [hr]
    exact ⟨_, rfl, rfl, rfl, by simpa [Map.WF] using hw⟩
  have h2 : ∀ (i : Nat) (lf : K) (ss : List (Fin nd → K)) (m : Map nd K), m.WF → 0 < m.sx → 0 < m.sy →
      ∃ m', trainList dist big neigh i n lf m ss = .ok m' ∧ m'.sx = m.sx ∧ m'.sy = m.sy ∧ m'.WF := by
    intro i lf ss
    induction ss with
    | nil => intro m hw _ _; exact ⟨m, rfl, rfl, rfl, hw⟩
    | cons s ss ih =>
      intro m hw hx hy
      obtain ⟨m1, e1, e2, e3, e4⟩ := h1 i lf s m hw hx hy
      obtain ⟨m2, f1, f2, f3, f4⟩ := ih m1 e4 (by omega) (by omega)
      exact ⟨m2, by rw [trainList, e1, Outcome.bind_ok, f1], by omega, by omega, f4⟩
  have h3 : ∀ (left i : Nat) (m : Map nd K), m.WF → 0 < m.sx → 0 < m.sy →
      ∃ m', trainFrom dist big neigh learn n samples i left m = .ok m' ∧ m'.sx = m.sx ∧ m'.sy = m.sy ∧ m'.WF := by
    intro left
    induction left with
    | zero => intro i m hw _ _; exact ⟨m, rfl, rfl, rfl, hw⟩
    | succ left ih =>
      intro i m hw hx hy
      rw [trainFrom]
      by_cases h0 : learn i n = 0
      · simp only [h0, if_true]; exact ih (i + 1) m hw hx hy
      · simp only [h0, if_false]
        obtain ⟨m1, e1, e2, e3, e4⟩ := h2 i (learn i n) (samples i) m hw hx hy
        obtain ⟨m2, f1, f2, f3, f4⟩ := ih (i + 1) m1 e4 (by omega) (by omega)
        exact ⟨m2, by rw [e1, Outcome.bind_ok, f1], by omega, by omega, f4⟩
  exact h3 n 0 m hw hx hy

theorem linear_eq {i n : Nat} (hi : i < n) (hn : n < 2 ^ 64) : (linear i n : K) = 1 - (i : K) / n := by
  have h1 : (n + 2 ^ 64 - i) % 2 ^ 64 = n - i := by omega
  have h2 : (n : K) ≠ 0 := by exact_mod_cast (by omega : n ≠ 0)
  unfold linear
  rw [h1, Nat.cast_sub (by omega)]
  field_simp

/-- The shipped factors are in `[0,1]` in every iteration of a training, so that `C56_hull` applies to them: the linear restraint
(which is also positive) and the unit disk. -/
theorem C56_shipped {i n : Nat} (hi : i < n) (hn : n < 2 ^ 64) (r : K) (b c : Nat × Nat) :
    (0 < (linear i n : K) ∧ (linear i n : K) ≤ 1) ∧ (0 ≤ linearUnitDisk r b c i n ∧ linearUnitDisk r b c i n ≤ 1) := by
  have h2 : (0 : K) < n := by exact_mod_cast (by omega : 0 < n)
  have h3 : (i : K) < n := by exact_mod_cast hi
  have h4 : (0 : K) ≤ i := by exact_mod_cast Nat.zero_le i
  refine ⟨?_, ?_⟩
  · rw [linear_eq hi hn]
    have h5 : (i : K) / n < 1 := (div_lt_one h2).mpr h3
    have h6 : 0 ≤ (i : K) / n := div_nonneg h4 (le_of_lt h2)
    constructor <;> linarith
  · unfold linearUnitDisk
    simp only
    split
    · exact ⟨zero_le_one, le_refl _⟩
    · exact ⟨le_refl _, zero_le_one⟩

end C56

/-- The exponential restraint is in `[0,1]` for initial rates in `[0,1]`. -/
theorem C56_shipped_exponential (r : ℝ) (hr : 0 ≤ r ∧ r ≤ 1) (i n : Nat) :
    0 ≤ exponentialDecay r i n ∧ exponentialDecay r i n ≤ 1 := by
  have h1 : Real.exp (-1 * i / n) ≤ 1 := by
    rw [Real.exp_le_one_iff]
    have : (0 : ℝ) ≤ (i : ℝ) / n := by positivity
    have e : (-1 * (i : ℝ) / n) = -((i : ℝ) / n) := by ring
    rw [e]; linarith
  unfold exponentialDecay
  exact ⟨mul_nonneg hr.1 (Real.exp_pos _).le, mul_le_one₀ hr.2 (Real.exp_pos _).le h1⟩

/-- A training with two iterations on a map of two cells. -/
example : (match train (K := ℚ) (nd := 1) (fun w s => |w 0 - s 0|) 100 (linearUnitDisk 2) linear 2 (fun _ => [![1]])
    ⟨2, 1, [![0], ![4]]⟩ with | .ok m => m.cells.map fun w => w 0 | _ => []) = [1, 4] := by
  decide +kernel

/-! ## C57: the unit disk -/

/-- The full claim: the cells inside the shrinking disk around the best matching unit, in all directions. -/
def C57_full : Prop := ∀ (r : ℚ) (b c : Nat × Nat) (i n : Nat), i < n → n < 2 ^ 64 → b.1 < 2 ^ 32 → b.2 < 2 ^ 32 → c.1 < 2 ^ 32 →
  c.2 < 2 ^ 32 → linearUnitDisk r b c i n = Spec.disk r b c i n

/-- It fails: the cell right of the best matching unit is outside of every disk. -/
theorem C57_violated : ¬ C57_full := by
  intro h
  have := h 2 (0, 0) (1, 0) 0 1 (by decide) (by decide) (by decide) (by decide) (by decide) (by decide)
  revert this
  decide +kernel

section C57
variable {K : Type} [Field K] [LinearOrder K] [IsStrictOrderedRing K]

/-- For cells that are in neither coordinate beyond the best matching unit the function is the indicator of the disk whose radius
shrinks linearly. Missing: the cells beyond it. -/
theorem C57_partial (r : K) (b c : Nat × Nat) (i n : Nat) (hi : i < n) (hn : n < 2 ^ 64) (h1 : c.1 ≤ b.1) (h2 : c.2 ≤ b.2)
    (hb1 : b.1 < 2 ^ 64) (hb2 : b.2 < 2 ^ 64) : linearUnitDisk r b c i n = Spec.disk r b c i n := by
  have e1 : (b.1 + 2 ^ 64 - c.1) % 2 ^ 64 = b.1 - c.1 := by omega
  have e2 : (b.2 + 2 ^ 64 - c.2) % 2 ^ 64 = b.2 - c.2 := by omega
  have e3 := linear_eq (K := K) hi hn
  unfold linear at e3
  unfold linearUnitDisk Spec.disk Spec.cellDist2
  simp only [e1, e2, e3]
  rw [Nat.cast_sub h1, Nat.cast_sub h2]
  have e4 : ((b.1 : K) - c.1) * ((b.1 : K) - c.1) + ((b.2 : K) - c.2) * ((b.2 : K) - c.2) =
      ((b.1 : K) - c.1) ^ 2 + ((b.2 : K) - c.2) ^ 2 := by ring
  have e5 : r * r * ((1 - (i : K) / n) * (1 - (i : K) / n)) = (r * (1 - (i : K) / n)) ^ 2 := by ring
  rw [e4, e5]

/-- What happens to the others: a cell beyond the best matching unit in either coordinate is never updated, whatever the radius
(below `2^63`). -/
theorem C57_beyond (r : K) (hr : |r| ≤ 2 ^ 63) (b c : Nat × Nat) (i n : Nat) (hi : i < n) (hn : n < 2 ^ 64)
    (hc1 : c.1 < 2 ^ 63) (hc2 : c.2 < 2 ^ 63) (h : b.1 < c.1 ∨ b.2 < c.2) : linearUnitDisk r b c i n = 0 := by
  have e3 := linear_eq (K := K) hi hn
  have hl := (C56_shipped (K := K) hi hn 0 (0, 0) (0, 0)).1
  unfold linear at e3 hl
  have hr2 : r * r ≤ 2 ^ 63 * 2 ^ 63 := by
    rw [← abs_mul_abs_self r]
    exact mul_le_mul hr hr (abs_nonneg _) (by positivity)
  have hbound : ∀ b c : Nat, b < c → c < 2 ^ 63 → (2 : K) ^ 63 * 2 ^ 63 ≤
      (((b + 2 ^ 64 - c) % 2 ^ 64 : Nat) : K) * (((b + 2 ^ 64 - c) % 2 ^ 64 : Nat) : K) := by
    intro b c h1 h2
    have e : 2 ^ 63 ≤ (b + 2 ^ 64 - c) % 2 ^ 64 := by omega
    have e' : (2 : K) ^ 63 ≤ (((b + 2 ^ 64 - c) % 2 ^ 64 : Nat) : K) := by exact_mod_cast e
    exact mul_le_mul e' e' (by positivity) (le_trans (by positivity) e')
  unfold linearUnitDisk
  simp only
  rw [if_neg]
  generalize hf : (1 * (((n + 2 ^ 64 - i) % 2 ^ 64 : Nat) : K) / (n : K)) = f at hl e3 ⊢
  have hff : f * f ≤ 1 := mul_le_one₀ hl.2 hl.1.le hl.2
  have hrf : r * r * (f * f) ≤ 2 ^ 63 * 2 ^ 63 := by
    calc r * r * (f * f) ≤ r * r * 1 := mul_le_mul_of_nonneg_left hff (mul_self_nonneg r)
      _ ≤ _ := by rw [mul_one]; exact hr2
  rw [not_lt]
  rcases h with h | h
  · have := hbound _ _ h hc1
    have := mul_self_nonneg (((b.2 + 2 ^ 64 - c.2) % 2 ^ 64 : Nat) : K)
    linarith
  · have := hbound _ _ h hc2
    have := mul_self_nonneg (((b.1 + 2 ^ 64 - c.1) % 2 ^ 64 : Nat) : K)
    linarith

/-- **C57**, exactly, for radii up to 2^63 and maps up to that size: the weight is the one of the disk if and only if the cell is beyond the
best matching unit in neither direction or outside the disk. -/
theorem C57_iff (r : K) (hr : |r| ≤ 2 ^ 63) (b c : Nat × Nat) (i n : Nat) (hi : i < n) (hn : n < 2 ^ 64) (hb1 : b.1 < 2 ^ 63) (hb2 : b.2 < 2 ^ 63)
    (hc1 : c.1 < 2 ^ 63) (hc2 : c.2 < 2 ^ 63) :
    linearUnitDisk r b c i n = Spec.disk r b c i n ↔ (c.1 ≤ b.1 ∧ c.2 ≤ b.2) ∨ (r * (1 - (i : K) / n)) ^ 2 ≤ ((b.1 : K) - c.1) ^ 2 + ((b.2 : K) - c.2) ^ 2 := by
  by_cases h : c.1 ≤ b.1 ∧ c.2 ≤ b.2
  · exact iff_of_true (C57_partial r b c i n hi hn h.1 h.2 (by omega) (by omega)) (Or.inl h)
  · rw [C57_beyond r hr b c i n hi hn hc1 hc2 (by omega), or_iff_right h, ← not_lt]
    unfold Spec.disk Spec.cellDist2
    by_cases hd : ((b.1 : K) - c.1) ^ 2 + ((b.2 : K) - c.2) ^ 2 < (r * (1 - (i : K) / n)) ^ 2
    · rw [if_pos hd]
      exact iff_of_false (by simp) (by simpa using hd)
    · rw [if_neg hd]
      exact iff_of_true rfl hd

/-- A cell beyond the best matching unit, inside a disk of radius 2 and outside one of radius 1. -/
example : linearUnitDisk (2 : ℚ) (0, 0) (1, 0) 0 10 ≠ Spec.disk (2 : ℚ) (0, 0) (1, 0) 0 10 ∧
    linearUnitDisk (1 : ℚ) (0, 0) (1, 0) 0 10 = Spec.disk (1 : ℚ) (0, 0) (1, 0) 0 10 := by decide +kernel

end C57

example : linearUnitDisk (K := ℚ) 2 (1, 1) (0, 1) 0 4 = 1 ∧ linearUnitDisk (K := ℚ) 2 (1, 1) (0, 1) 3 4 = 0 ∧
    linearUnitDisk (K := ℚ) 2 (1, 1) (2, 1) 0 4 = 0 := by decide +kernel

/-! ## C58: sampling policies -/

/-- The full set is visited once and in order. -/
theorem C58_fullSet (n : Nat) : fullSet n = List.range n := by
  unfold fullSet
  rw [fullSetFrom_eq n (n + 1) 0 (by omega) (by omega), Nat.sub_zero, List.range_eq_range']

/-- The bootstrap policy visits one element, which is an element of the input; every element is the result of some draw. -/
theorem C58_bootstrap (n : Nat) (hn : 0 < n) : (∀ draw < n, ∃ i < n, bootstrap n draw = .ok [i]) ∧
    ∀ i < n, ∃ draw < n, bootstrap n draw = .ok [i] := by
  refine ⟨fun d hd => ⟨d, hd, ?_⟩, fun i hi => ⟨i, hi, ?_⟩⟩ <;> (unfold bootstrap; rw [if_neg (by omega)])

/-- The jackknife visits `min sample n` distinct elements of the input, for every outcome of the random numbers. -/
theorem C58_jackknife (n sample : Nat) (hn : 0 < n) (hs : 0 < sample) (draw : Nat → Nat) (hd : ∀ j < min sample n, draw j < n - j) :
    ∃ l, jackknife n sample draw = .ok l ∧ l.length = min sample n ∧ l.Nodup ∧ ∀ x ∈ l, x < n := by
  obtain ⟨h1, h2, h3⟩ := jackLoop_spec draw (min sample n) 0 (List.range n) List.nodup_range (by simp) (by
    intro j hj; simpa using hd j hj)
  unfold jackknife
  simp only
  rw [if_neg (by intro h; rw [h] at h1; simp at h1; omega)]
  exact ⟨_, rfl, h1, h2, fun x hx => by simpa using h3 x hx⟩

/-- Every selection of that many distinct elements, in any order, can occur. -/
theorem C58_jackknife_all (n sample : Nat) (sel : List Nat) (hnd : sel.Nodup) (hlt : ∀ x ∈ sel, x < n) (hne : sel ≠ [])
    (hlen : sel.length = min sample n) :
    ∃ draw : Nat → Nat, (∀ j < min sample n, draw j < n - j) ∧ jackknife n sample draw = .ok sel := by
  obtain ⟨draw, h1, h2⟩ := jackLoop_surj sel 0 (List.range n) List.nodup_range hnd (fun x hx => by simpa using hlt x hx)
  refine ⟨draw, fun j hj => by simpa using h1 j (by omega), ?_⟩
  unfold jackknife
  simp only
  rw [← hlen, h2, if_neg hne]

/-- The full claim also covers empty inputs. -/
def C58_full : Prop := ∀ (n sample : Nat) (draw : Nat → Nat), (∀ j < min sample n, draw j < n - j) →
  ∃ l, jackknife n sample draw = .ok l ∧ l.length = min sample n ∧ l.Nodup ∧ ∀ x ∈ l, x < n

/-- It fails for an empty input (or a sample size of zero): the first element of an empty vector is read. -/
theorem C58_violated : ¬ C58_full := by
  intro h
  obtain ⟨l, h1, _⟩ := h 0 5 (fun _ => 0) (by simp)
  revert h1
  simp [jackknife, jackLoop]

example : jackknife 4 2 (fun i => if i = 0 then 3 else 1) = .ok [3, 1] := by decide

/-! ## C59: serialisation -/

section C59
variable {nd : Nat} {K : Type} [Inhabited K]

/-- Saving a map to an archive and loading it gives the same map. -/
theorem C59_archive (d : String) (m : Map nd K) (hw : m.WF) : loadMap nd d (saveMap d m) = .ok m := by
  have h := loadCells_flatMap m.cells []
  rw [List.append_nil, hw] at h
  simp only [saveMap, List.cons_append, List.nil_append, loadMap, ne_eq, not_true_eq_false, if_false, h]

/-- A map with another distance is refused. -/
theorem C59_archive_distance (d d' : String) (hd : d ≠ d') (m : Map nd K) : loadMap nd d' (saveMap d m) = .throw .elements := by
  simp [saveMap, loadMap, hd]

theorem flatMap_getElem? {α β : Type} (f : α → List β) (len : Nat) : ∀ (l : List α), (∀ a ∈ l, (f a).length = len) →
    ∀ (i k : Nat) (hi : i < l.length), k < len → (l.flatMap f)[i * len + k]? = (f l[i])[k]? := by
  intro l
  induction l with
  | nil => intro _ i k hi; simp at hi
  | cons a l ih =>
    intro hl i k hi hk
    have ha := hl a List.mem_cons_self
    rw [List.flatMap_cons]
    cases i with
    | zero => rw [List.getElem?_append_left (by omega)]; simp
    | succ i =>
      rw [List.getElem?_append_right (by rw [ha, Nat.add_mul]; omega), ha]
      have : (i + 1) * len + k - len = i * len + k := by rw [Nat.add_mul]; omega
      rw [this, ih (fun b hb => hl b (List.mem_cons_of_mem _ hb)) i k (by simpa using hi) hk]
      rfl

theorem fits_data (d : String) (m : Map nd K) (hw : m.WF) (i : Fin nd) (k : Nat) (hk : k < m.sx * m.sy) :
    (fitsExport d m).data[i.val * (m.sx * m.sy) + k]? = (m.cells[k]?).map fun w => w i := by
  unfold fitsExport
  simp only
  rw [flatMap_getElem? _ (m.sx * m.sy) (List.finRange nd) (by intro a _; rw [List.length_map, hw]) i.val k
    (by rw [List.length_finRange]; exact i.isLt) hk]
  simp

/-- The image in the FITS file has at pixel `(x, y, i)` the `i`-th weight of the cell `(x, y)`. -/
theorem C59_fits_layout (d : String) (m : Map nd K) (hw : m.WF) (x y : Nat) (i : Fin nd) (hx : x < m.sx) (hy : y < m.sy) :
    (fitsExport d m).axes = [m.sx, m.sy, nd] ∧ (fitsExport d m).data.length = m.sx * m.sy * nd ∧
    ∃ w, m.at x y = .ok w ∧ (fitsExport d m).data[x + m.sx * (y + m.sy * i.val)]? = some (w i) := by
  refine ⟨rfl, ?_, ?_⟩
  · have : ∀ l : List (Fin nd), (l.flatMap fun i => m.cells.map fun w => w i).length = l.length * m.cells.length := by
      intro l
      induction l with
      | nil => simp
      | cons a l ih => simp only [List.flatMap_cons, List.length_append, List.length_map, ih, List.length_cons, Nat.add_mul]; omega
    unfold fitsExport
    simp only
    rw [this, List.length_finRange, hw, Nat.mul_comm]
  · obtain ⟨w, h1, h2⟩ := at_eq hw hx hy
    refine ⟨w, h2, ?_⟩
    have e : x + m.sx * (y + m.sy * i.val) = i.val * (m.sx * m.sy) + (x + y * m.sx) := by ring
    rw [e, fits_data d m hw i _ (index_lt hx hy), h1]
    rfl

/-- Exporting to FITS and importing gives the same map. -/
theorem C59_fits (d : String) (m : Map nd K) (hw : m.WF) : fitsImport nd d (fitsExport d m) = .ok m := by
  have hlen : (fitsExport d m).data.length = nd * (m.sx * m.sy) := by
    have : ∀ l : List (Fin nd), (l.flatMap fun i => m.cells.map fun w => w i).length = l.length * m.cells.length := by
      intro l
      induction l with
      | nil => simp
      | cons a l ih => simp only [List.flatMap_cons, List.length_append, List.length_map, ih, List.length_cons, Nat.add_mul]; omega
    unfold fitsExport
    simp only
    rw [this, List.length_finRange, hw]
  have hdata := fits_data d m hw
  unfold fitsImport
  rw [if_neg (by simp [fitsExport])]
  have hax : (fitsExport d m).axes = [m.sx, m.sy, nd] := rfl
  rw [hax]
  simp only [ne_eq, not_true_eq_false, if_false]
  rw [if_neg (by omega)]
  congr 1
  obtain ⟨sx, sy, cells⟩ := m
  simp only [Map.mk.injEq, true_and]
  unfold Map.WF at hw
  simp only at hw hdata
  apply List.ext_getElem
  · simp [hw]
  · intro k h1 h2
    simp only [List.getElem_map, List.getElem_range]
    funext i
    have := hdata i k (by omega)
    rw [List.getElem?_eq_getElem h2] at this
    rw [List.getD_eq_getElem?_getD, this]
    rfl

/-- A file with another number of weights is refused. -/
theorem C59_fits_dimension (nd' : Nat) (d : String) (m : Map nd K) (h : nd ≠ nd') :
    fitsImport nd' d (fitsExport d m) = .throw .elements := by
  simp [fitsImport, fitsExport, h]

end C59

example : (match loadMap (K := ℚ) 2 "L2" (saveMap "L2" (⟨2, 1, [![1, 2], ![3, 4]]⟩ : Map 2 ℚ)) with
    | .ok m => m.cells.map fun w => (w 0, w 1) | _ => []) = [(1, 2), (3, 4)] ∧
    (fitsExport "L2" (⟨2, 1, [![1, 2], ![3, 4]]⟩ : Map 2 ℚ)).data = [1, 3, 2, 4] := by decide +kernel

end Alexandria.SOM
