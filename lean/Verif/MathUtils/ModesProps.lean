import Verif.MathUtils.ModesModel
import Verif.MathUtils.CumulativeProps
import Mathlib.Algebra.BigOperators.Intervals
import Mathlib.Algebra.Order.BigOperators.Group.Finset

/-!
# Extraction of modes (C40)
-/

namespace Alexandria.MathUtils

section
variable {K : Type} [Field K] [LinearOrder K]

/-- The width of a sample: half the distance of its neighbours, or the distance to the only one. -/
def Spec.width (xs : List K) (i : Nat) : K :=
  if i = 0 then xs.getD 1 0 - xs.getD 0 0 else if i + 1 = xs.length then xs.getD i 0 - xs.getD (i - 1) 0 else (xs.getD (i + 1) 0 - xs.getD (i - 1) 0) / 2

/-- A peak: the index of its highest sample, and its first and last sample. -/
structure Spec.Peak where
  top : Nat
  lo : Nat
  hi : Nat

/-- What is left of a density without some peaks. -/
def Spec.residual (f : Nat → K) (peaks : List Spec.Peak) (i : Nat) : K := if ∃ p ∈ peaks, p.lo ≤ i ∧ i ≤ p.hi then 0 else f i

/-- A mode `m` describes the peak `p` of the density `f`: its top is a highest sample of all, its area and mean those between its ends. -/
structure Spec.IsMode (xs : List K) (f : Nat → K) (m : ModeInfo K) (p : Spec.Peak) : Prop where
  lo_le : p.lo ≤ p.top
  le_hi : p.top ≤ p.hi
  hi_lt : p.hi < xs.length
  highest : ∀ j, j < xs.length → f j ≤ f p.top
  sample : xs[p.top]? = some m.sample
  area : m.area = ∑ j ∈ Finset.Ico p.lo (p.hi + 1), f j * Spec.width xs j
  mean : m.mean = if m.area = 0 then none else some ((∑ j ∈ Finset.Ico p.lo (p.hi + 1), xs.getD j 0 * f j * Spec.width xs j) / m.area)

theorem elem_ok {l : List K} {i : Nat} (h : i < l.length) : elem l i = .ok (l.getD i 0) := by
  rw [elem, List.getElem?_eq_getElem h, List.getD_eq_getElem _ _ h]

/-! ## The highest sample -/

theorem maxIndexLoop_spec (ys : List K) : ∀ (l : List K) (mx : K) (index maxIndex : Nat), ys.drop index = l → (∀ j, j < index → ys.getD j 0 ≤ mx) →
    (mx = ys.getD maxIndex 0 ∧ maxIndex < ys.length) ∨ (index = 0 ∧ maxIndex = 0 ∧ ∀ y ∈ ys, mx < y) →
    ys ≠ [] → maxIndexLoop l mx index maxIndex < ys.length ∧ ∀ j, j < ys.length → ys.getD j 0 ≤ ys.getD (maxIndexLoop l mx index maxIndex) 0 := by
  intro l
  induction l with
  | nil =>
    intro mx index maxIndex hd hb hm hne
    rw [maxIndexLoop]
    have hi : ys.length ≤ index := List.drop_eq_nil_iff.mp hd
    have := List.length_pos_iff.mpr hne
    rcases hm with ⟨h1, h2⟩ | ⟨h1, _, _⟩
    · exact ⟨h2, fun j hj => h1 ▸ hb j (by omega)⟩
    · omega
  | cons y l ih =>
    intro mx index maxIndex hd hb hm hne
    have hi : index < ys.length := by
      by_contra h
      rw [List.drop_eq_nil_of_le (by omega)] at hd
      simp at hd
    rw [List.drop_eq_getElem_cons hi] at hd
    injection hd with hy hd
    have hg : ys.getD index 0 = y := by rw [List.getD_eq_getElem _ _ hi, hy]
    rw [maxIndexLoop]
    by_cases h : y > mx
    · rw [if_pos h]
      refine ih y (index + 1) index hd ?_ (.inl ⟨hg.symm, hi⟩) hne
      intro j hj
      by_cases hji : j = index
      · rw [hji, hg]
      · exact (hb j (by omega)).trans h.le
    · rw [if_neg h]
      refine ih mx (index + 1) maxIndex hd ?_ ?_ hne
      · intro j hj
        by_cases hji : j = index
        · rw [hji, hg]; exact not_lt.mp h
        · exact hb j (by omega)
      · rcases hm with hm | ⟨_, _, h3⟩
        · exact .inl hm
        · exact absurd (h3 y (hy ▸ List.getElem_mem hi)) h

theorem findMaximumIndex_spec [IsStrictOrderedRing K] {ys : List K} (hne : ys ≠ []) (hpos : ∀ y ∈ ys, 0 ≤ y) :
    findMaximumIndex ys < ys.length ∧ ∀ j, j < ys.length → ys.getD j 0 ≤ ys.getD (findMaximumIndex ys) 0 :=
  maxIndexLoop_spec ys ys (-1) 0 0 rfl (by intro j hj; omega) (.inr ⟨rfl, rfl, fun y hy => by linarith [hpos y hy]⟩) hne

/-! ## The peak -/

/-- The search to the left ends at `r`: before the first sample, before a zero, or where the density, already below the threshold, does not fall further. -/
def Spec.LeftEnd (f : Nat → K) (t : K) (c r : Nat) : Prop :=
  1 ≤ r ∧ r ≤ c ∧ (∀ q, r ≤ q → q ≤ c → f q ≠ 0) ∧ (∀ q, r < q → q ≤ c → ¬ (f q < t ∧ f q ≤ f (q - 1))) ∧
    (r = 1 ∨ f (r - 1) = 0 ∨ (f r < t ∧ f r ≤ f (r - 1)))

/-- The same to the right. -/
def Spec.RightEnd (n : Nat) (f : Nat → K) (t : K) (c r : Nat) : Prop :=
  c ≤ r ∧ r + 1 < n ∧ (∀ q, c ≤ q → q ≤ r → f q ≠ 0) ∧ (∀ q, c ≤ q → q < r → ¬ (f q < t ∧ f q ≤ f (q + 1))) ∧
    (r + 2 = n ∨ f (r + 1) = 0 ∨ (f r < t ∧ f r ≤ f (r + 1)))

theorem leftLoop_spec (ys : List K) (t : K) : ∀ (p mn : Nat), p < ys.length →
    ∃ r, leftLoop ys t p mn = .ok r ∧ ((r = mn ∧ (p = 0 ∨ ys.getD p 0 = 0)) ∨ Spec.LeftEnd (ys.getD · 0) t p r) := by
  intro p
  induction p with
  | zero => intro mn _; exact ⟨mn, rfl, .inl ⟨rfl, .inl rfl⟩⟩
  | succ p ih =>
    intro mn hp
    rw [leftLoop, elem_ok hp, elem_ok (by omega)]
    simp only [Outcome.bind_ok, Outcome.pure_eq]
    by_cases hz : ys.getD (p + 1) 0 = 0
    · rw [if_pos hz]
      exact ⟨mn, rfl, .inl ⟨rfl, .inr hz⟩⟩
    · rw [if_neg hz]
      by_cases hs : ys.getD (p + 1) 0 < t ∧ ys.getD p 0 ≥ ys.getD (p + 1) 0
      · rw [if_pos hs]
        refine ⟨p + 1, rfl, .inr ⟨by omega, le_refl _, ?_, ?_, .inr (.inr hs)⟩⟩
        · intro q h1 h2
          have : q = p + 1 := by omega
          exact this ▸ hz
        · intro q h1 h2; omega
      · rw [if_neg hs]
        obtain ⟨r, hr, h⟩ := ih (p + 1) (by omega)
        refine ⟨r, hr, .inr ?_⟩
        rcases h with ⟨rfl, h⟩ | ⟨h1, h2, h3, h4, h5⟩
        · refine ⟨by omega, le_refl _, ?_, by intro q h1 h2; omega, ?_⟩
          · intro q h1 h2
            have : q = p + 1 := by omega
            exact this ▸ hz
          · rcases h with h | h
            · exact .inl (by omega)
            · exact .inr (.inl h)
        · refine ⟨h1, by omega, ?_, ?_, h5⟩
          · intro q hq1 hq2
            by_cases hq : q = p + 1
            · exact hq ▸ hz
            · exact h3 q hq1 (by omega)
          · intro q hq1 hq2
            by_cases hq : q = p + 1
            · subst hq; exact hs
            · exact h4 q hq1 (by omega)

theorem rightLoop_spec (ys : List K) (t : K) : ∀ (fuel p mx : Nat), p < ys.length → ys.length - p ≤ fuel →
    ∃ r, rightLoop ys t fuel p mx = .ok r ∧ ((r = mx ∧ (p + 1 = ys.length ∨ ys.getD p 0 = 0)) ∨ Spec.RightEnd ys.length (ys.getD · 0) t p r) := by
  intro fuel
  induction fuel with
  | zero => intro p mx hp hf; omega
  | succ fuel ih =>
    intro p mx hp hf
    rw [rightLoop]
    by_cases hl : p = ys.length - 1
    · rw [if_pos hl]
      exact ⟨mx, rfl, .inl ⟨rfl, .inl (by omega)⟩⟩
    · rw [if_neg hl, elem_ok hp, elem_ok (show p + 1 < ys.length by omega)]
      simp only [Outcome.bind_ok, Outcome.pure_eq]
      by_cases hz : ys.getD p 0 = 0
      · rw [if_pos hz]
        exact ⟨mx, rfl, .inl ⟨rfl, .inr hz⟩⟩
      · rw [if_neg hz]
        by_cases hs : ys.getD p 0 < t ∧ ys.getD (p + 1) 0 ≥ ys.getD p 0
        · rw [if_pos hs]
          refine ⟨p, rfl, .inr ⟨le_refl _, by omega, ?_, ?_, .inr (.inr hs)⟩⟩
          · intro q h1 h2
            have : q = p := by omega
            exact this ▸ hz
          · intro q h1 h2; omega
        · rw [if_neg hs]
          obtain ⟨r, hr, h⟩ := ih (p + 1) p (by omega) (by omega)
          refine ⟨r, hr, .inr ?_⟩
          rcases h with ⟨rfl, h⟩ | ⟨h1, h2, h3, h4, h5⟩
          · refine ⟨le_refl _, by omega, ?_, by intro q h1 h2; omega, ?_⟩
            · intro q h1 h2
              have : q = r := by omega
              exact this ▸ hz
            · rcases h with h | h
              · exact .inl (by omega)
              · exact .inr (.inl h)
          · refine ⟨by omega, h2, ?_, ?_, h5⟩
            · intro q hq1 hq2
              by_cases hq : q = p
              · exact hq ▸ hz
              · exact h3 q (by omega) hq2
            · intro q hq1 hq2
              by_cases hq : q = p
              · subst hq; exact hs
              · exact h4 q (by omega) hq2

/-- **C40 (peak).** For a sample of the density, `catchPeak` finds a range of samples around it. On each side it ends as the documentation says: at a zero, or where
the density is below the threshold and rises again, or one sample before the border; the border itself is only reached if the sample is there or is 0. -/
theorem C40_catchPeak (ys : List K) (center : Nat) (mergeRatio : K) (hc : center < ys.length) :
    ∃ lo hi, catchPeak ys center mergeRatio = .ok (lo, hi) ∧ lo ≤ center ∧ center ≤ hi ∧ hi < ys.length ∧
      ((lo = 0 ∧ (center = 0 ∨ ys.getD center 0 = 0)) ∨ Spec.LeftEnd (ys.getD · 0) ((1 - mergeRatio) * ys.getD center 0) center lo) ∧
      ((hi + 1 = ys.length ∧ (center + 1 = ys.length ∨ ys.getD center 0 = 0)) ∨
        Spec.RightEnd ys.length (ys.getD · 0) ((1 - mergeRatio) * ys.getD center 0) center hi) := by
  obtain ⟨lo, h1, h2⟩ := leftLoop_spec ys ((1 - mergeRatio) * ys.getD center 0) center 0 hc
  obtain ⟨hi, h3, h4⟩ := rightLoop_spec ys ((1 - mergeRatio) * ys.getD center 0) (ys.length + 1 - center) center (ys.length - 1) hc (by omega)
  refine ⟨lo, hi, ?_, ?_, ?_, ?_, h2, ?_⟩
  · rw [catchPeak, elem_ok hc]
    simp only [Outcome.bind_ok, h1, h3, Outcome.pure_eq]
  · rcases h2 with ⟨rfl, _⟩ | h
    · omega
    · exact h.2.1
  · rcases h4 with ⟨rfl, _⟩ | h
    · omega
    · exact h.1
  · rcases h4 with ⟨rfl, _⟩ | h
    · omega
    · have := h.2.1; omega
  · rcases h4 with ⟨rfl, h⟩ | h
    · exact .inl ⟨by omega, h⟩
    · exact .inr h

/-! ## Area, mean and interpolation -/

theorem sampleWidth_ok {xs : List K} {i : Nat} (hi : i < xs.length) (hn : 2 ≤ xs.length) : sampleWidth xs i = .ok (Spec.width xs i) := by
  rw [sampleWidth, Spec.width]
  by_cases h0 : i = 0
  · rw [if_pos h0, if_pos h0, elem_ok (by omega), elem_ok (by omega)]
    rfl
  · rw [if_neg h0, if_neg h0]
    by_cases hl : i + 1 = xs.length
    · rw [if_pos (by omega), if_pos hl, elem_ok hi, elem_ok (by omega)]
      rfl
    · rw [if_neg (by omega), if_neg hl, elem_ok (by omega), elem_ok (by omega)]
      rfl

theorem areaLoop_ok {xs ys : List K} (hl : xs.length = ys.length) (hn : 2 ≤ xs.length) : ∀ (fuel i : Nat) (num area : K), i + fuel ≤ xs.length →
    areaLoop xs ys fuel i num area = .ok (num + ∑ j ∈ Finset.Ico i (i + fuel), xs.getD j 0 * ys.getD j 0 * Spec.width xs j,
      area + ∑ j ∈ Finset.Ico i (i + fuel), ys.getD j 0 * Spec.width xs j) := by
  intro fuel
  induction fuel with
  | zero => intro i num area _; simp [areaLoop]
  | succ fuel ih =>
    intro i num area hi
    rw [areaLoop, sampleWidth_ok (by omega) hn, elem_ok (by omega), elem_ok (by omega)]
    simp only [Outcome.bind_ok]
    rw [ih _ _ _ (by omega), Finset.sum_eq_sum_Ico_succ_bot (show i < i + (fuel + 1) by omega), Finset.sum_eq_sum_Ico_succ_bot (show i < i + (fuel + 1) by omega),
      show i + 1 + fuel = i + (fuel + 1) by omega, add_assoc, add_assoc]

theorem avgArea_ok {xs ys : List K} (hl : xs.length = ys.length) (hn : 2 ≤ xs.length) {lo hi : Nat} (h1 : lo ≤ hi) (h2 : hi < xs.length) :
    avgArea xs ys lo hi = .ok (if ∑ j ∈ Finset.Ico lo (hi + 1), ys.getD j 0 * Spec.width xs j = 0 then none
      else some ((∑ j ∈ Finset.Ico lo (hi + 1), xs.getD j 0 * ys.getD j 0 * Spec.width xs j) / ∑ j ∈ Finset.Ico lo (hi + 1), ys.getD j 0 * Spec.width xs j),
      ∑ j ∈ Finset.Ico lo (hi + 1), ys.getD j 0 * Spec.width xs j) := by
  rw [avgArea, areaLoop_ok hl hn _ _ _ _ (by omega)]
  simp only [Outcome.bind_ok, Outcome.pure_eq, zero_add]
  rw [show lo + (hi + 1 - lo) = hi + 1 by omega]

theorem interpolationAround_ok {xs ys : List K} (hl : xs.length = ys.length) (hn : 3 ≤ xs.length) {i : Nat} (hi : i < xs.length) :
    ∃ v, interpolationAround xs ys i = .ok v ∧ ((xs.getD 0 0 ≤ xs.getD (xs.length - 1) 0) → xs.getD 0 0 ≤ v ∧ v ≤ xs.getD (xs.length - 1) 0) := by
  rw [interpolationAround, if_neg (by omega)]
  obtain ⟨i', h⟩ : ∃ i', i' = if i = 0 then i + 1 else if i + 1 = xs.length then i - 1 else i := ⟨_, rfl⟩
  simp only [← h]
  have hi' : 1 ≤ i' ∧ i' + 1 < xs.length := by
    rw [h]
    split_ifs <;> omega
  rw [if_neg (by omega), elem_ok (by omega), elem_ok (by omega), elem_ok (by omega), elem_ok (by omega), elem_ok (by omega), elem_ok (by omega), elem_ok (by omega), elem_ok (by omega)]
  simp only [Outcome.bind_ok, Outcome.pure_eq]
  refine ⟨_, rfl, ?_⟩
  intro hle
  split_ifs with h1 h2
  all_goals first
    | exact ⟨le_refl _, hle⟩
    | exact ⟨hle, le_refl _⟩
    | (constructor <;> (apply le_of_not_gt; assumption))

/-! ## One mode -/

theorem length_flatten (ys : List K) (lo hi : Nat) : (flatten ys lo hi).length = ys.length := by simp [flatten]

theorem getD_flatten (ys : List K) (lo hi j : Nat) : (flatten ys lo hi).getD j 0 = if lo ≤ j ∧ j ≤ hi then 0 else ys.getD j 0 := by
  rw [flatten, List.getD_eq_getElem?_getD, List.getElem?_map, List.getElem?_zipIdx, List.getD_eq_getElem?_getD]
  cases ys[j]? <;> simp

theorem flatten_nonneg {ys : List K} (hpos : ∀ y ∈ ys, 0 ≤ y) (lo hi : Nat) : ∀ y ∈ flatten ys lo hi, 0 ≤ y := by
  intro y hy
  obtain ⟨p, hp, rfl⟩ := List.mem_map.mp hy
  split_ifs
  · exact le_refl _
  · exact hpos _ (List.fst_mem_of_mem_zipIdx hp)

theorem residual_flatten (ys : List K) (p : Spec.Peak) (ps : List Spec.Peak) :
    Spec.residual ((flatten ys p.lo p.hi).getD · 0) ps = Spec.residual (ys.getD · 0) (p :: ps) := by
  funext j
  rw [Spec.residual, Spec.residual]
  by_cases h : ∃ p ∈ ps, p.lo ≤ j ∧ j ≤ p.hi
  · rw [if_pos h, if_pos]
    obtain ⟨q, hq, h⟩ := h
    exact ⟨q, List.mem_cons_of_mem _ hq, h⟩
  · rw [if_neg h, getD_flatten]
    by_cases h2 : p.lo ≤ j ∧ j ≤ p.hi
    · rw [if_pos h2, if_pos ⟨p, List.mem_cons_self, h2⟩]
    · rw [if_neg h2, if_neg]
      rintro ⟨q, hq, h3⟩
      rcases List.mem_cons.mp hq with rfl | hq
      · exact h2 h3
      · exact h ⟨q, hq, h3⟩

theorem residual_nil (f : Nat → K) : Spec.residual f [] = f := by
  funext j
  simp [Spec.residual]

theorem extractMode_ok [IsStrictOrderedRing K] {xs ys : List K} (hl : xs.length = ys.length) (hn : 3 ≤ xs.length) (hpos : ∀ y ∈ ys, 0 ≤ y) (mr : K) :
    ∃ (m : ModeInfo K) (p : Spec.Peak), extractMode xs ys mr = .ok (m, flatten ys p.lo p.hi) ∧ Spec.IsMode xs (ys.getD · 0) m p ∧
      (xs.getD 0 0 ≤ xs.getD (xs.length - 1) 0 → xs.getD 0 0 ≤ m.interp ∧ m.interp ≤ xs.getD (xs.length - 1) 0) := by
  have hne : ys ≠ [] := by
    rintro rfl
    rw [hl] at hn
    simp at hn
  obtain ⟨hi, hmax⟩ := findMaximumIndex_spec hne hpos
  generalize hc : findMaximumIndex ys = c at hi hmax
  obtain ⟨lo, h, h1, h2, h3, h4, _⟩ := C40_catchPeak ys c mr hi
  obtain ⟨v, hv, hv2⟩ := interpolationAround_ok hl hn (show c < xs.length by omega)
  have ha := avgArea_ok hl (by omega) (show lo ≤ h by omega) (show h < xs.length by omega)
  refine ⟨⟨xs.getD c 0, if ∑ j ∈ Finset.Ico lo (h + 1), ys.getD j 0 * Spec.width xs j = 0 then none
      else some ((∑ j ∈ Finset.Ico lo (h + 1), xs.getD j 0 * ys.getD j 0 * Spec.width xs j) / ∑ j ∈ Finset.Ico lo (h + 1), ys.getD j 0 * Spec.width xs j),
      v, ∑ j ∈ Finset.Ico lo (h + 1), ys.getD j 0 * Spec.width xs j⟩, ⟨c, lo, h⟩, ?_, ⟨h2, h3, by rw [hl]; exact h4, by rw [hl]; exact hmax, ?_, rfl, rfl⟩, hv2⟩
  · rw [extractMode, hc]
    simp only [h1, Outcome.bind_ok, ha, hv, elem_ok (show c < xs.length by omega), Outcome.pure_eq]
  · rw [List.getD_eq_getElem _ _ (by omega), List.getElem?_eq_getElem]

theorem area_flatten {xs ys : List K} {m : ModeInfo K} {p : Spec.Peak} (h : Spec.IsMode xs (ys.getD · 0) m p) :
    m.area + ∑ j ∈ Finset.range xs.length, (flatten ys p.lo p.hi).getD j 0 * Spec.width xs j = ∑ j ∈ Finset.range xs.length, ys.getD j 0 * Spec.width xs j := by
  have hsub : Finset.Ico p.lo (p.hi + 1) ⊆ Finset.range xs.length := by
    intro j hj
    rw [Finset.mem_Ico] at hj
    rw [Finset.mem_range]
    have := h.hi_lt
    omega
  have e1 : ∑ j ∈ Finset.range xs.length, (flatten ys p.lo p.hi).getD j 0 * Spec.width xs j =
      ∑ j ∈ Finset.range xs.length \ Finset.Ico p.lo (p.hi + 1), ys.getD j 0 * Spec.width xs j := by
    rw [← Finset.sum_sdiff hsub]
    have z : ∑ j ∈ Finset.Ico p.lo (p.hi + 1), (flatten ys p.lo p.hi).getD j 0 * Spec.width xs j = 0 := by
      refine Finset.sum_eq_zero fun j hj => ?_
      rw [Finset.mem_Ico] at hj
      rw [getD_flatten, if_pos (by omega), zero_mul]
    rw [z, add_zero]
    refine Finset.sum_congr rfl fun j hj => ?_
    rw [Finset.mem_sdiff, Finset.mem_Ico] at hj
    rw [getD_flatten, if_neg (by omega)]
  rw [e1, h.area, add_comm, Finset.sum_sdiff hsub]

/-! ## Theorems -/

theorem residual_anti [IsStrictOrderedRing K] {f : Nat → K} (hf : ∀ j, 0 ≤ f j) {ps qs : List Spec.Peak} (h : ∀ p ∈ ps, p ∈ qs) (j : Nat) :
    Spec.residual f qs j ≤ Spec.residual f ps j := by
  rw [Spec.residual, Spec.residual]
  by_cases h1 : ∃ p ∈ qs, p.lo ≤ j ∧ j ≤ p.hi
  · rw [if_pos h1]
    split_ifs
    · exact le_refl _
    · exact hf j
  · rw [if_neg h1, if_neg]
    rintro ⟨p, hp, h2⟩
    exact h1 ⟨p, h p hp, h2⟩

theorem getD_nonneg {ys : List K} (hpos : ∀ y ∈ ys, 0 ≤ y) (j : Nat) : 0 ≤ ys.getD j 0 := by
  by_cases h : j < ys.length
  · rw [List.getD_eq_getElem _ _ h]
    exact hpos _ (List.getElem_mem h)
  · rw [List.getD_eq_default _ _ (by omega)]

/-- **C40 (highest modes).** For at least three samples and values that are not negative, `extractNHighestModes` reads nothing outside of the vectors and gives
exactly `n` modes: the `k`-th one describes a peak of what the peaks before it leave of the density, its top is a highest sample of that, and so the heights do not
increase. All areas together with that of what is left are the area of the density. -/
theorem C40_highest [IsStrictOrderedRing K] (xs ys : List K) (hl : xs.length = ys.length) (hn : 3 ≤ xs.length) (hpos : ∀ y ∈ ys, 0 ≤ y) (mr : K) (n : Nat) :
    ∃ (ms : List (ModeInfo K)) (peaks : List Spec.Peak), highestModes xs mr n ys = .ok ms ∧ ms.length = n ∧ peaks.length = n ∧
      (∀ (k : Nat) m p, ms[k]? = some m → peaks[k]? = some p → Spec.IsMode xs (Spec.residual (ys.getD · 0) (peaks.take k)) m p) ∧
      (∀ (k l : Nat) p q, k ≤ l → peaks[k]? = some p → peaks[l]? = some q →
        Spec.residual (ys.getD · 0) (peaks.take l) q.top ≤ Spec.residual (ys.getD · 0) (peaks.take k) p.top) ∧
      (ms.map ModeInfo.area).sum + ∑ j ∈ Finset.range xs.length, Spec.residual (ys.getD · 0) peaks j * Spec.width xs j =
        ∑ j ∈ Finset.range xs.length, ys.getD j 0 * Spec.width xs j := by
  suffices h : ∃ (ms : List (ModeInfo K)) (peaks : List Spec.Peak), highestModes xs mr n ys = .ok ms ∧ ms.length = n ∧ peaks.length = n ∧
      (∀ (k : Nat) m p, ms[k]? = some m → peaks[k]? = some p → Spec.IsMode xs (Spec.residual (ys.getD · 0) (peaks.take k)) m p) ∧
      (ms.map ModeInfo.area).sum + ∑ j ∈ Finset.range xs.length, Spec.residual (ys.getD · 0) peaks j * Spec.width xs j =
        ∑ j ∈ Finset.range xs.length, ys.getD j 0 * Spec.width xs j by
    obtain ⟨ms, peaks, h1, h2, h3, h4, h5⟩ := h
    refine ⟨ms, peaks, h1, h2, h3, h4, ?_, h5⟩
    intro k l p q hkl hp hq
    have hk := (List.getElem?_eq_some_iff.mp hp).1
    have hll := (List.getElem?_eq_some_iff.mp hq).1
    have mk := h4 k (ms[k]'(by omega)) p (List.getElem?_eq_getElem (by omega)) hp
    have ml := h4 l (ms[l]'(by omega)) q (List.getElem?_eq_getElem (by omega)) hq
    refine le_trans (residual_anti (getD_nonneg hpos) ?_ q.top) (mk.highest q.top ?_)
    · intro r hr
      exact (List.take_prefix_take_left hkl).subset hr
    · exact lt_of_le_of_lt ml.le_hi ml.hi_lt
  induction n generalizing ys with
  | zero =>
    refine ⟨[], [], rfl, rfl, rfl, ?_, ?_⟩
    · intro k m p h; simp at h
    · rw [residual_nil]; simp
  | succ n ih =>
    obtain ⟨m, p, h1, h2, _⟩ := extractMode_ok hl hn hpos mr
    obtain ⟨ms, peaks, i1, i2, i3, i4, i5⟩ := ih (flatten ys p.lo p.hi) (by rw [length_flatten]; exact hl) (flatten_nonneg hpos _ _)
    refine ⟨m :: ms, p :: peaks, ?_, by simp [i2], by simp [i3], ?_, ?_⟩
    · rw [highestModes, h1]
      simp only [Outcome.bind_ok, i1, Outcome.pure_eq]
    · intro k m' p' hm hp
      cases k with
      | zero =>
        simp only [List.getElem?_cons_zero, Option.some.injEq] at hm hp
        subst hm hp
        rw [List.take_zero, residual_nil]
        exact h2
      | succ k =>
        rw [List.getElem?_cons_succ] at hm hp
        rw [List.take_succ_cons, ← residual_flatten]
        exact i4 k m' p' hm hp
    · rw [List.map_cons, List.sum_cons, ← residual_flatten, add_assoc, i5]
      exact area_flatten h2

/-! ## The biggest modes -/

/-- The modes extracted one after the other, and the density that is left. -/
inductive Steps (xs : List K) (mr : K) : List K → List (ModeInfo K) → List K → Prop
  | nil (ys : List K) : Steps xs mr ys [] ys
  | cons {ys ys' ys'' : List K} {m : ModeInfo K} {ms : List (ModeInfo K)} : extractMode xs ys mr = .ok (m, ys') → Steps xs mr ys' ms ys'' →
      Steps xs mr ys (m :: ms) ys''

theorem Steps.snoc {xs : List K} {mr : K} {ys ys' ys'' : List K} {m : ModeInfo K} {ms : List (ModeInfo K)} (h : Steps xs mr ys ms ys')
    (hm : extractMode xs ys' mr = .ok (m, ys'')) : Steps xs mr ys (ms ++ [m]) ys'' := by
  induction h with
  | nil => exact .cons hm (.nil _)
  | cons h1 _ ih => exact .cons h1 (ih hm)

theorem Steps.highest {xs : List K} {mr : K} {ys ys' : List K} {ms : List (ModeInfo K)} (h : Steps xs mr ys ms ys') : highestModes xs mr ms.length ys = .ok ms := by
  induction h with
  | nil => rfl
  | cons h1 _ ih =>
    rw [List.length_cons, highestModes, h1]
    simp only [Outcome.bind_ok, ih, Outcome.pure_eq]

theorem insertMode_spec (n : Nat) (m : ModeInfo K) (result dropped : List (ModeInfo K)) (hs : result.Pairwise fun a b => b.area ≤ a.area)
    (hd : ∀ d ∈ dropped, ∀ r ∈ result, d.area ≤ r.area) (hdn : dropped ≠ [] → n ≤ result.length) :
    ∃ dropped', (insertMode n m result).Pairwise (fun a b => b.area ≤ a.area) ∧ (∀ d ∈ dropped', ∀ r ∈ insertMode n m result, d.area ≤ r.area) ∧
      (dropped' ≠ [] → n ≤ (insertMode n m result).length) ∧ (insertMode n m result ++ dropped').Perm (result ++ dropped ++ [m]) ∧
      min n (result.length + 1) ≤ (insertMode n m result).length ∧ (insertMode n m result).length ≤ result.length + 1 := by
  rw [insertMode.eq_def]
  have hsplit := List.takeWhile_append_dropWhile (p := fun r : ModeInfo K => decide (¬ r.area < m.area)) (l := result)
  have htw : ∀ r ∈ result.takeWhile (fun r => decide (¬ r.area < m.area)), m.area ≤ r.area := by
    intro r hr
    have := List.all_eq_true.mp (List.all_takeWhile (p := fun r : ModeInfo K => decide (¬ r.area < m.area)) (l := result)) r hr
    simpa using this
  have hhead := List.head?_dropWhile_not (fun r : ModeInfo K => decide (¬ r.area < m.area)) result
  generalize result.takeWhile (fun r => decide (¬ r.area < m.area)) = tw at *
  generalize result.dropWhile (fun r => decide (¬ r.area < m.area)) = dw at *
  cases dw with
  | nil =>
    rw [List.append_nil] at hsplit
    subst hsplit
    simp only
    by_cases hlen : tw.length < n
    · rw [if_pos hlen]
      have hdr : dropped = [] := by
        by_contra h
        have := hdn h
        omega
      subst hdr
      refine ⟨[], ?_, by simp, by simp, by simp, ?_, by simp⟩
      · rw [List.pairwise_append]
        exact ⟨hs, by simp, fun a ha b hb => by rw [List.mem_singleton.mp hb]; exact htw a ha⟩
      · rw [List.length_append, List.length_singleton]
        exact min_le_right _ _
    · rw [if_neg hlen]
      refine ⟨m :: dropped, hs, ?_, fun _ => by omega, ?_, by omega, by omega⟩
      · intro d hdd r hr
        rcases List.mem_cons.mp hdd with rfl | hdd
        · exact htw r hr
        · exact hd d hdd r hr
      · rw [List.append_assoc]
        exact (List.perm_append_comm (l₁ := [m]) (l₂ := dropped)).append_left tw
  | cons r0 rest =>
    simp only
    have hr0 : r0.area < m.area := by simpa using hhead
    subst hsplit
    rw [List.pairwise_append] at hs
    obtain ⟨s1, s2, s3⟩ := hs
    have hrest : ∀ r ∈ r0 :: rest, r.area ≤ r0.area := by
      intro r hr
      rcases List.mem_cons.mp hr with rfl | hr
      · exact le_refl _
      · exact (List.pairwise_cons.mp s2).1 r hr
    refine ⟨dropped, ?_, ?_, ?_, ?_, ?_, ?_⟩
    · rw [List.pairwise_append]
      refine ⟨s1, List.pairwise_cons.mpr ⟨fun b hb => (hrest b hb).trans hr0.le, s2⟩, ?_⟩
      intro a ha b hb
      rcases List.mem_cons.mp hb with rfl | hb
      · exact htw a ha
      · exact s3 a ha b hb
    · intro d hdd r hr
      rcases List.mem_append.mp hr with hr | hr
      · exact hd d hdd r (List.mem_append_left _ hr)
      · rcases List.mem_cons.mp hr with rfl | hr
        · exact (hd d hdd r0 (List.mem_append_right _ List.mem_cons_self)).trans hr0.le
        · exact hd d hdd r (List.mem_append_right _ hr)
    · intro h
      have := hdn h
      simp only [List.length_append, List.length_cons] at this ⊢
      omega
    · have e : (tw ++ m :: (r0 :: rest)).Perm (tw ++ (r0 :: rest) ++ [m]) := by
        rw [List.append_assoc]
        exact (List.perm_append_comm (l₁ := [m]) (l₂ := r0 :: rest)).append_left tw
      refine (e.append_right dropped).trans ?_
      rw [List.append_assoc (tw ++ (r0 :: rest)), List.append_assoc (tw ++ (r0 :: rest))]
      exact List.perm_append_comm.append_left _
    · simp only [List.length_append, List.length_cons]
      omega
    · simp only [List.length_append, List.length_cons]
      omega

theorem biggestLoop_spec [IsStrictOrderedRing K] {xs ys0 : List K} (hn : 3 ≤ xs.length) (mr : K) {n : Nat} (h1n : 1 ≤ n) (A : K) :
    ∀ (fuel : Nat) (ys : List K) (total : K) (result hs dropped : List (ModeInfo K)), xs.length = ys.length → (∀ y ∈ ys, 0 ≤ y) → Steps xs mr ys0 hs ys →
      total = A - (hs.map ModeInfo.area).sum → hs.length ≤ 3 * n + 1 → 3 * n + 2 ≤ hs.length + fuel → (result.Pairwise fun a b => b.area ≤ a.area) →
      (∀ d ∈ dropped, ∀ r ∈ result, d.area ≤ r.area) → (dropped ≠ [] → n ≤ result.length) → (result ++ dropped).Perm hs → min n hs.length ≤ result.length →
      ∃ (ms hs' dropped' : List (ModeInfo K)) (last : ModeInfo K), biggestLoop xs mr n fuel ys total hs.length result = .ok (some ms) ∧ highestModes xs mr hs'.length ys0 = .ok hs' ∧
        hs'.length ≤ 3 * n + 2 ∧ (ms.Pairwise fun a b => b.area ≤ a.area) ∧ (∀ d ∈ dropped', ∀ r ∈ ms, d.area ≤ r.area) ∧ (ms ++ dropped').Perm hs' ∧ n ≤ ms.length ∧
        ms.getLast? = some last ∧ (A - (hs'.map ModeInfo.area).sum < last.area ∨ hs'.length = 3 * n + 2) := by
  intro fuel
  induction fuel with
  | zero => intro ys total result hs dropped _ _ _ _ h1 h2; omega
  | succ fuel ih =>
    intro ys total result hs dropped hl hpos hst htot hlen hfuel hsort hd hdn hperm hmin
    obtain ⟨m, p, e1, _, _⟩ := extractMode_ok hl hn hpos mr
    obtain ⟨dropped', i1, i2, i3, i4, i5, _⟩ := insertMode_spec n m result dropped hsort hd hdn
    have hst' := hst.snoc e1
    have htot' : total - m.area = A - ((hs ++ [m]).map ModeInfo.area).sum := by
      rw [List.map_append, List.sum_append, htot]
      simp only [List.map_cons, List.map_nil, List.sum_cons, List.sum_nil]
      ring
    have hperm' : (insertMode n m result ++ dropped').Perm (hs ++ [m]) := i4.trans (hperm.append_right [m])
    have hlen' : (hs ++ [m]).length = hs.length + 1 := by simp
    have hmin' : min n (hs ++ [m]).length ≤ (insertMode n m result).length := by
      rw [hlen']
      refine le_trans ?_ i5
      rw [Nat.le_min]
      constructor
      · exact min_le_left _ _
      · by_cases h : result.length < n
        · have hde : dropped = [] := by
            by_contra h'
            have := hdn h'
            omega
          subst hde
          have := hperm.length_eq
          rw [List.append_nil] at this
          omega
        · have := min_le_left n (hs.length + 1)
          omega
    rw [biggestLoop, e1]
    simp only [Outcome.bind_ok]
    have next : hs.length < 3 * n + 1 → ∃ (ms hs' dropped' : List (ModeInfo K)) (last : ModeInfo K),
        biggestLoop xs mr n fuel (flatten ys p.lo p.hi) (total - m.area) (hs.length + 1) (insertMode n m result) = .ok (some ms) ∧ highestModes xs mr hs'.length ys0 = .ok hs' ∧
        hs'.length ≤ 3 * n + 2 ∧ (ms.Pairwise fun a b => b.area ≤ a.area) ∧ (∀ d ∈ dropped', ∀ r ∈ ms, d.area ≤ r.area) ∧ (ms ++ dropped').Perm hs' ∧ n ≤ ms.length ∧
        ms.getLast? = some last ∧ (A - (hs'.map ModeInfo.area).sum < last.area ∨ hs'.length = 3 * n + 2) := by
      intro hlt
      have := ih (flatten ys p.lo p.hi) (total - m.area) (insertMode n m result) (hs ++ [m]) dropped' (by rw [length_flatten]; exact hl) (flatten_nonneg hpos _ _) hst' htot'
        (by omega) (by omega) i1 i2 i3 hperm' hmin'
      rw [hlen'] at this
      exact this
    by_cases hle : n ≤ (insertMode n m result).length
    · rw [if_pos hle]
      obtain ⟨last, hlast⟩ : ∃ last, (insertMode n m result).getLast? = some last := by
        cases h : (insertMode n m result).getLast? with
        | none => rw [List.getLast?_eq_none_iff] at h; rw [h] at hle; simp at hle; omega
        | some l => exact ⟨l, rfl⟩
      simp only [hlast]
      by_cases hc : last.area > total - m.area ∨ hs.length > 3 * n
      · rw [if_pos hc]
        refine ⟨_, hs ++ [m], dropped', last, rfl, hst'.highest, by omega, i1, i2, hperm', hle, hlast, ?_⟩
        rcases hc with hc | hc
        · exact .inl (by rw [← htot']; exact hc)
        · exact .inr (by omega)
      · rw [if_neg hc]
        exact next (by omega)
    · rw [if_neg hle]
      refine next ?_
      by_contra h
      rw [hlen'] at hmin'
      have : min n (hs.length + 1) = n := Nat.min_eq_left (by omega)
      omega

/-- **C40 (biggest modes).** For at least three samples, values that are not negative and `n ≥ 1`, `extractNBigestModes` ends after at most `3 n + 2` extractions and
reads nothing outside of the vectors. It gives at least `n` modes in the order of decreasing areas. They are modes that `extractNHighestModes` also gives, and those of
them that it leaves out are not bigger. The search ends because what is left of the density is smaller than the smallest mode of the result, or after `3 n + 2` extractions. -/
theorem C40_biggest_partial [IsStrictOrderedRing K] (xs ys : List K) (hl : xs.length = ys.length) (hn : 3 ≤ xs.length) (hpos : ∀ y ∈ ys, 0 ≤ y) (mr : K) (n : Nat) (h1n : 1 ≤ n)
    (fuel : Nat) (hf : 3 * n + 2 ≤ fuel) :
    ∃ (ms hs dropped : List (ModeInfo K)) (last : ModeInfo K), biggestModes fuel xs ys mr n = .ok (some ms) ∧ n ≤ ms.length ∧ (ms.Pairwise fun a b => b.area ≤ a.area) ∧
      highestModes xs mr hs.length ys = .ok hs ∧ hs.length ≤ 3 * n + 2 ∧ (ms ++ dropped).Perm hs ∧ (∀ d ∈ dropped, ∀ r ∈ ms, d.area ≤ r.area) ∧ ms.getLast? = some last ∧
      ((∑ j ∈ Finset.range xs.length, ys.getD j 0 * Spec.width xs j) - (hs.map ModeInfo.area).sum < last.area ∨ hs.length = 3 * n + 2) := by
  obtain ⟨ms, hs, dropped, last, h1, h2, h3, h4, h5, h6, h7, h8, h9⟩ := biggestLoop_spec (xs := xs) (ys0 := ys) hn mr h1n
    (∑ j ∈ Finset.range xs.length, ys.getD j 0 * Spec.width xs j) fuel ys (∑ j ∈ Finset.range xs.length, ys.getD j 0 * Spec.width xs j) [] [] [] hl hpos (.nil _)
    (by simp) (by simp) (by simpa using hf) (by simp) (by simp) (by simp) (by simp) (by simp)
  refine ⟨ms, hs, dropped, last, ?_, h7, h4, h2, h3, h6, h5, h8, h9⟩
  rw [biggestModes, if_neg (by omega), avgArea_ok hl (by omega) (Nat.zero_le _) (by omega)]
  simp only [Outcome.bind_ok]
  rw [show xs.length - 1 + 1 = xs.length by omega, ← Finset.range_eq_Ico]
  exact h1

theorem width_nonneg [IsStrictOrderedRing K] {xs : List K} (hs : xs.Pairwise (· ≤ ·)) {j : Nat} (hj : j < xs.length) (hn : 2 ≤ xs.length) : 0 ≤ Spec.width xs j := by
  have get : ∀ a b, a ≤ b → b < xs.length → xs.getD a 0 ≤ xs.getD b 0 := by
    intro a b hab hb
    rw [List.getD_eq_getElem _ _ (by omega), List.getD_eq_getElem _ _ hb]
    exact sorted_get hs hab (List.getElem?_eq_getElem (by omega)) (List.getElem?_eq_getElem hb)
  rw [Spec.width]
  by_cases h0 : j = 0
  · rw [if_pos h0]
    linarith [get 0 1 (by omega) (by omega)]
  · rw [if_neg h0]
    by_cases hl : j + 1 = xs.length
    · rw [if_pos hl]
      linarith [get (j - 1) j (by omega) hj]
    · rw [if_neg hl]
      linarith [get (j - 1) (j + 1) (by omega) (by omega)]

theorem residual_nonneg {f : Nat → K} (hf : ∀ j, 0 ≤ f j) (ps : List Spec.Peak) (j : Nat) : 0 ≤ Spec.residual f ps j := by
  rw [Spec.residual]
  split_ifs
  · exact le_refl _
  · exact hf j

/-- **C40 (the biggest are not missed).** For ascending abscissas no mode has a negative area, and none that comes after the modes `hs` has more area than `hs` leaves; so if
`extractNBigestModes` ends because that is less than its smallest mode, no mode it did not look at is as big. -/
theorem C40_biggest_complete [IsStrictOrderedRing K] (xs ys : List K) (hl : xs.length = ys.length) (hn : 3 ≤ xs.length) (hs : xs.Pairwise (· ≤ ·)) (hpos : ∀ y ∈ ys, 0 ≤ y) (mr : K)
    (hs' later : List (ModeInfo K)) (hlater : highestModes xs mr (hs' ++ later).length ys = .ok (hs' ++ later)) (m : ModeInfo K) (hm : m ∈ later) :
    0 ≤ m.area ∧ m.area ≤ (∑ j ∈ Finset.range xs.length, ys.getD j 0 * Spec.width xs j) - (hs'.map ModeInfo.area).sum := by
  obtain ⟨ms, peaks, h1, h2, h3, h4, _, h6⟩ := C40_highest xs ys hl hn hpos mr (hs' ++ later).length
  rw [hlater] at h1
  cases h1
  have hnn : ∀ a ∈ hs' ++ later, 0 ≤ a.area := by
    intro a ha
    obtain ⟨k, hk, rfl⟩ := List.mem_iff_getElem.mp ha
    have := h4 k _ (peaks[k]'(by omega)) (List.getElem?_eq_getElem hk) (List.getElem?_eq_getElem (by omega))
    rw [this.area]
    refine Finset.sum_nonneg fun j hj => ?_
    rw [Finset.mem_Ico] at hj
    have := this.hi_lt
    exact mul_nonneg (residual_nonneg (getD_nonneg hpos) _ _) (width_nonneg hs (by omega) (by omega))
  have hres : 0 ≤ ∑ j ∈ Finset.range xs.length, Spec.residual (ys.getD · 0) peaks j * Spec.width xs j :=
    Finset.sum_nonneg fun j hj => mul_nonneg (residual_nonneg (getD_nonneg hpos) _ _) (width_nonneg hs (Finset.mem_range.mp hj) (by omega))
  refine ⟨hnn m (List.mem_append_right _ hm), ?_⟩
  have hle : m.area ≤ (later.map ModeInfo.area).sum := by
    refine List.single_le_sum ?_ _ (List.mem_map_of_mem hm)
    intro a ha
    obtain ⟨b, hb, rfl⟩ := List.mem_map.mp ha
    exact hnn b (List.mem_append_right _ hb)
  rw [List.map_append, List.sum_append] at h6
  linarith

/-- The density never changes the number of modes: none are asked for, none come. -/
theorem C40_none (xs ys : List K) (mr : K) : highestModes xs mr 0 ys = .ok [] := rfl

/-- **C40 (interpolation).** At an inner sample where the three samples around it are on the parabola `a x² + b x + c` with `a ≠ 0`, the interpolated maximum is its
vertex, limited to the range of the samples. -/
theorem C40_vertex [IsStrictOrderedRing K] (xs ys : List K) (i : Nat) (h0 : 1 ≤ i) (hi : i + 1 < xs.length) (hl : xs.length = ys.length)
    (hx0 : xs.getD (i - 1) 0 < xs.getD i 0) (hx1 : xs.getD i 0 < xs.getD (i + 1) 0) (a b c : K) (ha : a ≠ 0)
    (hy : ∀ j, i - 1 ≤ j → j ≤ i + 1 → ys.getD j 0 = a * xs.getD j 0 ^ 2 + b * xs.getD j 0 + c) (hle : xs.getD 0 0 ≤ xs.getD (xs.length - 1) 0) :
    interpolationAround xs ys i = .ok (min (max (-b / (2 * a)) (xs.getD 0 0)) (xs.getD (xs.length - 1) 0)) := by
  rw [interpolationAround, if_neg (by omega)]
  simp only [if_neg (show ¬ i = 0 by omega), if_neg (show ¬ i + 1 = xs.length by omega)]
  rw [elem_ok (by omega), elem_ok (by omega), elem_ok (by omega), elem_ok (by omega), elem_ok (by omega), elem_ok (by omega), elem_ok (by omega), elem_ok (by omega)]
  simp only [Outcome.bind_ok, Outcome.pure_eq]
  rw [hy (i - 1) (le_refl _) (by omega), hy i (by omega) (by omega), hy (i + 1) (by omega) (le_refl _)]
  generalize xs.getD (i - 1) 0 = x0 at *
  generalize xs.getD i 0 = x1 at *
  generalize xs.getD (i + 1) 0 = x2 at *
  generalize xs.getD 0 0 = f at *
  generalize xs.getD (xs.length - 1) 0 = l at *
  have hD : (x1 - x0) * (x2 - x0) * (x2 - x1) ≠ 0 :=
    mul_ne_zero (mul_ne_zero (sub_ne_zero.mpr hx0.ne') (sub_ne_zero.mpr (hx0.trans hx1).ne')) (sub_ne_zero.mpr hx1.ne')
  have e1 : 2 * ((x1 - x0) * (a * x2 ^ 2 + b * x2 + c) - (x2 - x0) * (a * x1 ^ 2 + b * x1 + c) + (x2 - x1) * (a * x0 ^ 2 + b * x0 + c)) =
      2 * a * ((x1 - x0) * (x2 - x0) * (x2 - x1)) := by ring
  have e2 : (x1 * x1 - x0 * x0) * (a * x2 ^ 2 + b * x2 + c) - (x2 * x2 - x0 * x0) * (a * x1 ^ 2 + b * x1 + c) + (x2 * x2 - x1 * x1) * (a * x0 ^ 2 + b * x0 + c) =
      -b * ((x1 - x0) * (x2 - x0) * (x2 - x1)) := by ring
  rw [e1, e2, if_pos (mul_ne_zero (mul_ne_zero two_ne_zero ha) hD), mul_div_mul_right _ _ hD]
  congr 1
  generalize -b / (2 * a) = v
  by_cases h1 : v < f
  · rw [if_pos h1, max_eq_right h1.le, min_eq_left hle]
  · rw [if_neg h1, max_eq_left (not_lt.mp h1)]
    by_cases h2 : v > l
    · rw [if_pos h2, min_eq_right h2.le]
    · rw [if_neg h2, min_eq_left (not_lt.mp h2)]

/-- **C40 (flat).** If the three samples are on a line, the sample itself is the maximum. -/
theorem C40_flat [IsStrictOrderedRing K] (xs ys : List K) (i : Nat) (h0 : 1 ≤ i) (hi : i + 1 < xs.length) (hl : xs.length = ys.length) (hs : xs.Pairwise (· ≤ ·)) (b c : K)
    (hy : ∀ j, i - 1 ≤ j → j ≤ i + 1 → ys.getD j 0 = b * xs.getD j 0 + c) : interpolationAround xs ys i = .ok (xs.getD i 0) := by
  rw [interpolationAround, if_neg (by omega)]
  simp only [if_neg (show ¬ i = 0 by omega), if_neg (show ¬ i + 1 = xs.length by omega)]
  rw [elem_ok (by omega), elem_ok (by omega), elem_ok (by omega), elem_ok (by omega), elem_ok (by omega), elem_ok (by omega), elem_ok (by omega), elem_ok (by omega)]
  simp only [Outcome.bind_ok, Outcome.pure_eq]
  rw [hy (i - 1) (le_refl _) (by omega), hy i (by omega) (by omega), hy (i + 1) (by omega) (le_refl _)]
  have get : ∀ a b, a ≤ b → b < xs.length → xs.getD a 0 ≤ xs.getD b 0 := by
    intro a b hab hb
    rw [List.getD_eq_getElem _ _ (by omega), List.getD_eq_getElem _ _ hb]
    exact sorted_get hs hab (List.getElem?_eq_getElem (by omega)) (List.getElem?_eq_getElem hb)
  have g1 := get 0 i (by omega) (by omega)
  have g2 := get i (xs.length - 1) (by omega) (by omega)
  have e : ∀ x0 x1 x2 : K, 2 * ((x1 - x0) * (b * x2 + c) - (x2 - x0) * (b * x1 + c) + (x2 - x1) * (b * x0 + c)) = 0 := by intros; ring
  simp only [e, ne_eq, not_true_eq_false, if_false]
  rw [if_neg (not_lt.mpr g1), if_neg (not_lt.mpr g2)]

end

/-! ## Violations -/

/-- The full statement for the biggest modes: at most `n` of them. -/
def C40_full : Prop :=
  ∀ (xs ys : List ℚ) (mr : ℚ) (n fuel : Nat) (ms : List (ModeInfo ℚ)), xs.length = ys.length → 3 ≤ xs.length → xs.Pairwise (· ≤ ·) → (∀ y ∈ ys, 0 ≤ y) → 1 ≤ n →
    biggestModes fuel xs ys mr n = .ok (some ms) → ms.length ≤ n

/-- **C40 (violated).** A narrow high peak and a wide low one: asked for one mode, the function gives two. -/
theorem C40_violated : ¬ C40_full := by
  intro h
  have := h [0, 1, 2, 3, 4, 5, 6, 7] [0, 5, 0, 3, 4, 3, 1, 0] 0 1 5 [⟨4, some (46 / 11), 4, 11⟩, ⟨1, some 1, 1, 5⟩] rfl (by decide) (by decide +kernel) (by decide +kernel) (by decide) (by decide +kernel)
  simp at this

/-- **C40 (no modes).** Asked for no modes, the last element of an empty vector is accessed. -/
theorem C40_zero_violated : biggestModes 5 ([0, 1, 2] : List ℚ) [0, 1, 0] 0 0 = .ub := by decide +kernel

/-- **C40 (few samples).** With one or two samples the vectors are read out of bounds. -/
theorem C40_small_violated : highestModes ([0, 1] : List ℚ) 0 1 [1, 2] = .ub ∧ highestModes ([0] : List ℚ) 0 1 [1] = .ub ∧ highestModes ([] : List ℚ) 0 1 [] = .ub := by decide +kernel

/-- **C40 (border).** A mode that ends at the border leaves the last sample out, which then is another mode; modes without area have no mean. -/
theorem C40_border : highestModes ([0, 1, 2, 3] : List ℚ) 0 3 [0, 4, 2, 1] = .ok [⟨1, some (4 / 3), 7 / 6, 6⟩, ⟨3, some 3, 3 / 2, 1⟩, ⟨0, none, 1, 0⟩] := by decide +kernel

example : (highestModes ([0, 1, 2, 3, 4, 5, 6, 7] : List ℚ) 0 2 [0, 5, 0, 3, 4, 3, 1, 0]).bind (fun ms => Outcome.ok (ms.map ModeInfo.sample)) = .ok [1, 4] ∧
    catchPeak ([0, 5, 3, 4, 2, 3, 0, 0] : List ℚ) 1 0 = .ok (1, 2) ∧ catchPeak ([0, 5, 3, 4, 2, 3, 0, 0] : List ℚ) 1 (1 / 2) = .ok (1, 4) := by decide +kernel

end Alexandria.MathUtils
