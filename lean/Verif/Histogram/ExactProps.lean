import Verif.Histogram.Props

/-!
# Properties C22, C67, C68: what the code does where it differs from what is expected

Integer square-root bins, edges and bins of clipped histograms, and the error of the median.
-/

set_option linter.unusedSectionVars false

namespace Alexandria.Histogram

open Spec Classical

/-! ## C22: integer values -/

theorem countLoop_ub {V W : Type} [AddCommMonoid W] (b : Binning V) (data : List (V × W)) (counts : List W)
    (hnt : ∀ d ∈ data, ∀ e, b.index d.1 ≠ .throw e) (hub : ∃ d ∈ data, b.index d.1 = .ub) :
    countLoop b data counts = .ub := by
  induction data generalizing counts with
  | nil => simp at hub
  | cons d data ih =>
    obtain ⟨v, w⟩ := d
    rw [countLoop]
    cases hv : b.index v with
    | ub => rfl
    | throw e => exact absurd hv (hnt (v, w) (by simp) e)
    | ok k =>
      have hub' : ∃ d ∈ data, b.index d.1 = .ub := by
        obtain ⟨d, hd, hdu⟩ := hub
        rcases List.mem_cons.1 hd with rfl | hd
        · rw [hv] at hdu; cases hdu
        · exact ⟨d, hd, hdu⟩
      rw [Outcome.bind_ok]
      by_cases hk : k ≥ 0 ∧ k < counts.length
      · rw [if_pos hk]; exact ih _ (fun d hd => hnt d (by simp [hd])) hub'
      · rw [if_neg hk]; exact ih _ (fun d hd => hnt d (by simp [hd])) hub'

theorem minmax_eq {l : List Int} {lo hi : Int} (hlo : lo ∈ l) (hhi : hi ∈ l) (hb : ∀ v ∈ l, lo ≤ v ∧ v ≤ hi) :
    minmax l = some (lo, hi) := by
  have hmin : ∀ (xs : List Int) (x : Int), (xs.foldl min x = x ∨ xs.foldl min x ∈ xs) ∧ xs.foldl min x ≤ x ∧
      ∀ y ∈ xs, xs.foldl min x ≤ y := by
    intro xs
    induction xs with
    | nil => intro x; simp
    | cons y ys ih =>
      intro x
      obtain ⟨h1, h2, h3⟩ := ih (min x y)
      simp only [List.foldl_cons, List.mem_cons]
      refine ⟨?_, by omega, ?_⟩
      · rcases h1 with h1 | h1
        · omega
        · exact .inr (.inr h1)
      · rintro z (rfl | hz)
        · omega
        · exact h3 z hz
  have hmax : ∀ (xs : List Int) (x : Int), (xs.foldl max x = x ∨ xs.foldl max x ∈ xs) ∧ x ≤ xs.foldl max x ∧
      ∀ y ∈ xs, y ≤ xs.foldl max x := by
    intro xs
    induction xs with
    | nil => intro x; simp
    | cons y ys ih =>
      intro x
      obtain ⟨h1, h2, h3⟩ := ih (max x y)
      simp only [List.foldl_cons, List.mem_cons]
      refine ⟨?_, by omega, ?_⟩
      · rcases h1 with h1 | h1
        · omega
        · exact .inr (.inr h1)
      · rintro z (rfl | hz)
        · omega
        · exact h3 z hz
  cases l with
  | nil => simp at hlo
  | cons x xs =>
    obtain ⟨a1, a2, a3⟩ := hmin xs x
    obtain ⟨b1, b2, b3⟩ := hmax xs x
    have ea : xs.foldl min x = lo := by
      have h1 : lo ≤ xs.foldl min x := by
        rcases a1 with h | h
        · rw [h]; exact (hb x (by simp)).1
        · exact (hb _ (by simp [h])).1
      have h2 : xs.foldl min x ≤ lo := by
        rcases List.mem_cons.1 hlo with rfl | h
        · exact a2
        · exact a3 _ h
      omega
    have eb : xs.foldl max x = hi := by
      have h1 : xs.foldl max x ≤ hi := by
        rcases b1 with h | h
        · rw [h]; exact (hb x (by simp)).2
        · exact (hb _ (by simp [h])).2
      have h2 : hi ≤ xs.foldl max x := by
        rcases List.mem_cons.1 hhi with rfl | h
        · exact b2
        · exact b3 _ h
      omega
    rw [minmax, ea, eb]

/-- **C22, integer square-root bins, exactly.** Let `lo` and `hi` be the least and the greatest of the values, and `n` the number of
bins, the square root of the number of values rounded up. If the values are not all equal and `hi - lo < n`, the code divides by
zero. Otherwise, with the step `(hi - lo) / n` rounded down, bin `i` holds the weight of the values from `lo + i * step` to
`lo + (i + 1) * step` that are not `hi`, and the last bin also that of the values equal to `hi`; what lies between
`lo + n * step` and `hi` is counted nowhere. -/
theorem C22_sqrt_int_exact {W : Type} [AddCommMonoid W] (data : List (Int × W)) (lo hi : Int)
    (hlo : lo ∈ data.map Prod.fst) (hhi : hi ∈ data.map Prod.fst) (hb : ∀ v ∈ data.map Prod.fst, lo ≤ v ∧ v ≤ hi)
    (n : Nat) (hn : n = ceilSqrt data.length) :
    (lo < hi ∧ hi - lo < n → sqrtHistogramInt data = .ub) ∧
    (lo = hi ∨ n ≤ hi - lo → ∃ h, sqrtHistogramInt data = .ok h ∧ h.counts.length = n ∧
      (∀ i : Nat, i < n → h.counts[i]? = some (weightWhere (fun v => (v = hi ∧ i + 1 = n) ∨
        (v ≠ hi ∧ lo + i * ((hi - lo) / n) ≤ v ∧ v < lo + (i + 1) * ((hi - lo) / n))) data)) ∧
      h.counts.sum = weightWhere (fun v => v = hi ∨ v < lo + n * ((hi - lo) / n)) data) := by
  have hle : lo ≤ hi := (hb lo hlo).2
  have hn1 : 1 ≤ n := by
    rw [hn]
    apply ceilSqrt_pos
    obtain ⟨d, hd, _⟩ := List.mem_map.1 hlo
    exact List.length_pos_of_mem hd
  have htd : (hi - lo).tdiv n = (hi - lo) / n := Int.tdiv_eq_ediv_of_nonneg (by omega)
  have hbins : sqrtBinsInt (data.map Prod.fst) = .ok {
      nbins := n
      index := fun value => if value = hi then .ok ((n : Int) - 1) else if (hi - lo) / (n : Int) = 0 then .ub
        else .ok ((value - lo).tdiv ((hi - lo) / (n : Int)))
      edge := fun i => some (i * ((hi - lo) / (n : Int)) + lo) } := by
    rw [sqrtBinsInt, minmax_eq hlo hhi hb]
    simp only [List.length_map, ← hn, htd]
  have hstep0 : 0 ≤ (hi - lo) / (n : Int) := Int.ediv_nonneg (by omega) (by omega)
  constructor
  · rintro ⟨hlt, hsm⟩
    have hz : (hi - lo) / (n : Int) = 0 := Int.ediv_eq_zero_of_lt (by omega) hsm
    rw [sqrtHistogramInt, hbins, Outcome.bind_ok, histogram, countLoop_ub]
    · rfl
    · intro d _ e
      simp only [hz, if_true]
      split <;> simp
    · obtain ⟨d, hd, he⟩ := List.mem_map.1 hlo
      refine ⟨d, hd, ?_⟩
      simp only [hz, if_true, he]
      rw [if_neg (by omega)]
  · intro hcase
    have hspos : lo < hi → 0 < (hi - lo) / (n : Int) := by
      intro hlt
      have hge : (n : Int) ≤ hi - lo := by omega
      have := Int.ediv_le_ediv (show (0 : Int) < n by omega) hge
      rw [Int.ediv_self (by omega)] at this
      omega
    obtain ⟨c, h1, h2, h3, h4⟩ := histogram_spec (V := Int) (W := W) {
        nbins := n
        index := fun value => if value = hi then .ok ((n : Int) - 1) else if (hi - lo) / (n : Int) = 0 then .ub
          else .ok ((value - lo).tdiv ((hi - lo) / (n : Int)))
        edge := fun i => some (i * ((hi - lo) / (n : Int)) + lo) }
      (fun v => if v = hi then (n : Int) - 1 else (v - lo) / ((hi - lo) / (n : Int))) data (by
        intro d hd
        have hv := hb d.1 (List.mem_map_of_mem hd)
        simp only
        by_cases he : d.1 = hi
        · rw [if_pos he, if_pos he]
        · have := hspos (by omega)
          rw [if_neg he, if_neg (by omega), if_neg he, Int.tdiv_eq_ediv_of_nonneg (by omega)])
    simp only at h2 h3 h4
    have hdiv : ∀ v : Int, lo ≤ v → v ≤ hi → v ≠ hi → ∀ k : Int,
        ((v - lo) / ((hi - lo) / (n : Int)) = k ↔ lo + k * ((hi - lo) / n) ≤ v ∧ v < lo + (k + 1) * ((hi - lo) / n)) := by
      intro v hv1 hv2 hv3 k
      have hs := hspos (by omega)
      rw [Int.ediv_eq_iff_of_pos hs]
      constructor
      · rintro ⟨a, b⟩; constructor <;> linarith
      · rintro ⟨a, b⟩; constructor <;> linarith
    rw [sqrtHistogramInt, hbins, Outcome.bind_ok, h1]
    refine ⟨_, rfl, h2, ?_, ?_⟩
    · intro i hi'
      simp only
      rw [List.getElem?_eq_getElem (by omega), ← List.getD_eq_getElem _ 0 (by omega), h3 i hi']
      congr 1
      apply weightWhere_congr
      intro d hd
      have hv := hb d.1 (List.mem_map_of_mem hd)
      by_cases he : d.1 = hi
      · rw [if_pos he]
        simp only [he, true_and, ne_eq, not_true_eq_false, false_and, or_false]
        omega
      · rw [if_neg he]
        simp only [he, false_and, ne_eq, not_false_eq_true, true_and, false_or]
        exact hdiv d.1 hv.1 hv.2 he i
    · rw [h4]
      apply weightWhere_congr
      intro d hd
      have hv := hb d.1 (List.mem_map_of_mem hd)
      by_cases he : d.1 = hi
      · rw [if_pos he]; simp only [he, true_or, iff_true]; omega
      · have hs := hspos (by omega)
        rw [if_neg he]
        simp only [he, false_or]
        constructor
        · rintro ⟨_, b⟩
          have := (Int.ediv_lt_iff_lt_mul hs).1 b
          linarith
        · intro b
          exact ⟨Int.ediv_nonneg (by omega) (by omega), Int.ediv_lt_of_lt_mul hs (by linarith)⟩

/-- Test: `0, 4, 5, 5` have bins of width 2, and 4 is lost; `0, 1, 0` divides by zero. -/
example : (ceilSqrt 4 = 2 ∧ (sqrtHistogramInt ([(0, 1), (4, 1), (5, 1), (5, 1)] : List (Int × Nat)) >>= fun h => pure h.counts) =
      .ok [1, 2]) ∧
    (ceilSqrt 3 = 2 ∧ (sqrtHistogramInt ([(0, 1), (1, 1), (0, 1)] : List (Int × Nat)) >>= fun h => pure h.counts) = .ub) := by
  decide +kernel

/-! ## C67: clipped histograms -/

/-- **C67, with clipping.** After any sequence of clips `getEdges` and `getBins` return what they returned before: all edges and all
centres. So there is one edge more than counts exactly if the clips cut nothing off. -/
theorem C67_clipped {K : Type} [Field K] [LinearOrder K] [IsStrictOrderedRing K] (edges : List K)
    (hs : edges.Pairwise (· < ·)) (h2 : 2 ≤ edges.length) (data : List (K × K)) (h0 h : Histo K K) (ranges : List (K × K))
    (hh : histogram (edgeVector edges) data = .ok h0) (hc : clips h0 ranges = .ok h) :
    h.getEdges = some edges ∧ h.getBins = h0.getBins ∧ h.getCounts.length ≤ h0.getCounts.length ∧
      (edges.length = h.getCounts.length + 1 ↔ h.getCounts = h0.getCounts) := by
  obtain ⟨u1, u2, u3, _⟩ := C67_unclipped_partial edges hs h2 data h0 hh
  have hnb : (edgeVector edges).nbins = edges.length - 1 := rfl
  obtain ⟨k1, k2, k3, k4, k5, k6, k7⟩ := C23_clip_shrinks (edgeVector edges) (by omega) data h0 h ranges hh hc
  have hlr0 : h0.left ≤ h0.right := by
    obtain ⟨a1, a2, a3, _⟩ := C23_clip_shrinks (edgeVector edges) (by omega) data h0 h0 [] hh rfl
    exact a3
  have hbin : ∀ (ranges : List (K × K)) (g h : Histo K K), g.left ≤ g.right → clips g ranges = .ok h →
      h.binning = g.binning := by
    intro ranges
    induction ranges with
    | nil => intro g h _ hc; cases hc; rfl
    | cons r rs ih =>
      intro g h hl hc
      rw [clips] at hc
      cases hg : g.clip r.1 r.2 with
      | throw e => rw [hg] at hc; cases hc
      | ub => rw [hg] at hc; cases hc
      | ok g' =>
        rw [hg, Outcome.bind_ok] at hc
        obtain ⟨b1, _, _, b4, _⟩ := clip_inv hl hg
        exact (ih g' h b4 hc).trans b1
  have hb := hbin ranges h0 h hlr0 hc
  refine ⟨?_, ?_, ?_, ?_⟩
  · rw [← u1]; unfold Histo.getEdges; rw [hb]
  · unfold Histo.getBins; rw [hb, k1]
  · unfold Histo.size at k5
    omega
  · constructor
    · intro he
      unfold Histo.size at k5
      have hl0 : h.left = 0 := by omega
      apply List.ext_getElem?
      intro j
      by_cases hj : j < h.getCounts.length
      · rw [k7 j hj, hl0, u3]; simp
      · rw [List.getElem?_eq_none (by omega), List.getElem?_eq_none (by omega)]
    · intro he
      rw [he]; omega

/-- Test: one of two bins cut off; there are still three edges. -/
example : ∃ h : Histo ℚ ℚ, histogram (edgeVector [(0 : ℚ), 1, 2]) [(1 / 2, 1), (3 / 2, 1)] = .ok ⟨edgeVector [0, 1, 2], [1, 1], 0, 1⟩ ∧
    clips ⟨edgeVector [0, 1, 2], [1, 1], 0, 1⟩ [(1 / 2, 1 / 2)] = .ok h ∧ h.getCounts = [1] ∧ h.getEdges = some [0, 1, 2] := by
  refine ⟨⟨edgeVector [0, 1, 2], [1, 1], 0, 0⟩, ?_, ?_, by decide +kernel, by decide +kernel⟩
  · have e1 : (edgeVector [(0 : ℚ), 1, 2]).index (1 / 2) = .ok 0 := by decide +kernel
    have e2 : (edgeVector [(0 : ℚ), 1, 2]).index (3 / 2) = .ok 1 := by decide +kernel
    simp only [histogram, countLoop, e1, e2, Outcome.bind_ok]
    simp [edgeVector]
  · have e2 : (edgeVector [(0 : ℚ), 1, 2]).index (1 / 2) = .ok 0 := by decide +kernel
    simp only [clips, Histo.clip, gt_iff_lt, lt_irrefl, if_false, e2, Outcome.bind_ok, Outcome.pure_eq]
    rfl

/-! ## C68: the error of the median -/

section
variable {K : Type} [Field K] [LinearOrder K] [IsStrictOrderedRing K]

/-- The value that `getStats` returns as median, in terms of sums of counts. -/
theorem median_formula (h : Histo K K) (edge : Nat → K) (l r : Nat) (hl : h.left = l) (hr : h.right = (r : Int) - 1)
    (hrl : r ≤ h.counts.length) (hlr : l < r) (he : ∀ i, i ≤ r → h.binning.edge i = some (edge i))
    (hpos : ∀ c ∈ h.counts, 0 ≤ c) (htot : 0 < ∑ i ∈ Finset.Ico l r, h.counts.getD i 0) :
    ∃ j : Nat, l ≤ j ∧ j < r ∧
      ∑ i ∈ Finset.Ico j r, h.counts.getD i 0 ≤ ∑ i ∈ Finset.Ico l j, h.counts.getD i 0 + h.counts.getD j 0 ∧
      (l < j → ∑ i ∈ Finset.Ico l j, h.counts.getD i 0 ≤ ∑ i ∈ Finset.Ico j r, h.counts.getD i 0 + h.counts.getD (j - 1) 0) ∧
      (0 < j → 0 < max (h.counts.getD j 0) (h.counts.getD (j - 1) 0) ∧ h.median = .ok (edge j + (edge (j + 1) - edge j) *
          (∑ i ∈ Finset.Ico j r, h.counts.getD i 0 - ∑ i ∈ Finset.Ico l j, h.counts.getD i 0) /
          (2 * max (h.counts.getD j 0) (h.counts.getD (j - 1) 0)))) ∧
      (j = 0 → h.median = .ok ((edge 1 + edge 0) / 2)) := by
  obtain ⟨j, hlj, hjr, hj, j1, j2, hjb, j3, j4⟩ := medianLoop_spec h.counts hpos l r (r - l) l r rfl (le_refl _) (le_of_lt hlr)
    (le_refl _) 0 0 (by simp) (by simp) (by omega) (by simp) (by omega) (by simp) (by simp) (by simp)
  have hjlt := hjb rfl hlr rfl
  have hadd : ∑ i ∈ Finset.Ico l j, h.counts.getD i 0 + ∑ i ∈ Finset.Ico j r, h.counts.getD i 0 =
      ∑ i ∈ Finset.Ico l r, h.counts.getD i 0 := Finset.sum_Ico_consecutive _ hlj hjr
  refine ⟨j, hlj, hjlt, j1 hjlt, j2, ?_, ?_⟩
  · intro hj0
    have e1 : ((j : Int) - 1 + 1).toNat = j := by omega
    have e2 : ((j : Int) - 1).toNat = j - 1 := by omega
    have g1 : h.counts[j]? = some (h.counts.getD j 0) := by
      rw [List.getD_eq_getElem _ _ (by omega), List.getElem?_eq_getElem]
    have g2 : h.counts[j - 1]? = some (h.counts.getD (j - 1) 0) := by
      rw [List.getD_eq_getElem _ _ (by omega), List.getElem?_eq_getElem]
    have hmed : h.median = if max (h.counts.getD j 0) (h.counts.getD (j - 1) 0) = 0 then .ub
        else .ok (edge j + (edge (j + 1) - edge j) *
          (∑ i ∈ Finset.Ico j r, h.counts.getD i 0 - ∑ i ∈ Finset.Ico l j, h.counts.getD i 0) /
          (2 * max (h.counts.getD j 0) (h.counts.getD (j - 1) 0))) := by
      unfold Histo.median
      rw [hl, hr, hj]
      simp only
      rw [if_pos (by omega), e1, e2, Int.toNat_natCast, he j (by omega), he (j + 1) (by omega), g1, g2]
    have hmaxpos : 0 < max (h.counts.getD j 0) (h.counts.getD (j - 1) 0) := by
      by_cases hlt : ∑ i ∈ Finset.Ico l j, h.counts.getD i 0 < ∑ i ∈ Finset.Ico j r, h.counts.getD i 0
      · exact lt_of_lt_of_le (j3 hlt) (le_max_left _ _)
      · rcases j4 (not_lt.1 hlt) with h0 | h0
        · have := not_lt.1 hlt
          exact absurd htot (not_lt.2 (by linarith))
        · exact lt_of_lt_of_le h0 (le_max_right _ _)
    rw [if_neg (ne_of_gt hmaxpos)] at hmed
    exact ⟨hmaxpos, hmed⟩
  · intro hj0
    subst hj0
    unfold Histo.median
    rw [hl, hr, hj]
    simp only
    rw [if_neg (by omega)]
    unfold Binning.center
    rw [he 0 (by omega), he 1 (by omega)]
    rfl

/-- The weight below a point of bin `k`, for bins of equal width. -/
theorem weightBelow_in_bin (edges counts : List K) (w : K) (hw : 0 < w)
    (hew : ∀ i, i < counts.length → edges.getD (i + 1) 0 - edges.getD i 0 = w) (k : Nat) (hk : k < counts.length) (x : K)
    (h1 : edges.getD k 0 ≤ x) (h2 : x ≤ edges.getD (k + 1) 0) :
    weightBelow edges counts x =
      ∑ i ∈ Finset.Ico 0 k, counts.getD i 0 + counts.getD k 0 * ((x - edges.getD k 0) / w) := by
  have hmono : ∀ i j, i ≤ j → j ≤ counts.length → edges.getD i 0 ≤ edges.getD j 0 := by
    intro i j hij
    induction j with
    | zero => intro _; rw [show i = 0 by omega]
    | succ j ih =>
      intro hj
      rcases Nat.eq_or_lt_of_le hij with rfl | hlt
      · exact le_refl _
      · have := ih (by omega) (by omega)
        have := hew j (by omega)
        linarith
  unfold weightBelow
  rw [Finset.range_eq_Ico, ← Finset.sum_Ico_consecutive _ (Nat.zero_le k) (le_of_lt hk),
    ← Finset.sum_Ico_consecutive _ (Nat.le_succ k) (show k + 1 ≤ counts.length by omega), Nat.Ico_succ_singleton,
    Finset.sum_singleton]
  have s1 : ∑ i ∈ Finset.Ico 0 k, counts.getD i 0 *
      max 0 (min 1 ((x - edges.getD i 0) / (edges.getD (i + 1) 0 - edges.getD i 0))) = ∑ i ∈ Finset.Ico 0 k, counts.getD i 0 := by
    apply Finset.sum_congr rfl
    intro i hi
    rw [Finset.mem_Ico] at hi
    have hwi := hew i (by omega)
    have := hmono (i + 1) k (by omega) (by omega)
    have hr : 1 ≤ (x - edges.getD i 0) / (edges.getD (i + 1) 0 - edges.getD i 0) := by
      rw [hwi, le_div_iff₀ hw]; linarith
    rw [min_eq_left hr, max_eq_right zero_le_one, mul_one]
  have s2 : ∑ i ∈ Finset.Ico (k + 1) counts.length, counts.getD i 0 *
      max 0 (min 1 ((x - edges.getD i 0) / (edges.getD (i + 1) 0 - edges.getD i 0))) = 0 := by
    apply Finset.sum_eq_zero
    intro i hi
    rw [Finset.mem_Ico] at hi
    have hwi := hew i (by omega)
    have := hmono (k + 1) i (by omega) (by omega)
    have hr : (x - edges.getD i 0) / (edges.getD (i + 1) 0 - edges.getD i 0) ≤ 0 := by
      rw [hwi, div_le_iff₀ hw]; linarith
    rw [max_eq_left (le_trans (min_le_right _ _) hr), mul_zero]
  have hwk := hew k hk
  have s3 : max 0 (min 1 ((x - edges.getD k 0) / (edges.getD (k + 1) 0 - edges.getD k 0))) = (x - edges.getD k 0) / w := by
    rw [hwk, min_eq_right, max_eq_right]
    · exact div_nonneg (by linarith) (le_of_lt hw)
    · rw [div_le_iff₀ hw]; linarith
  rw [s1, s2, s3, add_zero]

/-- **C68, exactly, for bins of equal width.** The loop stops at some bin boundary `j`, with the weight `lo` in front of it and `hi`
behind it. If `j` is the first edge, the returned median is exact. Otherwise a true median lies in the bin `s` next to the boundary
on the heavier side, and the returned one misses half of the weight by `(lo - hi) * (1 - count of s / larger count of the two bins
at the boundary)`: it is exact if and only if `lo = hi` or `s` has the larger count. -/
theorem C68_median_error (edges counts : List K) (w : K) (hw : 0 < w) (hlen : edges.length = counts.length + 1)
    (hew : ∀ i, i < counts.length → edges.getD (i + 1) 0 - edges.getD i 0 = w) (hpos : ∀ c ∈ counts, 0 ≤ c)
    (htot : 0 < ∑ i ∈ Finset.Ico 0 counts.length, counts.getD i 0) :
    ∃ (m : K) (j : Nat), Histo.median (⟨edgeVector edges, counts, 0, (counts.length : Int) - 1⟩ : Histo K K) = .ok m ∧
      j < counts.length ∧
      (j = 0 → 2 * weightBelow edges counts m = ∑ i ∈ Finset.Ico 0 counts.length, counts.getD i 0) ∧
      (0 < j → ∀ lo hi s, lo = ∑ i ∈ Finset.Ico 0 j, counts.getD i 0 → hi = ∑ i ∈ Finset.Ico j counts.length, counts.getD i 0 →
        (s = if lo ≤ hi then j else j - 1) →
        2 * weightBelow edges counts m - ∑ i ∈ Finset.Ico 0 counts.length, counts.getD i 0 =
            (lo - hi) * (1 - counts.getD s 0 / max (counts.getD j 0) (counts.getD (j - 1) 0)) ∧
        (2 * weightBelow edges counts m = ∑ i ∈ Finset.Ico 0 counts.length, counts.getD i 0 ↔
          lo = hi ∨ (counts.getD j 0 ≤ counts.getD s 0 ∧ counts.getD (j - 1) 0 ≤ counts.getD s 0))) := by
  have hn : 0 < counts.length := by
    by_contra h
    rw [show counts.length = 0 by omega] at htot
    simp at htot
  have hnn : ∀ i, 0 ≤ counts.getD i 0 := by
    intro i
    by_cases h' : i < counts.length
    · rw [List.getD_eq_getElem _ _ h']; exact hpos _ (List.getElem_mem h')
    · rw [List.getD_eq_default _ _ (by omega)]
  obtain ⟨j, _, hjr, j1, j2, hM, hZ⟩ := median_formula (⟨edgeVector edges, counts, 0, (counts.length : Int) - 1⟩ : Histo K K)
    (fun i => edges.getD i 0) 0 counts.length rfl rfl (le_refl _) hn (by
      intro i hi
      show edges[i]? = _
      rw [List.getElem?_eq_getElem (by omega), List.getD_eq_getElem _ _ (by omega)]) hpos htot
  simp only at j1 j2 hM hZ
  have hadd : ∑ i ∈ Finset.Ico 0 j, counts.getD i 0 + ∑ i ∈ Finset.Ico j counts.length, counts.getD i 0 =
      ∑ i ∈ Finset.Ico 0 counts.length, counts.getD i 0 := Finset.sum_Ico_consecutive _ (Nat.zero_le _) (le_of_lt hjr)
  rcases Nat.eq_zero_or_pos j with hj0 | hj0
  · have hm := hZ hj0
    refine ⟨_, j, hm, hjr, fun _ => ?_, fun h => absurd h (by omega)⟩
    subst hj0
    have hw0 := hew 0 hn
    rw [weightBelow_in_bin edges counts w hw hew 0 hn _ (by simp only [zero_add] at hw0; linarith)
      (by simp only [zero_add] at hw0 ⊢; linarith)]
    have hx : ((edges.getD 1 0 + edges.getD 0 0) / 2 - edges.getD 0 0) / w = 1 / 2 := by
      rw [div_eq_iff (ne_of_gt hw)]
      simp only [zero_add] at hw0
      linarith
    rw [hx]
    simp only [Finset.Ico_self, Finset.sum_empty, zero_add] at hadd j1 ⊢
    have hge : counts.getD 0 0 ≤ ∑ i ∈ Finset.Ico 0 counts.length, counts.getD i 0 :=
      Finset.single_le_sum (f := fun i => counts.getD i 0) (fun i _ => hnn i) (Finset.mem_Ico.2 ⟨le_refl _, hn⟩)
    linarith
  · obtain ⟨hmax, hm⟩ := hM hj0
    refine ⟨_, j, hm, hjr, fun h => absurd h (by omega), fun _ lo hi s hlo hhi hs => ?_⟩
    rw [← hlo, ← hhi] at hadd
    rw [← hlo, ← hhi] at j1
    rw [← hlo, ← hhi] at j2
    rw [← hlo, ← hhi]
    have j2 := j2 hj0
    generalize hMeq : max (counts.getD j 0) (counts.getD (j - 1) 0) = M at hmax ⊢
    have hMj : counts.getD j 0 ≤ M := hMeq ▸ le_max_left _ _
    have hMj' : counts.getD (j - 1) 0 ≤ M := hMeq ▸ le_max_right _ _
    have hwj := hew j hjr
    have hwj' := hew (j - 1) (by omega)
    rw [show j - 1 + 1 = j by omega] at hwj'
    rw [hwj]
    have hM2 : (0 : K) < 2 * M := by linarith
    have herr : 2 * weightBelow edges counts (edges.getD j 0 + w * (hi - lo) / (2 * M)) -
        ∑ i ∈ Finset.Ico 0 counts.length, counts.getD i 0 = (lo - hi) * (1 - counts.getD s 0 / M) := by
      by_cases hle : lo ≤ hi
      · rw [if_pos hle] at hs
        subst hs
        have hx0 : 0 ≤ w * (hi - lo) / (2 * M) := div_nonneg (mul_nonneg (le_of_lt hw) (by linarith)) (le_of_lt hM2)
        have hx1 : w * (hi - lo) / (2 * M) ≤ w := by
          rw [div_le_iff₀ hM2]
          exact mul_le_mul_of_nonneg_left (by linarith) (le_of_lt hw)
        rw [weightBelow_in_bin edges counts w hw hew s hjr _ (by linarith) (by linarith), ← hlo, ← hadd]
        field_simp
        ring
      · rw [if_neg hle] at hs
        subst hs
        have hx0 : w * (hi - lo) / (2 * M) ≤ 0 :=
          div_nonpos_of_nonpos_of_nonneg (mul_nonpos_of_nonneg_of_nonpos (le_of_lt hw) (by linarith)) (le_of_lt hM2)
        have hx1 : -w ≤ w * (hi - lo) / (2 * M) := by
          rw [le_div_iff₀ hM2]
          have := mul_le_mul_of_nonneg_left (show -(2 * M) ≤ hi - lo by linarith) (le_of_lt hw)
          linarith
        rw [weightBelow_in_bin edges counts w hw hew (j - 1) (by omega) _ (by linarith)
          (by rw [show j - 1 + 1 = j by omega]; linarith)]
        have hsplit : lo = ∑ i ∈ Finset.Ico 0 (j - 1), counts.getD i 0 + counts.getD (j - 1) 0 := by
          rw [hlo, ← Finset.sum_Ico_succ_top (Nat.zero_le _), show j - 1 + 1 = j by omega]
        have he : edges.getD j 0 + w * (hi - lo) / (2 * M) - edges.getD (j - 1) 0 = w * (1 + (hi - lo) / (2 * M)) := by
          rw [mul_add, mul_one, ← mul_div_assoc]; linarith
        have hS : ∑ i ∈ Finset.Ico 0 (j - 1), counts.getD i 0 = lo - counts.getD (j - 1) 0 := by linarith
        rw [he, mul_div_cancel_left₀ _ (ne_of_gt hw), hS, ← hadd]
        field_simp
        ring
    refine ⟨herr, ?_⟩
    have hsM : counts.getD s 0 = M ↔ counts.getD j 0 ≤ counts.getD s 0 ∧ counts.getD (j - 1) 0 ≤ counts.getD s 0 := by
      constructor
      · intro h; rw [h]; exact ⟨hMj, hMj'⟩
      · rintro ⟨h1, h2⟩
        apply le_antisymm
        · rw [hs]; split
          · exact hMj
          · exact hMj'
        · rw [← hMeq]; exact max_le h1 h2
    rw [← hsM, ← sub_eq_zero, herr, mul_eq_zero, sub_eq_zero, sub_eq_zero, eq_comm (a := (1 : K)), div_eq_one_iff_eq (ne_of_gt hmax)]

end

/-- Test: the hypotheses for the counts 50, 49, 3, 100 of `C68_violated`: `lo = 102`, `hi = 100`, and `s` is the bin with 3. -/
example : (∀ i, i < 4 → ([0, 1, 2, 3, 4] : List ℚ).getD (i + 1) 0 - ([0, 1, 2, 3, 4] : List ℚ).getD i 0 = 1) ∧
    (0 : ℚ) < ∑ i ∈ Finset.Ico 0 4, ([50, 49, 3, 100] : List ℚ).getD i 0 ∧
    (2 * weightBelow ([0, 1, 2, 3, 4] : List ℚ) [50, 49, 3, 100] (299 / 100) - 202 = (102 - 100) * (1 - 3 / 100)) := by
  decide +kernel

end Alexandria.Histogram
