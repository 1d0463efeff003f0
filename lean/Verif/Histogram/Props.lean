import Verif.Histogram.Lemmas
import Mathlib.Data.Rat.Floor
import Mathlib.Tactic.NormNum

/-!
# C22, C23, C67, C68, C69: histograms
-/

set_option linter.unusedSectionVars false

namespace Alexandria.Histogram

open Spec Classical

/-! ## C22: every value is counted once, in its bin -/

/-- **C22, explicit edges.** For strictly increasing edges every bin holds the weight of the values it contains, and the counts
add up to the weight of the values inside the edges. -/
theorem C22_edge_vector {V W : Type} [LinearOrder V] [AddCommMonoid W] (edges : List V)
    (hs : edges.Pairwise (· < ·)) (h2 : 2 ≤ edges.length) (data : List (V × W)) :
    ∃ h, histogram (edgeVector edges) data = .ok h ∧ h.counts.length = edges.length - 1 ∧
      (∀ i, i < edges.length - 1 →
        h.counts[i]? = some (weightWhere (InBin (fun i => edges[i]?) (edges.length - 1) i) data)) ∧
      h.counts.sum =
        weightWhere (fun v => ∃ a b, edges.head? = some a ∧ edges.getLast? = some b ∧ a ≤ v ∧ v ≤ b) data := by
  choose f hf1 hf2 hf3 using fun v => edgeIndex_inBin hs h2 v
  obtain ⟨c, h1, hl, h3, h4⟩ := histogram_spec (edgeVector edges) f data (fun d _ => hf1 d.1)
  refine ⟨_, h1, hl, fun i hi => ?_, ?_⟩
  · have hi' : i < c.length := by rw [hl]; exact hi
    have := h3 i hi
    rw [List.getD_eq_getElem _ _ hi'] at this
    simp only
    rw [List.getElem?_eq_getElem hi', this]
    congr 1
    exact weightWhere_congr fun d _ => hf2 d.1 i hi
  · rw [h4]
    exact weightWhere_congr fun d _ => hf3 d.1

example : histogram (edgeVector [0, 2, 5]) [((1 : Int), (3 : Nat)), (2, 1), (5, 7), (9, 100)] |>.isOk := by decide

/-- `Histogram` with `Sqrt` bins: the bins are computed from the values, then the values are counted
(`ComputationImpl.icpp` 98-119). -/
def sqrtHistogram {K W : Type} [Field K] [LinearOrder K] [IsStrictOrderedRing K] [FloorRing K] [AddCommMonoid W]
    (data : List (K × W)) : Res (Histo K W) := do
  let b ← sqrtBins (data.map Prod.fst)
  histogram b data

/-- `Histogram` with `Scott` bins. -/
def scottHistogram {K W : Type} [Field K] [LinearOrder K] [IsStrictOrderedRing K] [FloorRing K] [AddCommMonoid W]
    (h : K) (data : List (K × W)) : Res (Histo K W) := do
  let b ← scottBins h (data.map Prod.fst)
  histogram b data

/-- `Histogram` with `Sqrt<int>` bins. -/
def sqrtHistogramInt {W : Type} [AddCommMonoid W] (data : List (Int × W)) : Res (Histo Int W) := do
  let b ← sqrtBinsInt (data.map Prod.fst)
  histogram b data

section
variable {K W : Type} [Field K] [LinearOrder K] [IsStrictOrderedRing K] [FloorRing K] [AddCommMonoid W]

private theorem uniform_case (n : Nat) (hn : 1 ≤ n) (start stop : K)
    (data : List (K × W)) (hd : ∀ d ∈ data, start ≤ d.1 ∧ d.1 ≤ stop) :
    ∃ h, histogram (uniform n start ((stop - start) / n) stop) data = .ok h ∧ 1 ≤ h.counts.length ∧
      (∀ i, i < h.counts.length →
        h.counts[i]? = some (weightWhere (InBin h.binning.edge h.counts.length i) data)) ∧
      h.counts.sum = (data.map Prod.snd).sum := by
  obtain ⟨c, h1, h2, h3, h4⟩ := uniform_histogram n hn start stop data hd
  refine ⟨_, h1, by simp only; omega, fun i hi => ?_, h4⟩
  simp only at hi ⊢
  rw [List.getElem?_eq_getElem hi, ← List.getD_eq_getElem _ 0 hi, h3 i (by omega), h2]

/-- **C22, square-root bins.** No weight is lost and every bin holds the weight of the values between its edges. -/
theorem C22_sqrt (data : List (K × W)) (hne : data ≠ []) :
    ∃ h, sqrtHistogram data = .ok h ∧ 1 ≤ h.counts.length ∧
      (∀ i, i < h.counts.length →
        h.counts[i]? = some (weightWhere (InBin h.binning.edge h.counts.length i) data)) ∧
      h.counts.sum = (data.map Prod.snd).sum := by
  obtain ⟨a, b, hm, hab⟩ := minmax_spec (data.map Prod.fst) (by simpa using hne)
  obtain ⟨h, h1, h2⟩ := uniform_case (ceilSqrt (data.map Prod.fst).length)
    (ceilSqrt_pos (by rw [List.length_map]; exact List.length_pos_iff.2 hne)) a b data
    (fun d hd => hab d.1 (List.mem_map_of_mem hd))
  refine ⟨h, ?_, h2⟩
  rw [sqrtHistogram, sqrtBins, hm]
  exact h1

/-- **C22, Scott bins**, for any positive bin width estimate `h`. -/
theorem C22_scott (w : K) (hw : 0 < w) (data : List (K × W)) (hne : data ≠ []) :
    ∃ h, scottHistogram w data = .ok h ∧ 1 ≤ h.counts.length ∧
      (∀ i, i < h.counts.length →
        h.counts[i]? = some (weightWhere (InBin h.binning.edge h.counts.length i) data)) ∧
      h.counts.sum = (data.map Prod.snd).sum := by
  obtain ⟨a, b, hm, hab⟩ := minmax_spec (data.map Prod.fst) (by simpa using hne)
  rw [scottHistogram, scottBins, hm]
  simp only
  by_cases hE : a = b
  · rw [if_pos hE, Outcome.bind_ok]
    subst hE
    have hr : ((a + 1 / 2) - (a - 1 / 2) : K) = 1 := by ring
    have hn : (⌈((a + 1 / 2) - (a - 1 / 2)) / (1 : K)⌉).toNat = 1 := by rw [hr]; simp
    rw [hn]
    exact uniform_case 1 (le_refl _) _ _ data (fun d hd => by
      have := hab d.1 (List.mem_map_of_mem hd)
      constructor <;> linarith)
  · rw [if_neg hE, if_neg (not_le.2 hw), Outcome.bind_ok]
    have hlt : a < b := by
      obtain ⟨d, hd⟩ := List.exists_mem_of_ne_nil _ hne
      have := hab d.1 (List.mem_map_of_mem hd)
      exact lt_of_le_of_ne (le_trans this.1 this.2) hE
    have hc : 0 < ⌈(b - a) / w⌉ := Int.ceil_pos.2 (div_pos (by linarith) hw)
    exact uniform_case _ (by omega) a b data (fun d hd => hab d.1 (List.mem_map_of_mem hd))

end

example : ([((1 : ℚ), (2 : Nat)), (3, 1), (4, 1)] : List (ℚ × Nat)) ≠ [] := by simp

/-- Conservation for integer values with `Sqrt<int>`. -/
def C22_sqrt_int_full : Prop :=
  ∀ data : List (Int × Nat), data ≠ [] →
    ∃ h, sqrtHistogramInt data = .ok h ∧ h.counts.sum = (data.map Prod.snd).sum

/-- With integer values the step is truncated: of `0, 4, 5, 5` in two bins of width 2, the value 4 is counted nowhere. -/
theorem C22_sqrt_int_violated : ¬ C22_sqrt_int_full := by
  intro h
  obtain ⟨r, h1, h2⟩ := h [(0, 1), (4, 1), (5, 1), (5, 1)] (by simp)
  have e : sqrtHistogramInt ([(0, 1), (4, 1), (5, 1), (5, 1)] : List (Int × Nat)) =
      (do let b ← sqrtBinsInt [0, 4, 5, 5]; histogram b [(0, 1), (4, 1), (5, 1), (5, 1)]) := rfl
  have e2 : (sqrtHistogramInt ([(0, 1), (4, 1), (5, 1), (5, 1)] : List (Int × Nat)) >>= fun h => pure h.counts.sum) =
      .ok 3 := by decide +kernel
  rw [h1, Outcome.bind_ok] at e2
  have e3 : r.counts.sum = 3 := by simpa using e2
  rw [e3] at h2
  simp at h2

/-- A narrow integer range makes the step zero: the division traps. -/
theorem C22_sqrt_int_zero_step_violated :
    (sqrtHistogramInt ([(0, 1), (1, 1), (0, 1)] : List (Int × Nat)) >>= fun h => pure h.counts) = .ub := by
  decide +kernel

/-! ## C23: clipping -/

/-- A sequence of `clip` calls. -/
def clips {V W : Type} [LinearOrder V] (h : Histo V W) : List (V × V) → Res (Histo V W)
  | [] => .ok h
  | (a, b) :: rest => do clips (← h.clip a b) rest

theorem clip_inv {V W : Type} [LinearOrder V] {h h' : Histo V W} {a b : V} (hlr : h.left ≤ h.right)
    (hc : h.clip a b = .ok h') :
    h'.binning = h.binning ∧ h'.counts = h.counts ∧ h.left ≤ h'.left ∧ h'.left ≤ h'.right ∧ h'.right ≤ h.right := by
  unfold Histo.clip at hc
  by_cases hab : a > b
  · rw [if_pos hab] at hc; cases hc
  · rw [if_neg hab] at hc
    cases hm : h.binning.index a with
    | throw e => rw [hm] at hc; cases hc
    | ub => rw [hm] at hc; cases hc
    | ok m =>
      cases hx : h.binning.index b with
      | throw e => rw [hm, hx] at hc; cases hc
      | ub => rw [hm, hx] at hc; cases hc
      | ok x =>
        rw [hm, hx] at hc
        simp only [Outcome.bind_ok, Outcome.pure_eq, Outcome.ok.injEq] at hc
        subst hc
        refine ⟨rfl, rfl, ?_, ?_, ?_⟩ <;> simp only <;> split <;> (try split) <;> omega

/-- **C23.** After any sequence of clips the histogram keeps at least one bin, the range only shrank, and `getCounts` is the counts
of the bins left..right, as many as `size()` says. -/
theorem C23_clip_shrinks {V W : Type} [LinearOrder V] [AddCommMonoid W] (b : Binning V) (hb : 1 ≤ b.nbins)
    (data : List (V × W)) (h0 h : Histo V W) (ranges : List (V × V)) (hh : histogram b data = .ok h0)
    (hc : clips h0 ranges = .ok h) :
    h.counts = h0.counts ∧ 0 ≤ h.left ∧ h.left ≤ h.right ∧ h.right < b.nbins ∧
      h.size = h.getCounts.length ∧ 1 ≤ h.getCounts.length ∧
      ∀ j : Nat, j < h.getCounts.length → h.getCounts[j]? = h0.counts[h.left.toNat + j]? := by
  have hlen : ∀ (data : List (V × W)) (c c' : List W), countLoop b data c = .ok c' → c'.length = c.length := by
    intro data
    induction data with
    | nil => intro c c' h; rw [countLoop] at h; cases h; rfl
    | cons d data ih =>
      intro c c' h
      rw [countLoop] at h
      cases hi : b.index d.1 with
      | throw e => rw [hi] at h; cases h
      | ub => rw [hi] at h; cases h
      | ok k =>
        rw [hi, Outcome.bind_ok] at h
        split at h
        · have := ih _ _ h; simpa using this
        · exact ih _ _ h
  have h0eq : h0.left = 0 ∧ h0.right = (b.nbins : Int) - 1 ∧ h0.counts.length = b.nbins := by
    unfold histogram at hh
    cases hcl : countLoop b data (List.replicate b.nbins 0) with
    | throw e => rw [hcl] at hh; cases hh
    | ub => rw [hcl] at hh; cases hh
    | ok c =>
      rw [hcl, Outcome.bind_ok] at hh
      cases hh
      exact ⟨rfl, rfl, by simpa using hlen _ _ _ hcl⟩
  have key : ∀ (ranges : List (V × V)) (g h : Histo V W), g.left ≤ g.right → clips g ranges = .ok h →
      h.counts = g.counts ∧ g.left ≤ h.left ∧ h.left ≤ h.right ∧ h.right ≤ g.right := by
    intro ranges
    induction ranges with
    | nil => intro g h hl hc; rw [clips] at hc; cases hc; exact ⟨rfl, le_refl _, hl, le_refl _⟩
    | cons r rs ih =>
      intro g h hl hc
      rw [clips] at hc
      cases hg : g.clip r.1 r.2 with
      | throw e => rw [hg] at hc; cases hc
      | ub => rw [hg] at hc; cases hc
      | ok g' =>
        rw [hg, Outcome.bind_ok] at hc
        obtain ⟨_, a2, a3, a4, a5⟩ := clip_inv hl hg
        obtain ⟨b1, b2, b3, b4⟩ := ih g' h a4 hc
        exact ⟨b1.trans a2, by omega, b3, by omega⟩
  obtain ⟨k1, k2, k3, k4⟩ := key ranges h0 h (by omega) hc
  have hl : h.getCounts.length = (h.right + 1 - h.left).toNat := by
    unfold Histo.getCounts
    rw [List.length_take, List.length_drop, k1]
    omega
  refine ⟨k1, by omega, k3, by omega, ?_, by omega, fun j hj => ?_⟩
  · rw [hl]; unfold Histo.size; omega
  · unfold Histo.getCounts
    rw [List.getElem?_take_of_lt (by omega), List.getElem?_drop, k1]

/-- **C23, exactness.** With explicit increasing edges, clipping to `[a, b]` with `a` in bin `i` and `b` in bin `j` inside the
current range keeps exactly the bins `i..j`. -/
theorem C23_clip_exact {V W : Type} [LinearOrder V] (edges : List V) (hs : edges.Pairwise (· < ·)) (h2 : 2 ≤ edges.length)
    (h : Histo V W) (hb : h.binning = edgeVector edges) (a b : V) (hab : a ≤ b) (i j : Nat)
    (hi : i < edges.length - 1) (hj : j < edges.length - 1)
    (ha : InBin (fun i => edges[i]?) (edges.length - 1) i a) (hbj : InBin (fun i => edges[i]?) (edges.length - 1) j b)
    (hli : h.left ≤ i) (hjr : (j : Int) ≤ h.right) :
    ∃ h', h.clip a b = .ok h' ∧ h'.left = i ∧ h'.right = j ∧ h'.counts = h.counts := by
  obtain ⟨k, k1, k2, _⟩ := edgeIndex_inBin hs h2 a
  obtain ⟨l, l1, l2, _⟩ := edgeIndex_inBin hs h2 b
  have hk := (k2 i hi).2 ha
  have hl := (l2 j hj).2 hbj
  subst hk hl
  have hij : i ≤ j := by
    by_contra hlt
    obtain ⟨lo, hi', a1, a2, a3, a4⟩ := ha
    obtain ⟨lo', hi'', b1, b2, b3, b4⟩ := hbj
    have hget := List.pairwise_iff_getElem.1 hs
    simp only at a1 a2 b1 b2
    rw [List.getElem?_eq_getElem (by omega), Option.some.injEq] at a1 a2 b1 b2
    have hle : hi'' ≤ lo := by
      rcases Nat.eq_or_lt_of_le (show j + 1 ≤ i by omega) with h | h
      · subst h; rw [← a1, ← b2]
      · rw [← a1, ← b2]; exact le_of_lt (hget _ _ _ _ h)
    rcases b4 with b4 | b4
    · exact absurd (lt_of_lt_of_le b4 (le_trans hle (le_trans a3 hab))) (lt_irrefl _)
    · omega
  have ea : h.binning.index a = .ok (i : Int) := by rw [hb]; exact k1
  have eb : h.binning.index b = .ok (j : Int) := by rw [hb]; exact l1
  unfold Histo.clip
  rw [if_neg (not_lt.2 hab), ea, eb]
  refine ⟨_, rfl, ?_, ?_, rfl⟩ <;> simp only <;> split <;> (try split) <;> omega

example : InBin (fun i => [(0 : Int), 2, 5][i]?) 2 1 5 := ⟨2, 5, rfl, rfl, by decide, Or.inr ⟨rfl, rfl⟩⟩

/-- The statistics after a clip depend only on the bins inside it. -/
def C23_stats_full : Prop :=
  ∀ (edges : List ℚ) (d1 d2 : List (ℚ × ℚ)) (a b : ℚ) (h1 h2 : Histo ℚ ℚ) (sqrt : ℚ → ℚ),
    edges.Pairwise (· < ·) → 2 ≤ edges.length →
    (histogram (edgeVector edges) d1 >>= fun h => h.clip a b) = .ok h1 →
    (histogram (edgeVector edges) d2 >>= fun h => h.clip a b) = .ok h2 →
    h1.getCounts = h2.getCounts → h1.getStats sqrt = h2.getStats sqrt

/-- The median of a histogram clipped to its second bin depends on the count of the first one. -/
theorem C23_stats_violated : ¬ C23_stats_full := by
  intro hfull
  have := hfull [0, 1, 2] [(1 / 2, 10), (3 / 2, 2)] [(3 / 2, 2)] (3 / 2) (3 / 2)
    ⟨edgeVector [0, 1, 2], [10, 2], 1, 1⟩ ⟨edgeVector [0, 1, 2], [0, 2], 1, 1⟩ id
    (by decide +kernel) (by decide) (by
      have e : (countLoop (edgeVector [0, 1, 2]) ([(1 / 2, 10), (3 / 2, 2)] : List (ℚ × ℚ)) (List.replicate 2 0)) =
        .ok [10, 2] := by decide +kernel
      unfold histogram
      rw [show (edgeVector [(0 : ℚ), 1, 2]).nbins = 2 from rfl, e]
      have e2 : (edgeVector [(0 : ℚ), 1, 2]).index (3 / 2) = .ok 1 := by decide +kernel
      simp only [Outcome.bind_ok, Outcome.pure_eq, Histo.clip, lt_irrefl, gt_iff_lt, if_false, e2]
      rfl) (by
      have e : (countLoop (edgeVector [0, 1, 2]) ([(3 / 2, 2)] : List (ℚ × ℚ)) (List.replicate 2 0)) =
        .ok [0, 2] := by decide +kernel
      unfold histogram
      rw [show (edgeVector [(0 : ℚ), 1, 2]).nbins = 2 from rfl, e]
      have e2 : (edgeVector [(0 : ℚ), 1, 2]).index (3 / 2) = .ok 1 := by decide +kernel
      simp only [Outcome.bind_ok, Outcome.pure_eq, Histo.clip, lt_irrefl, gt_iff_lt, if_false, e2]
      rfl) (by decide +kernel)
  revert this
  have e1 : medianLoop [(10 : ℚ), 2] 1 1 0 0 = (1, 0, 0, 2) := by
    rw [medianLoop, if_pos (by omega), if_neg (by norm_num), medianLoop, if_neg (by omega)]; norm_num
  have e2 : medianLoop [(0 : ℚ), 2] 1 1 0 0 = (1, 0, 0, 2) := by
    rw [medianLoop, if_pos (by omega), if_neg (by norm_num), medianLoop, if_neg (by omega)]; norm_num
  have m1 : Histo.median (⟨edgeVector [(0 : ℚ), 1, 2], [10, 2], 1, 1⟩ : Histo ℚ ℚ) = .ok (11 / 10) := by
    unfold Histo.median
    simp only [e1]
    norm_num [edgeVector]
  have m2 : Histo.median (⟨edgeVector [(0 : ℚ), 1, 2], [0, 2], 1, 1⟩ : Histo ℚ ℚ) = .ok (3 / 2) := by
    unfold Histo.median
    simp only [e2]
    norm_num [edgeVector]
  have s1 : sumsLoop (⟨edgeVector [(0 : ℚ), 1, 2], [10, 2], 1, 1⟩ : Histo ℚ ℚ) [1] (0, 0, 0) = .ok (3, 2, 9 / 2) := by
    decide +kernel
  have s2 : sumsLoop (⟨edgeVector [(0 : ℚ), 1, 2], [0, 2], 1, 1⟩ : Histo ℚ ℚ) [1] (0, 0, 0) = .ok (3, 2, 9 / 2) := by
    decide +kernel
  have r : ((List.range ((1 : Int) + 1 - 1).toNat).map (· + (1 : Int).toNat)) = [1] := by decide
  unfold Histo.getStats
  simp only [r, s1, s2, m1, m2, Outcome.bind_ok]
  norm_num

section
variable {K : Type} [Field K] [LinearOrder K] [IsStrictOrderedRing K]

theorem sumsLoop_eq (h : Histo K K) (is : List Nat) (cs : Nat → K)
    (hc : ∀ i ∈ is, h.binning.center i = some (cs i)) (hn : ∀ i ∈ is, i < h.counts.length) (acc : K × K × K) :
    sumsLoop h is acc = .ok (acc.1 + (is.map fun i => h.counts.getD i 0 * cs i).sum,
      acc.2.1 + (is.map fun i => h.counts.getD i 0).sum,
      acc.2.2 + (is.map fun i => h.counts.getD i 0 * cs i * cs i).sum) := by
  induction is generalizing acc with
  | nil => simp [sumsLoop]
  | cons i is ih =>
    obtain ⟨a, b, c⟩ := acc
    have hi := hn i (by simp)
    rw [sumsLoop, hc i (by simp), List.getElem?_eq_getElem hi]
    simp only
    rw [ih (fun j hj => hc j (by simp [hj])) (fun j hj => hn j (by simp [hj]))]
    simp only [List.map_cons, List.sum_cons, List.getD_eq_getElem _ _ hi, add_assoc]

/-- **C69.** When `getStats` succeeds, mean and sigma are the documented weighted mean `Σ nᵢcᵢ / Σ nᵢ` and the root of
`Σ nᵢcᵢ² / Σ nᵢ − mean²` over the bins inside the clip. In particular they depend on nothing outside it. -/
theorem C69_mean_sigma (sqrt : K → K) (h : Histo K K) (cs : Nat → K) (l r : Nat) (hl : h.left = l) (hr : h.right = (r : Int) - 1)
    (hrl : r ≤ h.counts.length) (hlr : l ≤ r) (hc : ∀ i, i < r → h.binning.center i = some (cs i)) (mean median sigma : K)
    (hs : h.getStats sqrt = .ok (mean, median, sigma)) :
    (∑ i ∈ Finset.Ico l r, h.counts.getD i 0) ≠ 0 ∧
    mean = (∑ i ∈ Finset.Ico l r, h.counts.getD i 0 * cs i) / ∑ i ∈ Finset.Ico l r, h.counts.getD i 0 ∧
    sigma = (let v := (∑ i ∈ Finset.Ico l r, h.counts.getD i 0 * cs i ^ 2) / (∑ i ∈ Finset.Ico l r, h.counts.getD i 0) - mean ^ 2
      if v > 0 then sqrt v else 0) := by
  have hsum : ∀ f : Nat → K, (((List.range (h.right + 1 - h.left).toNat).map (· + h.left.toNat)).map f).sum =
      ∑ i ∈ Finset.Ico l r, f i := by
    intro f
    rw [hl, hr, show ((r : Int) - 1 + 1 - (l : Int)).toNat = r - l by omega, List.map_map, Finset.sum_Ico_eq_sum_range]
    generalize r - l = n
    induction n with
    | zero => rfl
    | succ n ih => rw [List.range_succ, List.map_append, List.sum_append, ih, Finset.sum_range_succ]; simp [add_comm]
  unfold Histo.getStats at hs
  rw [sumsLoop_eq h _ cs (fun i hi => hc i (by simp at hi; omega)) (fun i hi => by simp at hi; omega), Outcome.bind_ok] at hs
  simp only [hsum, zero_add] at hs
  by_cases h0 : (∑ i ∈ Finset.Ico l r, h.counts.getD i 0) = 0
  · rw [if_pos h0] at hs; cases hs
  · rw [if_neg h0] at hs
    cases hm : h.median with
    | throw e => rw [hm] at hs; cases hs
    | ub => rw [hm] at hs; cases hs
    | ok m =>
      rw [hm, Outcome.bind_ok] at hs
      simp only [Outcome.pure_eq, Outcome.ok.injEq, Prod.mk.injEq] at hs
      obtain ⟨e1, e2, e3⟩ := hs
      refine ⟨h0, e1.symm, ?_⟩
      rw [← e3, ← e1]
      simp only [pow_two, mul_assoc]

/-- **C23, what holds of the statistics.** For two histograms over the same bins whose counts agree inside the clip, mean and
sigma agree, and the median agrees when the clip starts at the first bin. Missing: the median for other clips
(`C23_stats_violated`). -/
theorem C23_stats_partial (sqrt : K → K) (h1 h2 : Histo K K) (cs : Nat → K) (l r : Nat) (hb : h1.binning = h2.binning)
    (hl1 : h1.left = l) (hr1 : h1.right = (r : Int) - 1) (hl2 : h2.left = l) (hr2 : h2.right = (r : Int) - 1)
    (hn1 : r ≤ h1.counts.length) (hn : h1.counts.length = h2.counts.length) (hlr : l < r)
    (hc : ∀ i, i < r → h1.binning.center i = some (cs i)) (hpos : ∀ c ∈ h1.counts, 0 ≤ c)
    (hag : ∀ i, l ≤ i → i < r → h1.counts[i]? = h2.counts[i]?) (m1 d1 s1 m2 d2 s2 : K)
    (hs1 : h1.getStats sqrt = .ok (m1, d1, s1)) (hs2 : h2.getStats sqrt = .ok (m2, d2, s2)) :
    m1 = m2 ∧ s1 = s2 ∧ (l = 0 → d1 = d2) := by
  have hD : ∀ i, l ≤ i → i < r → h1.counts.getD i 0 = h2.counts.getD i 0 := by
    intro i a b
    rw [List.getD_eq_getElem?_getD, List.getD_eq_getElem?_getD, hag i a b]
  obtain ⟨_, a2, a3⟩ := C69_mean_sigma sqrt h1 cs l r hl1 hr1 hn1 (le_of_lt hlr) hc m1 d1 s1 hs1
  obtain ⟨_, b2, b3⟩ := C69_mean_sigma sqrt h2 cs l r hl2 hr2 (by omega) (le_of_lt hlr) (fun i hi => by rw [← hb]; exact hc i hi)
    m2 d2 s2 hs2
  have hc1 : ∀ f : Nat → K, ∑ i ∈ Finset.Ico l r, h1.counts.getD i 0 * f i = ∑ i ∈ Finset.Ico l r, h2.counts.getD i 0 * f i := by
    intro f
    refine Finset.sum_congr rfl fun i hi => ?_
    rw [Finset.mem_Ico] at hi
    rw [hD i hi.1 hi.2]
  have hc0 : ∑ i ∈ Finset.Ico l r, h1.counts.getD i 0 = ∑ i ∈ Finset.Ico l r, h2.counts.getD i 0 := by
    have := hc1 fun _ => 1
    simpa using this
  have hm : m1 = m2 := by rw [a2, b2, hc0, hc1]
  refine ⟨hm, by rw [a3, b3, hc0, hc1, hm], fun h0 => ?_⟩
  have med : ∀ (h : Histo K K) (m d s : K), h.getStats sqrt = .ok (m, d, s) → h.median = .ok d := by
    intro h m d s hs
    unfold Histo.getStats at hs
    cases hS : sumsLoop h ((List.range (h.right + 1 - h.left).toNat).map (· + h.left.toNat)) (0, 0, 0) with
    | throw e => rw [hS] at hs; cases hs
    | ub => rw [hS] at hs; cases hs
    | ok t =>
      rw [hS, Outcome.bind_ok] at hs
      simp only at hs
      split at hs
      · cases hs
      · cases hM : h.median with
        | throw e => rw [hM] at hs; cases hs
        | ub => rw [hM] at hs; cases hs
        | ok m' =>
          rw [hM, Outcome.bind_ok] at hs
          simp only [Outcome.pure_eq, Outcome.ok.injEq, Prod.mk.injEq] at hs
          rw [hs.2.1]
  have e1 := med h1 m1 d1 s1 hs1
  have e2 := med h2 m2 d2 s2 hs2
  subst h0
  obtain ⟨j, _, hjr, hj, _, _, hjb, _⟩ := medianLoop_spec h1.counts hpos 0 r r 0 r rfl (le_refl _) (Nat.zero_le _) (le_refl _)
    0 0 (by simp) (by simp) (by omega) (by simp) (by omega) (by simp) (by simp) (by simp)
  have hjlt := hjb rfl hlr rfl
  have hcg := medianLoop_congr h1.counts h2.counts 0 r hD r 0 r rfl (le_refl _) (le_refl _) 0 0
  unfold Histo.median at e1 e2
  rw [hl1, hr1, hj] at e1
  rw [hl2, hr2, ← hcg, hj, ← hb] at e2
  simp only at e1 e2
  by_cases hj0 : ((j : Int) - 1 ≥ 0)
  · rw [if_pos hj0] at e1 e2
    have g1 := hag ((j : Int)).toNat (by omega) (by omega)
    have g2 := hag ((j : Int) - 1).toNat (by omega) (by omega)
    rw [g1, g2] at e1
    have := e1.symm.trans e2
    simpa using this
  · rw [if_neg hj0] at e1 e2
    have := e1.symm.trans e2
    simpa using this

/-! ## C68: the median -/

/-- The median of `getStats` splits the interpolated weight in two halves. -/
def C68_full : Prop :=
  ∀ (edges counts : List ℚ) (m : ℚ), edges.Pairwise (· < ·) → edges.length = counts.length + 1 → (∀ c ∈ counts, 0 < c) →
    counts ≠ [] →
    Histo.median (⟨edgeVector edges, counts, 0, (counts.length : Int) - 1⟩ : Histo ℚ ℚ) = .ok m →
    2 * weightBelow edges counts m = counts.sum

/-- With counts 50, 49, 3, 100 the code answers 2.99, below which 101.97 of the 202 lie. -/
theorem C68_violated : ¬ C68_full := by
  intro hfull
  have t2 : Int.toNat 2 = 2 := rfl
  have t3 : Int.toNat 3 = 3 := rfl
  have e : medianLoop [(50 : ℚ), 49, 3, 100] 0 3 0 0 = (3, 2, 102, 100) := by
    rw [medianLoop, if_pos (by omega), if_neg (by norm_num [t2, t3])]
    rw [medianLoop, if_pos (by omega), if_pos (by norm_num [t2, t3])]
    rw [medianLoop, if_pos (by omega), if_pos (by norm_num [t2, t3])]
    rw [medianLoop, if_pos (by omega), if_pos (by norm_num [t2, t3])]
    rw [medianLoop, if_neg (by omega)]
    norm_num [t2, t3]
  have h := hfull [0, 1, 2, 3, 4] [50, 49, 3, 100] (299 / 100) (by decide +kernel) rfl (by decide +kernel) (by simp) (by
    unfold Histo.median
    simp only [List.length_cons, List.length_nil]
    norm_num [e, edgeVector, t2, t3])
  revert h
  decide +kernel

/-- **C68, what holds.** For non-negative counts with a positive total inside the clip the median exists, and it lies within half a
bin width of a boundary `j` at which the weight is balanced to within one neighbouring bin: a true median is in bin `j - 1` or `j`.
(When the clip starts at the first bin and the balance point is the first bin, the centre of that bin is returned.)
Missing: the exact interpolated median (`C68_violated`). -/
theorem C68_median_partial (h : Histo K K) (edge : Nat → K) (l r : Nat) (hl : h.left = l) (hr : h.right = (r : Int) - 1)
    (hrl : r ≤ h.counts.length) (hlr : l < r) (he : ∀ i, i ≤ r → h.binning.edge i = some (edge i))
    (hmono : ∀ i, i < r → edge i < edge (i + 1)) (hpos : ∀ c ∈ h.counts, 0 ≤ c)
    (htot : 0 < ∑ i ∈ Finset.Ico l r, h.counts.getD i 0) :
    ∃ (m : K) (j : Nat), h.median = .ok m ∧ l ≤ j ∧ j < r ∧
      ∑ i ∈ Finset.Ico j r, h.counts.getD i 0 ≤ ∑ i ∈ Finset.Ico l j, h.counts.getD i 0 + h.counts.getD j 0 ∧
      (l < j → ∑ i ∈ Finset.Ico l j, h.counts.getD i 0 ≤ ∑ i ∈ Finset.Ico j r, h.counts.getD i 0 + h.counts.getD (j - 1) 0) ∧
      |m - edge j| ≤ (edge (j + 1) - edge j) / 2 := by
  have hnn : ∀ i, 0 ≤ h.counts.getD i 0 := by
    intro i
    by_cases h' : i < h.counts.length
    · rw [List.getD_eq_getElem _ _ h']; exact hpos _ (List.getElem_mem h')
    · rw [List.getD_eq_default _ _ (by omega)]
  obtain ⟨j, hlj, hjr, hj, j1, j2, hjb, j3, j4⟩ := medianLoop_spec h.counts hpos l r (r - l) l r rfl (le_refl _) (le_of_lt hlr)
    (le_refl _) 0 0 (by simp) (by simp) (by omega) (by simp) (by omega) (by simp) (by simp) (by simp)
  have hjlt := hjb rfl hlr rfl
  have hw := hmono j hjlt
  by_cases hj0 : ((j : Int) - 1 ≥ 0)
  · have hadd : ∑ i ∈ Finset.Ico l j, h.counts.getD i 0 + ∑ i ∈ Finset.Ico j r, h.counts.getD i 0 =
        ∑ i ∈ Finset.Ico l r, h.counts.getD i 0 := Finset.sum_Ico_consecutive _ hlj hjr
    have e1 : ((j : Int) - 1 + 1).toNat = j := by omega
    have e2 : ((j : Int) - 1).toNat = j - 1 := by omega
    have g1 : h.counts[j]? = some (h.counts.getD j 0) := by
      rw [List.getD_eq_getElem _ _ (by omega), List.getElem?_eq_getElem]
    have g2 : h.counts[j - 1]? = some (h.counts.getD (j - 1) 0) := by
      rw [List.getD_eq_getElem _ _ (by omega), List.getElem?_eq_getElem]
    have hmed : h.median = if max (h.counts.getD j 0) (h.counts.getD (j - 1) 0) = 0 then .ub
        else .ok (edge j + (edge (j + 1) - edge j) *
          (∑ i ∈ Finset.Ico j r, h.counts.getD i 0 - ∑ i ∈ Finset.Ico l j, h.counts.getD i 0) /
          (2 * max (h.counts.getD j 0) (h.counts.getD (j - 1) 0))) := by
      unfold Histo.median
      rw [hl, hr, hj]
      simp only
      rw [if_pos hj0, e1, e2, Int.toNat_natCast, he j (by omega), he (j + 1) (by omega), g1, g2]
    have hj1 := j1 hjlt
    have hnonneg : 0 ≤ ∑ i ∈ Finset.Ico l j, h.counts.getD i 0 := Finset.sum_nonneg fun i _ => hnn i
    have hmaxpos : 0 < max (h.counts.getD j 0) (h.counts.getD (j - 1) 0) := by
      by_cases hlt : ∑ i ∈ Finset.Ico l j, h.counts.getD i 0 < ∑ i ∈ Finset.Ico j r, h.counts.getD i 0
      · exact lt_of_lt_of_le (j3 hlt) (le_max_left _ _)
      · rcases j4 (not_lt.1 hlt) with h0 | h0
        · have := not_lt.1 hlt
          exact absurd htot (not_lt.2 (by linarith))
        · exact lt_of_lt_of_le h0 (le_max_right _ _)
    rw [if_neg (ne_of_gt hmaxpos)] at hmed
    refine ⟨_, j, hmed, hlj, hjlt, hj1, j2, ?_⟩
    rw [add_sub_cancel_left]
    have hD : |∑ i ∈ Finset.Ico j r, h.counts.getD i 0 - ∑ i ∈ Finset.Ico l j, h.counts.getD i 0| ≤
        max (h.counts.getD j 0) (h.counts.getD (j - 1) 0) := by
      rw [abs_le]
      constructor
      · by_cases hlj' : l < j
        · have := j2 hlj'
          have := le_max_right (h.counts.getD j 0) (h.counts.getD (j - 1) 0)
          linarith
        · have : l = j := by omega
          subst this
          have hz : 0 ≤ ∑ i ∈ Finset.Ico l r, h.counts.getD i 0 := le_of_lt htot
          simp only [Finset.Ico_self, Finset.sum_empty]
          linarith
      · have := le_max_left (h.counts.getD j 0) (h.counts.getD (j - 1) 0)
        linarith
    rw [abs_div, abs_mul, abs_of_pos (sub_pos.2 hw), abs_of_pos (by linarith : (0 : K) < 2 * _),
      div_le_div_iff₀ (by linarith) (by norm_num)]
    have := mul_le_mul_of_nonneg_left hD (le_of_lt (sub_pos.2 hw))
    linarith
  · have hj00 : j = 0 := by omega
    have hl0 : l = 0 := by omega
    subst hj00
    have hmed : h.median = .ok ((edge 1 + edge 0) / 2) := by
      unfold Histo.median
      rw [hl, hr, hj]
      simp only
      rw [if_neg hj0]
      unfold Binning.center
      rw [he 0 (by omega), he 1 (by omega)]
      rfl
    refine ⟨_, 0, hmed, hlj, hjlt, j1 hjlt, by omega, ?_⟩
    rw [show (edge 1 + edge 0) / 2 - edge 0 = (edge (0 + 1) - edge 0) / 2 by simp only [zero_add]; ring]
    rw [abs_of_pos (by linarith [sub_pos.2 hw])]

end

/-! ## C67: counts, bins and edges line up -/

private theorem mapM_some {α β : Type} (f : α → Option β) (g : α → β) (l : List α) (h : ∀ a ∈ l, f a = some (g a)) :
    l.mapM f = some (l.map g) := by
  induction l with
  | nil => rfl
  | cons a l ih =>
    rw [List.mapM_cons, h a (by simp), ih fun b hb => h b (by simp [hb])]
    rfl

/-- The documentation of `getEdges`: one more edge than bins, also for a clipped histogram. -/
def C67_full : Prop :=
  ∀ (edges : List ℚ) (data : List (ℚ × ℚ)) (h0 h : Histo ℚ ℚ) (ranges : List (ℚ × ℚ)), edges.Pairwise (· < ·) →
    2 ≤ edges.length → histogram (edgeVector edges) data = .ok h0 → clips h0 ranges = .ok h →
    ∀ es, h.getEdges = some es → es.length = h.getCounts.length + 1

/-- `getEdges` ignores the clip. -/
theorem C67_violated : ¬ C67_full := by
  intro hfull
  have := hfull [0, 1, 2] [] ⟨edgeVector [0, 1, 2], [0, 0], 0, 1⟩ ⟨edgeVector [0, 1, 2], [0, 0], 0, 0⟩ [(1 / 2, 1 / 2)]
    (by decide +kernel) (by decide) rfl (by
      have e2 : (edgeVector [(0 : ℚ), 1, 2]).index (1 / 2) = .ok 0 := by decide +kernel
      simp only [clips, Histo.clip, gt_iff_lt, lt_irrefl, if_false, e2, Outcome.bind_ok, Outcome.pure_eq]
      rfl) [0, 1, 2] (by decide +kernel)
  revert this
  decide +kernel

/-- **C67, without clipping.** A histogram over increasing edges returns those edges, one count per bin and one centre per bin,
and the centre of a bin lies strictly between its edges. -/
theorem C67_unclipped_partial {K : Type} [Field K] [LinearOrder K] [IsStrictOrderedRing K] (edges : List K)
    (hs : edges.Pairwise (· < ·)) (h2 : 2 ≤ edges.length) (data : List (K × K)) (h : Histo K K)
    (hh : histogram (edgeVector edges) data = .ok h) :
    h.getEdges = some edges ∧ h.getCounts.length + 1 = edges.length ∧ h.getCounts = h.counts ∧
      ∃ bins, h.getBins = some bins ∧ bins.length = h.getCounts.length ∧
        ∀ i, i < bins.length → ∃ lo c hi, edges[i]? = some lo ∧ bins[i]? = some c ∧ edges[i + 1]? = some hi ∧
          lo < c ∧ c < hi := by
  choose f hf1 hf2 hf3 using fun v => edgeIndex_inBin hs h2 v
  obtain ⟨c, h1, hl, h3, h4⟩ := histogram_spec (edgeVector edges) f data (fun d _ => hf1 d.1)
  rw [hh, Outcome.ok.injEq] at h1
  subst h1
  have hnb : (edgeVector edges).nbins = edges.length - 1 := rfl
  have hcounts : Histo.getCounts (⟨edgeVector edges, c, 0, ((edgeVector edges).nbins : Int) - 1⟩ : Histo K K) = c := by
    unfold Histo.getCounts
    simp only [Int.toNat_zero, List.drop_zero]
    apply List.take_of_length_le
    omega
  have hget := List.pairwise_iff_getElem.1 hs
  refine ⟨?_, by rw [hcounts]; omega, hcounts, ?_⟩
  · unfold Histo.getEdges
    show (List.range (edges.length - 1 + 1)).mapM (fun i => edges[i]?) = _
    rw [mapM_some _ (fun i => edges.getD i 0) _ (fun i hi => by
      simp only [List.mem_range] at hi
      rw [List.getD_eq_getElem _ _ (by omega), List.getElem?_eq_getElem]), Option.some.injEq]
    apply List.ext_getElem
    · simp; omega
    · intro i h1 h2'
      simp [h2']
  · have hcen : ∀ i, i < c.length → (edgeVector edges).center i = some ((edges.getD (i + 1) 0 + edges.getD i 0) / 2) := by
      intro i hi
      unfold Binning.center
      show (do let e0 ← edges[i]?; let e1 ← edges[i + 1]?; pure ((e1 + e0) / 2)) = _
      rw [List.getD_eq_getElem _ _ (by omega), List.getD_eq_getElem _ _ (by omega), List.getElem?_eq_getElem (by omega),
        List.getElem?_eq_getElem (by omega)]
      rfl
    refine ⟨(List.range c.length).map fun i => (edges.getD (i + 1) 0 + edges.getD i 0) / 2, ?_, by simp [hcounts], ?_⟩
    · unfold Histo.getBins
      exact mapM_some _ _ _ fun i hi => hcen i (by simpa using hi)
    · intro i hi
      simp at hi
      have hlt := hget i (i + 1) (by omega) (by omega) (by omega)
      refine ⟨edges[i], (edges.getD (i + 1) 0 + edges.getD i 0) / 2, edges[i + 1], List.getElem?_eq_getElem _, ?_, List.getElem?_eq_getElem _, ?_, ?_⟩
      · simp [hi]
      · rw [List.getD_eq_getElem _ _ (by omega), List.getD_eq_getElem _ _ (by omega)]; linarith
      · rw [List.getD_eq_getElem _ _ (by omega), List.getD_eq_getElem _ _ (by omega)]; linarith

example : ([(0 : ℚ), 1, 3]).Pairwise (· < ·) := by decide +kernel

/-- A case for C68 and C69: a non-empty histogram. -/
example : (0 : ℚ) < ∑ i ∈ Finset.Ico 0 2, ([3, 4] : List ℚ).getD i 0 := by decide +kernel

end Alexandria.Histogram
