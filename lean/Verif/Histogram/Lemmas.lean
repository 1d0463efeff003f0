import Verif.Histogram.Model
import Verif.Histogram.Spec
import Mathlib.Data.List.GetD
import Mathlib.Algebra.Order.BigOperators.Group.Finset
import Mathlib.Tactic.Ring
import Mathlib.Tactic.Linarith
import Mathlib.Tactic.FieldSimp

set_option linter.unusedSectionVars false

namespace Alexandria.Histogram

open Spec Classical

/-! ## Counting -/

theorem weightWhere_cons {V W : Type} [AddCommMonoid W] (p : V → Prop) (v : V) (w : W) (data : List (V × W)) :
    weightWhere p ((v, w) :: data) = (if p v then w else 0) + weightWhere p data := by
  unfold weightWhere
  by_cases h : p v <;> simp [h]

theorem countLoop_spec {V W : Type} [AddCommMonoid W] (b : Binning V) (f : V → Int) (data : List (V × W))
    (hf : ∀ d ∈ data, b.index d.1 = .ok (f d.1)) (counts : List W) :
    ∃ counts', countLoop b data counts = .ok counts' ∧ counts'.length = counts.length ∧
      (∀ i, i < counts.length → counts'.getD i 0 = counts.getD i 0 + weightWhere (fun v => f v = i) data) ∧
      counts'.sum = counts.sum + weightWhere (fun v => 0 ≤ f v ∧ f v < counts.length) data := by
  induction data generalizing counts with
  | nil => exact ⟨counts, rfl, rfl, by simp [weightWhere], by simp [weightWhere]⟩
  | cons d data ih =>
    obtain ⟨v, w⟩ := d
    have hv := hf (v, w) (by simp)
    simp only at hv
    rw [countLoop, hv, Outcome.bind_ok]
    by_cases hb : f v ≥ 0 ∧ f v < counts.length
    · rw [if_pos hb]
      obtain ⟨c', h1, h2, h3, h4⟩ := ih (fun d hd => hf d (by simp [hd]))
        (counts.set (f v).toNat (counts.getD (f v).toNat 0 + w))
      have hlt : (f v).toNat < counts.length := by omega
      refine ⟨c', h1, by simpa using h2, fun i hi => ?_, ?_⟩
      · rw [h3 i (by simpa using hi), weightWhere_cons]
        by_cases he : (f v).toNat = i
        · subst he
          rw [if_pos (by omega)]
          simp [List.getD, hlt, add_assoc]
        · rw [if_neg (by omega)]
          simp [List.getD, List.getElem?_set_ne he]
      · rw [h4, weightWhere_cons, if_pos (by simpa using hb)]
        have hs : ∀ (l : List W) (n : Nat), n < l.length → (l.set n (l.getD n 0 + w)).sum = l.sum + w := by
          intro l
          induction l with
          | nil => intro n hn; simp at hn
          | cons a l ih =>
            intro n hn
            cases n with
            | zero => simp [add_right_comm]
            | succ n =>
              have := ih n (by simpa using hn)
              simp only [List.getD_cons_succ, List.set_cons_succ, List.sum_cons, this, add_assoc]
        rw [hs _ _ hlt]
        simp [add_assoc]
    · rw [if_neg hb]
      obtain ⟨c', h1, h2, h3, h4⟩ := ih (fun d hd => hf d (by simp [hd])) counts
      refine ⟨c', h1, h2, fun i hi => ?_, ?_⟩
      · rw [h3 i hi, weightWhere_cons, if_neg (by omega), zero_add]
      · rw [h4, weightWhere_cons, if_neg (by simpa using hb), zero_add]

theorem weightWhere_congr {V W : Type} [AddCommMonoid W] {p q : V → Prop} {data : List (V × W)}
    (h : ∀ d ∈ data, (p d.1 ↔ q d.1)) : weightWhere p data = weightWhere q data := by
  unfold weightWhere
  congr 2
  apply List.filter_congr
  intro d hd
  simp [h d hd]

theorem weightWhere_all {V W : Type} [AddCommMonoid W] {p : V → Prop} {data : List (V × W)}
    (h : ∀ d ∈ data, p d.1) : weightWhere p data = (data.map Prod.snd).sum := by
  unfold weightWhere
  rw [List.filter_eq_self.2 (fun d hd => by simpa using h d hd)]

theorem histogram_spec {V W : Type} [AddCommMonoid W] (b : Binning V) (f : V → Int) (data : List (V × W))
    (hf : ∀ d ∈ data, b.index d.1 = .ok (f d.1)) :
    ∃ counts, histogram b data = .ok ⟨b, counts, 0, (b.nbins : Int) - 1⟩ ∧ counts.length = b.nbins ∧
      (∀ i, i < b.nbins → counts.getD i 0 = weightWhere (fun v => f v = i) data) ∧
      counts.sum = weightWhere (fun v => 0 ≤ f v ∧ f v < b.nbins) data := by
  obtain ⟨c, h1, h2, h3, h4⟩ := countLoop_spec b f data hf (List.replicate b.nbins 0)
  simp only [List.length_replicate] at h2 h3 h4
  refine ⟨c, by rw [histogram, h1]; rfl, h2, fun i hi => ?_, ?_⟩
  · rw [h3 i hi]
    simp [List.getD, List.getElem?_replicate, hi]
  · rw [h4]
    simp

/-! ## EdgeVector -/

theorem edgeIndex_inBin {V : Type} [LinearOrder V] {edges : List V} (hs : edges.Pairwise (· < ·))
    (h2 : 2 ≤ edges.length) (v : V) :
    ∃ k : Int, edgeIndex edges v = .ok k ∧
      (∀ i : Nat, i < edges.length - 1 → (k = i ↔ InBin (fun i => edges[i]?) (edges.length - 1) i v)) ∧
      ((0 ≤ k ∧ k < (edges.length - 1 : Nat)) ↔ ∃ a b, edges.head? = some a ∧ edges.getLast? = some b ∧ a ≤ v ∧ v ≤ b) := by
  have hget := List.pairwise_iff_getElem.1 hs
  have hne : edges ≠ [] := by intro h; simp [h] at h2
  have h0 : edges.head? = some edges[0] := by rw [List.head?_eq_getElem?, List.getElem?_eq_getElem]
  have hl : edges.getLast? = some edges[edges.length - 1] := by
    rw [List.getLast?_eq_getElem?, List.getElem?_eq_getElem]
  have hle : ∀ i j (hi : i < edges.length) (hj : j < edges.length), i ≤ j → edges[i] ≤ edges[j] := by
    intro i j hi hj hij
    rcases Nat.eq_or_lt_of_le hij with h | h
    · subst h; exact le_refl _
    · exact le_of_lt (hget i j hi hj h)
  unfold edgeIndex
  rw [h0, hl]
  simp only
  by_cases hout : v < edges[0] ∨ v > edges[edges.length - 1]
  · rw [if_pos hout]
    refine ⟨-1, rfl, fun i hi => ?_, ?_⟩
    · constructor
      · intro h; omega
      · rintro ⟨lo, hi', h1, h2', h3, h4⟩
        exfalso
        simp only at h1 h2'
        rw [List.getElem?_eq_getElem (by omega), Option.some.injEq] at h1 h2'
        rcases hout with h | h
        · exact absurd (le_trans (hle 0 i (by omega) (by omega) (by omega)) (h1 ▸ h3)) (not_le.2 h)
        · have : v ≤ hi' := by rcases h4 with h4 | h4; exact le_of_lt h4; exact le_of_eq h4.2
          exact absurd (le_trans this (h2' ▸ hle (i + 1) (edges.length - 1) (by omega) (by omega) (by omega)))
            (not_le.2 h)
    · constructor
      · rintro ⟨h, _⟩; omega
      · rintro ⟨a, b, h1, h2', h3, h4⟩
        simp only [Option.some.injEq] at h1 h2'
        subst h1 h2'
        rcases hout with h | h
        · exact absurd h3 (not_le.2 h)
        · exact absurd h4 (not_le.2 h)
  · rw [if_neg hout]
    have hlo : edges[0] ≤ v := not_lt.1 (fun h => hout (Or.inl h))
    have hhi : v ≤ edges[edges.length - 1] := not_lt.1 (fun h => hout (Or.inr h))
    generalize hu : edges.findIdx (fun e => decide (e > v)) = u
    have hbefore : ∀ i (hi : i < edges.length), i < u → edges[i] ≤ v := by
      intro i hi hiu
      have := List.not_of_lt_findIdx (p := fun e => decide (e > v)) (by rw [hu]; exact hiu)
      simpa using this
    have hat : ∀ (h : u < edges.length), v < edges[u] := by
      intro h
      have h' : edges.findIdx (fun e => decide (e > v)) < edges.length := by rw [hu]; exact h
      have := List.findIdx_getElem (p := fun e => decide (e > v)) (w := h')
      simp only [hu] at this
      simpa using this
    have hule : u ≤ edges.length := by rw [← hu]; exact List.findIdx_le_length
    have hu0 : 0 < u := by
      rcases Nat.eq_zero_or_pos u with h | h
      · subst h; exact absurd hlo (not_le.2 (hat (by omega)))
      · exact h
    -- the bin
    have hk : ∃ j : Nat, (((if u = edges.length then u - 1 else u : Nat) : Int) - 1) = j ∧ j < edges.length - 1 ∧
        InBin (fun i => edges[i]?) (edges.length - 1) j v := by
      by_cases hue : u = edges.length
      · refine ⟨u - 2, by rw [if_pos hue]; omega, by omega, edges[u - 2], edges[u - 1], ?_, ?_, ?_, ?_⟩
        · exact List.getElem?_eq_getElem _
        · rw [show u - 2 + 1 = u - 1 by omega]; exact List.getElem?_eq_getElem _
        · exact hbefore _ _ (by omega)
        · right
          refine ⟨by omega, le_antisymm ?_ (hbefore _ _ (by omega))⟩
          have : edges[u - 1]'(by omega) = edges[edges.length - 1] := by congr 1; omega
          rw [this]; exact hhi
      · refine ⟨u - 1, by rw [if_neg hue]; omega, by omega, edges[u - 1], edges[u]'(by omega), ?_, ?_, ?_, ?_⟩
        · exact List.getElem?_eq_getElem _
        · rw [show u - 1 + 1 = u by omega]; exact List.getElem?_eq_getElem _
        · exact hbefore _ _ (by omega)
        · exact Or.inl (hat (by omega))
    obtain ⟨j, hj, hjlt, hjb⟩ := hk
    refine ⟨_, rfl, fun i hi => ?_, ?_⟩
    · rw [hj]
      constructor
      · intro h
        have : j = i := by omega
        rw [← this]; exact hjb
      · rintro ⟨lo, hi', h1, h2', h3, h4⟩
        obtain ⟨lo2, hi2, g1, g2, g3, g4⟩ := hjb
        simp only at h1 h2' g1 g2
        rw [List.getElem?_eq_getElem (by omega), Option.some.injEq] at h1 h2' g1 g2
        subst h1 h2' g1 g2
        have hA : ¬ j < i := by
          intro hji
          have h5 := hle (j + 1) i (by omega) (by omega) (by omega)
          rcases g4 with g4 | g4
          · exact absurd (lt_of_lt_of_le g4 (le_trans h5 h3)) (lt_irrefl _)
          · omega
        have hB : ¬ i < j := by
          intro hij
          have h5 := hle (i + 1) j (by omega) (by omega) (by omega)
          rcases h4 with h4 | h4
          · exact absurd (lt_of_lt_of_le h4 (le_trans h5 g3)) (lt_irrefl _)
          · omega
        have : j = i := by omega
        rw [this]
    · constructor
      · intro _; exact ⟨_, _, rfl, rfl, hlo, hhi⟩
      · intro _; rw [hj]; omega

/-! ## Equal bins -/

section Uniform
variable {K : Type} [Field K] [LinearOrder K] [IsStrictOrderedRing K] [FloorRing K]

theorem uniformIndex_inBin (n : Nat) (hn : 1 ≤ n) (start stop v : K) (h1 : start ≤ v) (h2 : v ≤ stop) :
    ∃ k : Nat, uniformIndex n start ((stop - start) / n) stop v = .ok (k : Int) ∧ k < n ∧
      ∀ i : Nat, i < n → (k = i ↔ InBin (uniform n start ((stop - start) / n) stop).edge n i v) := by
  have hnK : (0 : K) < n := by exact_mod_cast hn
  have hstepn : (n : K) * ((stop - start) / n) = stop - start := by field_simp
  unfold uniformIndex
  by_cases hv : v = stop
  · refine ⟨n - 1, by rw [if_pos hv]; congr 1; omega, by omega, fun i hi => ?_⟩
    subst hv
    constructor
    · intro h
      refine ⟨_, _, rfl, rfl, ?_, Or.inr ⟨by omega, ?_⟩⟩
      · have hc : ((i : K)) ≤ n := by exact_mod_cast (by omega : i ≤ n)
        have h0 : 0 ≤ (v - start) / n := div_nonneg (by linarith) (le_of_lt hnK)
        have := mul_le_mul_of_nonneg_right hc h0
        linarith
      · have : ((i + 1 : Nat) : K) = n := by exact_mod_cast (by omega : i + 1 = n)
        rw [this, hstepn]; ring
    · rintro ⟨lo, hi', g1, g2, g3, g4⟩
      simp only [uniform, Option.some.injEq] at g1 g2
      subst g1 g2
      rcases g4 with g4 | g4
      · exfalso
        have hc : (((i + 1 : Nat) : K)) ≤ n := by exact_mod_cast (by omega : i + 1 ≤ n)
        have h0 : 0 ≤ (v - start) / n := div_nonneg (by linarith) (le_of_lt hnK)
        have := mul_le_mul_of_nonneg_right hc h0
        linarith
      · omega
  · rw [if_neg hv]
    have hlt : v < stop := lt_of_le_of_ne h2 hv
    have hpos : 0 < stop - start := by linarith
    have hstep : 0 < (stop - start) / n := div_pos hpos hnK
    rw [if_neg (ne_of_gt hstep)]
    set step := (stop - start) / n with hs
    have hq0 : 0 ≤ (v - start) / step := div_nonneg (by linarith) (le_of_lt hstep)
    have htr : trunc ((v - start) / step) = ⌊(v - start) / step⌋ := by
      unfold trunc; rw [if_neg (not_lt.2 hq0)]
    have hf0 : 0 ≤ ⌊(v - start) / step⌋ := Int.floor_nonneg.2 hq0
    have hqn : (v - start) / step < n := by rw [div_lt_iff₀ hstep, hstepn]; linarith
    have hfn : ⌊(v - start) / step⌋ < (n : Int) := by
      rw [Int.floor_lt]; exact_mod_cast hqn
    refine ⟨⌊(v - start) / step⌋.toNat, ?_, by omega, fun i hi => ?_⟩
    · rw [htr, Int.toNat_of_nonneg hf0]
    · have hii : (⌊(v - start) / step⌋.toNat = i) ↔ ⌊(v - start) / step⌋ = (i : Int) := by omega
      rw [hii, Int.floor_eq_iff]
      have e1 : ((i : Int) : K) ≤ (v - start) / step ↔ (i : K) * step + start ≤ v := by
        rw [le_div_iff₀ hstep]
        simp only [Int.cast_natCast]
        constructor <;> intro h <;> linarith
      have e2 : (v - start) / step < ((i : Int) : K) + 1 ↔ v < ((i + 1 : Nat) : K) * step + start := by
        rw [div_lt_iff₀ hstep]
        push_cast
        constructor <;> intro h <;> linarith
      rw [e1, e2]
      constructor
      · rintro ⟨h3, h4⟩
        exact ⟨_, _, rfl, rfl, h3, Or.inl h4⟩
      · rintro ⟨lo, hi', g1, g2, g3, g4⟩
        simp only [uniform, Option.some.injEq] at g1 g2
        subst g1 g2
        refine ⟨g3, ?_⟩
        rcases g4 with g4 | g4
        · exact g4
        · exfalso
          have : ((i + 1 : Nat) : K) = n := by exact_mod_cast g4.1
          rw [this, hstepn] at g4
          exact hv (by linarith [g4.2])

theorem minmax_spec (l : List K) (hne : l ≠ []) :
    ∃ a b, minmax l = some (a, b) ∧ ∀ x ∈ l, a ≤ x ∧ x ≤ b := by
  cases l with
  | nil => simp at hne
  | cons x xs =>
    refine ⟨_, _, rfl, ?_⟩
    have hmin : ∀ (l : List K) (x : K), l.foldl min x ≤ x ∧ ∀ y ∈ l, l.foldl min x ≤ y := by
      intro l
      induction l with
      | nil => simp
      | cons y l ih =>
        intro x
        simp only [List.foldl_cons, List.mem_cons, forall_eq_or_imp]
        have := ih (min x y)
        exact ⟨le_trans this.1 (min_le_left _ _), le_trans this.1 (min_le_right _ _), this.2⟩
    have hmax : ∀ (l : List K) (x : K), x ≤ l.foldl max x ∧ ∀ y ∈ l, y ≤ l.foldl max x := by
      intro l
      induction l with
      | nil => simp
      | cons y l ih =>
        intro x
        simp only [List.foldl_cons, List.mem_cons, forall_eq_or_imp]
        have := ih (max x y)
        exact ⟨le_trans (le_max_left _ _) this.1, le_trans (le_max_right _ _) this.1, this.2⟩
    intro y hy
    rcases List.mem_cons.1 hy with rfl | hy
    · exact ⟨(hmin xs y).1, (hmax xs y).1⟩
    · exact ⟨(hmin xs x).2 y hy, (hmax xs x).2 y hy⟩

theorem ceilSqrt_pos {n : Nat} (h : 1 ≤ n) : 1 ≤ ceilSqrt n := by
  unfold ceilSqrt
  split
  · have : Nat.sqrt n ≠ 0 := by rw [Ne, Nat.sqrt_eq_zero]; omega
    omega
  · omega

theorem uniform_histogram {W : Type} [AddCommMonoid W] (n : Nat) (hn : 1 ≤ n) (start stop : K)
    (data : List (K × W)) (hd : ∀ d ∈ data, start ≤ d.1 ∧ d.1 ≤ stop) :
    ∃ counts, histogram (uniform n start ((stop - start) / n) stop) data =
        .ok ⟨uniform n start ((stop - start) / n) stop, counts, 0, (n : Int) - 1⟩ ∧ counts.length = n ∧
      (∀ i, i < n → counts.getD i 0 =
        weightWhere (InBin (uniform n start ((stop - start) / n) stop).edge n i) data) ∧
      counts.sum = (data.map Prod.snd).sum := by
  have hidx : ∀ v : K, ∃ k : Int, (start ≤ v ∧ v ≤ stop → (uniform n start ((stop - start) / n) stop).index v = .ok k ∧
      (0 ≤ k ∧ k < n) ∧
      ∀ i : Nat, i < n → (k = i ↔ InBin (uniform n start ((stop - start) / n) stop).edge n i v)) := by
    intro v
    by_cases h : start ≤ v ∧ v ≤ stop
    · obtain ⟨k, h1, h2, h3⟩ := uniformIndex_inBin n hn start stop v h.1 h.2
      exact ⟨k, fun _ => ⟨h1, by omega, fun i hi => by rw [← h3 i hi]; omega⟩⟩
    · exact ⟨0, fun h' => absurd h' h⟩
  choose f hf using hidx
  obtain ⟨c, h1, h2, h3, h4⟩ := histogram_spec (uniform n start ((stop - start) / n) stop) f data
    (fun d hd' => (hf d.1 (hd d hd')).1)
  refine ⟨c, h1, h2, fun i hi => ?_, ?_⟩
  · rw [h3 i hi]
    exact weightWhere_congr fun d hd' => (hf d.1 (hd d hd')).2.2 i hi
  · rw [h4]
    exact weightWhere_all fun d hd' => (hf d.1 (hd d hd')).2.1

end Uniform

/-! ## The median loop -/

section Median
variable {K : Type} [Field K] [LinearOrder K] [IsStrictOrderedRing K]

theorem medianLoop_congr (c1 c2 : List K) (a b : Nat) (h : ∀ i, a ≤ i → i < b → c1.getD i 0 = c2.getD i 0) :
    ∀ (n l r : Nat), r - l = n → a ≤ l → r ≤ b → ∀ low high : K,
      medianLoop c1 l ((r : Int) - 1) low high = medianLoop c2 l ((r : Int) - 1) low high := by
  intro n
  induction n with
  | zero =>
    intro l r hn hal hrb low high
    rw [medianLoop, if_neg (by omega), medianLoop, if_neg (by omega)]
  | succ n ih =>
    intro l r hn hal hrb low high
    have hle : (l : Int) ≤ (r : Int) - 1 := by omega
    rw [medianLoop.eq_def c1, if_pos hle, medianLoop.eq_def c2, if_pos hle]
    have e1 : ((l : Int) + 1) = ((l + 1 : Nat) : Int) := by omega
    have e2 : ((r : Int) - 1) = ((r - 1 : Nat) : Int) := by omega
    by_cases hlt : low < high
    · rw [if_pos hlt, if_pos hlt, Int.toNat_natCast, h l hal (by omega), e1]
      exact ih (l + 1) r (by omega) (by omega) hrb _ _
    · rw [if_neg hlt, if_neg hlt, e2, Int.toNat_natCast, h (r - 1) (by omega) (by omega)]
      exact ih l (r - 1) (by omega) hal (by omega) _ _

theorem medianLoop_spec (counts : List K) (hpos : ∀ c ∈ counts, 0 ≤ c) (a b : Nat) :
    ∀ (n l r : Nat), r - l = n → a ≤ l → l ≤ r → r ≤ b → ∀ (low high : K),
      low = ∑ i ∈ Finset.Ico a l, counts.getD i 0 → high = ∑ i ∈ Finset.Ico r b, counts.getD i 0 →
      (r < b → high ≤ low + counts.getD r 0) → (r = b → high = 0) →
      (a < l → low ≤ high + counts.getD (l - 1) 0) → (l = a → low = 0) →
      (low < high → 0 < counts.getD r 0) → (high ≤ low → low = 0 ∨ 0 < counts.getD (l - 1) 0) →
      ∃ j : Nat, l ≤ j ∧ j ≤ r ∧ medianLoop counts l ((r : Int) - 1) low high =
        ((j : Int), (j : Int) - 1, ∑ i ∈ Finset.Ico a j, counts.getD i 0, ∑ i ∈ Finset.Ico j b, counts.getD i 0) ∧
        (j < b → ∑ i ∈ Finset.Ico j b, counts.getD i 0 ≤ ∑ i ∈ Finset.Ico a j, counts.getD i 0 + counts.getD j 0) ∧
        (a < j → ∑ i ∈ Finset.Ico a j, counts.getD i 0 ≤
          ∑ i ∈ Finset.Ico j b, counts.getD i 0 + counts.getD (j - 1) 0) ∧
        (r = b → l < r → l = a → j < b) ∧
        (∑ i ∈ Finset.Ico a j, counts.getD i 0 < ∑ i ∈ Finset.Ico j b, counts.getD i 0 → 0 < counts.getD j 0) ∧
        (∑ i ∈ Finset.Ico j b, counts.getD i 0 ≤ ∑ i ∈ Finset.Ico a j, counts.getD i 0 →
          ∑ i ∈ Finset.Ico a j, counts.getD i 0 = 0 ∨ 0 < counts.getD (j - 1) 0) := by
  have hnn : ∀ i, 0 ≤ counts.getD i 0 := by
    intro i
    by_cases h : i < counts.length
    · rw [List.getD_eq_getElem _ _ h]; exact hpos _ (List.getElem_mem h)
    · rw [List.getD_eq_default _ _ (by omega)]
  intro n
  induction n with
  | zero =>
    intro l r hn hal hlr hrb low high hl hh i1 i1' i2 i2' i3 i4
    have : l = r := by omega
    subst this
    refine ⟨l, le_refl _, le_refl _, ?_, ?_, ?_, by omega, by rw [← hl, ← hh]; exact i3,
      by rw [← hl, ← hh]; exact i4⟩
    · rw [medianLoop, if_neg (by omega), hl, hh]
    · intro h; rw [← hl, ← hh]; exact i1 h
    · intro h; rw [← hl, ← hh]; exact i2 h
  | succ n ih =>
    intro l r hn hal hlr hrb low high hl hh i1 i1' i2 i2' i3 i4
    rw [medianLoop, if_pos (by omega)]
    by_cases hlt : low < high
    · rw [if_pos hlt]
      have hnotb : ¬ r = b := by
        intro h
        have := i1' h
        have h2 : 0 ≤ low := by rw [hl]; exact Finset.sum_nonneg fun i _ => hnn i
        linarith
      obtain ⟨j, h1, h2, h3, h4, h5, h6⟩ := ih (l + 1) r (by omega) (by omega) (by omega) hrb
        (low + counts.getD l 0) high (by rw [Finset.sum_Ico_succ_top (by omega), hl]) hh
        (fun h => by have := i1 h; have := hnn l; linarith) (fun h => absurd h hnotb)
        (fun _ => by rw [Nat.add_sub_cancel]; linarith) (fun h => by omega)
        (fun _ => i3 hlt) (fun h => Or.inr (by rw [Nat.add_sub_cancel]; linarith))
      refine ⟨j, by omega, h2, ?_, h4, h5, fun h => absurd h hnotb, h6.2⟩
      rw [← h3]
      simp
    · rw [if_neg hlt]
      have hge : high ≤ low := not_lt.1 hlt
      have e : Finset.Ico (r - 1) b = insert (r - 1) (Finset.Ico r b) := by
        ext x; simp only [Finset.mem_Ico, Finset.mem_insert]; omega
      have hcast : ((r : Int) - 1) = ((r - 1 : Nat) : Int) := by omega
      obtain ⟨j, h1, h2, h3, h4, h5, h6⟩ := ih l (r - 1) (by omega) hal (by omega) (by omega) low
        (high + counts.getD (r - 1) 0) hl
        (by rw [e, Finset.sum_insert (by simp; omega), hh]; ring)
        (fun _ => by linarith) (fun h => by omega)
        (fun h => by have := i2 h; have := hnn (r - 1); linarith) i2'
        (fun h => by linarith) (fun _ => i4 hge)
      refine ⟨j, h1, by omega, ?_, h4, h5, fun _ _ _ => by omega, h6.2⟩
      rw [← h3, hcast]
      simp

end Median

end Alexandria.Histogram
