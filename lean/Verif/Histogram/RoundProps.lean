import Verif.Histogram.RoundModel
import Verif.Histogram.Lemmas
import Mathlib.Data.Rat.Floor
import Mathlib.Tactic.NormNum
import Mathlib.Tactic.Linarith

/-! # C120: histograms of floating point numbers -/

namespace Alexandria.Histogram

open Spec Classical

theorem one_sub_pos {p : Nat} (hp : 1 ≤ p) : (0 : Rat) < 1 - (1 / 2) ^ p := by
  have : ((1 : Rat) / 2) ^ p ≤ (1 / 2) ^ 1 := pow_le_pow_of_le_one (by norm_num) (by norm_num) hp
  rw [pow_one] at this
  linarith

theorem rnd_pos {p : Nat} (hp : 1 ≤ p) {x : Rat} (h : 0 < x) : 0 < Binary.rnd p x := by
  rw [Binary.rnd_of_pos h]; exact Binary.rndPos_pos hp h

/-- The index of a value within the range: there is one, it is not negative, it belongs to a bin near the value, and it is beyond the last bin only for values near the
upper end. -/
theorem machineIndex_spec {p n : Nat} (hp : 1 ≤ p) (hn : 1 ≤ n) (hnp : n ≤ 2 ^ p) (start stop v : Rat) (h1 : start ≤ v) (h2 : v ≤ stop) :
    ∃ k : Nat, machineIndex p n start (machineStep p n start stop) stop v = .ok (k : Int) ∧
      (n ≤ k → v < stop ∧ stop - v ≤ 4 * (1 / 2) ^ p * (stop - start)) ∧
      (v ≠ stop → k * machineStep p n start stop ≤ (v - start) * (1 + (1 / 2) ^ p) ^ 2 ∧
        (v - start) * (1 - (1 / 2) ^ p) ^ 2 ≤ (k + 1) * machineStep p n start stop) := by
  unfold machineIndex
  by_cases hv : v = stop
  · exact ⟨n - 1, by rw [if_pos hv]; congr 1; omega, fun h => by omega, fun h => absurd hv h⟩
  · have hlt : v < stop := lt_of_le_of_ne h2 hv
    have hD : 0 < stop - start := by linarith
    have hnQ : (0 : Rat) < n := by exact_mod_cast hn
    have hrn : Binary.rnd p (n : Rat) = n := Binary.rnd_of_rep hp (Binary.rep_nat hnp)
    have hu := one_sub_pos hp
    have hu0 : (0 : Rat) < (1 / 2) ^ p := by positivity
    obtain ⟨u, hud⟩ : ∃ u : Rat, u = (1 / 2) ^ p := ⟨_, rfl⟩
    obtain ⟨s, hs⟩ : ∃ s, s = machineStep p n start stop := ⟨_, rfl⟩
    have hR := rnd_pos hp hD
    have hspos : 0 < s := by
      rw [hs, machineStep, hrn]
      exact rnd_pos hp (div_pos hR hnQ)
    have hs1 : (Binary.rnd p (stop - start) / n) * (1 - u) ≤ s := by
      rw [hs, machineStep, hrn, hud]
      exact Binary.rnd_ge p (div_pos hR hnQ).le
    have hR1 := Binary.rnd_ge p hD.le
    rw [← hud] at hu hu0 hR1
    have hns : (stop - start) * (1 - u) * (1 - u) ≤ n * s := by
      have e1 : (stop - start) * (1 - u) * (1 - u) ≤ Binary.rnd p (stop - start) * (1 - u) := mul_le_mul_of_nonneg_right hR1 hu.le
      have e2 : n * ((Binary.rnd p (stop - start) / n) * (1 - u)) ≤ n * s := mul_le_mul_of_nonneg_left hs1 hnQ.le
      have e3 : n * ((Binary.rnd p (stop - start) / n) * (1 - u)) = Binary.rnd p (stop - start) * (1 - u) := by field_simp
      rw [e3] at e2
      exact le_trans e1 e2
    have hx : 0 ≤ v - start := by linarith
    have ha0 := Binary.rnd_nonneg hp hx
    have ha1 := Binary.rnd_le p hx
    have ha2 := Binary.rnd_ge p hx
    have hq : 0 ≤ Binary.rnd p (v - start) / s := div_nonneg ha0 hspos.le
    have hq0 := Binary.rnd_nonneg hp hq
    have hq1 := Binary.rnd_le p hq
    have hq2 := Binary.rnd_ge p hq
    rw [← hud] at ha1 ha2 hq1 hq2
    obtain ⟨q, hqd⟩ : ∃ q, q = Binary.rnd p (Binary.rnd p (v - start) / s) := ⟨_, rfl⟩
    rw [← hqd] at hq0 hq1 hq2
    -- the quotient times the step
    have hqs1 : q * s ≤ (v - start) * (1 + u) ^ 2 := by
      have e1 : q * s ≤ (Binary.rnd p (v - start) / s * (1 + u)) * s := mul_le_mul_of_nonneg_right hq1 hspos.le
      have e2 : (Binary.rnd p (v - start) / s * (1 + u)) * s = Binary.rnd p (v - start) * (1 + u) := by field_simp
      rw [e2] at e1
      have e3 : Binary.rnd p (v - start) * (1 + u) ≤ (v - start) * (1 + u) * (1 + u) := mul_le_mul_of_nonneg_right ha1 (by linarith)
      calc q * s ≤ _ := le_trans e1 e3
        _ = _ := by ring
    have hqs2 : (v - start) * (1 - u) ^ 2 ≤ q * s := by
      have e1 : (Binary.rnd p (v - start) / s * (1 - u)) * s ≤ q * s := mul_le_mul_of_nonneg_right hq2 hspos.le
      have e2 : (Binary.rnd p (v - start) / s * (1 - u)) * s = Binary.rnd p (v - start) * (1 - u) := by field_simp
      rw [e2] at e1
      have e3 : (v - start) * (1 - u) * (1 - u) ≤ Binary.rnd p (v - start) * (1 - u) := mul_le_mul_of_nonneg_right ha2 hu.le
      calc _ = (v - start) * (1 - u) * (1 - u) := by ring
        _ ≤ _ := le_trans e3 e1
    have hf0 : 0 ≤ ⌊q⌋ := Int.floor_nonneg.mpr hq0
    have hfl := Int.floor_le q
    have hfu := Int.lt_floor_add_one q
    have hcast : ((⌊q⌋.toNat : Nat) : Rat) = (⌊q⌋ : Rat) := by
      rw [← Int.cast_natCast, Int.toNat_of_nonneg hf0]
    refine ⟨⌊q⌋.toNat, ?_, ?_, ?_⟩
    · rw [if_neg hv, ← hs, if_neg hspos.ne', ← hqd]
      unfold trunc
      rw [if_neg (not_lt.mpr hq0), Int.toNat_of_nonneg hf0]
    · intro hk
      refine ⟨hlt, ?_⟩
      have hnq : (n : Rat) ≤ q := by
        refine le_trans ?_ hfl
        rw [← hcast]
        exact_mod_cast hk
      have h3 : (stop - start) * (1 - u) * (1 - u) ≤ (v - start) * (1 + u) ^ 2 :=
        le_trans hns (le_trans (mul_le_mul_of_nonneg_right hnq hspos.le) hqs1)
      rw [← hud]
      have h4 : (stop - start) * (1 - 4 * u) * (1 + u) ^ 2 ≤ (stop - start) * (1 - u) * (1 - u) := by
        have : 0 ≤ (stop - start) * (8 * u ^ 2 + 4 * u ^ 3) := by positivity
        nlinarith
      have h5 : (stop - start) * (1 - 4 * u) ≤ v - start := le_of_mul_le_mul_right (le_trans h4 h3) (by positivity)
      linarith
    · intro _
      rw [← hs, ← hud, hcast]
      constructor
      · exact le_trans (mul_le_mul_of_nonneg_right hfl hspos.le) hqs1
      · exact le_trans hqs2 (mul_le_mul_of_nonneg_right hfu.le hspos.le)

section
variable {W : Type} [AddCommMonoid W]

theorem weight_split (f : Rat → Prop) (data : List (Rat × W)) : weightWhere f data + weightWhere (fun v => ¬ f v) data = (data.map Prod.snd).sum := by
  induction data with
  | nil => simp [weightWhere]
  | cons d data ih =>
    obtain ⟨v, w⟩ := d
    rw [weightWhere_cons, weightWhere_cons, List.map_cons, List.sum_cons, ← ih]
    by_cases h : f v
    · simp only [h, if_true, not_true, if_false, zero_add]
      rw [add_assoc]
    · simp only [h, if_false, not_false_eq_true, if_true, zero_add]
      rw [← add_assoc, ← add_assoc, add_comm w]

theorem minmax_mem (l : List Rat) (a b : Rat) (h : minmax l = some (a, b)) : a ∈ l ∧ b ∈ l := by
  cases l with
  | nil => cases h
  | cons x xs =>
    simp only [minmax, Option.some.injEq, Prod.mk.injEq] at h
    obtain ⟨rfl, rfl⟩ := h
    have hmin : ∀ (l : List Rat) (x : Rat), l.foldl min x = x ∨ l.foldl min x ∈ l := by
      intro l
      induction l with
      | nil => intro x; exact .inl rfl
      | cons y l ih =>
        intro x
        rw [List.foldl_cons]
        rcases ih (min x y) with h | h
        · rw [h]
          rcases min_choice x y with h' | h' <;> rw [h']
          · exact .inl rfl
          · exact .inr (List.mem_cons_self ..)
        · exact .inr (List.mem_cons_of_mem _ h)
    have hmax : ∀ (l : List Rat) (x : Rat), l.foldl max x = x ∨ l.foldl max x ∈ l := by
      intro l
      induction l with
      | nil => intro x; exact .inl rfl
      | cons y l ih =>
        intro x
        rw [List.foldl_cons]
        rcases ih (max x y) with h | h
        · rw [h]
          rcases max_choice x y with h' | h' <;> rw [h']
          · exact .inl rfl
          · exact .inr (List.mem_cons_self ..)
        · exact .inr (List.mem_cons_of_mem _ h)
    constructor
    · rcases hmin xs x with h | h
      · rw [h]; exact List.mem_cons_self ..
      · exact List.mem_cons_of_mem _ h
    · rcases hmax xs x with h | h
      · rw [h]; exact List.mem_cons_self ..
      · exact List.mem_cons_of_mem _ h

/-- What is known about the counts `counts` of data between `vmin` and `vmax` in bins of the width `step`, with the relative error `u`: every bin holds the weight of values that lie
between its edges up to rounding, and what is missing is the weight of values next to `vmax`. -/
def Near (u : Rat) (data : List (Rat × W)) (vmin vmax step : Rat) (counts : List W) : Prop :=
  ∃ bin : Rat → Nat, (∀ i, i < counts.length → counts[i]? = some (weightWhere (fun v => bin v = i) data)) ∧
    counts.sum + weightWhere (fun v => counts.length ≤ bin v) data = (data.map Prod.snd).sum ∧
    (∀ d ∈ data, counts.length ≤ bin d.1 → d.1 < vmax ∧ vmax - d.1 ≤ 4 * u * (vmax - vmin)) ∧
    (∀ d ∈ data, d.1 ≠ vmax → bin d.1 * step ≤ (d.1 - vmin) * (1 + u) ^ 2 ∧ (d.1 - vmin) * (1 - u) ^ 2 ≤ (bin d.1 + 1) * step) ∧
    (∀ d ∈ data, d.1 = vmax → bin d.1 + 1 = counts.length)

theorem machine_near {p n : Nat} (hp : 1 ≤ p) (hn : 1 ≤ n) (hnp : n ≤ 2 ^ p) (vmin vmax : Rat) (data : List (Rat × W))
    (hd : ∀ d ∈ data, vmin ≤ d.1 ∧ d.1 ≤ vmax) :
    ∃ counts, histogram (machineUniform p n vmin (machineStep p n vmin vmax) vmax) data =
      .ok ⟨machineUniform p n vmin (machineStep p n vmin vmax) vmax, counts, 0, (n : Int) - 1⟩ ∧ counts.length = n ∧
      Near ((1 / 2) ^ p) data vmin vmax (machineStep p n vmin vmax) counts := by
  have hidx : ∀ v : Rat, ∃ k : Nat, vmin ≤ v ∧ v ≤ vmax → machineIndex p n vmin (machineStep p n vmin vmax) vmax v = .ok (k : Int) ∧
      (n ≤ k → v < vmax ∧ vmax - v ≤ 4 * (1 / 2) ^ p * (vmax - vmin)) ∧
      (v ≠ vmax → k * machineStep p n vmin vmax ≤ (v - vmin) * (1 + (1 / 2) ^ p) ^ 2 ∧
        (v - vmin) * (1 - (1 / 2) ^ p) ^ 2 ≤ (k + 1) * machineStep p n vmin vmax) := by
    intro v
    by_cases h : vmin ≤ v ∧ v ≤ vmax
    · obtain ⟨k, hk⟩ := machineIndex_spec hp hn hnp vmin vmax v h.1 h.2
      exact ⟨k, fun _ => hk⟩
    · exact ⟨0, fun h' => absurd h' h⟩
  choose f hf using hidx
  obtain ⟨c, h1, h2, h3, h4⟩ := histogram_spec (machineUniform p n vmin (machineStep p n vmin vmax) vmax) (fun v => (f v : Int)) data
    (fun d hd' => (hf d.1 (hd d hd')).1)
  have hlen : c.length = n := h2
  refine ⟨c, h1, h2, f, ?_, ?_, ?_, ?_, ?_⟩
  · intro i hi
    rw [List.getElem?_eq_getElem hi, ← List.getD_eq_getElem _ 0 hi, h3 i (by rw [← h2]; exact hi)]
    congr 1
    exact weightWhere_congr fun d _ => by simp
  · rw [h4, ← weight_split (fun v => 0 ≤ ((f v : Nat) : Int) ∧ ((f v : Nat) : Int) < (machineUniform p n vmin (machineStep p n vmin vmax) vmax).nbins) data]
    congr 1
    refine weightWhere_congr fun d _ => ?_
    show c.length ≤ f d.1 ↔ ¬ (0 ≤ ((f d.1 : Nat) : Int) ∧ ((f d.1 : Nat) : Int) < (n : Nat))
    rw [hlen]
    omega
  · intro d hd' h
    rw [hlen] at h
    exact (hf d.1 (hd d hd')).2.1 h
  · intro d hd'
    exact (hf d.1 (hd d hd')).2.2
  · intro d hd' he
    have hi := (hf d.1 (hd d hd')).1
    unfold machineIndex at hi
    rw [if_pos he] at hi
    simp only [Outcome.ok.injEq] at hi
    rw [hlen]
    omega

/-- **C120, square-root bins.** The histogram is made, and its counts are right up to rounding. -/
theorem C120_sqrt_partial (p : Nat) (hp : 1 ≤ p) (data : List (Rat × W)) (hne : data ≠ []) (hlen : ceilSqrt data.length ≤ 2 ^ p) :
    ∃ vmin vmax h, vmin ∈ data.map Prod.fst ∧ vmax ∈ data.map Prod.fst ∧ (∀ d ∈ data, vmin ≤ d.1 ∧ d.1 ≤ vmax) ∧
      machineSqrt p data = .ok h ∧ h.counts.length = ceilSqrt data.length ∧
      Near ((1 / 2) ^ p) data vmin vmax (machineStep p (ceilSqrt data.length) vmin vmax) h.counts := by
  obtain ⟨a, b, hm, hab⟩ := minmax_spec (data.map Prod.fst) (by simpa using hne)
  obtain ⟨ha, hb⟩ := minmax_mem _ a b hm
  have hd : ∀ d ∈ data, a ≤ d.1 ∧ d.1 ≤ b := fun d hd => hab d.1 (List.mem_map_of_mem hd)
  obtain ⟨c, h1, h2, h3⟩ := machine_near hp (ceilSqrt_pos (List.length_pos_iff.2 hne)) hlen a b data hd
  refine ⟨a, b, ⟨machineUniform p (ceilSqrt data.length) a (machineStep p (ceilSqrt data.length) a b) b, c, 0, (ceilSqrt data.length : Nat) - 1⟩, ha, hb, hd, ?_, h2, h3⟩
  rw [machineSqrt, machineSqrtBins, hm]
  simp only [List.length_map]
  exact h1

/-- **C120, Scott bins**, for data that are not constant. -/
theorem C120_scott_partial (p n : Nat) (hp : 1 ≤ p) (hn : 1 ≤ n) (data : List (Rat × W)) (hne : data ≠ []) (hlen : n ≤ 2 ^ p) :
    ∃ vmin vmax h, vmin ∈ data.map Prod.fst ∧ vmax ∈ data.map Prod.fst ∧ (∀ d ∈ data, vmin ≤ d.1 ∧ d.1 ≤ vmax) ∧
      machineScott p (some n) data = .ok h ∧ h.counts.length = n ∧
      Near ((1 / 2) ^ p) data vmin vmax (machineStep p n vmin vmax) h.counts := by
  obtain ⟨a, b, hm, hab⟩ := minmax_spec (data.map Prod.fst) (by simpa using hne)
  obtain ⟨ha, hb⟩ := minmax_mem _ a b hm
  have hd : ∀ d ∈ data, a ≤ d.1 ∧ d.1 ≤ b := fun d hd => hab d.1 (List.mem_map_of_mem hd)
  obtain ⟨c, h1, h2, h3⟩ := machine_near hp hn hlen a b data hd
  refine ⟨a, b, ⟨machineUniform p n a (machineStep p n a b) b, c, 0, (n : Nat) - 1⟩, ha, hb, hd, ?_, h2, h3⟩
  rw [machineScott, machineScottBins, hm]
  exact h1

end

/-- **C120, edges.** The first edge is the smallest value, the edges are in order, and the edge `i` is the exact one up to two relative rounding errors. -/
theorem C120_edges (p : Nat) (hp : 1 ≤ p) (values : List Rat) (hne : values ≠ []) (hlen : ceilSqrt values.length ≤ 2 ^ p) (hrep : ∀ v ∈ values, Binary.Rep p v) :
    ∃ b vmin vmax, machineSqrtBins p values = .ok b ∧ vmin ∈ values ∧ vmax ∈ values ∧ (∀ v ∈ values, vmin ≤ v ∧ v ≤ vmax) ∧
      b.edge 0 = some vmin ∧ (∀ i j x y, i ≤ j → b.edge i = some x → b.edge j = some y → x ≤ y) ∧
      ∀ i, i ≤ b.nbins → ∃ x, b.edge i = some x ∧
        |x - (vmin + i * machineStep p b.nbins vmin vmax)| ≤
          (1 / 2) ^ p * (i * machineStep p b.nbins vmin vmax) + (1 / 2) ^ p * (|vmin| + i * machineStep p b.nbins vmin vmax * (1 + (1 / 2) ^ p)) := by
  obtain ⟨a, b, hm, hab⟩ := minmax_spec values hne
  obtain ⟨ha, hb⟩ := minmax_mem _ a b hm
  refine ⟨machineUniform p (ceilSqrt values.length) a (machineStep p (ceilSqrt values.length) a b) b, a, b, ?_, ha, hb, hab, ?_, ?_, ?_⟩
  · rw [machineSqrtBins, hm]
  · show some (Binary.rnd p (Binary.rnd p (Binary.rnd p ((0 : Nat) : Rat) * _) + a)) = _
    rw [Nat.cast_zero, Binary.rnd_zero, zero_mul, Binary.rnd_zero, zero_add, Binary.rnd_of_rep hp (hrep a ha)]
  all_goals
    have hab' : a ≤ b := (hab b hb).1
    have hstep : 0 ≤ machineStep p (ceilSqrt values.length) a b :=
      Binary.rnd_nonneg hp (div_nonneg (Binary.rnd_nonneg hp (by linarith)) (Binary.rnd_nonneg hp (by positivity)))
  · intro i j x y hij hx hy
    simp only [machineUniform, Option.some.injEq] at hx hy
    subst hx hy
    refine Binary.rnd_mono hp _ _ (add_le_add_left (Binary.rnd_mono hp _ _ (mul_le_mul_of_nonneg_right (Binary.rnd_mono hp _ _ ?_) hstep)) a)
    exact_mod_cast hij
  · intro i hi
    refine ⟨_, rfl, ?_⟩
    change i ≤ ceilSqrt values.length at hi
    show |_ - (a + i * machineStep p (ceilSqrt values.length) a b)| ≤ _ * (i * machineStep p (ceilSqrt values.length) a b) +
      _ * (|a| + i * machineStep p (ceilSqrt values.length) a b * _)
    rw [Binary.rnd_of_rep hp (Binary.rep_nat (hi.trans hlen))]
    have hx : 0 ≤ (i : Rat) * machineStep p (ceilSqrt values.length) a b := mul_nonneg (by positivity) hstep
    generalize (i : Rat) * machineStep p (ceilSqrt values.length) a b = x at hx ⊢
    have h1 := Binary.rnd_err p x
    rw [abs_of_nonneg hx] at h1
    have h2 := Binary.rnd_err p (Binary.rnd p x + a)
    have h3 := Binary.rnd_le p hx
    have h4 : |Binary.rnd p x + a| ≤ |a| + x * (1 + (1 / 2) ^ p) := by
      refine (abs_add_le _ _).trans ?_
      rw [abs_of_nonneg (Binary.rnd_nonneg hp hx)]
      linarith
    have h5 := mul_le_mul_of_nonneg_right h4 (show (0 : Rat) ≤ (1 / 2) ^ p by positivity)
    rw [abs_le] at h1 h2 ⊢
    constructor <;> linarith [h1.1, h1.2, h2.1, h2.2]

example := C120_edges 53 (by decide) [0, 1, 3] (by simp) (by decide +kernel) (by
  intro v hv
  simp only [List.mem_cons, List.not_mem_nil, or_false] at hv
  rcases hv with rfl | rfl | rfl
  · exact ⟨0, 0, by decide, by norm_num⟩
  · exact ⟨1, 0, by decide, by norm_num⟩
  · exact ⟨3, 0, by decide, by norm_num⟩)

/-! ## Violations -/

/-- The full statement for square-root bins and `double`: no weight is lost. -/
def C120_sqrt_full : Prop := ∀ data : List (Rat × Nat), data ≠ [] → (∀ d ∈ data, Binary.Rep 53 d.1) →
  ∃ h, machineSqrt 53 data = .ok h ∧ h.counts.sum = (data.map Prod.snd).sum

/-- Of `0, 0, 0, 1 - 2^-53, 1` in three bins the fourth one is counted nowhere: its quotient by the width is rounded up to 3. -/
def lostData : List (Rat × Nat) := [(0, 1), (0, 1), (0, 1), (9007199254740991 / 9007199254740992, 1), (1, 1)]

theorem C120_sqrt_violated : ¬ C120_sqrt_full := by
  intro h
  obtain ⟨r, h1, h2⟩ := h lostData (by simp [lostData]) (by
    intro d hd
    simp only [lostData, List.mem_cons, List.not_mem_nil, or_false] at hd
    rcases hd with rfl | rfl | rfl | rfl | rfl
    · exact ⟨0, 0, by decide, by norm_num⟩
    · exact ⟨0, 0, by decide, by norm_num⟩
    · exact ⟨0, 0, by decide, by norm_num⟩
    · exact ⟨9007199254740991, -53, by decide, by norm_num⟩
    · exact ⟨1, 0, by decide, by norm_num⟩)
  have hc : (match machineSqrt 53 lostData with | .ok h => h.counts | _ => []) = [3, 0, 1] := by decide +kernel
  rw [h1] at hc
  simp only at hc
  rw [hc] at h2
  revert h2
  decide

/-- The full statement for Scott bins and constant data of type `double`. -/
def C120_scott_full : Prop := ∀ data : List (Rat × Nat), data ≠ [] → (∀ d ∈ data, Binary.Rep 53 d.1) → (∀ d ∈ data, ∀ e ∈ data, d.1 = e.1) →
  ∃ h, machineScott 53 none data = .ok h ∧ h.counts.sum = (data.map Prod.snd).sum

/-- The range is not widened for numbers from 2^53 on: there is no bin at all. -/
theorem C120_scott_violated : ¬ C120_scott_full := by
  intro h
  obtain ⟨r, h1, h2⟩ := h [(9007199254740992, 1)] (by simp) (by
    intro d hd
    simp only [List.mem_singleton] at hd
    subst hd
    exact ⟨9007199254740992, 0, by decide, by norm_num⟩) (by
    intro d hd e he
    simp only [List.mem_singleton] at hd he
    rw [hd, he])
  have hc : (match machineScott 53 none [(9007199254740992, 1)] with | .ok h => h.counts | _ => [7]) = ([] : List Nat) := by decide +kernel
  rw [h1] at hc
  simp only at hc
  rw [hc] at h2
  revert h2
  decide

/-! ## Counting in `float` -/

theorem one_more (k : Nat) : ((⟨(min k (2 ^ 24) : Nat)⟩ : Flt 24) + ⟨1⟩) = ⟨(min (k + 1) (2 ^ 24) : Nat)⟩ := by
  show (⟨Binary.rnd 24 (((min k (2 ^ 24) : Nat) : Rat) + 1)⟩ : Flt 24) = _
  congr 1
  by_cases h : k < 2 ^ 24
  · rw [Nat.min_eq_left h.le, Nat.min_eq_left (by omega)]
    have := Binary.rnd_of_rep (p := 24) (by decide) (Binary.rep_nat (p := 24) (n := k + 1) (by omega))
    push_cast at this ⊢
    exact this
  · rw [Nat.min_eq_right (by omega), Nat.min_eq_right (by omega)]
    decide +kernel

theorem countLoop_float (b : Binning Rat) (f : Rat → Int) (values : List Rat) (hf : ∀ v ∈ values, b.index v = .ok (f v)) :
    ∀ (ks : List Nat), ∃ counts', countLoop b (values.map fun v => (v, (⟨1⟩ : Flt 24))) (ks.map fun k => ⟨(min k (2 ^ 24) : Nat)⟩) = .ok counts' ∧
      counts'.length = ks.length ∧
      ∀ i, (hi : i < ks.length) → counts'[i]? = some ⟨(min (ks[i] + values.countP (fun v => decide (f v = i))) (2 ^ 24) : Nat)⟩ := by
  induction values with
  | nil =>
    intro ks
    refine ⟨_, rfl, by simp, ?_⟩
    intro i hi
    simp [hi]
  | cons v values ih =>
    intro ks
    have hv := hf v (List.mem_cons_self ..)
    rw [List.map_cons, countLoop, hv, Outcome.bind_ok]
    by_cases hb : f v ≥ 0 ∧ f v < ks.length
    · rw [if_pos (by simpa using hb)]
      have hlt : (f v).toNat < ks.length := by omega
      have e : (ks.map fun k => (⟨(min k (2 ^ 24) : Nat)⟩ : Flt 24)).set (f v).toNat
          ((ks.map fun k => (⟨(min k (2 ^ 24) : Nat)⟩ : Flt 24)).getD (f v).toNat 0 + ⟨1⟩) =
          (ks.set (f v).toNat (ks[(f v).toNat] + 1)).map fun k => (⟨(min k (2 ^ 24) : Nat)⟩ : Flt 24) := by
        rw [List.map_set, ← one_more]
        congr 2
        rw [List.getD_eq_getElem _ _ (by simpa using hlt), List.getElem_map]
      rw [e]
      obtain ⟨c', h1, h2, h3⟩ := ih (fun w hw => hf w (List.mem_cons_of_mem _ hw)) (ks.set (f v).toNat (ks[(f v).toNat] + 1))
      refine ⟨c', h1, by simpa using h2, ?_⟩
      intro i hi
      rw [h3 i (by simpa using hi), List.countP_cons, List.getElem_set]
      by_cases he : (f v).toNat = i
      · subst he
        rw [if_pos rfl, if_pos (by simp; omega)]
        congr 4
        omega
      · rw [if_neg he, if_neg (by simp; omega)]
        rfl
    · rw [if_neg (by simpa using hb)]
      obtain ⟨c', h1, h2, h3⟩ := ih (fun w hw => hf w (List.mem_cons_of_mem _ hw)) ks
      refine ⟨c', h1, h2, ?_⟩
      intro i hi
      rw [h3 i hi, List.countP_cons, if_neg (by simp; omega)]
      rfl

/-- **C120, counts of the default type `float`.** Without weights a bin counts its values exactly up to 2^24 = 16777216 and stays at this number from then on. -/
theorem C120_float_counts_partial (b : Binning Rat) (f : Rat → Int) (values : List Rat) (hf : ∀ v ∈ values, b.index v = .ok (f v)) :
    ∃ h, histogram b (values.map fun v => (v, (⟨1⟩ : Flt 24))) = .ok h ∧ h.counts.length = b.nbins ∧
      ∀ i, i < b.nbins → h.counts[i]? = some ⟨(min (values.countP fun v => decide (f v = i)) (2 ^ 24) : Nat)⟩ := by
  obtain ⟨c, h1, h2, h3⟩ := countLoop_float b f values hf (List.replicate b.nbins 0)
  rw [List.length_replicate] at h2
  refine ⟨⟨b, c, 0, (b.nbins : Int) - 1⟩, ?_, h2, ?_⟩
  · rw [histogram]
    have e : (List.replicate b.nbins 0).map (fun k => (⟨(min k (2 ^ 24) : Nat)⟩ : Flt 24)) = List.replicate b.nbins 0 := by
      rw [List.map_replicate]
      congr 1
    rw [← e, h1]
    rfl
  · intro i hi
    rw [h3 i (by simpa using hi)]
    simp

/-- The full statement: a bin without weights holds the number of its values. -/
def C120_float_counts_full : Prop := ∀ (b : Binning Rat) (f : Rat → Int) (values : List Rat), (∀ v ∈ values, b.index v = .ok (f v)) →
  ∃ h, histogram b (values.map fun v => (v, (⟨1⟩ : Flt 24))) = .ok h ∧
    ∀ i, i < b.nbins → h.counts[i]? = some ⟨(values.countP fun v => decide (f v = i) : Nat)⟩

theorem C120_float_counts_violated : ¬ C120_float_counts_full := by
  intro hfull
  have hidx : ∀ v ∈ List.replicate (2 ^ 24 + 1) (1 : Rat), (edgeVector [0, 2]).index v = .ok ((fun _ => 0) v) := by
    intro v hv
    rw [List.eq_of_mem_replicate hv]
    decide +kernel
  obtain ⟨h, h1, h2⟩ := hfull (edgeVector [0, 2]) (fun _ => 0) _ hidx
  obtain ⟨h', h1', _, h2'⟩ := C120_float_counts_partial (edgeVector [0, 2]) (fun _ => 0) _ hidx
  rw [h1] at h1'
  cases h1'
  have a := h2 0 (by decide)
  rw [h2' 0 (by decide)] at a
  simp only [Option.some.injEq, Flt.mk.injEq, Nat.cast_inj] at a
  rw [List.countP_replicate, if_pos (by simp)] at a
  norm_num at a

example := C120_sqrt_partial 53 (by decide) lostData (by simp [lostData]) (by decide +kernel)

example := C120_scott_partial 53 4 (by decide) (by decide) lostData (by simp [lostData]) (by decide)

/-- The values are counted in the float type as in the natural numbers as long as they are few. -/
example : (match histogram (edgeVector [0, 2, 3]) ([1, 2, 0].map fun v => ((v : Rat), (⟨1⟩ : Flt 24))) with | .ok h => h.counts | _ => []) = [⟨2⟩, ⟨1⟩] := by
  decide +kernel

end Alexandria.Histogram
