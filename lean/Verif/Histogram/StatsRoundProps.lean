import Verif.Histogram.StatsRoundModel
import Verif.Histogram.RoundProps
import Verif.Histogram.Props
import Verif.Common.Close
import Mathlib.Algebra.BigOperators.Ring.Finset

/-! # C141: the statistics of histograms of floating point numbers -/

namespace Alexandria.Histogram

open Spec

/-! ## Sums of whole numbers are exact -/

theorem getD_cast (ns : List Nat) (i : Nat) : (ns.map fun (n : Nat) => (n : Rat)).getD i 0 = ((ns.getD i 0 : Nat) : Rat) := by
  rw [List.getD_eq_getElem?_getD, List.getD_eq_getElem?_getD, List.getElem?_map]
  cases ns[i]? <;> simp

/-- Both sums stay below the total, so the loop of the floating point type takes the same decisions as the exact one. -/
theorem machineMedianLoop_eq {q : Nat} (hq : 1 ≤ q) (ns : List Nat) :
    ∀ (n l r : Nat), r - l = n → l ≤ r → ∀ (low high : Nat), low + high + ∑ i ∈ Finset.Ico l r, ns.getD i 0 ≤ 2 ^ q →
      machineMedianLoop q (ns.map fun (n : Nat) => (n : Rat)) l ((r : Int) - 1) low high =
        medianLoop (ns.map fun (n : Nat) => (n : Rat)) l ((r : Int) - 1) (low : Rat) high := by
  intro n
  induction n with
  | zero =>
    intro l r hn hlr low high _
    rw [machineMedianLoop, if_neg (by omega), medianLoop, if_neg (by omega)]
  | succ n ih =>
    intro l r hn hlr low high hb
    have hle : (l : Int) ≤ (r : Int) - 1 := by omega
    rw [machineMedianLoop, if_pos hle, medianLoop, if_pos hle]
    by_cases hlt : (low : Rat) < (high : Rat)
    · rw [if_pos hlt, if_pos hlt, Int.toNat_natCast, getD_cast]
      rw [Finset.sum_eq_sum_Ico_succ_bot (by omega)] at hb
      have e : ((low : Rat) + ((ns.getD l 0 : Nat) : Rat)) = ((low + ns.getD l 0 : Nat) : Rat) := by push_cast; rfl
      rw [e, Binary.rnd_of_rep hq (Binary.rep_nat (by omega))]
      have := ih (l + 1) r (by omega) (by omega) (low + ns.getD l 0) high (by omega)
      rw [show ((l + 1 : Nat) : Int) = (l : Int) + 1 by push_cast; rfl] at this
      exact this
    · rw [if_neg hlt, if_neg hlt, show ((r : Int) - 1).toNat = r - 1 by omega, getD_cast]
      obtain ⟨r, rfl⟩ : ∃ r', r = r' + 1 := ⟨r - 1, by omega⟩
      rw [Finset.sum_Ico_succ_top (by omega)] at hb
      rw [Nat.add_sub_cancel]
      have e : ((high : Rat) + ((ns.getD r 0 : Nat) : Rat)) = ((high + ns.getD r 0 : Nat) : Rat) := by push_cast; rfl
      rw [e, Binary.rnd_of_rep hq (Binary.rep_nat (by omega))]
      have := ih l r (by omega) (by omega) low (high + ns.getD r 0) (by omega)
      rw [show ((r + 1 : Nat) : Int) - 1 - 1 = (r : Int) - 1 by push_cast; ring]
      exact this

/-! ## The first loop -/

variable {p : Nat}

theorem err (p : Nat) (x : Rat) : |Binary.rnd p x - x| ≤ (1 / 2 : Rat) ^ p * |x| := by
  rw [mul_comm]; exact Binary.rnd_err p x

theorem u_nonneg (p : Nat) : (0 : Rat) ≤ (1 / 2) ^ p := by positivity

/-- The loop as three sums; the number of elements is exact. -/
theorem machineSums_close (hp : 1 ≤ p) (b : Binning Rat) (ns : List Nat) (L R : Int) (cs cs' : Nat → Rat)
    (hcl : ∀ i, Close ((1 / 2 : Rat) ^ p) 2 |cs i| (cs' i) (cs i)) (is : List Nat) :
    (∀ i ∈ is, machineCenter p b i = some (cs' i)) → (∀ i ∈ is, i < ns.length) →
    ∀ (k cnt : Nat) (T S A B t s : Rat), cnt + (is.map fun i => ns.getD i 0).sum ≤ 2 ^ p →
      Close ((1 / 2 : Rat) ^ p) (6 + k) A t T → Close ((1 / 2 : Rat) ^ p) (6 + k) B s S →
      ∃ t' s', machineSums p ⟨b, ns.map fun (n : Nat) => (n : Rat), L, R⟩ is (t, cnt, s) = .ok (t', ((cnt + (is.map fun i => ns.getD i 0).sum : Nat) : Rat), s') ∧
        Close ((1 / 2 : Rat) ^ p) (6 + k + is.length) (A + (is.map fun i => (ns.getD i 0 : Rat) * |cs i|).sum) t' (T + (is.map fun i => (ns.getD i 0 : Rat) * cs i).sum) ∧
        Close ((1 / 2 : Rat) ^ p) (6 + k + is.length) (B + (is.map fun i => (ns.getD i 0 : Rat) * cs i ^ 2).sum) s' (S + (is.map fun i => (ns.getD i 0 : Rat) * cs i ^ 2).sum) := by
  have hu := u_nonneg p
  induction is with
  | nil =>
    intro _ _ k cnt T S A B t s _ ht hs
    exact ⟨t, s, rfl, by simpa using ht, by simpa using hs⟩
  | cons i is ih =>
    intro hc hn k cnt T S A B t s hb ht hs
    rw [List.map_cons, List.sum_cons] at hb
    have hi := hn i (by simp)
    have hget : (ns.map fun (n : Nat) => (n : Rat))[i]? = some ((ns.getD i 0 : Nat) : Rat) := by
      rw [List.getElem?_map, List.getElem?_eq_getElem hi, List.getD_eq_getElem _ _ hi]; rfl
    have hcnt : Binary.rnd p ((cnt : Rat) + ((ns.getD i 0 : Nat) : Rat)) = ((cnt + ns.getD i 0 : Nat) : Rat) := by
      rw [← Nat.cast_add]
      exact Binary.rnd_of_rep hp (Binary.rep_nat (by omega))
    have habs : |((ns.getD i 0 : Nat) : Rat)| = ((ns.getD i 0 : Nat) : Rat) := abs_of_nonneg (by positivity)
    have h1 := ((hcl i).scale hu ((ns.getD i 0 : Nat) : Rat)).rnd hu (err p)
    rw [habs] at h1
    have h2 := (h1.mul hu (hcl i)).rnd hu (err p)
    have e2 : ((ns.getD i 0 : Nat) : Rat) * |cs i| * |cs i| = ((ns.getD i 0 : Nat) : Rat) * cs i ^ 2 := by
      rw [mul_assoc, abs_mul_abs_self, pow_two]
    have e3 : ((ns.getD i 0 : Nat) : Rat) * cs i * cs i = ((ns.getD i 0 : Nat) : Rat) * cs i ^ 2 := by rw [pow_two, mul_assoc]
    rw [e2, e3] at h2
    have h3 := (ht.add (h1.mono hu (by omega : 2 + 1 ≤ 6 + k))).rnd hu (err p)
    have h4 := (hs.add (h2.mono hu (by omega : 2 + 1 + 2 + 1 ≤ 6 + k))).rnd hu (err p)
    obtain ⟨t', s', g1, g2, g3⟩ := ih (fun j hj => hc j (by simp [hj])) (fun j hj => hn j (by simp [hj])) (k + 1) (cnt + ns.getD i 0) _ _ _ _ _ _
      (by omega) h3 h4
    refine ⟨t', s', ?_, ?_, ?_⟩
    · rw [machineSums, hc i (by simp)]
      simp only [hget]
      rw [hcnt, g1, List.map_cons, List.sum_cons, Nat.add_assoc]
    · rw [List.map_cons, List.sum_cons, List.map_cons, List.sum_cons, List.length_cons,
        show 6 + k + (is.length + 1) = 6 + (k + 1) + is.length by omega, ← add_assoc A, ← add_assoc T]
      exact g2
    · rw [List.map_cons, List.sum_cons, List.length_cons,
        show 6 + k + (is.length + 1) = 6 + (k + 1) + is.length by omega, ← add_assoc B, ← add_assoc S]
      exact g3

theorem center_close (p : Nat) (e0 e1 : Rat) : Close ((1 / 2 : Rat) ^ p) 2 |(e0 + e1) / 2| (Binary.rnd p (Binary.rnd p (e1 + e0) / 2)) ((e0 + e1) / 2) := by
  have hu := u_nonneg p
  have h := (((Close.refl ((1 / 2 : Rat) ^ p) (e1 + e0)).rnd hu (err p)).div hu 2).rnd hu (err p)
  rw [← abs_div] at h
  rw [add_comm e0 e1]
  exact h

/-! ## The median -/

theorem rep_two_nat {p n : Nat} (h : n ≤ 2 ^ p) : Binary.Rep p (2 * (n : Rat)) :=
  ⟨n, 1, by rw [abs_of_nonneg (by positivity)]; exact_mod_cast h, by rw [zpow_one]; push_cast; ring⟩

theorem rep_sub {q a b : Nat} (h : a + b ≤ 2 ^ q) : Binary.Rep q ((a : Rat) - b) := by
  refine ⟨(a : Int) - b, 0, ?_, by push_cast; simp⟩
  have h' : (a : Int) + b ≤ 2 ^ q := by exact_mod_cast h
  rw [abs_le]
  constructor <;> omega

/-- Four roundings away from the exact median. -/
theorem machineMedian_close {q : Nat} (hp : 1 ≤ p) (hq : 1 ≤ q) (b : Binning Rat) (ns : List Nat) (L R : Int) (edge : Nat → Rat) (lo hi j : Nat)
    (hb : lo + hi ≤ 2 ^ q) (hsmall : ∀ n ∈ ns, n ≤ 2 ^ p) (he : b.edge j = some (edge j)) (he' : b.edge (j + 1) = some (edge (j + 1)))
    (hloop : medianLoop (ns.map fun (n : Nat) => (n : Rat)) L R 0 0 = ((j : Int), (j : Int) - 1, (lo : Rat), (hi : Rat))) (m : Rat)
    (hm : Histo.median (⟨b, ns.map fun (n : Nat) => (n : Rat), L, R⟩ : Histo Rat Rat) = .ok m) :
    ∃ m', machineMedian p q ⟨b, ns.map fun (n : Nat) => (n : Rat), L, R⟩ ((j : Int), (j : Int) - 1, (lo : Rat), (hi : Rat)) = .ok m' ∧
      |m' - m| ≤ ((1 + (1 / 2 : Rat) ^ p) ^ 4 - 1) * (|edge j| + |m - edge j|) := by
  have hu := u_nonneg p
  unfold Histo.median at hm
  rw [hloop] at hm
  simp only at hm
  unfold machineMedian
  by_cases hj : ((j : Int) - 1 ≥ 0)
  · have e1 : ((j : Int) - 1 + 1).toNat = j := by omega
    rw [if_pos hj, e1, he, he'] at hm
    simp only
    rw [if_pos hj, e1, he, he']
    have hget : ∀ k : Nat, (ns.map fun (n : Nat) => (n : Rat))[k]? = ns[k]?.map fun (n : Nat) => (n : Rat) := fun k => List.getElem?_map ..
    rw [hget, hget] at hm ⊢
    cases h1 : ns[(j : Int).toNat]? with
    | none => rw [h1] at hm; cases hm
    | some cl =>
      cases h2 : ns[((j : Int) - 1).toNat]? with
      | none => rw [h1, h2] at hm; cases hm
      | some ch =>
        rw [h1, h2] at hm
        simp only [Option.map_some] at hm ⊢
        have hmax : max (cl : Rat) (ch : Rat) = ((max cl ch : Nat) : Rat) := by rw [Nat.cast_max]
        rw [hmax] at hm ⊢
        by_cases h0 : ((max cl ch : Nat) : Rat) = 0
        · rw [if_pos h0] at hm; cases hm
        · rw [if_neg h0] at hm ⊢
          simp only [Outcome.ok.injEq] at hm
          refine ⟨_, rfl, ?_⟩
          have hms : max cl ch ≤ 2 ^ p := by
            have a1 := hsmall cl (List.mem_of_getElem? h1)
            have a2 := hsmall ch (List.mem_of_getElem? h2)
            omega
          rw [Binary.rnd_of_rep hq (rep_sub (by omega)), Binary.rnd_of_rep hp (rep_two_nat hms)]
          have c1 := ((Close.refl ((1 / 2 : Rat) ^ p) (edge (j + 1) - edge j)).rnd hu (err p)).scale hu ((hi : Rat) - lo)
          have c2 := ((c1.rnd hu (err p)).div hu (2 * ((max cl ch : Nat) : Rat))).rnd hu (err p)
          have c3 := (((Close.refl ((1 / 2 : Rat) ^ p) (edge j)).mono hu (by omega : 0 ≤ 0 + 1 + 1 + 1)).add c2).rnd hu (err p)
          rw [← abs_mul, ← abs_div, mul_comm ((hi : Rat) - lo), mul_comm ((hi : Rat) - lo)] at c3
          have c4 := c3.1
          rw [hm] at c4
          rw [← hm, add_sub_cancel_left, hm]
          exact c4
  · rw [if_neg hj] at hm
    simp only
    rw [if_neg hj]
    have hj0 : j = 0 := by omega
    subst hj0
    have ec : b.center 0 = some ((edge 1 + edge 0) / 2) := by
      unfold Binning.center
      rw [he, he']
      rfl
    have ec' : machineCenter p b 0 = some (Binary.rnd p (Binary.rnd p (edge 1 + edge 0) / 2)) := by
      unfold machineCenter
      rw [he, he']
      rfl
    rw [ec] at hm
    rw [ec']
    simp only [Outcome.ok.injEq] at hm
    refine ⟨_, rfl, ?_⟩
    have h := (center_close p (edge 0) (edge 1)).mono hu (by omega : 2 ≤ 4)
    rw [add_comm (edge 0), hm] at h
    refine (h.monoA hu ?_).1
    calc |m| = |edge 0 + (m - edge 0)| := by rw [add_sub_cancel]
      _ ≤ _ := abs_add_le _ _

/-! ## C141 -/

/-- The centre of a bin. -/
def mid (edge : Nat → Rat) (i : Nat) : Rat := (edge i + edge (i + 1)) / 2

/-- **C141, what holds.** For whole counts whose total inside the clip is positive and fits the type of the weights, `getStats` returns, its
assertion holds, the mean is right up to `n + 7` roundings of its terms, the variance up to `2 n + 16` roundings of the second moment and of
the squared mean of the magnitudes, and the median is four roundings away from the one of exact arithmetic. -/
theorem C141_stats_partial (q : Nat) (hq : 1 ≤ q) (hqp : q ≤ p) (sqrt : Rat → Rat) (b : Binning Rat) (ns : List Nat) (l r : Nat) (edge : Nat → Rat)
    (hrl : r ≤ ns.length) (hlr : l < r) (he : ∀ i, i ≤ r → b.edge i = some (edge i)) (hmono : ∀ i, i < r → edge i < edge (i + 1))
    (hsmall : ∀ n ∈ ns, n ≤ 2 ^ p) (hpos : 0 < ∑ i ∈ Finset.Ico l r, ns.getD i 0) (hfit : ∑ i ∈ Finset.Ico l r, ns.getD i 0 ≤ 2 ^ q) :
    let N : Rat := ((∑ i ∈ Finset.Ico l r, ns.getD i 0 : Nat) : Rat)
    let m1 := (∑ i ∈ Finset.Ico l r, (ns.getD i 0 : Rat) * mid edge i) / N
    let a1 := (∑ i ∈ Finset.Ico l r, (ns.getD i 0 : Rat) * |mid edge i|) / N
    let m2 := (∑ i ∈ Finset.Ico l r, (ns.getD i 0 : Rat) * mid edge i ^ 2) / N
    let γ : Nat → Rat := fun k => (1 + (1 / 2 : Rat) ^ p) ^ k - 1
    ∃ st, machineStats p q sqrt ⟨b, ns.map fun (n : Nat) => (n : Rat), l, (r : Int) - 1⟩ = .ok st ∧ st.asserted = true ∧
      |st.mean - m1| ≤ γ (r - l + 7) * a1 ∧
      (∃ v, st.sigma = (if v > 0 then sqrt v else 0) ∧ |v - (m2 - m1 ^ 2)| ≤ γ (2 * (r - l) + 16) * (m2 + a1 ^ 2)) ∧
      ∃ m j, Histo.median (⟨b, ns.map fun (n : Nat) => (n : Rat), l, (r : Int) - 1⟩ : Histo Rat Rat) = .ok m ∧ l ≤ j ∧ j < r ∧
        |st.median - m| ≤ γ 4 * (|edge j| + |m - edge j|) := by
  intro N m1 a1 m2 γ
  have hp : 1 ≤ p := by omega
  have hu := u_nonneg p
  have h2qp : 2 ^ q ≤ 2 ^ p := Nat.pow_le_pow_right (by decide) hqp
  have his : (List.range (((r : Int) - 1) + 1 - (l : Int)).toNat).map (· + (l : Int).toNat) = List.range' l (r - l) := by
    rw [show (((r : Int) - 1) + 1 - (l : Int)).toNat = r - l by omega, Int.toNat_natCast, List.range'_eq_map_range]
    simp only [Nat.add_comm]
  have hsumN : ∀ f : Nat → Nat, ((List.range' l (r - l)).map f).sum = ∑ i ∈ Finset.Ico l r, f i := by
    intro f; rfl
  have hsumQ : ∀ f : Nat → Rat, ((List.range' l (r - l)).map f).sum = ∑ i ∈ Finset.Ico l r, f i := by
    intro f; rfl
  -- the first loop
  obtain ⟨t, s, g1, g2, g3⟩ := machineSums_close hp b ns l ((r : Int) - 1) (mid edge)
    (fun i => Binary.rnd p (Binary.rnd p (edge (i + 1) + edge i) / 2)) (fun i => center_close p _ _) (List.range' l (r - l))
    (by
      intro i hi
      rw [List.mem_range'_1] at hi
      unfold machineCenter
      rw [he i (by omega), he (i + 1) (by omega)]
      rfl)
    (by intro i hi; rw [List.mem_range'_1] at hi; omega)
    0 0 0 0 0 0 0 0 (by rw [hsumN]; omega) ((Close.zero _).mono hu (by omega)) ((Close.zero _).mono hu (by omega))
  rw [hsumQ, hsumQ, List.length_range', zero_add, zero_add] at g2
  rw [hsumQ, List.length_range', zero_add] at g3
  rw [hsumN, Nat.zero_add, Nat.cast_zero] at g1
  have hN0 : (0 : Rat) < N := Nat.cast_pos.mpr hpos
  have hNabs : |N| = N := abs_of_pos hN0
  -- mean and variance
  have k1 := (g2.div hu N).rnd hu (err p)
  have k2 := (g3.div hu N).rnd hu (err p)
  have k3 := (k1.mul hu k1).rnd hu (err p)
  have k4 := ((k2.mono hu (by omega : 6 + 0 + (r - l) + 1 ≤ 6 + 0 + (r - l) + 1 + (6 + 0 + (r - l) + 1) + 1)).sub k3).rnd hu (err p)
  rw [hNabs] at k1 k4
  -- the median
  have hnn : ∀ c ∈ ns.map (fun (n : Nat) => (n : Rat)), 0 ≤ c := by
    intro c hc
    obtain ⟨n, _, rfl⟩ := List.mem_map.mp hc
    exact Nat.cast_nonneg n
  have hcast : ∀ a c : Nat, ∑ i ∈ Finset.Ico a c, (ns.map fun (n : Nat) => (n : Rat)).getD i 0 = ((∑ i ∈ Finset.Ico a c, ns.getD i 0 : Nat) : Rat) := by
    intro a c
    rw [Nat.cast_sum]
    exact Finset.sum_congr rfl fun i _ => getD_cast ns i
  obtain ⟨j, hlj, hjr, hj, _, _, hjb, _⟩ := medianLoop_spec (ns.map fun (n : Nat) => (n : Rat)) hnn l r (r - l) l r rfl (le_refl _) (le_of_lt hlr)
    (le_refl _) 0 0 (by simp) (by simp) (by omega) (by simp) (by omega) (by simp) (by simp) (by simp)
  have hjlt := hjb rfl hlr rfl
  rw [hcast, hcast] at hj
  obtain ⟨m, _, hm, _⟩ := C68_median_partial (⟨b, ns.map fun (n : Nat) => (n : Rat), l, (r : Int) - 1⟩ : Histo Rat Rat) edge l r rfl rfl
    (by simpa using hrl) hlr he hmono hnn (by simp only; rw [hcast]; exact hN0)
  have hadd : ∑ i ∈ Finset.Ico l j, ns.getD i 0 + ∑ i ∈ Finset.Ico j r, ns.getD i 0 = ∑ i ∈ Finset.Ico l r, ns.getD i 0 :=
    Finset.sum_Ico_consecutive _ hlj hjr
  obtain ⟨m', hm1, hm2⟩ := machineMedian_close hp hq b ns l ((r : Int) - 1) edge _ _ j (by omega) hsmall (he j (by omega)) (he (j + 1) (by omega)) hj m hm
  have hloop := machineMedianLoop_eq hq ns (r - l) l r rfl hlr.le 0 0 (by omega)
  rw [Nat.cast_zero, hj] at hloop
  -- all together
  refine ⟨⟨true, Binary.rnd p (t / N), m',
    if Binary.rnd p (Binary.rnd p (s / N) - Binary.rnd p (Binary.rnd p (t / N) * Binary.rnd p (t / N))) > 0 then
      sqrt (Binary.rnd p (Binary.rnd p (s / N) - Binary.rnd p (Binary.rnd p (t / N) * Binary.rnd p (t / N)))) else 0⟩, ?_, rfl, ?_, ⟨_, rfl, ?_⟩, m, j, hm, hlj, hjlt, hm2⟩
  · unfold machineStats
    simp only
    rw [his, g1, Outcome.bind_ok]
    simp only
    rw [if_neg (ne_of_gt hN0), hloop, hm1, Outcome.bind_ok]
    simp only [Outcome.pure_eq]
    rw [← Nat.cast_add, hadd, Binary.rnd_of_rep hq (Binary.rep_nat hfit)]
    rw [decide_eq_true rfl]
  · have := k1.1
    rw [show 6 + 0 + (r - l) + 1 = r - l + 7 by omega] at this
    exact this
  · have := k4.1
    rw [show 6 + 0 + (r - l) + 1 + (6 + 0 + (r - l) + 1) + 1 + 1 = 2 * (r - l) + 16 by omega] at this
    rw [pow_two m1, pow_two a1]
    exact this

/-- Reading off the results. -/
theorem machineStats_of {p q : Nat} {sqrt : Rat → Rat} {h : Histo Rat Rat} {st : MachineStats} {t c s : Rat} (hst : machineStats p q sqrt h = .ok st)
    (hs : machineSums p h ((List.range (h.right + 1 - h.left).toNat).map (· + h.left.toNat)) (0, 0, 0) = .ok (t, c, s)) :
    st.mean = Binary.rnd p (t / c) ∧
    st.sigma = (if Binary.rnd p (Binary.rnd p (s / c) - Binary.rnd p (Binary.rnd p (t / c) * Binary.rnd p (t / c))) > 0 then
      sqrt (Binary.rnd p (Binary.rnd p (s / c) - Binary.rnd p (Binary.rnd p (t / c) * Binary.rnd p (t / c)))) else 0) ∧
    st.asserted = decide (Binary.rnd q ((machineMedianLoop q h.counts h.left h.right 0 0).2.2.1 + (machineMedianLoop q h.counts h.left h.right 0 0).2.2.2) = c) := by
  unfold machineStats at hst
  rw [hs, Outcome.bind_ok] at hst
  simp only at hst
  by_cases h0 : c = 0
  · rw [if_pos h0] at hst; cases hst
  · rw [if_neg h0] at hst
    generalize machineMedian p q h _ = med at hst
    cases med with
    | throw e => cases hst
    | ub => cases hst
    | ok m =>
      rw [Outcome.bind_ok] at hst
      simp only [Outcome.pure_eq, Outcome.ok.injEq] at hst
      rw [← hst]
      exact ⟨rfl, rfl, rfl⟩

/-- The assertion of `getStats` holds for all whole counts that the weight type represents. -/
def C141_assert_full : Prop := ∀ (q p : Nat), 1 ≤ q → q ≤ p → ∀ (sqrt : Rat → Rat) (edges : List Rat) (ns : List Nat), edges.length = ns.length + 1 → edges.Pairwise (· < ·) →
  0 < ns.sum → (∀ n ∈ ns, n ≤ 2 ^ q) →
  ∃ st, machineStats p q sqrt ⟨edgeVector edges, ns.map fun (n : Nat) => (n : Rat), 0, (ns.length : Int) - 1⟩ = .ok st ∧ st.asserted = true

/-- The mean of values that are all in one bin is the centre of that bin. -/
def C141_mean_full : Prop := ∀ (q p : Nat), 1 ≤ q → q ≤ p → ∀ (sqrt : Rat → Rat) (e0 e1 : Rat) (n : Nat), Binary.Rep p e0 → Binary.Rep p e1 → e0 < e1 → 0 < n → n ≤ 2 ^ q →
  Binary.Rep p ((e0 + e1) / 2) →
  ∃ st, machineStats p q sqrt ⟨edgeVector [e0, e1], [(n : Rat)], 0, 0⟩ = .ok st ∧ st.mean = (e0 + e1) / 2

/-- Counts in two bins have a positive deviation. -/
def C141_sigma_full : Prop := ∀ (q p : Nat), 1 ≤ q → q ≤ p → ∀ (sqrt : Rat → Rat), (∀ x, 0 < x → 0 < sqrt x) → ∀ (e0 e1 e2 : Rat) (a b : Nat),
  Binary.Rep p e0 → Binary.Rep p e1 → Binary.Rep p e2 → e0 < e1 → e1 < e2 → 0 < a → 0 < b → a + b ≤ 2 ^ q →
  ∃ st, machineStats p q sqrt ⟨edgeVector [e0, e1, e2], [(a : Rat), (b : Rat)], 0, 1⟩ = .ok st ∧ 0 < st.sigma

theorem loop_assert : machineMedianLoop 24 [(1 : Rat), 1, 1, 16777216] 0 3 0 0 = (3, 2, 3, 16777216) := by
  rw [machineMedianLoop, if_pos (by decide), if_neg (by decide +kernel)]
  rw [machineMedianLoop, if_pos (by decide), if_pos (by decide +kernel)]
  rw [machineMedianLoop, if_pos (by decide), if_pos (by decide +kernel)]
  rw [machineMedianLoop, if_pos (by decide), if_pos (by decide +kernel)]
  rw [machineMedianLoop, if_neg (by decide)]
  decide +kernel

/-- Three values in bins of their own and 16777216 in a fourth one: in `float` the two sums of the median add up to 16777220 instead of 16777219. -/
theorem C141_assert_violated : ¬ C141_assert_full := by
  intro h
  obtain ⟨st, h1, h2⟩ := h 24 53 (by decide) (by decide) id [0, 1, 2, 3, 4] [1, 1, 1, 16777216] rfl (by decide +kernel) (by decide) (by decide)
  have h3 := (machineStats_of (t := 117440521 / 2) (c := 16777219) (s := 822083619 / 4) h1 (by decide +kernel)).2.2
  have h4 : machineMedianLoop 24 (([1, 1, 1, 16777216] : List Nat).map fun (n : Nat) => (n : Rat)) 0 ((([1, 1, 1, 16777216] : List Nat).length : Int) - 1) 0 0 =
      (3, 2, 3, 16777216) := loop_assert
  simp only at h3
  rw [h2, h4] at h3
  revert h3
  decide +kernel

/-- Nine values in one bin: the mean is not its centre. -/
theorem C141_mean_violated : ¬ C141_mean_full := by
  intro h
  obtain ⟨st, h1, h2⟩ := h 24 53 (by decide) (by decide) id (7450629568445907 / 4503599627370496) (8576529475288531 / 4503599627370496) 9
    ⟨7450629568445907, -52, by decide, by norm_num⟩ ⟨8576529475288531, -52, by decide, by norm_num⟩ (by norm_num) (by decide) (by decide)
    ⟨8013579521867219, -52, by decide, by norm_num⟩
  have h3 := (machineStats_of (t := 4507638481050311 / 281474976710656) (c := 9) (s := 8020766145416897 / 281474976710656) h1 (by decide +kernel)).1
  rw [h2] at h3
  revert h3
  decide +kernel

/-- A value in each of two bins of width 1 around 2^30: the deviation is 1/2, computed is 0. -/
theorem C141_sigma_violated : ¬ C141_sigma_full := by
  intro h
  obtain ⟨st, h1, h2⟩ := h 24 53 (by decide) (by decide) id (fun x hx => hx) (1073741824 - 1 / 2) (1073741824 + 1 / 2) (1073741824 + 3 / 2) 1 1
    ⟨2147483647, -1, by decide, by norm_num⟩ ⟨2147483649, -1, by decide, by norm_num⟩ ⟨2147483651, -1, by decide, by norm_num⟩ (by norm_num) (by norm_num)
    (by decide) (by decide) (by decide)
  have h3 := (machineStats_of (t := 2147483649) (c := 2) (s := 2305843011361177600) h1 (by decide +kernel)).2.1
  rw [h3, if_neg (by decide +kernel)] at h2
  exact lt_irrefl _ h2

/-- Four bins with ten values, clipped to the last three. -/
example := C141_stats_partial (p := 53) 24 (by decide) (by decide) id (edgeVector [0, 1, 2, 3, 5]) [2, 3, 4, 1] 1 4 (fun i => ([0, 1, 2, 3, 5] : List Rat).getD i 0)
  (by decide) (by decide)
  (by intro i hi; have : i = 0 ∨ i = 1 ∨ i = 2 ∨ i = 3 ∨ i = 4 := by omega
      rcases this with rfl | rfl | rfl | rfl | rfl <;> rfl)
  (by intro i hi; have : i = 0 ∨ i = 1 ∨ i = 2 ∨ i = 3 := by omega
      rcases this with rfl | rfl | rfl | rfl <;> decide +kernel)
  (by decide) (by decide) (by decide)

end Alexandria.Histogram
