import Verif.MathUtils.CumulativeModel
import Verif.MathUtils.InverseProps

/-! # Cumulative distributions (C39, C91, C92) -/

namespace Alexandria.MathUtils

section
variable {K : Type} [Field K] [LinearOrder K]

/-! ## Specification -/

/-- The sum of the weights of the samples `i` to `j`. -/
def Spec.weight (pdf : List K) (i j : Nat) : K := ((pdf.take (j + 1)).drop i).sum

/-- The part of the weights that `findMinInterval` counts for the samples `i` to `j`: unless it is the first sample of all, not that of `i`. -/
def Spec.counted (pdf : List K) (i j : Nat) : K := if i = 0 then Spec.weight pdf 0 j else Spec.weight pdf (i + 1) j

/-! ## Lemmas -/

theorem dropWhile_eq_drop {α : Type} (f : α → Bool) (l : List α) : l.dropWhile f = l.drop (l.takeWhile f).length := by
  induction l with
  | nil => rfl
  | cons a l ih =>
    cases h : f a with
    | true => rw [List.dropWhile_cons_of_pos h, List.takeWhile_cons_of_pos h, ih]; rfl
    | false => rw [List.dropWhile_cons_of_neg (by simp [h]), List.takeWhile_cons_of_neg (by simp [h])]; rfl

theorem dropWhile_index {α : Type} (f : α → Bool) (l : List α) :
    ∃ n ≤ l.length, l.dropWhile f = l.drop n ∧ (∀ (j : Nat) a, j < n → l[j]? = some a → f a = true) ∧ ∀ a, l[n]? = some a → f a = false := by
  obtain ⟨t1, t2, t3⟩ := takeWhile_length_spec f l
  exact ⟨(l.takeWhile f).length, t3, dropWhile_eq_drop f l, t1, t2⟩

/-- What the loop computes, in terms of the amount `V i j` counted for the samples `i` to `j`. -/
theorem minLoop_spec [IsStrictOrderedRing K] (rate : K) (c : List (K × K)) (V : Nat → Nat → K) (hs : (c.map Prod.fst).Pairwise (· ≤ ·))
    (hV : ∀ i j, i ≤ j → j < c.length → V (i + 1) j ≤ V i j)  (hVj : ∀ i j, 0 < i → j ≤ i → j < c.length → i < c.length → V i j < rate)
    (n : Nat) : ∀ (i j : Nat) (corr mn mx : K) (a b : Nat) (pa pb : K × K), n + i = c.length → 0 < j → j ≤ c.length →
    (∀ (k : Nat) p q, i < c.length → c[i]? = some p → c[k]? = some q → q.2 - p.2 + corr = V i k) →
    (∀ (i' k : Nat) p q, i < i' → c[i']? = some p → c[k]? = some q → q.2 - p.2 + 0 = V i' k) →
    (∀ k, 0 < k → k < j → i < c.length → V i k < rate) →
    c[a]? = some pa → c[b]? = some pb → a < b → rate ≤ V a b → mn = pa.1 → mx = pb.1 →
    (∀ (i' k : Nat) p q, i' < i → i' < k → c[i']? = some p → c[k]? = some q → rate ≤ V i' k → mx - mn ≤ q.1 - p.1) →
    ∃ (a b : Nat) (pa pb : K × K), c[a]? = some pa ∧ c[b]? = some pb ∧ a < b ∧ rate ≤ V a b ∧ minLoop rate (c.drop i) (c.drop j) corr mn mx = (pa.1, pb.1) ∧
      ∀ (i' k : Nat) p q, i' < k → c[i']? = some p → c[k]? = some q → rate ≤ V i' k → pb.1 - pa.1 ≤ q.1 - p.1 := by
  induction n with
  | zero =>
    intro i j corr mn mx a b pa pb hn hj0 hj h1 h2 h3 ha hb hab hr hmn hmx h4
    refine ⟨a, b, pa, pb, ha, hb, hab, hr, ?_, ?_⟩
    · rw [List.drop_of_length_le (by omega), minLoop, hmn, hmx]
    · intro i' k p q hik hp hq hv
      have := (List.getElem?_eq_some_iff.mp hp).1
      rw [← hmn, ← hmx]
      exact h4 i' k p q (by omega) hik hp hq hv
  | succ n ih =>
    intro i j corr mn mx a b pa pb hn hj0 hj h1 h2 h3 ha hb hab hr hmn hmx h4
    have hi : i < c.length := by omega
    have hp := List.getElem?_eq_getElem hi
    rw [List.drop_eq_getElem_cons hi]
    rw [minLoop.eq_def]
    simp only
    obtain ⟨m, hm, hdrop, hlt, hge⟩ := dropWhile_index (fun p2 : K × K => decide (p2.2 - c[i].2 + corr < rate)) (c.drop j)
    rw [hdrop, List.drop_drop]
    rw [List.length_drop] at hm
    have hbelow : ∀ k, 0 < k → k < j + m → V i k < rate := by
      intro k hk0 hk
      by_cases hkj : k < j
      · exact h3 k hk0 hkj hi
      · have hkl : k < c.length := by omega
        have := hlt (k - j) c[k] (by omega) (by rw [List.getElem?_drop, show j + (k - j) = k by omega]; exact List.getElem?_eq_getElem hkl)
        simp only [decide_eq_true_eq] at this
        rwa [h1 k _ _ hi hp (List.getElem?_eq_getElem hkl)] at this
    -- later beginnings count less
    have hdown : ∀ i' k, i ≤ i' → i' ≤ k → k < c.length → V i' k ≤ V i k := by
      intro i' k hii hik hkl
      induction i' with
      | zero =>
        obtain rfl : i = 0 := by omega
        exact le_refl _
      | succ i' ih' =>
        rcases Nat.eq_or_lt_of_le hii with h | h
        · rw [h]
        · exact (hV i' k (by omega) hkl).trans (ih' (by omega) (by omega))
    by_cases hend : j + m = c.length
    · rw [hend, List.drop_of_length_le (le_refl _)]
      refine ⟨a, b, pa, pb, ha, hb, hab, hr, by rw [hmn, hmx], ?_⟩
      intro i' k p q hik hp' hq hv
      have hkl := (List.getElem?_eq_some_iff.mp hq).1
      by_cases hii : i' < i
      · rw [← hmn, ← hmx]
        exact h4 i' k p q hii hik hp' hq hv
      · have := hbelow k (by omega) (by omega)
        have := hdown i' k (by omega) (by omega) hkl
        exact absurd hv (not_le.mpr (by linarith))
    · have hjm : j + m < c.length := by omega
      have hq := List.getElem?_eq_getElem hjm
      rw [List.drop_eq_getElem_cons hjm]
      simp only
      rw [← List.drop_eq_getElem_cons hjm]
      have hgeV : rate ≤ V i (j + m) := by
        have := hge c[j + m] (by rw [List.getElem?_drop]; exact hq)
        simp only [decide_eq_false_iff_not, not_lt] at this
        rwa [h1 (j + m) _ _ hi hp hq] at this
      have hij : i < j + m := by
        rcases Nat.eq_zero_or_pos i with h0 | h0
        · omega
        · by_contra hc
          exact absurd hgeV (not_le.mpr (hVj i (j + m) h0 (by omega) hjm hi))
      -- the best end for `i`
      have hbest : ∀ (k : Nat) q, i < k → c[k]? = some q → rate ≤ V i k → c[j + m].1 - c[i].1 ≤ q.1 - c[i].1 := by
        intro k q hik hq' hv
        have hkl := (List.getElem?_eq_some_iff.mp hq').1
        have hkm : j + m ≤ k := by
          by_contra hc
          exact absurd hv (not_le.mpr (hbelow k (by omega) (by omega)))
        have := sorted_get hs hkm (a := c[j + m].1) (b := q.1) (by rw [List.getElem?_map, hq]; rfl) (by rw [List.getElem?_map, hq']; rfl)
        linarith
      have hnext : ∀ (k : Nat) (p q : K × K), i + 1 < c.length → c[i + 1]? = some p → c[k]? = some q → q.2 - p.2 + 0 = V (i + 1) k :=
        fun k p q _ hp' hq' => h2 (i + 1) k p q (by omega) hp' hq'
      have hnext2 : ∀ (i' k : Nat) (p q : K × K), i + 1 < i' → c[i']? = some p → c[k]? = some q → q.2 - p.2 + 0 = V i' k :=
        fun i' k p q h hp' hq' => h2 i' k p q (by omega) hp' hq'
      have hnext3 : ∀ k, 0 < k → k < j + m → i + 1 < c.length → V (i + 1) k < rate := by
        intro k hk0 hk hi1
        by_cases hki : k ≤ i + 1
        · exact hVj (i + 1) k (by omega) hki (by omega) hi1
        · have := hbelow k hk0 hk
          have := hV i k (by omega) (by omega)
          linarith
      split_ifs with hcmp
      · obtain ⟨a', b', pa', pb', r⟩ := ih (i + 1) (j + m) 0 c[i].1 c[j + m].1 i (j + m) c[i] c[j + m] (by omega) (by omega) (by omega) hnext hnext2 hnext3 hp hq hij hgeV rfl rfl (by
          intro i' k p q hii hik hp' hq' hv
          rcases Nat.eq_or_lt_of_le (show i' ≤ i by omega) with h | h
          · subst h
            rw [hp] at hp'
            cases hp'
            exact hbest k q hik hq' hv
          · exact hcmp.trans (h4 i' k p q h hik hp' hq' hv))
        exact ⟨a', b', pa', pb', r⟩
      · obtain ⟨a', b', pa', pb', r⟩ := ih (i + 1) (j + m) 0 mn mx a b pa pb (by omega) (by omega) (by omega) hnext hnext2 hnext3 ha hb hab hr hmn hmx (by
          intro i' k p q hii hik hp' hq' hv
          rcases Nat.eq_or_lt_of_le (show i' ≤ i by omega) with h | h
          · subst h
            rw [hp] at hp'
            cases hp'
            exact (le_of_lt (not_le.mp hcmp)).trans (hbest k q hik hq' hv)
          · exact h4 i' k p q h hik hp' hq' hv)
        exact ⟨a', b', pa', pb', r⟩

theorem firstSum_mono [IsStrictOrderedRing K] {pdf : List K} (hpos : ∀ v ∈ pdf, 0 ≤ v) {i j : Nat} (hij : i ≤ j) : Spec.firstSum pdf i ≤ Spec.firstSum pdf j := by
  obtain ⟨d, rfl⟩ := Nat.exists_eq_add_of_le hij
  rw [Spec.firstSum, Spec.firstSum, List.take_add, List.sum_append]
  have : 0 ≤ ((pdf.drop i).take d).sum := List.sum_nonneg fun v hv => hpos v (List.drop_subset _ _ (List.take_subset _ _ hv))
  linarith

theorem weight_eq (pdf : List K) {i j : Nat} (hij : i ≤ j + 1) : Spec.weight pdf i j = Spec.firstSum pdf (j + 1) - Spec.firstSum pdf i := by
  have h := List.take_append_drop i (pdf.take (j + 1))
  rw [List.take_take, Nat.min_eq_left hij] at h
  have := congrArg List.sum h
  rw [List.sum_append] at this
  rw [Spec.weight, Spec.firstSum, Spec.firstSum, ← this]
  ring

theorem firstSum_zero (pdf : List K) : Spec.firstSum pdf 0 = 0 := by simp [Spec.firstSum]

theorem fromPdf_ok [IsStrictOrderedRing K] (xs pdf : List K) (hl : xs.length = pdf.length) : ∃ c, fromPdf xs pdf = .ok c ∧ c.length = pdf.length ∧ c.map Prod.fst = xs ∧
    ∀ (i : Nat) x, xs[i]? = some x → c[i]? = some (x, Spec.firstSum pdf (i + 1)) := by
  refine ⟨xs.zip (sumLoop 0 pdf), ?_, ?_, ?_, ?_⟩
  · rw [fromPdf, mkCumulative, if_neg (by simp [length_sumLoop, hl])]
  · simp [length_sumLoop, hl]
  · rw [List.map_fst_zip (by simp [length_sumLoop, hl])]
  · intro i x hx
    have hi := (List.getElem?_eq_some_iff.mp hx).1
    have := sumLoop_get 0 pdf i (by omega)
    rw [zero_add] at this
    simp [List.zip, List.getElem?_zipWith, hx, this, Spec.firstSum]

/-! ## Theorems -/

/-- **C39 (from a density).** The samples of `fromPdf` are the sums of the densities so far; vectors of different lengths are refused. -/
theorem C39_fromPdf [IsStrictOrderedRing K] (xs pdf : List K) :
    (xs.length ≠ pdf.length → fromPdf xs pdf = .throw .elements) ∧
    (xs.length = pdf.length → ∃ c, fromPdf xs pdf = .ok c ∧ c.length = pdf.length ∧ ∀ (i : Nat) x, xs[i]? = some x → c[i]? = some (x, Spec.firstSum pdf (i + 1))) := by
  constructor
  · intro h
    rw [fromPdf, mkCumulative, if_pos (by rw [length_sumLoop]; exact h)]
  · intro h
    obtain ⟨c, h1, h2, _, h3⟩ := fromPdf_ok xs pdf h
    exact ⟨c, h1, h2, h3⟩

/-- **C39 (shortest interval).** For at least two samples in increasing order, non-negative weights with a positive sum, and a rate in `]0, 1]`: the result are
two samples, `a` before `b`, for which at least the required part of the weights is counted, and no two such samples for which as much is counted are closer.
What is counted is the weight from the first to the second sample; but that of the first one only if it is the first of all. -/
theorem C39_minimal_partial [IsStrictOrderedRing K] (xs pdf : List K) (hl : xs.length = pdf.length) (hn : 2 ≤ xs.length) (hs : xs.Pairwise (· ≤ ·))
    (hpos : ∀ v ∈ pdf, 0 ≤ v) (hsum : 0 < pdf.sum) (rate : K) (hr0 : 0 < rate) (hr1 : rate ≤ 1) :
    ∃ c, fromPdf xs pdf = .ok c ∧ ∃ (a b : Nat) (xa xb : K), findMinInterval c rate = .ok (xa, xb) ∧ xs[a]? = some xa ∧ xs[b]? = some xb ∧ a < b ∧
      rate * pdf.sum ≤ Spec.counted pdf a b ∧ rate * pdf.sum ≤ Spec.weight pdf a b ∧
      ∀ (i k : Nat) xi xk, i < k → xs[i]? = some xi → xs[k]? = some xk → rate * pdf.sum ≤ Spec.counted pdf i k → xb - xa ≤ xk - xi := by
  obtain ⟨c, hc, hcl, hfst, hget⟩ := fromPdf_ok xs pdf hl
  refine ⟨c, hc, ?_⟩
  have hcx : c.length = xs.length := by omega
  have hrs : 0 < rate * pdf.sum := mul_pos hr0 hsum
  let V : Nat → Nat → K := fun i j => Spec.firstSum pdf (j + 1) - if i = 0 then 0 else Spec.firstSum pdf (i + 1)
  have hVc : ∀ i j, i < j → V i j = Spec.counted pdf i j := by
    intro i j hij
    by_cases h : i = 0
    · simp only [V, Spec.counted, if_pos h, weight_eq pdf (Nat.zero_le (j + 1)), firstSum_zero]
    · simp only [V, Spec.counted, if_neg h, weight_eq pdf (show i + 1 ≤ j + 1 by omega)]
  have hfull : Spec.firstSum pdf pdf.length = pdf.sum := by rw [Spec.firstSum, List.take_length]
  have hx : ∀ i, i < xs.length → xs[i]? = some (xs.getD i 0) := by
    intro i hi
    rw [List.getD_eq_getElem?_getD, List.getElem?_eq_getElem hi]
    rfl
  have hci : ∀ (i : Nat) p, c[i]? = some p → xs[i]? = some p.1 ∧ p.2 = Spec.firstSum pdf (i + 1) := by
    intro i p hp
    have hi := (List.getElem?_eq_some_iff.mp hp).1
    have := hget i _ (hx i (by omega))
    rw [hp] at this
    cases this
    exact ⟨hx i (by omega), rfl⟩
  have c0 := hget 0 _ (hx 0 (by omega))
  have cl := hget (xs.length - 1) _ (hx (xs.length - 1) (by omega))
  have hl1 : xs.length - 1 + 1 = pdf.length := by omega
  rw [hl1, hfull] at cl
  have hval : ∀ (i k : Nat) (p q : K × K), 0 < i → c[i]? = some p → c[k]? = some q → q.2 - p.2 + 0 = V i k := by
    intro i k p q hi hp hq
    rw [(hci i p hp).2, (hci k q hq).2]
    simp only [V]
    rw [if_neg (by omega), add_zero]
  obtain ⟨a, b, pa, pb, h1, h2, h3, h4, h5, h6⟩ := minLoop_spec (rate * pdf.sum) c V (by rw [hfst]; exact hs) (by
      intro i j hij hj
      simp only [V]
      rw [if_neg (by omega)]
      by_cases h : i = 0
      · rw [if_pos h]
        have : 0 ≤ Spec.firstSum pdf (i + 1 + 1) := by rw [← firstSum_zero pdf]; exact firstSum_mono hpos (Nat.zero_le _)
        linarith
      · rw [if_neg h]
        have := firstSum_mono hpos (show i + 1 ≤ i + 1 + 1 by omega)
        linarith) (by
      intro i j hi hji _ _
      simp only [V]
      rw [if_neg (by omega)]
      have := firstSum_mono hpos (show j + 1 ≤ i + 1 by omega)
      linarith) c.length 0 1 (Spec.firstSum pdf 1) (xs.getD 0 0) (xs.getD (xs.length - 1) 0) 0 (xs.length - 1) _ _ (by omega) (by omega) (by omega) (by
      intro k p q _ hp hq
      rw [(hci 0 p hp).2, (hci k q hq).2]
      simp [V]) (fun i' k p q h => hval i' k p q h) (by intro k h1 h2; omega) c0 cl (by omega) (by
      simp only [V, if_true, sub_zero]
      rw [hl1, hfull]
      exact mul_le_of_le_one_left hsum.le hr1) rfl rfl (by intro i'; omega)
  refine ⟨a, b, pa.1, pb.1, ?_, (hci a pa h1).1, (hci b pb h2).1, h3, by rw [← hVc a b h3]; exact h4, ?_, ?_⟩
  · rw [findMinInterval.eq_def, if_neg (by push Not; exact ⟨hr1, hr0⟩)]
    have hlast : c.getLast? = some (xs.getD (xs.length - 1) 0, pdf.sum) := by rw [List.getLast?_eq_getElem?, hcx]; exact cl
    obtain ⟨p, l, rfl⟩ : ∃ p l, c = p :: l := by
      cases c with
      | nil => simp at hcl; omega
      | cons p l => exact ⟨p, l, rfl⟩
    simp only [hlast]
    simp only [List.getElem?_cons_zero, Option.some.injEq] at c0
    simp only [List.drop_zero, List.drop_succ_cons] at h5
    rw [c0] at h5 ⊢
    rw [h5]
  · rw [weight_eq pdf (by omega)]
    refine h4.trans ?_
    simp only [V]
    by_cases h : a = 0
    · rw [if_pos h, h, firstSum_zero]
    · rw [if_neg h]
      have := firstSum_mono hpos (show a ≤ a + 1 by omega)
      linarith
  · intro i k xi xk hik hi hk hv
    exact h6 i k _ _ hik (hget i xi hi) (hget k xk hk) (by rw [hVc i k hik]; exact hv)

/-- **C39 (refused).** Rates outside `]0, 1]` are refused. -/
theorem C39_throws (c : List (K × K)) (rate : K) (h : 1 < rate ∨ rate ≤ 0) : findMinInterval c rate = .throw .elements ∧
    findCenteredInterval c rate = .throw .elements := by
  constructor
  · rw [findMinInterval.eq_def, if_pos h]
  · rw [findCenteredInterval, if_pos h]

/-- A single sample is its own interval. -/
theorem C39_single (p : K × K) (rate : K) (hr0 : 0 < rate) (hr1 : rate ≤ 1) : findMinInterval [p] rate = .ok (p.1, p.1) := by
  rw [findMinInterval.eq_def, if_neg (by push Not; exact ⟨hr1, hr0⟩)]
  simp [minLoop]

/-- The sample `a` is the first with at least the value `v`, and `b` is the last of the samples from `a` on that have the value of `a`. -/
def Spec.IsTray (c : List (K × K)) (v : K) (a b : Nat) : Prop :=
  a ≤ b ∧ ∃ pa, c[a]? = some pa ∧ v ≤ pa.2 ∧ (∀ (i : Nat) p, i < a → c[i]? = some p → p.2 < v) ∧
    (∀ (i : Nat), a ≤ i → i ≤ b → ∃ p, c[i]? = some p ∧ p.2 = pa.2) ∧ ∀ p, c[b + 1]? = some p → p.2 ≠ pa.2

/-- **C91 (value).** In a cumulative that is not empty and whose last value is not negative, `findValue` gives the first sample with at least the required
part of the last value, or the last sample with the same value after it, or the mean of both. -/
theorem C91_findValue [IsStrictOrderedRing K] (c : List (K × K)) (last : K × K) (hlast : c.getLast? = some last) (hpos : 0 ≤ last.2) (ratio : K) (h0 : 0 ≤ ratio) (h1 : ratio ≤ 1) :
    ∃ (a b : Nat) (pa pb : K × K), Spec.IsTray c (last.2 * ratio) a b ∧ c[a]? = some pa ∧ c[b]? = some pb ∧
      findValue c ratio .begin = .ok pa.1 ∧ findValue c ratio .end' = .ok pb.1 ∧ findValue c ratio .middle = .ok ((pa.1 + pb.1) / 2) := by
  have hn : ¬ (ratio > 1 ∨ ratio < 0) := by push Not; exact ⟨h1, h0⟩
  obtain ⟨a, ha⟩ : ∃ a, a = (c.takeWhile fun p => decide (p.2 < last.2 * ratio)).length := ⟨_, rfl⟩
  have hd := dropWhile_eq_drop (fun p : K × K => decide (p.2 < last.2 * ratio)) c
  rw [← ha] at hd
  obtain ⟨t1, t2⟩ := takeWhile_length_spec (fun p : K × K => decide (p.2 < last.2 * ratio)) c
  rw [← ha] at t1 t2
  have hlen : 0 < c.length := by
    cases c with
    | nil => simp at hlast
    | cons => simp
  have hac : a < c.length := by
    by_contra hge
    have hl := hlast
    rw [List.getLast?_eq_getElem?] at hl
    have := t1 (c.length - 1) last (by omega) hl
    simp only [decide_eq_true_eq] at this
    have : last.2 * ratio ≤ last.2 := mul_le_of_le_one_right hpos h1
    linarith
  rw [List.drop_eq_getElem_cons hac] at hd
  generalize hpa : c[a] = pa at hd
  have hca : c[a]? = some pa := by rw [List.getElem?_eq_getElem hac, hpa]
  obtain ⟨m, hm⟩ : ∃ m, m = ((c.drop (a + 1)).takeWhile fun q => decide (q.2 = pa.2)).length := ⟨_, rfl⟩
  obtain ⟨u1, u2⟩ := takeWhile_length_spec (fun q : K × K => decide (q.2 = pa.2)) (c.drop (a + 1))
  rw [← hm] at u1 u2
  have hml : m ≤ (c.drop (a + 1)).length := by rw [hm]; exact (List.takeWhile_prefix _).length_le
  rw [List.length_drop] at hml
  have hcb : ∃ pb, c[a + m]? = some pb ∧ ((pa :: c.drop (a + 1)).takeWhile fun q => decide (q.2 = pa.2)).getLastD pa = pb := by
    refine ⟨c[a + m]'(by omega), List.getElem?_eq_getElem (by omega), ?_⟩
    rw [List.takeWhile_cons_of_pos (by simp), List.getLastD_cons, List.getLastD_eq_getLast?, List.getLast?_eq_getElem?, ← hm]
    cases m with
    | zero => rw [List.length_eq_zero_iff.mp hm.symm]; simp [hpa]
    | succ m =>
      have hp : (c.drop (a + 1)).takeWhile (fun q => decide (q.2 = pa.2)) = (c.drop (a + 1)).take (m + 1) := by
        rw [hm]; exact (List.prefix_iff_eq_take.mp (List.takeWhile_prefix _))
      rw [hp, List.getElem?_take_of_lt (by omega), List.getElem?_drop, List.getElem?_eq_getElem (by omega)]
      simp only [Option.getD_some]
      congr 1
      omega
  obtain ⟨pb, hcb, hb⟩ := hcb
  refine ⟨a, a + m, pa, pb, ⟨by omega, pa, hca, ?_, ?_, ?_, ?_⟩, hca, hcb, ?_, ?_, ?_⟩
  · have := t2.1 pa hca
    simpa using this
  · intro i p hi hp
    have := t1 i p hi hp
    simpa using this
  · intro i hi hib
    by_cases h : i = a
    · exact ⟨pa, h ▸ hca, rfl⟩
    · have hil : i < c.length := by omega
      refine ⟨c[i], List.getElem?_eq_getElem hil, ?_⟩
      have := u1 (i - (a + 1)) c[i] (by omega) (by rw [List.getElem?_drop, show a + 1 + (i - (a + 1)) = i by omega]; exact List.getElem?_eq_getElem hil)
      simpa using this
  · intro p hp
    have := u2.1 p (by rw [List.getElem?_drop, show a + 1 + m = a + m + 1 by omega]; exact hp)
    simpa using this
  · rw [findValue, if_neg hn]
    simp only [hlast, hd]
  · rw [findValue, if_neg hn]
    simp only [hlast, hd, hb]
  · rw [findValue, if_neg hn]
    simp only [hlast, hd, hb]
    congr 1
    ring

/-- **C91 (refused).** A ratio outside `[0, 1]` is refused. -/
theorem C91_throws (c : List (K × K)) (ratio : K) (pos : Tray) (h : 1 < ratio ∨ ratio < 0) : findValue c ratio pos = .throw .elements := by
  rw [findValue, if_pos h]

theorem minLoop_scale [IsStrictOrderedRing K] (rate d : K) (hd : 0 < d) (l1 : List (K × K)) : ∀ (l2 : List (K × K)) (cor mn mx : K),
    minLoop rate (l1.map fun p => (p.1, p.2 / d)) (l2.map fun p => (p.1, p.2 / d)) (cor / d) mn mx = minLoop (rate * d) l1 l2 cor mn mx := by
  induction l1 with
  | nil => intros; rfl
  | cons p1 l1 ih =>
    intro l2 cor mn mx
    rw [List.map_cons, minLoop, minLoop]
    have e : (l2.map fun p => (p.1, p.2 / d)).dropWhile (fun p2 => decide (p2.2 - p1.2 / d + cor / d < rate)) =
        (l2.dropWhile fun p2 => decide (p2.2 - p1.2 + cor < rate * d)).map fun p => (p.1, p.2 / d) := by
      rw [List.dropWhile_map]
      congr 2
      funext p
      simp only [Function.comp, ← sub_div, ← add_div, div_lt_iff₀ hd]
    simp only [e]
    cases l2.dropWhile fun p2 => decide (p2.2 - p1.2 + cor < rate * d) with
    | nil => rfl
    | cons p2 l2 =>
      simp only [List.map_cons]
      have := ih (p2 :: l2) 0
      rw [zero_div] at this
      simp only [List.map_cons] at this
      rw [this, this]

/-- **C91 (normalised).** Normalising a cumulative with a positive last value keeps the abscissas and all results of `findValue`, `findMinInterval` and `findCenteredInterval`, and makes the last value 1. -/
theorem C91_normalize [IsStrictOrderedRing K] (c : List (K × K)) (last : K × K) (hlast : c.getLast? = some last) (hpos : 0 < last.2) :
    ∃ c', normalize c = .ok c' ∧ c'.map Prod.fst = c.map Prod.fst ∧ c'.getLast? = some (last.1, 1) ∧
      (∀ ratio pos, findValue c' ratio pos = findValue c ratio pos) ∧ (∀ rate, findCenteredInterval c' rate = findCenteredInterval c rate) ∧
      ∀ rate, findMinInterval c' rate = findMinInterval c rate := by
  have hne := hpos.ne'
  suffices hfv : ∀ ratio pos, findValue (c.map fun p => (p.1, p.2 / last.2)) ratio pos = findValue c ratio pos by
    refine ⟨c.map fun p => (p.1, p.2 / last.2), ?_, ?_, ?_, hfv, ?_, ?_⟩
    · rw [normalize]
      simp only [hlast]
      rw [if_neg hne]
    · simp
    · rw [List.getLast?_map, hlast]
      simp [hne]
    · intro rate
      rw [findCenteredInterval, findCenteredInterval, hfv, hfv]
    · intro rate
      have hl : (c.map fun p => (p.1, p.2 / last.2)).getLast? = some (last.1, 1) := by
        rw [List.getLast?_map, hlast]; simp [hne]
      rw [findMinInterval.eq_def, findMinInterval.eq_def]
      by_cases h : rate > 1 ∨ rate ≤ 0
      · rw [if_pos h, if_pos h]
      · rw [if_neg h, if_neg h, hl, hlast]
        cases c with
        | nil => rfl
        | cons p l =>
          simp only [List.map_cons, mul_one]
          rw [← minLoop_scale rate last.2 hpos (p :: l) l]
          rfl
  · intro ratio pos
    have hl : (c.map fun p => (p.1, p.2 / last.2)).getLast? = some (last.1, 1) := by
      rw [List.getLast?_map, hlast]; simp [hne]
    rw [findValue, findValue]
    by_cases h : ratio > 1 ∨ ratio < 0
    · rw [if_pos h, if_pos h]
    · rw [if_neg h, if_neg h]
      simp only [hl, hlast]
      have e1 : (c.map fun p => (p.1, p.2 / last.2)).dropWhile (fun p => decide (p.2 < 1 * ratio)) =
          (c.dropWhile fun p => decide (p.2 < last.2 * ratio)).map fun p => (p.1, p.2 / last.2) := by
        rw [List.dropWhile_map]
        congr 2
        funext p
        simp only [Function.comp, one_mul, div_lt_iff₀ hpos, mul_comm last.2 ratio]
      rw [e1]
      cases hd : c.dropWhile fun p => decide (p.2 < last.2 * ratio) with
      | nil => rfl
      | cons p rest =>
        simp only [List.map_cons]
        have e2 : (((p.1, p.2 / last.2) :: rest.map fun p => (p.1, p.2 / last.2)).takeWhile fun q => decide (q.2 = p.2 / last.2)) =
            ((p :: rest).takeWhile fun q => decide (q.2 = p.2)).map fun p => (p.1, p.2 / last.2) := by
          rw [show ((p.1, p.2 / last.2) :: rest.map fun p => (p.1, p.2 / last.2)) = (p :: rest).map fun p => (p.1, p.2 / last.2) from rfl, List.takeWhile_map]
          congr 2
          funext q
          simp only [Function.comp, div_left_inj' hne]
        rw [e2, List.getLastD_eq_getLast?, List.getLastD_eq_getLast?, List.getLast?_map]
        cases (List.takeWhile (fun q => decide (q.2 = p.2)) (p :: rest)).getLast? <;> rfl

/-- **C92 (centred interval).** For ascending abscissas and a positive last value: the interval goes from the end of the tray at `(1 - rate) / 2` to the first
sample at `(1 + rate) / 2`; if some sample has a value from the lower to below the upper bound, its ends are in order. -/
theorem C92_centered_partial [IsStrictOrderedRing K] (c : List (K × K)) (hs : (c.map Prod.fst).Pairwise (· ≤ ·)) (hm : (c.map Prod.snd).Pairwise (· ≤ ·))
    (last : K × K) (hlast : c.getLast? = some last) (hpos : 0 ≤ last.2) (rate : K) (h0 : 0 < rate) (h1 : rate ≤ 1) :
    ∃ (a a' b b' : Nat) (pa pb : K × K), Spec.IsTray c (last.2 * (1 / 2 - rate / 2)) a a' ∧ Spec.IsTray c (last.2 * (1 / 2 + rate / 2)) b b' ∧
      c[a']? = some pa ∧ c[b]? = some pb ∧ findCenteredInterval c rate = .ok (pa.1, pb.1) ∧
      ((∃ p ∈ c, last.2 * (1 / 2 - rate / 2) ≤ p.2 ∧ p.2 < last.2 * (1 / 2 + rate / 2)) → pa.1 ≤ pb.1) := by
  obtain ⟨a, a', _, pa, ta, _, hpa, _, va, _⟩ := C91_findValue c last hlast hpos (1 / 2 - rate / 2) (by linarith) (by linarith)
  obtain ⟨b, b', pb, _, tb, hpb, _, vb, _, _⟩ := C91_findValue c last hlast hpos (1 / 2 + rate / 2) (by linarith) (by linarith)
  refine ⟨a, a', b, b', pa, pb, ta, tb, hpa, hpb, ?_, ?_⟩
  · rw [findCenteredInterval, if_neg (by push Not; exact ⟨h1, h0⟩), va, vb]
    rfl
  · rintro ⟨p, hp, hp1, hp2⟩
    obtain ⟨hab, qa, hqa, hqv, hbef, hsame, _⟩ := ta
    obtain ⟨_, qb, hqb, hqbv, _, _, _⟩ := tb
    rw [hpb] at hqb
    cases hqb
    obtain ⟨i, hi, rfl⟩ := List.mem_iff_getElem.mp hp
    have mono : ∀ (i j : Nat) (p q : K × K), i ≤ j → c[i]? = some p → c[j]? = some q → p.2 ≤ q.2 ∧ p.1 ≤ q.1 := by
      intro i j p q hij hp hq
      exact ⟨sorted_get hm hij (by simp [hp]) (by simp [hq]), sorted_get hs hij (by simp [hp]) (by simp [hq])⟩
    have hai : a ≤ i := by
      by_contra hlt
      have := hbef i _ (by omega) (List.getElem?_eq_getElem hi)
      linarith
    have h2 := (mono a i _ _ hai hqa (List.getElem?_eq_getElem hi)).1
    obtain ⟨q, hq, hq2⟩ := hsame a' hab (le_refl _)
    rw [hpa] at hq
    cases hq
    have hle : a' ≤ b := by
      by_contra hlt
      have := (mono b a' _ _ (by omega) hpb hpa).1
      linarith
    exact (mono a' b _ _ hle hpa hpb).2

end

/-- The full statement: no two samples `i ≤ k` with the required weight from `i` to `k` (both included) are closer. -/
def C39_full : Prop :=
  ∀ (xs pdf : List ℚ) (rate : ℚ), xs.length = pdf.length → 2 ≤ xs.length → xs.Pairwise (· ≤ ·) → (∀ v ∈ pdf, 0 ≤ v) → 0 < pdf.sum → 0 < rate → rate ≤ 1 →
    ∃ c xa xb, fromPdf xs pdf = .ok c ∧ findMinInterval c rate = .ok (xa, xb) ∧
      ∀ (i k : Nat) xi xk, i ≤ k → xs[i]? = some xi → xs[k]? = some xk → rate * pdf.sum ≤ Spec.weight pdf i k → xb - xa ≤ xk - xi

/-- **C39 (violated).** With all weight on the samples at 1 and 2 the interval for the rate 1 is from 0 to 2. -/
theorem C39_violated : ¬ C39_full := by
  intro h
  obtain ⟨c, xa, xb, h1, h2, h3⟩ := h [0, 1, 2, 3] [0, 1, 1, 0] 1 rfl (by decide) (by decide +kernel) (by decide +kernel) (by decide +kernel) (by decide +kernel) (by decide +kernel)
  have e1 : fromPdf [0, 1, 2, 3] [0, 1, 1, 0] = .ok [((0 : ℚ), 0), (1, 1), (2, 2), (3, 2)] := by decide +kernel
  rw [e1] at h1
  cases h1
  have e2 : findMinInterval [((0 : ℚ), 0), (1, 1), (2, 2), (3, 2)] 1 = .ok (0, 2) := by decide +kernel
  rw [e2] at h2
  cases h2
  have := h3 1 2 1 2 (by decide) rfl rfl (by decide +kernel)
  norm_num at this

/-- **C39 (no weight).** Without any weight the ends of the interval are exchanged. -/
theorem C39_zero_violated : findMinInterval [((0 : ℚ), 0), (1, 0), (2, 0)] (1 / 2) = .ok (2, 1) := by decide +kernel

/-- The full statement: the ends of the centred interval are in order. -/
def C92_full : Prop :=
  ∀ (c : List (ℚ × ℚ)) (last : ℚ × ℚ), (c.map Prod.fst).Pairwise (· ≤ ·) → (c.map Prod.snd).Pairwise (· ≤ ·) → c.getLast? = some last → 0 < last.2 →
    ∀ rate a b, 0 < rate → rate ≤ 1 → findCenteredInterval c rate = .ok (a, b) → a ≤ b

/-- **C92 (violated).** If the first of three samples has all the weight, the interval goes from the last sample back to the first. -/
theorem C92_violated : ¬ C92_full := by
  intro h
  have := h [(0, 1), (1, 1), (2, 1)] (2, 1) (by decide +kernel) (by decide +kernel) rfl (by norm_num) (1 / 2) 2 0 (by norm_num) (by norm_num) (by decide +kernel)
  norm_num at this

/-- A tray from 1 to 3, in the middle of the cumulative. -/
example : Spec.IsTray [((0 : ℚ), 1), (1, 2), (2, 2), (3, 2), (4, 4)] (4 * (1 / 2)) 1 3 ∧
    findValue [((0 : ℚ), 1), (1, 2), (2, 2), (3, 2), (4, 4)] (1 / 2) .begin = .ok 1 ∧ findValue [((0 : ℚ), 1), (1, 2), (2, 2), (3, 2), (4, 4)] (1 / 2) .end' = .ok 3 ∧
    findValue [((0 : ℚ), 1), (1, 2), (2, 2), (3, 2), (4, 4)] (1 / 2) .middle = .ok 2 ∧ findCenteredInterval [((0 : ℚ), 1), (1, 2), (2, 2), (3, 2), (4, 4)] (1 / 2) = .ok (0, 4) := by
  refine ⟨⟨by decide, (1, 2), rfl, by norm_num, ?_, ?_, ?_⟩, by decide +kernel, by decide +kernel, by decide +kernel, by decide +kernel⟩
  · intro i p hi hp
    have : i = 0 := by omega
    subst this
    cases hp
    norm_num
  · intro i h1 h2
    have : i = 1 ∨ i = 2 ∨ i = 3 := by omega
    rcases this with rfl | rfl | rfl <;> exact ⟨_, rfl, rfl⟩
  · intro p hp
    cases hp
    norm_num

/-- Weights 1, 2, 4, 1 at 0, 1, 3, 4. -/
example : ∃ c, fromPdf ([0, 1, 3, 4] : List ℚ) [1, 2, 4, 1] = .ok c ∧ findMinInterval c (1 / 2) = .ok (1, 3) ∧ findMinInterval c (3 / 4) = .ok (0, 3) :=
  ⟨[(0, 1), (1, 3), (3, 7), (4, 8)], by decide +kernel, by decide +kernel, by decide +kernel⟩

end Alexandria.MathUtils
