import Verif.MathUtils.CumulativeRoundModel
import Verif.MathUtils.CumulativeProps

/-! # Cumulative distributions with rounded arithmetic (C121) -/

namespace Alexandria.MathUtils

section
variable {K : Type} [Field K] [LinearOrder K]

/-! ## Lemmas -/

theorem machineSumLoop_spec [IsStrictOrderedRing K] (R : Rounding K) (pdf : List K) : ∀ s, R.rnd s = s → (∀ v ∈ pdf, 0 ≤ v) →
    (machineSumLoop R s pdf).length = pdf.length ∧ (machineSumLoop R s pdf).Pairwise (· ≤ ·) ∧ ∀ v ∈ machineSumLoop R s pdf, s ≤ v ∧ R.rnd v = v := by
  induction pdf with
  | nil => intro s _ _; simp [machineSumLoop]
  | cons p ps ih =>
    intro s hs hpos
    have h1 : s ≤ R.rnd (s + p) := R.fix_le (by linarith [hpos p (List.mem_cons_self ..)]) hs
    obtain ⟨a, b, c⟩ := ih (R.rnd (s + p)) (R.idem _) (fun v hv => hpos v (List.mem_cons_of_mem _ hv))
    rw [machineSumLoop]
    refine ⟨by rw [List.length_cons, a, List.length_cons], List.pairwise_cons.mpr ⟨fun v hv => (c v hv).1, b⟩, ?_⟩
    intro v hv
    rcases List.mem_cons.mp hv with rfl | hv
    · exact ⟨h1, R.idem _⟩
    · exact ⟨h1.trans (c v hv).1, (c v hv).2⟩

/-- The two searches of `findValue` for any bound that the last value reaches. -/
theorem tray_search (c : List (K × K)) (last : K × K) (hlast : c.getLast? = some last) (v : K) (hv : v ≤ last.2) :
    ∃ (a b : Nat) (pa pb : K × K) (rest : List (K × K)), Spec.IsTray c v a b ∧ c[a]? = some pa ∧ c[b]? = some pb ∧
      c.dropWhile (fun p => decide (p.2 < v)) = pa :: rest ∧ ((pa :: rest).takeWhile fun q => decide (q.2 = pa.2)).getLastD pa = pb := by
  obtain ⟨a, ha⟩ : ∃ a, a = (c.takeWhile fun p => decide (p.2 < v)).length := ⟨_, rfl⟩
  have hd := dropWhile_eq_drop (fun p : K × K => decide (p.2 < v)) c
  rw [← ha] at hd
  obtain ⟨t1, t2⟩ := takeWhile_length_spec (fun p : K × K => decide (p.2 < v)) c
  rw [← ha] at t1 t2
  have hlen : 0 < c.length := by
    cases c with
    | nil => simp at hlast
    | cons => simp
  have hac : a < c.length := by
    by_contra hge
    have hl := hlast
    rw [List.getLast?_eq_getElem?] at hl
    have := t1 (c.length - 1) last (by omega) hl
    simp only [decide_eq_true_eq] at this
    exact absurd hv (not_le.mpr this)
  rw [List.drop_eq_getElem_cons hac] at hd
  generalize hpa : c[a] = pa at hd
  have hca : c[a]? = some pa := by rw [List.getElem?_eq_getElem hac, hpa]
  obtain ⟨m, hm⟩ : ∃ m, m = ((c.drop (a + 1)).takeWhile fun q => decide (q.2 = pa.2)).length := ⟨_, rfl⟩
  obtain ⟨u1, u2⟩ := takeWhile_length_spec (fun q : K × K => decide (q.2 = pa.2)) (c.drop (a + 1))
  rw [← hm] at u1 u2
  have hml : m ≤ (c.drop (a + 1)).length := by rw [hm]; exact (List.takeWhile_prefix _).length_le
  rw [List.length_drop] at hml
  have hcb : ∃ pb, c[a + m]? = some pb ∧ ((pa :: c.drop (a + 1)).takeWhile fun q => decide (q.2 = pa.2)).getLastD pa = pb := by
    refine ⟨c[a + m]'(by omega), List.getElem?_eq_getElem (by omega), ?_⟩
    rw [List.takeWhile_cons_of_pos (by simp), List.getLastD_cons, List.getLastD_eq_getLast?, List.getLast?_eq_getElem?, ← hm]
    cases m with
    | zero => rw [List.length_eq_zero_iff.mp hm.symm]; simp [hpa]
    | succ m =>
      have hp : (c.drop (a + 1)).takeWhile (fun q => decide (q.2 = pa.2)) = (c.drop (a + 1)).take (m + 1) := by
        rw [hm]; exact (List.prefix_iff_eq_take.mp (List.takeWhile_prefix _))
      rw [hp, List.getElem?_take_of_lt (by omega), List.getElem?_drop, List.getElem?_eq_getElem (by omega)]
      simp only [Option.getD_some]
      congr 1
      omega
  obtain ⟨pb, hcb, hb⟩ := hcb
  refine ⟨a, a + m, pa, pb, c.drop (a + 1), ⟨by omega, pa, hca, ?_, ?_, ?_, ?_⟩, hca, hcb, hd, hb⟩
  · have := t2.1 pa hca
    simpa using this
  · intro i p hi hp
    have := t1 i p hi hp
    simpa using this
  · intro i hi hib
    by_cases h : i = a
    · exact ⟨pa, h ▸ hca, rfl⟩
    · have hil : i < c.length := by omega
      refine ⟨c[i], List.getElem?_eq_getElem hil, ?_⟩
      have := u1 (i - (a + 1)) c[i] (by omega) (by rw [List.getElem?_drop, show a + 1 + (i - (a + 1)) = i by omega]; exact List.getElem?_eq_getElem hil)
      simpa using this
  · intro p hp
    have := u2.1 p (by rw [List.getElem?_drop, show a + 1 + m = a + m + 1 by omega]; exact hp)
    simpa using this

/-- What the loop of `findMinInterval` computes, in terms of the amount `V i j` counted for the samples `i` to `j`; `G` holds for the interval at the start and for
all intervals that count enough. -/
theorem machineMinLoop_spec [IsStrictOrderedRing K] (R : Rounding K) (rate : K) (c : List (K × K)) (V : Nat → Nat → K) (G : Nat → Nat → Prop)
    (hs : (c.map Prod.fst).Pairwise (· ≤ ·)) (hG : ∀ i k, rate ≤ V i k → G i k)
    (hV : ∀ i j, i < j → j < c.length → V (i + 1) j ≤ V i j) (hVj : ∀ i j, 0 < i → j ≤ i → j < c.length → i < c.length → V i j < rate)
    (n : Nat) : ∀ (i j : Nat) (corr mn mx : K) (a b : Nat) (pa pb : K × K), n + i = c.length → 0 < j → j ≤ c.length →
    (∀ (k : Nat) p q, i < c.length → c[i]? = some p → c[k]? = some q → R.rnd (R.rnd (q.2 - p.2) + corr) = V i k) →
    (∀ (i' k : Nat) p q, i < i' → c[i']? = some p → c[k]? = some q → R.rnd (R.rnd (q.2 - p.2) + 0) = V i' k) →
    (∀ k, 0 < k → k < j → i < c.length → V i k < rate) →
    c[a]? = some pa → c[b]? = some pb → a < b → G a b → mn = pa.1 → mx = pb.1 →
    (∀ (i' k : Nat) p q, i' < i → i' < k → c[i']? = some p → c[k]? = some q → rate ≤ V i' k → R.rnd (mx - mn) ≤ R.rnd (q.1 - p.1)) →
    ∃ (a b : Nat) (pa pb : K × K), c[a]? = some pa ∧ c[b]? = some pb ∧ a < b ∧ G a b ∧
      machineMinLoop R rate (c.drop i) (c.drop j) corr mn mx = (pa.1, pb.1) ∧
      ∀ (i' k : Nat) p q, i' < k → c[i']? = some p → c[k]? = some q → rate ≤ V i' k → R.rnd (pb.1 - pa.1) ≤ R.rnd (q.1 - p.1) := by
  induction n with
  | zero =>
    intro i j corr mn mx a b pa pb hn hj0 hj h1 h2 h3 ha hb hab hr hmn hmx h4
    refine ⟨a, b, pa, pb, ha, hb, hab, hr, ?_, ?_⟩
    · rw [List.drop_of_length_le (by omega), machineMinLoop, hmn, hmx]
    · intro i' k p q hik hp hq hv
      have := (List.getElem?_eq_some_iff.mp hp).1
      rw [← hmn, ← hmx]
      exact h4 i' k p q (by omega) hik hp hq hv
  | succ n ih =>
    intro i j corr mn mx a b pa pb hn hj0 hj h1 h2 h3 ha hb hab hr hmn hmx h4
    have hi : i < c.length := by omega
    have hp := List.getElem?_eq_getElem hi
    rw [List.drop_eq_getElem_cons hi]
    rw [machineMinLoop.eq_def]
    simp only
    obtain ⟨m, hm, hdrop, hlt, hge⟩ := dropWhile_index (fun p2 : K × K => decide (R.rnd (R.rnd (p2.2 - c[i].2) + corr) < rate)) (c.drop j)
    rw [hdrop, List.drop_drop]
    rw [List.length_drop] at hm
    have hbelow : ∀ k, 0 < k → k < j + m → V i k < rate := by
      intro k hk0 hk
      by_cases hkj : k < j
      · exact h3 k hk0 hkj hi
      · have hkl : k < c.length := by omega
        have := hlt (k - j) c[k] (by omega) (by rw [List.getElem?_drop, show j + (k - j) = k by omega]; exact List.getElem?_eq_getElem hkl)
        simp only [decide_eq_true_eq] at this
        rwa [h1 k _ _ hi hp (List.getElem?_eq_getElem hkl)] at this
    have hdown : ∀ i' k, i ≤ i' → i' ≤ k → k < c.length → V i' k ≤ V i k := by
      intro i' k hii hik hkl
      induction i' with
      | zero =>
        obtain rfl : i = 0 := by omega
        exact le_refl _
      | succ i' ih' =>
        rcases Nat.eq_or_lt_of_le hii with h | h
        · rw [h]
        · exact (hV i' k (by omega) hkl).trans (ih' (by omega) (by omega))
    by_cases hend : j + m = c.length
    · rw [hend, List.drop_of_length_le (le_refl _)]
      refine ⟨a, b, pa, pb, ha, hb, hab, hr, by rw [hmn, hmx], ?_⟩
      intro i' k p q hik hp' hq hv
      have hkl := (List.getElem?_eq_some_iff.mp hq).1
      by_cases hii : i' < i
      · rw [← hmn, ← hmx]
        exact h4 i' k p q hii hik hp' hq hv
      · have := hbelow k (by omega) (by omega)
        have := hdown i' k (by omega) (by omega) hkl
        exact absurd hv (not_le.mpr (by linarith))
    · have hjm : j + m < c.length := by omega
      have hq := List.getElem?_eq_getElem hjm
      rw [List.drop_eq_getElem_cons hjm]
      simp only
      rw [← List.drop_eq_getElem_cons hjm]
      have hgeV : rate ≤ V i (j + m) := by
        have := hge c[j + m] (by rw [List.getElem?_drop]; exact hq)
        simp only [decide_eq_false_iff_not, not_lt] at this
        rwa [h1 (j + m) _ _ hi hp hq] at this
      have hij : i < j + m := by
        rcases Nat.eq_zero_or_pos i with h0 | h0
        · omega
        · by_contra hc
          exact absurd hgeV (not_le.mpr (hVj i (j + m) h0 (by omega) hjm hi))
      have hbest : ∀ (k : Nat) q, i < k → c[k]? = some q → rate ≤ V i k → R.rnd (c[j + m].1 - c[i].1) ≤ R.rnd (q.1 - c[i].1) := by
        intro k q hik hq' hv
        have hkl := (List.getElem?_eq_some_iff.mp hq').1
        have hkm : j + m ≤ k := by
          by_contra hc
          exact absurd hv (not_le.mpr (hbelow k (by omega) (by omega)))
        have := sorted_get hs hkm (a := c[j + m].1) (b := q.1) (by rw [List.getElem?_map, hq]; rfl) (by rw [List.getElem?_map, hq']; rfl)
        exact R.mono _ _ (by linarith)
      have hnext : ∀ (k : Nat) (p q : K × K), i + 1 < c.length → c[i + 1]? = some p → c[k]? = some q → R.rnd (R.rnd (q.2 - p.2) + 0) = V (i + 1) k :=
        fun k p q _ hp' hq' => h2 (i + 1) k p q (by omega) hp' hq'
      have hnext2 : ∀ (i' k : Nat) (p q : K × K), i + 1 < i' → c[i']? = some p → c[k]? = some q → R.rnd (R.rnd (q.2 - p.2) + 0) = V i' k :=
        fun i' k p q h hp' hq' => h2 i' k p q (by omega) hp' hq'
      have hnext3 : ∀ k, 0 < k → k < j + m → i + 1 < c.length → V (i + 1) k < rate := by
        intro k hk0 hk hi1
        by_cases hki : k ≤ i + 1
        · exact hVj (i + 1) k (by omega) hki (by omega) hi1
        · have := hbelow k hk0 hk
          have := hV i k (by omega) (by omega)
          linarith
      split_ifs with hcmp
      · obtain ⟨a', b', pa', pb', r⟩ := ih (i + 1) (j + m) 0 c[i].1 c[j + m].1 i (j + m) c[i] c[j + m] (by omega) (by omega) (by omega) hnext hnext2 hnext3 hp hq hij (hG _ _ hgeV) rfl rfl (by
          intro i' k p q hii hik hp' hq' hv
          rcases Nat.eq_or_lt_of_le (show i' ≤ i by omega) with h | h
          · subst h
            rw [hp] at hp'
            cases hp'
            exact hbest k q hik hq' hv
          · exact hcmp.trans (h4 i' k p q h hik hp' hq' hv))
        exact ⟨a', b', pa', pb', r⟩
      · obtain ⟨a', b', pa', pb', r⟩ := ih (i + 1) (j + m) 0 mn mx a b pa pb (by omega) (by omega) (by omega) hnext hnext2 hnext3 ha hb hab hr hmn hmx (by
          intro i' k p q hii hik hp' hq' hv
          rcases Nat.eq_or_lt_of_le (show i' ≤ i by omega) with h | h
          · subst h
            rw [hp] at hp'
            cases hp'
            exact (le_of_lt (not_le.mp hcmp)).trans (hbest k q hik hq' hv)
          · exact h4 i' k p q h hik hp' hq' hv)
        exact ⟨a', b', pa', pb', r⟩

/-! ## Specification -/

/-- Samples of a cumulative in machine arithmetic: in order, not negative, representable. -/
structure Spec.Good (R : Rounding K) (c : List (K × K)) : Prop where
  order : (c.map Prod.snd).Pairwise (· ≤ ·)
  nonneg : ∀ p ∈ c, 0 ≤ p.2
  fix : ∀ p ∈ c, R.rnd p.2 = p.2

/-- What `findMinInterval` counts for the samples from `i` to `k`, as differences of rounded numbers. -/
def Spec.machineCounted (rnd : K → K) (ys : List K) (i k : Nat) : K :=
  if i = 0 then rnd (rnd (ys.getD k 0 - ys.getD 0 0) + ys.getD 0 0) else rnd (ys.getD k 0 - ys.getD i 0)

/-! ## Theorems -/

/-- **C121 (from a density).** The rounded sums of densities that are not negative are in order. -/
theorem C121_fromPdf [IsStrictOrderedRing K] (R : Rounding K) (xs pdf : List K) (hl : xs.length = pdf.length) (hpos : ∀ v ∈ pdf, 0 ≤ v) :
    ∃ c, machineFromPdf R xs pdf = .ok c ∧ c.map Prod.fst = xs ∧ Spec.Good R c := by
  obtain ⟨h1, h2, h3⟩ := machineSumLoop_spec R pdf 0 R.zero hpos
  have hsnd : (xs.zip (machineSumLoop R 0 pdf)).map Prod.snd = machineSumLoop R 0 pdf := List.map_snd_zip (by omega)
  have hmem : ∀ p ∈ xs.zip (machineSumLoop R 0 pdf), p.2 ∈ machineSumLoop R 0 pdf := fun p hp => by rw [← hsnd]; exact List.mem_map_of_mem hp
  refine ⟨xs.zip (machineSumLoop R 0 pdf), ?_, List.map_fst_zip (by omega), ?_, ?_, ?_⟩
  · rw [machineFromPdf, mkCumulative, if_neg (by omega)]
  · rw [hsnd]; exact h2
  · intro p hp; exact (h3 _ (hmem p hp)).1
  · intro p hp; exact (h3 _ (hmem p hp)).2

/-- **C121 (normalised).** The rounded quotients are in order and between 0 and 1, the last one is 1. -/
theorem C121_normalize [IsStrictOrderedRing K] (R : Rounding K) (half : R.rnd (1 / 2) = 1 / 2) (c : List (K × K)) (hc : Spec.Good R c)
    (last : K × K) (hlast : c.getLast? = some last) (hpos : 0 < last.2) :
    ∃ c', machineNormalize R c = .ok c' ∧ c'.map Prod.fst = c.map Prod.fst ∧ c'.getLast? = some (last.1, 1) ∧ Spec.Good R c' ∧ ∀ p ∈ c', p.2 ≤ 1 := by
  have hle : ∀ p ∈ c, p.2 ≤ last.2 := by
    intro p hp
    obtain ⟨i, hi, rfl⟩ := List.mem_iff_getElem.mp hp
    rw [List.getLast?_eq_getElem?] at hlast
    exact sorted_get hc.order (show i ≤ c.length - 1 by omega) (by simp [hi]) (by simp [hlast])
  refine ⟨c.map fun p => (p.1, R.rnd (p.2 / last.2)), ?_, ?_, ?_, ⟨?_, ?_, ?_⟩, ?_⟩
  · rw [machineNormalize]
    simp only [hlast]
    rw [if_neg hpos.ne']
  · rw [List.map_map]; rfl
  · rw [List.getLast?_map, hlast, Option.map_some, div_self hpos.ne', R.one half]
  · rw [List.map_map, show (Prod.snd ∘ fun p : K × K => (p.1, R.rnd (p.2 / last.2))) = (fun v => R.rnd (v / last.2)) ∘ Prod.snd from rfl, ← List.map_map]
    refine List.Pairwise.map _ ?_ hc.order
    intro a b hab
    exact R.mono _ _ ((div_le_div_iff_of_pos_right hpos).mpr hab)
  · intro p hp
    obtain ⟨q, hq, rfl⟩ := List.mem_map.mp hp
    exact R.nonneg (div_nonneg (hc.nonneg q hq) hpos.le)
  · intro p hp
    obtain ⟨q, hq, rfl⟩ := List.mem_map.mp hp
    exact R.idem _
  · intro p hp
    obtain ⟨q, hq, rfl⟩ := List.mem_map.mp hp
    exact R.le_fix ((div_le_one hpos).mpr (hle q hq)) (R.one half)

/-- **C121 (value).** The search never leaves the samples: for every ratio in `[0, 1]` there is a first sample with at least the rounded part of the last value. -/
theorem C121_findValue [IsStrictOrderedRing K] (R : Rounding K) (c : List (K × K)) (last : K × K) (hlast : c.getLast? = some last) (hpos : 0 ≤ last.2)
    (hfix : R.rnd last.2 = last.2) (ratio : K) (h0 : 0 ≤ ratio) (h1 : ratio ≤ 1) :
    ∃ (a b : Nat) (pa pb : K × K), Spec.IsTray c (R.rnd (last.2 * ratio)) a b ∧ c[a]? = some pa ∧ c[b]? = some pb ∧
      machineFindValue R c ratio .begin = .ok pa.1 ∧ machineFindValue R c ratio .end' = .ok pb.1 ∧
      machineFindValue R c ratio .middle = .ok (R.rnd (1 / 2 * R.rnd (pa.1 + pb.1))) := by
  have hn : ¬ (ratio > 1 ∨ ratio < 0) := by push Not; exact ⟨h1, h0⟩
  obtain ⟨a, b, pa, pb, rest, t, ha, hb, hd, he⟩ := tray_search c last hlast (R.rnd (last.2 * ratio)) (R.le_fix (mul_le_of_le_one_right hpos h1) hfix)
  refine ⟨a, b, pa, pb, t, ha, hb, ?_, ?_, ?_⟩
  all_goals
    rw [machineFindValue, if_neg hn]
    simp only [hlast, hd, he]

/-- **C121 (centred interval).** There is always one, and its ends are in order if there is a sample between the two rounded parts of the total. -/
theorem C121_centered_partial [IsStrictOrderedRing K] (R : Rounding K) (half : R.rnd (1 / 2) = 1 / 2) (c : List (K × K)) (hs : (c.map Prod.fst).Pairwise (· ≤ ·))
    (hc : Spec.Good R c) (last : K × K) (hlast : c.getLast? = some last) (rate : K) (h0 : 0 < rate) (h1 : rate ≤ 1) :
    ∃ (lo hi : K) (a a' b b' : Nat) (pa pb : K × K), lo = R.rnd (last.2 * R.rnd (1 / 2 - R.rnd (rate / 2))) ∧ hi = R.rnd (last.2 * R.rnd (1 / 2 + R.rnd (rate / 2))) ∧
      Spec.IsTray c lo a a' ∧ Spec.IsTray c hi b b' ∧
      c[a']? = some pa ∧ c[b]? = some pb ∧ machineCentered R c rate = .ok (pa.1, pb.1) ∧ ((∃ p ∈ c, lo ≤ p.2 ∧ p.2 < hi) → pa.1 ≤ pb.1) := by
  have hmem : last ∈ c := List.mem_of_getLast? hlast
  have r0 : 0 ≤ R.rnd (rate / 2) := R.nonneg (by linarith)
  have r1 : R.rnd (rate / 2) ≤ 1 / 2 := R.le_fix (by linarith) half
  have l0 : 0 ≤ R.rnd (1 / 2 - R.rnd (rate / 2)) := R.nonneg (by linarith)
  have l1 : R.rnd (1 / 2 - R.rnd (rate / 2)) ≤ 1 := R.le_fix (by linarith) (R.one half)
  have u0 : 0 ≤ R.rnd (1 / 2 + R.rnd (rate / 2)) := R.nonneg (by linarith)
  have u1 : R.rnd (1 / 2 + R.rnd (rate / 2)) ≤ 1 := R.le_fix (by linarith) (R.one half)
  obtain ⟨a, a', _, pa, ta, _, hpa, _, va, _⟩ := C121_findValue R c last hlast (hc.nonneg _ hmem) (hc.fix _ hmem) _ l0 l1
  obtain ⟨b, b', pb, _, tb, hpb, _, vb, _, _⟩ := C121_findValue R c last hlast (hc.nonneg _ hmem) (hc.fix _ hmem) _ u0 u1
  refine ⟨_, _, a, a', b, b', pa, pb, rfl, rfl, ta, tb, hpa, hpb, ?_, ?_⟩
  · rw [machineCentered, if_neg (by push Not; exact ⟨h1, h0⟩), va, vb]
    rfl
  · rintro ⟨p, hp, hp1, hp2⟩
    obtain ⟨hab, qa, hqa, hqv, hbef, hsame, _⟩ := ta
    obtain ⟨_, qb, hqb, hqbv, _, _, _⟩ := tb
    rw [hpb] at hqb
    cases hqb
    obtain ⟨i, hi, rfl⟩ := List.mem_iff_getElem.mp hp
    have mono : ∀ (i j : Nat) (p q : K × K), i ≤ j → c[i]? = some p → c[j]? = some q → p.2 ≤ q.2 ∧ p.1 ≤ q.1 := by
      intro i j p q hij hp hq
      exact ⟨sorted_get hc.order hij (by simp [hp]) (by simp [hq]), sorted_get hs hij (by simp [hp]) (by simp [hq])⟩
    have hai : a ≤ i := by
      by_contra hlt
      have := hbef i _ (by omega) (List.getElem?_eq_getElem hi)
      linarith
    have h2 := (mono a i _ _ hai hqa (List.getElem?_eq_getElem hi)).1
    obtain ⟨q, hq, hq2⟩ := hsame a' hab (le_refl _)
    rw [hpa] at hq
    cases hq
    have hle : a' ≤ b := by
      by_contra hlt
      have := (mono b a' _ _ (by omega) hpb hpa).1
      linarith
    exact (mono a' b _ _ hle hpa hpb).2

/-- **C121 (shortest interval).** The result are two samples, `a` before `b`, for which at least the rounded part of the total is counted, or the first and the last sample; and no
two samples for which as much is counted have a smaller distance, all in rounded arithmetic. -/
theorem C121_minimal_partial [IsStrictOrderedRing K] (R : Rounding K) (c : List (K × K)) (hn : 2 ≤ c.length) (hs : (c.map Prod.fst).Pairwise (· ≤ ·))
    (hc : Spec.Good R c) (last : K × K) (hlast : c.getLast? = some last) (rate : K) (h0 : 0 < rate) (h1 : rate ≤ 1) (hpos : 0 < R.rnd (rate * last.2)) :
    ∃ (a b : Nat) (pa pb : K × K), machineMinInterval R c rate = .ok (pa.1, pb.1) ∧ c[a]? = some pa ∧ c[b]? = some pb ∧ a < b ∧
      (R.rnd (rate * last.2) ≤ Spec.machineCounted R.rnd (c.map Prod.snd) a b ∨ a = 0 ∧ b + 1 = c.length) ∧
      ∀ (i k : Nat) p q, i < k → c[i]? = some p → c[k]? = some q → R.rnd (rate * last.2) ≤ Spec.machineCounted R.rnd (c.map Prod.snd) i k →
        R.rnd (pb.1 - pa.1) ≤ R.rnd (q.1 - p.1) := by
  have hget : ∀ (i : Nat) p, c[i]? = some p → (c.map Prod.snd).getD i 0 = p.2 := by
    intro i p hp
    rw [List.getD_eq_getElem?_getD, List.getElem?_map, hp]; rfl
  have hge : ∀ i, i < c.length → ∃ p, c[i]? = some p := fun i hi => ⟨_, List.getElem?_eq_getElem hi⟩
  have hmono : ∀ i j, i ≤ j → j < c.length → (c.map Prod.snd).getD i 0 ≤ (c.map Prod.snd).getD j 0 := by
    intro i j hij hj
    obtain ⟨p, hp⟩ := hge i (by omega)
    obtain ⟨q, hq⟩ := hge j hj
    rw [hget i p hp, hget j q hq]
    exact sorted_get hc.order hij (by simp [hp]) (by simp [hq])
  have hnn : ∀ i, i < c.length → 0 ≤ (c.map Prod.snd).getD i 0 := by
    intro i hi
    obtain ⟨p, hp⟩ := hge i hi
    rw [hget i p hp]
    exact hc.nonneg p (List.mem_of_getElem? hp)
  obtain ⟨p0, hp0⟩ := hge 0 (by omega)
  have hl := hlast
  rw [List.getLast?_eq_getElem?] at hl
  obtain ⟨a, b, pa, pb, g1, g2, g3, g4, g5, g6⟩ := machineMinLoop_spec R (R.rnd (rate * last.2)) c (Spec.machineCounted R.rnd (c.map Prod.snd))
    (fun a b => R.rnd (rate * last.2) ≤ Spec.machineCounted R.rnd (c.map Prod.snd) a b ∨ a = 0 ∧ b + 1 = c.length) hs (fun _ _ h => .inl h) (by
      intro i j hij hj
      have hi1 : i + 1 < c.length := by omega
      rw [Spec.machineCounted, if_neg (by omega), Spec.machineCounted]
      by_cases h : i = 0
      · rw [if_pos h]
        subst h
        rw [← R.idem]
        refine R.mono _ _ ?_
        have m1 := R.mono ((c.map Prod.snd).getD j 0 - (c.map Prod.snd).getD 1 0) ((c.map Prod.snd).getD j 0 - (c.map Prod.snd).getD 0 0)
          (by linarith [hmono 0 1 (by omega) hi1])
        have m2 := hnn 0 (by omega)
        exact m1.trans (by linarith)
      · rw [if_neg h]
        exact R.mono _ _ (by linarith [hmono i (i + 1) (by omega) hi1])) (by
      intro i j hi hji hj hi'
      rw [Spec.machineCounted, if_neg (by omega)]
      refine lt_of_le_of_lt ?_ hpos
      have := R.mono ((c.map Prod.snd).getD j 0 - (c.map Prod.snd).getD i 0) 0 (by linarith [hmono j i hji hi'])
      rwa [R.zero] at this) c.length 0 1 p0.2 p0.1 last.1 0 (c.length - 1) p0 last (by omega) (by omega) (by omega) (by
      intro k p q _ hp hq
      rw [Spec.machineCounted, if_pos rfl, hget 0 p hp, hget k q hq]
      rw [hp0] at hp
      cases hp
      rfl) (by
      intro i k p q hi hp hq
      rw [Spec.machineCounted, if_neg (by omega), hget i p hp, hget k q hq, add_zero, R.idem]) (by intro k h1 h2; omega) hp0 hl (by omega)
      (.inr ⟨rfl, by omega⟩) rfl rfl (by intro i'; omega)
  refine ⟨a, b, pa, pb, ?_, g1, g2, g3, g4, g6⟩
  rw [machineMinInterval.eq_def, if_neg (by push Not; exact ⟨h1, h0⟩)]
  obtain ⟨p, l, rfl⟩ : ∃ p l, c = p :: l := by
    cases c with
    | nil => simp at hn
    | cons p l => exact ⟨p, l, rfl⟩
  simp only [hlast]
  simp only [List.getElem?_cons_zero, Option.some.injEq] at hp0
  simp only [List.drop_zero, List.drop_succ_cons] at g5
  rw [hp0] at g5 ⊢
  rw [g5]

end

/-! ## Binary floating point -/

/-- **C121 (error of the sums).** With `p` bits the value of the sample `i` is the exact sum up to `i + 1` relative rounding errors. -/
theorem C121_sum_error (p : Nat) (hp : 1 ≤ p) (xs pdf : List ℚ) (hl : xs.length = pdf.length) (hpos : ∀ v ∈ pdf, 0 ≤ v) :
    ∃ c, machineFromPdf (Binary.rounding p hp) xs pdf = .ok c ∧ ∀ (i : Nat) q, c[i]? = some q →
      Spec.firstSum pdf (i + 1) * (1 - (1 / 2) ^ p) ^ (i + 1) ≤ q.2 ∧ q.2 ≤ Spec.firstSum pdf (i + 1) * (1 + (1 / 2) ^ p) ^ (i + 1) := by
  have hu0 : (0 : ℚ) ≤ (1 / 2) ^ p := by positivity
  have hu1 : ((1 : ℚ) / 2) ^ p ≤ 1 := pow_le_one₀ (by norm_num) (by norm_num)
  have key : ∀ (pdf : List ℚ) (s e : ℚ) (k : Nat), (∀ v ∈ pdf, 0 ≤ v) → 0 ≤ e → 0 ≤ s → e * (1 - (1 / 2) ^ p) ^ k ≤ s → s ≤ e * (1 + (1 / 2) ^ p) ^ k →
      ∀ (i : Nat) y, (machineSumLoop (Binary.rounding p hp) s pdf)[i]? = some y →
        (e + Spec.firstSum pdf (i + 1)) * (1 - (1 / 2) ^ p) ^ (k + i + 1) ≤ y ∧ y ≤ (e + Spec.firstSum pdf (i + 1)) * (1 + (1 / 2) ^ p) ^ (k + i + 1) := by
    intro pdf
    induction pdf with
    | nil => intro s e k _ _ _ _ _ i y hy; simp [machineSumLoop] at hy
    | cons v pdf ih =>
      intro s e k hv he hs0 h1 h2 i y hy
      have hv0 := hv v (List.mem_cons_self ..)
      have hlow : (e + v) * (1 - (1 / 2) ^ p) ^ (k + 1) ≤ Binary.rnd p (s + v) := by
        refine le_trans ?_ (Binary.rnd_ge p (by linarith))
        rw [pow_succ, ← mul_assoc]
        refine mul_le_mul_of_nonneg_right ?_ (by linarith)
        have : v * (1 - (1 / 2) ^ p) ^ k ≤ v := mul_le_of_le_one_right hv0 (pow_le_one₀ (by linarith) (by linarith))
        linarith
      have hup : Binary.rnd p (s + v) ≤ (e + v) * (1 + (1 / 2) ^ p) ^ (k + 1) := by
        refine le_trans (Binary.rnd_le p (by linarith)) ?_
        rw [pow_succ, ← mul_assoc]
        refine mul_le_mul_of_nonneg_right ?_ (by linarith)
        have : v ≤ v * (1 + (1 / 2) ^ p) ^ k := le_mul_of_one_le_right hv0 (one_le_pow₀ (by linarith))
        linarith
      cases i with
      | zero =>
        simp only [machineSumLoop, List.getElem?_cons_zero, Option.some.injEq] at hy
        subst hy
        have e1 : Spec.firstSum (v :: pdf) (0 + 1) = v := by simp [Spec.firstSum]
        rw [e1]
        exact ⟨hlow, hup⟩
      | succ i =>
        simp only [machineSumLoop, List.getElem?_cons_succ] at hy
        have := ih _ (e + v) (k + 1) (fun w hw => hv w (List.mem_cons_of_mem _ hw)) (by linarith) (Binary.rnd_nonneg hp (by linarith)) hlow hup i y hy
        have e1 : e + Spec.firstSum (v :: pdf) (i + 1 + 1) = e + v + Spec.firstSum pdf (i + 1) := by
          simp only [Spec.firstSum, List.take_succ_cons, List.sum_cons]
          ring
        rw [e1, show k + (i + 1) + 1 = k + 1 + i + 1 by omega]
        exact this
  refine ⟨xs.zip (machineSumLoop (Binary.rounding p hp) 0 pdf), ?_, ?_⟩
  · have := (machineSumLoop_spec (Binary.rounding p hp) pdf 0 (Rounding.zero _) hpos).1
    rw [machineFromPdf, mkCumulative, if_neg (by omega)]
  · intro i q hq
    have hq2 : (machineSumLoop (Binary.rounding p hp) 0 pdf)[i]? = some q.2 := by
      rw [List.getElem?_zip_eq_some] at hq
      exact hq.2
    have := key pdf 0 0 0 hpos (le_refl _) (le_refl _) (by simp) (by simp) i q.2 hq2
    simpa using this

/-- The full statement: normalising changes no result of `findValue`, for `double`. -/
def C121_normalize_full : Prop :=
  ∀ (c c' : List (ℚ × ℚ)) (last : ℚ × ℚ), (∀ p ∈ c, Binary.Rep 53 p.1 ∧ Binary.Rep 53 p.2) → Spec.Good (Binary.rounding 53 (by decide)) c → c.getLast? = some last → 0 < last.2 →
    machineNormalize (Binary.rounding 53 (by decide)) c = .ok c' →
    ∀ ratio, Binary.Rep 53 ratio → machineFindValue (Binary.rounding 53 (by decide)) c' ratio .begin = machineFindValue (Binary.rounding 53 (by decide)) c ratio .begin

/-- The double next to 0.28. -/
def ratio28 : ℚ := 1261007895663739 / 4503599627370496

/-- **C121 (violated).** With the sums 7 and 25 the value for the ratio 0.28 is the second sample, because 25 * 0.28 is rounded up; after normalising it is the first one. -/
theorem C121_normalize_violated : ¬ C121_normalize_full := by
  intro h
  have e : machineNormalize (Binary.rounding 53 (by decide)) [((0 : ℚ), 7), (1, 25)] = .ok [(0, ratio28), (1, 1)] := by decide +kernel
  have := h [(0, 7), (1, 25)] _ (1, 25) (by
    intro p hp
    simp only [List.mem_cons, List.not_mem_nil, or_false] at hp
    rcases hp with rfl | rfl
    · exact ⟨⟨0, 0, by decide, by norm_num⟩, ⟨7, 0, by decide, by norm_num⟩⟩
    · exact ⟨⟨1, 0, by decide, by norm_num⟩, ⟨25, 0, by decide, by norm_num⟩⟩) ⟨by decide +kernel, by decide +kernel, by decide +kernel⟩ rfl (by norm_num) e ratio28
    ⟨1261007895663739, -52, by decide, by norm_num [ratio28]⟩
  revert this
  decide +kernel

/-- Ten samples of the weight 0.1 as `double`: the last sum is less than 1, as is well known; normalising repairs it. -/
example : (match machineFromPdf (Binary.rounding 53 (by decide)) (List.replicate 10 0) (List.replicate 10 (3602879701896397 / 36028797018963968)) with
    | .ok c => c.getLast?.map Prod.snd | _ => none) = some (9007199254740991 / 9007199254740992) := by decide +kernel

example := C121_fromPdf (Binary.rounding 53 (by decide)) [0, 1] [1 / 3, 2 / 3] rfl (by decide +kernel)

/-- The hypotheses of the theorems about searches. -/
example : Spec.Good (Binary.rounding 53 (by decide)) [((0 : ℚ), 7), (1, 25)] ∧ 0 < (Binary.rounding 53 (by decide)).rnd (1 / 2 * 25) ∧
    machineMinInterval (Binary.rounding 53 (by decide)) [((0 : ℚ), 7), (1, 25), (3, 32)] (1 / 2) = .ok (0, 1) ∧
    machineCentered (Binary.rounding 53 (by decide)) [((0 : ℚ), 7), (1, 25), (3, 32)] (1 / 2) = .ok (1, 1) :=
  ⟨⟨by decide +kernel, by decide +kernel, by decide +kernel⟩, by decide +kernel, by decide +kernel, by decide +kernel⟩

end Alexandria.MathUtils
