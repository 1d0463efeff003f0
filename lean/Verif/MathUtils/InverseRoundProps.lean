import Verif.MathUtils.InverseRoundModel
import Verif.MathUtils.InverseProps
import Verif.MathUtils.CumulativeRoundProps

/-! # Inverse cumulatives with rounded arithmetic (C122) -/

namespace Alexandria.MathUtils

section
variable {K : Type} [Field K] [LinearOrder K] [IsStrictOrderedRing K]

/-! ## Lemmas -/

theorem machineCdfLoop_ok (R : Rounding K) (xs ps : List K) : ∀ (x0 p0 c0 : K), xs.length = ps.length → (x0 :: xs).Pairwise (· ≤ ·) → (∀ v ∈ p0 :: ps, 0 ≤ v) → R.rnd c0 = c0 →
    ∃ r, machineCdfLoop R x0 p0 c0 xs ps = .ok r ∧ r.length = xs.length ∧ (c0 :: r).Pairwise (· ≤ ·) ∧ ∀ v ∈ c0 :: r, R.rnd v = v := by
  induction xs generalizing ps with
  | nil =>
    intro x0 p0 c0 hl _ _ hc
    cases ps with
    | nil => exact ⟨[], rfl, rfl, by simp, by simpa using hc⟩
    | cons => cases hl
  | cons x1 xs ih =>
    intro x0 p0 c0 hl hs hpos hc
    cases ps with
    | nil => cases hl
    | cons p1 ps =>
      have hp0 := hpos p0 (by simp)
      have hp1 := hpos p1 (by simp)
      have hx : x0 ≤ x1 := (List.pairwise_cons.mp hs).1 x1 (by simp)
      have hstep : c0 ≤ R.rnd (R.rnd (R.rnd (R.rnd (x1 - x0) * R.rnd (p1 + p0)) / 2) + c0) := by
        refine R.fix_le ?_ hc
        have : 0 ≤ R.rnd (R.rnd (R.rnd (x1 - x0) * R.rnd (p1 + p0)) / 2) :=
          R.nonneg (div_nonneg (R.nonneg (mul_nonneg (R.nonneg (by linarith)) (R.nonneg (by linarith)))) (by norm_num))
        linarith
      obtain ⟨r, h1, h2, h3, h4⟩ := ih ps x1 p1 (R.rnd (R.rnd (R.rnd (R.rnd (x1 - x0) * R.rnd (p1 + p0)) / 2) + c0)) (by simpa using hl) (List.pairwise_cons.mp hs).2
        (fun v hv => hpos v (List.mem_cons_of_mem _ hv)) (R.idem _)
      refine ⟨R.rnd (R.rnd (R.rnd (R.rnd (x1 - x0) * R.rnd (p1 + p0)) / 2) + c0) :: r, ?_, by simp [h2], ?_, ?_⟩
      · rw [machineCdfLoop]
        simp only [h1, Outcome.bind_ok, Outcome.pure_eq]
      · refine List.pairwise_cons.mpr ⟨?_, h3⟩
        intro v hv
        rcases List.mem_cons.mp hv with rfl | hv
        · exact hstep
        · exact hstep.trans ((List.pairwise_cons.mp h3).1 v hv)
      · intro v hv
        rcases List.mem_cons.mp hv with rfl | hv
        · exact hc
        · exact h4 v hv

/-- What the constructor makes of sorted knots and as many densities that are not negative. -/
theorem machineInverse_ok (R : Rounding K) (knots pdf : List K) (hl : knots.length = pdf.length) (hne : pdf ≠ []) (hs : knots.Pairwise (· ≤ ·))
    (hpos : ∀ v ∈ pdf, 0 ≤ v) (hfix : ∀ v ∈ pdf, R.rnd v = v) :
    ∃ (cdf : List K) (m : Nat), cdf.length = pdf.length ∧ cdf[0]? = pdf[0]? ∧ cdf.Pairwise (· ≤ ·) ∧ (∀ v ∈ cdf, R.rnd v = v) ∧ 0 < m ∧ m ≤ pdf.length ∧
      machineInverse R knots pdf = .ok ⟨knots.take m, pdf, cdf.take m⟩ := by
  cases pdf with
  | nil => exact absurd rfl hne
  | cons p0 ps =>
    cases knots with
    | nil => cases hl
    | cons x0 xs =>
      have hl' : xs.length = ps.length := by simpa using hl
      obtain ⟨r, h1, h2, h3, h4⟩ := machineCdfLoop_ok R xs ps x0 p0 p0 hl' hs hpos (hfix p0 (by simp))
      have hcl : (p0 :: r).length = (p0 :: ps).length := by simp [h2, hl']
      have ht := trailing_spec (p0 :: r).reverse (by simp)
      rw [List.length_reverse, hcl] at ht
      refine ⟨p0 :: r, (p0 :: ps).length - trailing (p0 :: r).reverse, hcl, rfl, h3, h4, by omega, by omega, ?_⟩
      rw [machineInverse, if_neg (by simp [(knotsOk_iff _).mpr hs])]
      simp only
      simp only [h1, Outcome.bind_ok, Outcome.pure_eq]
      rw [hl, hcl]

theorem machineSumLoop_ge (R : Rounding K) (ps : List K) : ∀ s, 0 ≤ s → R.rnd s = s → (∀ v ∈ ps, 0 ≤ v) → (∀ v ∈ ps, R.rnd v = v) →
    ∀ v ∈ ps, ∃ w ∈ machineSumLoop R s ps, v ≤ w := by
  induction ps with
  | nil => intro s _ _ _ _ v hv; cases hv
  | cons a ps ih =>
    intro s h0 hs hpos hfix v hv
    rw [machineSumLoop]
    rcases List.mem_cons.mp hv with rfl | hv
    · exact ⟨_, List.mem_cons_self .., R.fix_le (by linarith) (hfix v (List.mem_cons_self ..))⟩
    · obtain ⟨w, hw, hvw⟩ := ih (R.rnd (s + a)) (R.nonneg (by linarith [hpos a (List.mem_cons_self ..)])) (R.idem _) (fun v hv => hpos v (List.mem_cons_of_mem _ hv))
        (fun v hv => hfix v (List.mem_cons_of_mem _ hv)) v hv
      exact ⟨w, List.mem_cons_of_mem _ hw, hvw⟩

/-! ## Theorems -/

/-- **C122 (discrete).** The last value of the rounded cumulative is 1, so that every `p` in `[0, 1]` gives one of the knots: the first whose rounded cumulative reaches `p`. -/
theorem C122_discrete {D : Type} (R : Rounding K) (half : R.rnd (1 / 2) = 1 / 2) (knots : List D) (pdf : List K) (hl : knots.length = pdf.length)
    (hpos : ∀ v ∈ pdf, 0 ≤ v) (hfix : ∀ v ∈ pdf, R.rnd v = v) (hsome : ∃ v ∈ pdf, 0 < v) :
    ∃ cdf, machineDiscrete R pdf = .ok cdf ∧ cdf.length = pdf.length ∧ cdf.Pairwise (· ≤ ·) ∧ cdf.getLast? = some 1 ∧
      ∀ p, 0 ≤ p → p ≤ 1 → ∃ (i : Nat) (d : D) (c : K), discreteCall knots cdf p = .ok d ∧ knots[i]? = some d ∧ cdf[i]? = some c ∧ p ≤ c ∧ ∀ (j : Nat) c', j < i → cdf[j]? = some c' → c' < p := by
  cases pdf with
  | nil => obtain ⟨v, hv, _⟩ := hsome; cases hv
  | cons p0 ps =>
    obtain ⟨h1, h2, h3⟩ := machineSumLoop_spec R ps p0 (hfix p0 (by simp)) (fun v hv => hpos v (List.mem_cons_of_mem _ hv))
    have hsort : (p0 :: machineSumLoop R p0 ps).Pairwise (· ≤ ·) := List.pairwise_cons.mpr ⟨fun v hv => (h3 v hv).1, h2⟩
    have hbig : ∃ w ∈ p0 :: machineSumLoop R p0 ps, 0 < w := by
      obtain ⟨v, hv, hv0⟩ := hsome
      rcases List.mem_cons.mp hv with rfl | hv
      · exact ⟨v, List.mem_cons_self .., hv0⟩
      · obtain ⟨w, hw, hvw⟩ := machineSumLoop_ge R ps p0 (hpos p0 (by simp)) (hfix p0 (by simp)) (fun v hv => hpos v (List.mem_cons_of_mem _ hv))
          (fun v hv => hfix v (List.mem_cons_of_mem _ hv)) v hv
        exact ⟨w, List.mem_cons_of_mem _ hw, by linarith⟩
    have hslen : (p0 :: machineSumLoop R p0 ps).length = ps.length + 1 := by simp [h1]
    have hok : machineDiscrete R (p0 :: ps) = (if (p0 :: machineSumLoop R p0 ps).getLastD 0 = 0 then .throw .notFinite
      else .ok ((p0 :: machineSumLoop R p0 ps).map fun v => R.rnd (v / (p0 :: machineSumLoop R p0 ps).getLastD 0))) := rfl
    rw [hok]
    generalize p0 :: machineSumLoop R p0 ps = s at hsort hbig hslen
    have hl1 : s[s.length - 1]? = some (s.getLastD 0) := by
      rw [List.getLastD_eq_getLast?, List.getLast?_eq_getElem?, List.getElem?_eq_getElem (by omega)]
      rfl
    have hlast : 0 < s.getLastD 0 := by
      obtain ⟨w, hw, hw0⟩ := hbig
      obtain ⟨i, hi, rfl⟩ := List.mem_iff_getElem.mp hw
      exact lt_of_lt_of_le hw0 (sorted_get hsort (show i ≤ s.length - 1 by omega) (List.getElem?_eq_getElem hi) hl1)
    generalize s.getLastD 0 = t at hl1 hlast
    have hcl : (s.map fun v => R.rnd (v / t))[s.length - 1]? = some 1 := by
      rw [List.getElem?_map, hl1, Option.map_some, div_self hlast.ne', R.one half]
    refine ⟨s.map fun v => R.rnd (v / t), by rw [if_neg hlast.ne'], by simp [hslen], ?_, ?_, ?_⟩
    · exact List.Pairwise.map _ (fun a b hab => R.mono _ _ ((div_le_div_iff_of_pos_right hlast).mpr hab)) hsort
    · rw [List.getLast?_eq_getElem?, List.length_map, hcl]
    · intro p hp0 hp1
      generalize hc : (s.map fun v => R.rnd (v / t)) = cdf at hcl
      have hlen : cdf.length = s.length := by rw [← hc, List.length_map]
      obtain ⟨t1, t2, t3⟩ := takeWhile_length_spec (fun v => decide (v < p)) cdf
      have hlt : (cdf.takeWhile fun v => decide (v < p)).length < cdf.length := by
        by_contra hge
        have := t1 (s.length - 1) 1 (by omega) hcl
        simp only [decide_eq_true_eq] at this
        linarith
      have hk : (cdf.takeWhile fun v => decide (v < p)).length < knots.length := by
        rw [hl, List.length_cons]; omega
      refine ⟨(cdf.takeWhile fun v => decide (v < p)).length, knots[(cdf.takeWhile fun v => decide (v < p)).length], cdf[(cdf.takeWhile fun v => decide (v < p)).length], ?_,
        List.getElem?_eq_getElem hk, List.getElem?_eq_getElem hlt, ?_, ?_⟩
      · rw [discreteCall, if_neg (by push Not; exact ⟨hp0, hp1⟩), List.getElem?_eq_getElem hk]
      · have := t2 _ (List.getElem?_eq_getElem hlt)
        simpa using this
      · intro j c' hj hc'
        have := t1 j c' hj hc'
        simpa using this

/-- **C122 (continuous).** For sorted knots and densities that are not negative, all operations rounded (positive numbers to positive ones): the constructor succeeds, the probability 0 gives the first knot, and for
every probability in `[0, 1]` the result is a knot or that of a segment in which the rounded cumulative passes the rounded part of the total. No element past the end is read. If
the density is the same at both ends of the segment, then the result lies between its ends, up to the rounding of the length. -/
theorem C122_continuous_partial (R : Rounding K) (half : R.rnd (1 / 2) = 1 / 2) (rpos : ∀ x, 0 < x → 0 < R.rnd x) (sqrt : K → K) (knots pdf : List K) (hl : knots.length = pdf.length) (hne : pdf ≠ []) (hs : knots.Pairwise (· ≤ ·))
    (hrk : ∀ x ∈ knots, R.rnd x = x) (hpos : ∀ v ∈ pdf, 0 ≤ v) (hrep : ∀ v ∈ pdf, R.rnd v = v) :
    ∃ I, machineInverse R knots pdf = .ok I ∧ machineInverseCall R sqrt I 0 = .ok (knots.headD 0) ∧
      ∀ q, 0 ≤ q → q ≤ 1 → (∃ k ∈ knots, machineInverseCall R sqrt I q = .ok k) ∨
        ∃ (i : Nat) (u x0 x1 c0 c1 p0 p1 : K), knots[i]? = some x0 ∧ knots[i + 1]? = some x1 ∧ pdf[i]? = some p0 ∧ pdf[i + 1]? = some p1 ∧ I.cdf[i]? = some c0 ∧ I.cdf[i + 1]? = some c1 ∧
          c0 ≤ u ∧ u < c1 ∧ u = R.rnd (R.rnd (q * R.rnd (I.cdf.getLastD 0 - I.cdf.headD 0)) + I.cdf.headD 0) ∧
          machineInverseCall R sqrt I q = machineSegment R sqrt u x0 x1 c0 c1 p0 p1 ∧
          (p0 = p1 → ∃ r, machineInverseCall R sqrt I q = .ok r ∧ x0 ≤ r ∧ r ≤ R.rnd (R.rnd (x1 - x0) + x0)) := by
  obtain ⟨cdf, m, h1, h2, h3, h4, h5, h6, hI⟩ := machineInverse_ok R knots pdf hl hne hs hpos hrep
  refine ⟨_, hI, ?_⟩
  have e0 : (cdf.take m).head? = some (cdf.headD 0) := by
    cases cdf with
    | nil => simp at h1; omega
    | cons c cs => cases m with
      | zero => omega
      | succ m => rfl
  have e0' : (cdf.take m).headD 0 = cdf.headD 0 := by rw [List.headD_eq_head?_getD, e0]; rfl
  have e1 : (cdf.take m).getLast? = some ((cdf.take m).getLastD 0) := by
    rw [List.getLastD_eq_getLast?, List.getLast?_eq_getElem?, List.getElem?_eq_getElem (by simp; omega)]
    rfl
  have e2 : (knots.take m).head? = some (knots.headD 0) := by
    cases knots with
    | nil => simp at hl; omega
    | cons c cs => cases m with
      | zero => omega
      | succ m => rfl
  have e3 : (knots.take m).getLast? = some ((knots.take m).getLastD 0) := by
    rw [List.getLastD_eq_getLast?, List.getLast?_eq_getElem?, List.getElem?_eq_getElem (by simp; omega)]
    rfl
  have hmem0 : knots.headD 0 ∈ knots := List.take_subset m _ (List.mem_of_head? e2)
  have hmeml : (knots.take m).getLastD 0 ∈ knots := List.take_subset m _ (List.mem_of_getLast? e3)
  have hfix0 : R.rnd (cdf.headD 0) = cdf.headD 0 := h4 _ (List.take_subset m _ (List.mem_of_head? e0))
  constructor
  · rw [machineInverseCall, if_neg (by norm_num)]
    simp only [e0, e1, e2, e3]
    rw [if_pos]
    show R.rnd (R.rnd (0 * _) + cdf.headD 0) ≤ _
    rw [zero_mul, R.zero, zero_add, hfix0]
  · intro q hq0 hq1
    have hcall : machineInverseCall R sqrt ⟨knots.take m, pdf, cdf.take m⟩ q =
        (if R.rnd (R.rnd (q * R.rnd ((cdf.take m).getLastD 0 - cdf.headD 0)) + cdf.headD 0) ≤ cdf.headD 0 then .ok (knots.headD 0)
        else if R.rnd (R.rnd (q * R.rnd ((cdf.take m).getLastD 0 - cdf.headD 0)) + cdf.headD 0) ≥ (cdf.take m).getLastD 0 then .ok ((knots.take m).getLastD 0)
        else
          let i := ((cdf.take m).takeWhile (· ≤ R.rnd (R.rnd (q * R.rnd ((cdf.take m).getLastD 0 - cdf.headD 0)) + cdf.headD 0))).length - 1
          match (knots.take m)[i]?, (knots.take m)[i + 1]?, (cdf.take m)[i]?, (cdf.take m)[i + 1]?, pdf[i]?, pdf[i + 1]? with
          | some x0, some x1, some cdf0, some cdf1, some p0, some p1 =>
            machineSegment R sqrt (R.rnd (R.rnd (q * R.rnd ((cdf.take m).getLastD 0 - cdf.headD 0)) + cdf.headD 0)) x0 x1 cdf0 cdf1 p0 p1
          | _, _, _, _, _, _ => .ub) := by
      rw [machineInverseCall, if_neg (by push Not; exact ⟨hq0, hq1⟩)]
      simp only [e0, e1, e2, e3]
      rfl
    rw [e0']
    generalize hu : R.rnd (R.rnd (q * R.rnd ((cdf.take m).getLastD 0 - cdf.headD 0)) + cdf.headD 0) = u at hcall
    have hufix : R.rnd u = u := by rw [← hu]; exact R.idem _
    by_cases hlo : u ≤ cdf.headD 0
    · rw [if_pos hlo] at hcall
      exact .inl ⟨_, hmem0, hcall⟩
    rw [if_neg hlo] at hcall
    by_cases hhi : u ≥ (cdf.take m).getLastD 0
    · rw [if_pos hhi] at hcall
      exact .inl ⟨_, hmeml, hcall⟩
    rw [if_neg hhi] at hcall
    right
    obtain ⟨t1, t2, t3⟩ := takeWhile_length_spec (fun v => decide (v ≤ u)) (cdf.take m)
    have hlen : (cdf.take m).length = m := by rw [List.length_take]; omega
    have hpos' : 0 < ((cdf.take m).takeWhile fun v => decide (v ≤ u)).length := by
      by_contra hc
      have hz : ((cdf.take m).takeWhile fun v => decide (v ≤ u)).length = 0 := by omega
      rw [hz] at t2
      have := t2 (cdf.headD 0) (by rw [← List.head?_eq_getElem?, e0])
      simp only [decide_eq_false_iff_not, not_le] at this
      exact hlo this.le
    have hlt : ((cdf.take m).takeWhile fun v => decide (v ≤ u)).length < m := by
      by_contra hc
      have := t1 (m - 1) ((cdf.take m).getLastD 0) (by omega) (by rw [← e1, List.getLast?_eq_getElem?, hlen])
      simp only [decide_eq_true_eq] at this
      exact hhi this
    obtain ⟨i, hi⟩ : ∃ i, ((cdf.take m).takeWhile fun v => decide (v ≤ u)).length = i + 1 := ⟨_, (Nat.succ_pred_eq_of_pos hpos').symm⟩
    rw [hi] at hlt t1 t2
    simp only [hi, Nat.add_sub_cancel] at hcall
    have k0 : i < knots.length := by omega
    have k1 : i + 1 < knots.length := by omega
    have c0 : i < cdf.length := by omega
    have c1 : i + 1 < cdf.length := by omega
    have tk0 : (knots.take m)[i]? = some knots[i] := by rw [List.getElem?_take_of_lt (by omega), List.getElem?_eq_getElem k0]
    have tk1 : (knots.take m)[i + 1]? = some knots[i + 1] := by rw [List.getElem?_take_of_lt (by omega), List.getElem?_eq_getElem k1]
    have tc0 : (cdf.take m)[i]? = some cdf[i] := by rw [List.getElem?_take_of_lt (by omega), List.getElem?_eq_getElem c0]
    have tc1 : (cdf.take m)[i + 1]? = some cdf[i + 1] := by rw [List.getElem?_take_of_lt (by omega), List.getElem?_eq_getElem c1]
    have tp0 : pdf[i]? = some (pdf[i]'(by omega)) := List.getElem?_eq_getElem _
    have tp1 : pdf[i + 1]? = some (pdf[i + 1]'(by omega)) := List.getElem?_eq_getElem _
    simp only [tk0, tk1, tc0, tc1, tp0, tp1] at hcall
    have hc0 : cdf[i] ≤ u := by
      have := t1 i _ (by omega) tc0
      simpa using this
    have hc1 : u < cdf[i + 1] := by
      have := t2 _ tc1
      simpa using this
    refine ⟨i, u, knots[i], knots[i + 1], cdf[i], cdf[i + 1], _, _, List.getElem?_eq_getElem k0, List.getElem?_eq_getElem k1, tp0, tp1, tc0, tc1, hc0, hc1, rfl, hcall, ?_⟩
    intro heq
    have hx : knots[i] ≤ knots[i + 1] := sorted_get hs (Nat.le_succ i) (List.getElem?_eq_getElem k0) (List.getElem?_eq_getElem k1)
    have hden : 0 < R.rnd (cdf[i + 1] - cdf[i]) := rpos _ (by linarith)
    refine ⟨R.rnd (R.rnd (R.rnd (knots[i + 1] - knots[i]) * R.rnd (R.rnd (u - cdf[i]) / R.rnd (cdf[i + 1] - cdf[i]))) + knots[i]), ?_, ?_, ?_⟩
    · rw [hcall, machineSegment, if_pos heq, div?]
      show (if R.rnd (cdf[i + 1] - cdf[i]) = 0 then _ else _) >>= _ = _
      rw [if_neg hden.ne']
      rfl
    all_goals
      have q0 : 0 ≤ R.rnd (R.rnd (u - cdf[i]) / R.rnd (cdf[i + 1] - cdf[i])) :=
        R.nonneg (div_nonneg (R.nonneg (by linarith)) hden.le)
      have q1 : R.rnd (R.rnd (u - cdf[i]) / R.rnd (cdf[i + 1] - cdf[i])) ≤ 1 := by
        have := R.le_fix (x := R.rnd (u - cdf[i]) / R.rnd (cdf[i + 1] - cdf[i])) (y := 1)
          ((div_le_one hden).mpr (R.mono _ _ (by linarith))) (R.one half)
        exact this
      have d0 : 0 ≤ R.rnd (knots[i + 1] - knots[i]) := R.nonneg (by linarith)
    · have hxf : R.rnd knots[i] = knots[i] := hrk _ (List.getElem_mem k0)
      have := R.fix_le (x := knots[i]) (y := R.rnd (R.rnd (knots[i + 1] - knots[i]) * R.rnd (R.rnd (u - cdf[i]) / R.rnd (cdf[i + 1] - cdf[i]))) + knots[i])
        (by have := R.nonneg (mul_nonneg d0 q0); linarith) hxf
      exact this
    · refine R.mono _ _ ?_
      have h := R.le_fix (x := R.rnd (knots[i + 1] - knots[i]) * R.rnd (R.rnd (u - cdf[i]) / R.rnd (cdf[i + 1] - cdf[i])))
        (y := R.rnd (knots[i + 1] - knots[i])) (mul_le_of_le_one_right d0 q1) (R.idem _)
      have h' : R.rnd (R.rnd (knots[i + 1] - knots[i]) * R.rnd (R.rnd (u - cdf[i]) / R.rnd (cdf[i + 1] - cdf[i]))) ≤ R.rnd (knots[i + 1] - knots[i]) := h
      linarith

end

/-- The full statement for `double` and a rounded square root: the result lies between the first and the last knot, up to the tolerance of the code. -/
def C122_full (sqrt : ℚ → ℚ) : Prop :=
  ∀ (knots pdf : List ℚ) (first last q : ℚ), knots.length = pdf.length → knots.head? = some first → knots.getLast? = some last → knots.Pairwise (· ≤ ·) → (∀ v ∈ pdf, 0 ≤ v) →
    (∀ x ∈ knots, Binary.Rep 53 x) → (∀ v ∈ pdf, Binary.Rep 53 v) → Binary.Rep 53 q → 0 ≤ q → q ≤ 1 →
    ∃ I r, machineInverse (Binary.rounding 53 (by decide)) knots pdf = .ok I ∧ machineInverseCall (Binary.rounding 53 (by decide)) sqrt I q = .ok r ∧
      first - tol ≤ r ∧ r ≤ last + tol

/-- **C122 (violated).** For the density that rises from 1 to 2 between the knots 100000000 and 100000001, a quarter of the area is found at 99999999: the numbers under the root
cancel each other. -/
theorem C122_violated (sqrt : ℚ → ℚ) (h0 : sqrt 0 = 0) : ¬ C122_full sqrt := by
  intro h
  obtain ⟨I, r, h1, h2, h3, -⟩ := h [100000000, 100000001] [1, 2] 100000000 100000001 (1 / 4) rfl rfl rfl (by decide +kernel) (by decide +kernel) (by
      intro x hx
      simp only [List.mem_cons, List.not_mem_nil, or_false] at hx
      rcases hx with rfl | rfl
      · exact ⟨100000000, 0, by decide, by norm_num⟩
      · exact ⟨100000001, 0, by decide, by norm_num⟩) (by
      intro x hx
      simp only [List.mem_cons, List.not_mem_nil, or_false] at hx
      rcases hx with rfl | rfl
      · exact ⟨1, 0, by decide, by norm_num⟩
      · exact ⟨2, 0, by decide, by norm_num⟩) ⟨1, -2, by decide, by norm_num⟩ (by norm_num) (by norm_num)
  have e1 : machineInverse (Binary.rounding 53 (by decide)) [100000000, 100000001] [1, 2] = .ok ⟨[(100000000 : ℚ), 100000001], [1, 2], [1, 5 / 2]⟩ := by decide +kernel
  rw [e1] at h1
  cases h1
  have f0 : (Binary.rounding 53 (by decide)).rnd (3 / 2) = 3 / 2 := by decide +kernel
  have f1 : (Binary.rounding 53 (by decide)).rnd (3 / 8) = 3 / 8 := by decide +kernel
  have f2 : (Binary.rounding 53 (by decide)).rnd (11 / 8) = 11 / 8 := by decide +kernel
  have f3 : (Binary.rounding 53 (by decide)).rnd (1) = 1 := by decide +kernel
  have f4 : (Binary.rounding 53 (by decide)).rnd (100000000) = 100000000 := by decide +kernel
  have f5 : (Binary.rounding 53 (by decide)).rnd (-99999999) = -99999999 := by decide +kernel
  have f6 : (Binary.rounding 53 (by decide)).rnd (1 / 2) = 1 / 2 := by decide +kernel
  have f7 : (Binary.rounding 53 (by decide)).rnd (10000000000000000) = 10000000000000000 := by decide +kernel
  have f8 : (Binary.rounding 53 (by decide)).rnd (5000000000000000) = 5000000000000000 := by decide +kernel
  have f9 : (Binary.rounding 53 (by decide)).rnd (-4999999999999999) = -4999999999999999 := by decide +kernel
  have f10 : (Binary.rounding 53 (by decide)).rnd (-9999999900000000) = -9999999900000000 := by decide +kernel
  have f11 : (Binary.rounding 53 (by decide)).rnd (4999999900000001) = 4999999900000001 := by decide +kernel
  have f12 : (Binary.rounding 53 (by decide)).rnd (-(39999999199999997 / 8)) = -4999999900000000 := by decide +kernel
  have f13 : (Binary.rounding 53 (by decide)).rnd (-9999999800000000) = -9999999800000000 := by decide +kernel
  have f14 : (Binary.rounding 53 (by decide)).rnd (9999999800000001) = 9999999800000000 := by decide +kernel
  have f15 : (Binary.rounding 53 (by decide)).rnd (0) = 0 := by decide +kernel
  have f16 : (Binary.rounding 53 (by decide)).rnd (99999999) = 99999999 := by decide +kernel
  have e2 : machineInverseCall (Binary.rounding 53 (by decide)) sqrt ⟨[(100000000 : ℚ), 100000001], [1, 2], [1, 5 / 2]⟩ (1 / 4) = .ok 99999999 := by
    norm_num [machineInverseCall, machineSegment, machineSolve, div?, List.takeWhile_cons, h0, f0, f1, f2, f3, f4, f5, f6, f7, f8, f9, f10, f11, f12, f13, f14, f15, f16]
  rw [e2] at h2
  cases h2
  unfold tol at h3
  norm_num at h3

example := C122_continuous_partial (Binary.rounding 53 (by decide)) (Binary.rounding_half 53 (by decide)) (fun x hx => by
    show 0 < Binary.rnd 53 x
    rw [Binary.rnd_of_pos hx]; exact Binary.rndPos_pos (by decide) hx) id [0, 1, 3] [1, 1, 0] rfl (by simp) (by decide +kernel) (by decide +kernel) (by decide +kernel) (by decide +kernel)

example := C122_discrete (Binary.rounding 53 (by decide)) (Binary.rounding_half 53 (by decide)) ["a", "b", "c"] [1, 3, 0] rfl (by decide +kernel) (by decide +kernel) ⟨3, by simp, by norm_num⟩

end Alexandria.MathUtils
