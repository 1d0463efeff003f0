import Verif.NotANumber.Agree
import Mathlib.Algebra.Field.Rat

/-!
# C154: NaN among the arguments
-/

namespace Alexandria.NotANumber

variable {K : Type} [Field K] [LinearOrder K]

/-! ## Functions -/

theorem takeWhile_all {A : Type} (p : A → Bool) (l : List A) (h : ∀ a ∈ l, p a = true) : l.takeWhile p = l := by
  induction l with
  | nil => rfl
  | cons a l ih => rw [List.takeWhile_cons, h a (by simp), if_pos rfl, ih (fun b hb => h b (by simp [hb]))]

theorem polyLoop_nan (x : Num K) (c : List K) (p : Num K) : polyLoop x c .nan p = .nan := by
  induction c generalizing p with
  | nil => rfl
  | cons c cs ih => rw [polyLoop, nan_add, ih]

/-- **C154**: a polynomial that depends on its argument gives NaN for NaN. -/
theorem C154_polynomial (c₀ c₁ : K) (cs : List K) : polyEval (c₀ :: c₁ :: cs) .nan = .nan := by
  rw [polyEval, polyLoop, polyLoop, mul_nan, mul_nan, add_nan, polyLoop_nan]

example : polyEval [1, (2 : ℚ)] .nan = .nan := C154_polynomial 1 2 []

/-- A constant does not depend on it. -/
example : polyEval [(3 : ℚ)] .nan = .val 3 := by decide +kernel

/-- **C154**: a piecewise function, and so every interpolation, is undefined at NaN: the piece with the index `-1` is called. -/
theorem C154_piecewise (ks : List K) (fs : List (List K)) : piecewiseEval ks fs .nan = .ub := by
  cases ks with
  | nil => rfl
  | cons k ks =>
    have : pieceIndex (k :: ks) .nan = .ub := by simp [pieceIndex]
    rw [piecewiseEval, this]

example : piecewiseEval [0, 1, (2 : ℚ)] [[1], [0, 1]] .nan = .ub := C154_piecewise _ _

/-- **C154**: the integral of a piecewise function from NaN is zero. -/
theorem C154_integrate_from (ks : List K) (fs : List (List K)) (b : Num K) (hlen : ks.length = fs.length + 1) :
    piecewiseIntegrate ks fs .nan b = .ok (.val 0) := by
  have loop : ∀ (fs : List (List K)) (ks : List K) (mx : Num K), ks.length = fs.length + 1 → integLoop .nan mx fs.length ks fs = .ok (.val 0) := by
    intro fs
    induction fs with
    | nil =>
      intro ks mx h
      obtain ⟨k, rfl⟩ := List.length_eq_one_iff.mp h
      rfl
    | cons f fs ih =>
      intro ks mx h
      cases ks with
      | nil => simp at h
      | cons k ks => rw [List.length_cons, integLoop]; exact ih ks mx (by simpa using h)
  have ht : (ks.takeWhile fun k => !(Num.nan.lt (.val k))).length - 1 = fs.length := by
    rw [takeWhile_all _ ks (by simp), hlen]
    simp
  rw [piecewiseIntegrate, nan_eq, if_neg (by simp)]
  simp only [lt_nan, Bool.false_eq_true, if_false]
  rw [ht, loop fs ks b hlen]
  simp

example : piecewiseIntegrate [0, 1, (2 : ℚ)] [[1], [2]] .nan (.val 2) = .ok (.val 0) := C154_integrate_from _ _ _ rfl

theorem integLoop_to (mn : K) (p : Nat) (ks : List K) (fs : List (List K)) (back : K) (hs : ks.Pairwise (· < ·))
    (hb : ks.getLast? = some back) : integLoop (.val mn) .nan p ks fs = integLoop (.val mn) (.val back) p ks fs := by
  induction fs generalizing p ks with
  | nil =>
    cases p with
    | succ p => simp [integLoop]
    | zero => rcases ks with _ | ⟨k, _ | ⟨l, ks⟩⟩ <;> simp [integLoop]
  | cons f fs ih =>
    rcases ks with _ | ⟨k, _ | ⟨l, ks⟩⟩
    · simp at hb
    · cases p with
      | succ p =>
        rw [integLoop, integLoop]
        cases p <;> cases fs <;> simp [integLoop]
      | zero => simp [integLoop]
    · have hs' := (List.pairwise_cons.mp hs).2
      have hb' : (l :: ks).getLast? = some back := by simpa [List.getLast?_cons_cons] using hb
      cases p with
      | succ p => rw [integLoop, integLoop]; exact ih p (l :: ks) hs' hb'
      | zero =>
        have hmem : back ∈ l :: ks := List.mem_of_getLast? hb'
        have h1 : k < back := (List.pairwise_cons.mp hs).1 _ hmem
        have h2 : l ≤ back := by
          rcases List.mem_cons.mp hmem with h | h
          · exact h.ge
          · exact ((List.pairwise_cons.mp hs').1 _ h).le
        rw [integLoop, integLoop, ih 0 (l :: ks) hs' hb']
        simp [not_le.mpr h1, not_lt.mpr h2]

/-- **C154**: the integral of a piecewise function to NaN is the one to the last knot. -/
theorem C154_integrate_to (ks : List K) (fs : List (List K)) (a back : K) (hlen : ks.length = fs.length + 1) (hs : ks.Pairwise (· < ·))
    (hb : ks.getLast? = some back) : piecewiseIntegrate ks fs (.val a) .nan = piecewiseIntegrate ks fs (.val a) (.val back) := by
  have hle : ∀ k ∈ ks, k ≤ back := by
    intro k hk
    obtain ⟨l, rfl⟩ : ∃ l, ks = l ++ [back] := by
      rcases List.eq_nil_or_concat ks with rfl | ⟨l, x, rfl⟩
      · simp at hb
      · rw [List.concat_eq_append] at hb ⊢
        rw [List.getLast?_concat] at hb
        cases hb
        exact ⟨l, rfl⟩
    rcases List.mem_append.mp hk with h | h
    · exact ((List.pairwise_append.mp hs).2.2 k h back (by simp)).le
    · simp at h; exact h.le
  by_cases hab : a < back
  · have h1 : ¬ back < a := not_lt.mpr hab.le
    have e : (Num.val a).eq (.val back) = false := by simp [hab.ne]
    rw [piecewiseIntegrate, piecewiseIntegrate, eq_nan, e, if_neg (by simp), if_neg (by simp)]
    simp only [nan_lt, val_lt, h1, decide_false, Bool.false_eq_true, if_false]
    rw [integLoop_to a _ ks fs back hs hb]
  · -- nothing is integrated
    have skip : ∀ (mn mx : Num K) (fs : List (List K)) (ks : List K), ks.length = fs.length + 1 → integLoop mn mx fs.length ks fs = .ok (.val 0) := by
      intro mn mx fs
      induction fs with
      | nil =>
        intro ks h
        obtain ⟨k, rfl⟩ := List.length_eq_one_iff.mp h
        rfl
      | cons f fs ih =>
        intro ks h
        cases ks with
        | nil => simp at h
        | cons k ks => rw [List.length_cons, integLoop]; exact ih ks (by simpa using h)
    have count : ∀ m, back ≤ m → (ks.takeWhile fun k => !((Num.val m).lt (.val k))).length - 1 = fs.length := by
      intro m hm
      rw [takeWhile_all _ ks (fun k hk => by simpa using (hle k hk).trans hm), hlen]
      simp
    have hba : back ≤ a := not_lt.mp hab
    have e1 : piecewiseIntegrate ks fs (.val a) .nan = .ok (.val 0) := by
      rw [piecewiseIntegrate, eq_nan, if_neg (by simp)]
      simp only [nan_lt, Bool.false_eq_true, if_false]
      rw [count a hba, skip _ _ fs ks hlen]
      simp
    rw [e1, piecewiseIntegrate, val_eq]
    by_cases h : a = back
    · rw [if_pos (by simp [h])]
    · have hlt : back < a := lt_of_le_of_ne hba (Ne.symm h)
      rw [if_neg (by simp [h])]
      rw [show (Num.val back).lt (.val a) = true by simp [hlt]]
      simp only [if_true]
      rw [count back le_rfl, skip _ _ fs ks hlen]
      simp

example : piecewiseIntegrate [0, 1, (2 : ℚ)] [[1], [2]] (.val 0) .nan = .ok (.val 3) := by
  rw [C154_integrate_to [0, 1, 2] [[1], [2]] 0 2 rfl (by decide +kernel) rfl]
  decide +kernel

/-! ## Histograms -/

/-- **C154**: with explicit edges NaN is counted in the last bin. -/
theorem C154_histogram {W : Type} [Add W] (edges : List K) (he : 2 ≤ edges.length) (w : W) (counts : List W) (hc : counts.length + 1 = edges.length) :
    fill edges [(.nan, w)] counts = .ok (counts.modify (counts.length - 1) (· + w)) := by
  have hi : edgeIndex edges .nan = .ok ((counts.length : Int) - 1) := by
    unfold edgeIndex
    rw [List.getLast?_eq_some_getLast (l := edges) (by intro h; simp [h] at he), List.head?_eq_some_head (l := edges) (by intro h; simp [h] at he)]
    simp only [nan_lt, lt_nan, Bool.or_false, Bool.false_eq_true, if_false]
    have : edges.findIdx (fun _ => false) = edges.length := List.findIdx_eq_length_of_false (by simp)
    rw [this, if_pos rfl, ← hc]
    simp
  rw [fill, hi]
  simp only [Outcome.bind_ok, fill]
  rw [if_pos (by omega)]
  congr 2
  omega

example : fill [0, 1, 2, (3 : ℚ)] [(.nan, 1)] [4, 5, 6] = .ok [4, 5, 7] := C154_histogram [0, 1, 2, 3] (by decide) 1 [4, 5, 6] rfl

/-- **C154**: with equal bins NaN is undefined behaviour. -/
theorem C154_uniform [IsStrictOrderedRing K] [FloorRing K] (nbins : Nat) (start step stop : K) : uniformIndex nbins start step stop .nan = .ub := by
  rw [uniformIndex, nan_eq, if_neg (by simp), nan_sub]
  simp

example : uniformIndex 4 (0 : ℚ) (1 / 2) 2 .nan = .ub := C154_uniform _ _ _ _

/-! ## Cumulatives -/

theorem sums_nan (ps : List (Num K)) : ∀ q ∈ sums (K := K) .nan ps, q = .nan := by
  induction ps with
  | nil => intro q h; cases h
  | cons p ps ih =>
    intro q h
    rw [sums, nan_add] at h
    rcases List.mem_cons.mp h with h | h
    · exact h
    · exact ih q h

theorem sums_length (t : Num K) (ps : List (Num K)) : (sums t ps).length = ps.length := by
  induction ps generalizing t with
  | nil => rfl
  | cons p ps ih => rw [sums, List.length_cons, List.length_cons, ih]

/-- One NaN among the densities makes the last sum NaN. -/
theorem sums_last (t : Num K) (ps : List (Num K)) (h : .nan ∈ ps) : (sums t ps).getLast? = some .nan := by
  induction ps generalizing t with
  | nil => cases h
  | cons p ps ih =>
    rw [sums]
    cases hp : p with
    | nan =>
      rw [add_nan]
      have h1 := List.getLast?_eq_some_getLast (l := Num.nan :: sums (K := K) .nan ps) (by simp)
      rw [h1]
      congr 1
      rcases List.mem_cons.mp (List.getLast_mem (l := Num.nan :: sums (K := K) .nan ps) (by simp)) with h2 | h2
      · exact h2
      · exact sums_nan ps _ h2
    | val a =>
      have hm : .nan ∈ ps := by
        rcases List.mem_cons.mp h with h | h
        · rw [hp] at h; cases h
        · exact h
      rw [List.getLast?_cons, ih _ hm]
      rfl

/-- What `findValue` returns when the value that it looks for is NaN. -/
theorem findValue_first (c : List (K × Num K)) (p l : K × Num K) (rest : List (K × Num K)) (hc : c = p :: rest) (hl : c.getLast? = some l)
    (ratio : Num K) (hr : ((Num.val 1).lt ratio || ratio.lt (.val 0)) = false) (hn : l.2 * ratio = .nan) (position : MathUtils.Tray) :
    findValue c ratio position = match (c.takeWhile fun q => q.2.eq p.2).getLast? with
      | none => .ub
      | some e => .ok (match position with
          | .begin => p.1
          | .middle => 1 / 2 * (p.1 + e.1)
          | .end' => e.1) := by
  have h1 : (c.takeWhile fun q : K × Num K => q.2.lt .nan) = [] := by rw [hc]; simp
  have h2 : (c.dropWhile fun q : K × Num K => q.2.lt .nan) = c := by rw [hc]; simp
  rw [findValue, hr, if_neg (by simp), hl]
  simp only [hn, h1, h2, List.nil_append]
  subst hc
  rfl

/-- **C154**: with a NaN among the densities, `findValue` gives the position of the first sample for every part of the total, without an
exception. -/
theorem C154_cumulative (x₀ : K) (xs : List K) (p₀ : K) (ps : List (Num K)) (hlen : xs.length = ps.length) (hn : .nan ∈ ps) (ratio : Num K)
    (hr : ((Num.val 1).lt ratio || ratio.lt (.val 0)) = false) :
    findValue ((x₀ :: xs).zip (sums (.val 0) (.val p₀ :: ps))) ratio .begin = .ok x₀ := by
  have hl : ∃ x, ((x₀ :: xs).zip (sums (.val 0) (.val p₀ :: ps))).getLast? = some (x, .nan) := by
    have h1 := sums_last (.val 0) (.val p₀ :: ps) (by simp [hn])
    have h2 : ((x₀ :: xs).zip (sums (.val 0) (.val p₀ :: ps))).map Prod.snd = sums (.val 0) (.val p₀ :: ps) :=
      List.map_snd_zip (by rw [sums_length]; simp [hlen])
    rw [← h2, List.getLast?_map] at h1
    cases h3 : ((x₀ :: xs).zip (sums (.val 0) (.val p₀ :: ps))).getLast? with
    | none => rw [h3] at h1; cases h1
    | some l =>
      rw [h3] at h1
      simp only [Option.map_some, Option.some.injEq] at h1
      exact ⟨l.1, by rw [← h1]⟩
  obtain ⟨x, hl⟩ := hl
  have hc : (x₀ :: xs).zip (sums (.val 0) (.val p₀ :: ps)) = (x₀, .val (0 + p₀)) :: xs.zip (sums (.val (0 + p₀)) ps) := rfl
  rw [findValue_first _ _ _ _ hc hl ratio hr (nan_mul _), hc]
  rw [List.takeWhile_cons]
  simp only [val_eq, decide_true, if_true]
  rw [List.getLast?_cons]

/-- The median of a density on `0, 1, 2, 3` whose third value is NaN. -/
example : findValue ([0, 1, 2, (3 : ℚ)].zip (sums (.val 0) [.val 1, .val 2, .nan, .val 1])) (.val (1 / 2)) .begin = .ok 0 :=
  C154_cumulative 0 [1, 2, 3] 1 [.val 2, .nan, .val 1] rfl (by simp) _ (by decide +kernel)

/-- **C154**: if the first density is NaN, `findValue` reads before the beginning of the vector. -/
theorem C154_cumulative_first (x₀ : K) (xs : List K) (ps : List (Num K)) (hlen : xs.length = ps.length) (ratio : Num K)
    (hr : ((Num.val 1).lt ratio || ratio.lt (.val 0)) = false) (position : MathUtils.Tray) :
    findValue ((x₀ :: xs).zip (sums (.val 0) (.nan :: ps))) ratio position = .ub := by
  have hl : ∃ x, ((x₀ :: xs).zip (sums (.val 0) (.nan :: ps))).getLast? = some (x, .nan) := by
    have h1 := sums_last (.val (0 : K)) (.nan :: ps) (by simp)
    have h2 : ((x₀ :: xs).zip (sums (.val 0) (.nan :: ps))).map Prod.snd = sums (.val 0) (.nan :: ps) :=
      List.map_snd_zip (by rw [sums_length]; simp [hlen])
    rw [← h2, List.getLast?_map] at h1
    cases h3 : ((x₀ :: xs).zip (sums (.val 0) (.nan :: ps))).getLast? with
    | none => rw [h3] at h1; cases h1
    | some l =>
      rw [h3] at h1
      simp only [Option.map_some, Option.some.injEq] at h1
      exact ⟨l.1, by rw [← h1]⟩
  obtain ⟨x, hl⟩ := hl
  have hc : (x₀ :: xs).zip (sums (.val 0) (.nan :: ps)) = (x₀, .nan) :: xs.zip (sums .nan ps) := rfl
  rw [findValue_first _ _ _ _ hc hl ratio hr (nan_mul _), hc]
  simp

example : findValue ([0, (1 : ℚ)].zip (sums (.val 0) [.nan, .val 2])) (.val (1 / 2)) .end' = .ub :=
  C154_cumulative_first 0 [1] [.val 2] rfl _ (by decide +kernel) _

/-- **C154**: NaN is accepted as part of the total; the result is the position of the first sample. -/
theorem C154_ratio (x₀ y₀ : K) (rest : List (K × Num K)) : findValue ((x₀, .val y₀) :: rest) .nan .begin = .ok x₀ := by
  obtain ⟨l, hl⟩ : ∃ l, ((x₀, Num.val y₀) :: rest).getLast? = some l := ⟨_, List.getLast?_eq_some_getLast (by simp)⟩
  rw [findValue_first _ _ _ _ rfl hl .nan (by simp) (mul_nan _), List.takeWhile_cons]
  simp only [val_eq, decide_true, if_true]
  rw [List.getLast?_cons]

example : findValue [(5, .val (1 : ℚ)), (6, .val 2)] .nan .begin = .ok 5 := C154_ratio 5 1 [(6, .val 2)]

theorem minLoop_nan [IsStrictOrderedRing K] (l1 : List (K × Num K)) (p : K × Num K) (l2 : List (K × Num K)) (correction : Num K) (mn mx last : K)
    (hs : (mn :: l1.map Prod.fst).Pairwise (· ≤ ·)) (hlast : (mn :: l1.map Prod.fst).getLast? = some last) (hmx : p.1 ≤ mx)
    (hne : l1 = [] → mx = p.1) :
    minLoop .nan l1 (p :: l2) correction mn mx = (last, p.1) := by
  induction l1 generalizing correction mn mx with
  | nil =>
    simp only [List.map_nil, List.getLast?_singleton, Option.some.injEq] at hlast
    rw [minLoop, hne rfl, hlast]
  | cons q l1 ih =>
    rw [List.map_cons] at hs hlast
    have h1 : mn ≤ q.1 := (List.pairwise_cons.mp hs).1 _ (by simp)
    rw [minLoop]
    simp only [lt_nan, List.dropWhile_cons, Bool.false_eq_true, if_false]
    rw [if_pos (by linarith)]
    exact ih _ _ _ (List.pairwise_cons.mp hs).2 (by simpa [List.getLast?_cons_cons] using hlast) le_rfl (fun _ => rfl)

/-- **C154**: with NaN as rate, or a cumulative that ends with NaN, `findMinInterval` gives an interval from the last sample to the second one. -/
theorem C154_min_interval [IsStrictOrderedRing K] (p q : K × Num K) (rest : List (K × Num K)) (last : K × Num K) (rate : Num K)
    (hs : ((p :: q :: rest).map Prod.fst).Pairwise (· ≤ ·)) (hl : (p :: q :: rest).getLast? = some last)
    (hr : ((Num.val 1).lt rate || rate.le (.val 0)) = false) (hn : rate = .nan ∨ last.2 = .nan) :
    findMinInterval (p :: q :: rest) rate = .ok (last.1, q.1) := by
  have hrate : rate * last.2 = .nan := by rcases hn with h | h <;> rw [h] <;> simp
  have hlast : ((q :: rest).map Prod.fst).getLast? = some last.1 := by
    rw [List.getLast?_map]
    rw [List.getLast?_cons_cons] at hl
    rw [hl]; rfl
  have hq : q.1 ≤ last.1 := by
    have hm := List.mem_of_getLast? hlast
    rw [List.map_cons, List.map_cons] at hs
    rcases List.mem_cons.mp hm with h | h
    · exact h.ge
    · exact (List.pairwise_cons.mp (List.pairwise_cons.mp hs).2).1 _ h
  have e : findMinInterval (p :: q :: rest) rate = .ok (minLoop (rate * last.2) (p :: q :: rest) (q :: rest) p.2 p.1 last.1) := by
    unfold findMinInterval
    rw [hr, if_neg (by simp), hl]
  rw [e, hrate, minLoop]
  simp only [lt_nan, List.dropWhile_cons, Bool.false_eq_true, if_false]
  rw [if_pos (by linarith)]
  rw [minLoop_nan (q :: rest) q rest _ _ _ last.1 hs (by rw [List.map_cons, List.getLast?_cons_cons]; exact hlast) le_rfl (fun _ => rfl)]

/-- The shortest interval with half of the mass would go from `3` to `1`. -/
example : findMinInterval [(0, .val 1), (1, .val 3), (2, .nan), (3, (.nan : Num ℚ))] (.val (1 / 2)) = .ok (3, 1) :=
  C154_min_interval (0, .val 1) (1, .val 3) [(2, .nan), (3, .nan)] (3, .nan) _ (by decide +kernel) rfl (by decide +kernel) (.inr rfl)

/-! ## Self organising maps -/

theorem lt_iff_lt (a b : Num K) : a < b ↔ a.lt b = true := Iff.rfl

theorem bmuLoop_spec {W : Type} (dist : W → Num K) (ws : List W) (i best : Nat) (c : K) :
    ∃ b c', SOM.bmuLoop dist ws i best (.val c) = (b, .val c') ∧ c' ≤ c ∧ (∀ w ∈ ws, ∀ d, dist w = .val d → c' ≤ d) ∧
      ((b = best ∧ c' = c) ∨ ∃ j w, b = i + j ∧ ws[j]? = some w ∧ dist w = .val c' ∧ c' < c) := by
  induction ws generalizing i best c with
  | nil => exact ⟨best, c, rfl, le_rfl, by simp, .inl ⟨rfl, rfl⟩⟩
  | cons w ws ih =>
    rw [SOM.bmuLoop]
    by_cases h : dist w < .val c
    · rw [if_pos h]
      obtain ⟨d, hd, hdc⟩ : ∃ d, dist w = .val d ∧ d < c := by
        rw [lt_iff_lt] at h
        cases hw : dist w with
        | nan => rw [hw] at h; simp at h
        | val d => rw [hw] at h; exact ⟨d, rfl, by simpa using h⟩
      rw [hd]
      obtain ⟨b, c', e, h1, h2, h3⟩ := ih (i + 1) i d
      refine ⟨b, c', e, h1.trans hdc.le, ?_, .inr ?_⟩
      · intro v hv x hx
        rcases List.mem_cons.mp hv with rfl | hv
        · rw [hd] at hx; cases hx; exact h1
        · exact h2 v hv x hx
      · rcases h3 with ⟨rfl, rfl⟩ | ⟨j, v, hb, hj, hv, hlt⟩
        · exact ⟨0, w, rfl, rfl, hd, hdc⟩
        · exact ⟨j + 1, v, by omega, by simpa using hj, hv, hlt.trans hdc⟩
    · rw [if_neg h]
      obtain ⟨b, c', e, h1, h2, h3⟩ := ih (i + 1) best c
      refine ⟨b, c', e, h1, ?_, ?_⟩
      · intro v hv x hx
        rcases List.mem_cons.mp hv with rfl | hv
        · rw [lt_iff_lt, hx] at h
          exact h1.trans (by simpa using h)
        · exact h2 v hv x hx
      · rcases h3 with h3 | ⟨j, v, hb, hj, hv, hlt⟩
        · exact .inl h3
        · exact .inr ⟨j + 1, v, by omega, by simpa using hj, hv, hlt⟩

/-- **C154**: cells at the distance NaN are passed over: the cell that is found is nearest among those with a number as distance, unless there is
none below the largest double, when it is the first cell. -/
theorem C154_bmu {nd : Nat} (m : SOM.Map nd (Num K)) (dist : (Fin nd → Num K) → Num K) (big : K) (hx : m.sx ≠ 0) (hy : m.sy ≠ 0) :
    ∃ k c, SOM.findBMU m dist (.val big) = .ok ((SOM.coords m.sx m.sy k).1, (SOM.coords m.sx m.sy k).2, .val c) ∧
      (∀ w ∈ m.cells, ∀ d, dist w = .val d → c ≤ d) ∧ ((k = 0 ∧ c = big) ∨ ∃ w, m.cells[k]? = some w ∧ dist w = .val c ∧ c < big) := by
  obtain ⟨b, c, e, -, h2, h3⟩ := bmuLoop_spec dist m.cells 0 0 big
  refine ⟨b, c, ?_, h2, ?_⟩
  · rw [SOM.findBMU, if_neg (by simp [hx, hy]), e]
  · rcases h3 with h3 | ⟨j, w, hb, hj, hw, hlt⟩
    · exact .inl h3
    · exact .inr ⟨w, by rw [hb, Nat.zero_add]; exact hj, hw, hlt⟩

/-- The cell with the distance NaN is passed over. -/
example : SOM.findBMU (⟨3, 1, [fun _ => .nan, fun _ => .val 5, fun _ => .val 2]⟩ : SOM.Map 1 (Num ℚ)) (fun w => w 0) (.val 100) = .ok (2, 0, .val 2) := by
  decide +kernel

theorem fold_nan {A : Type} (f : A → Num K) (l : List A) : l.foldl (fun r i => r + f i) .nan = .nan := by
  induction l with
  | nil => rfl
  | cons a l ih => rw [List.foldl_cons, nan_add, ih]

theorem fold_mem_nan {A : Type} (f : A → Num K) (l : List A) (t : Num K) (a : A) (ha : a ∈ l) (hf : f a = .nan) :
    l.foldl (fun r i => r + f i) t = .nan := by
  induction l generalizing t with
  | nil => cases ha
  | cons b l ih =>
    rw [List.foldl_cons]
    rcases List.mem_cons.mp ha with h | h
    · rw [← h, hf, add_nan, fold_nan]
    · exact ih _ h

/-- **C154**: the L2 distance is NaN when a component is. -/
theorem C154_distance {nd : Nat} (root : K → K) (left right : Fin nd → Num K) (j : Fin nd) (h : left j = .nan ∨ right j = .nan) :
    l2 root left right = .nan := by
  have hj : (left j - right j) * (left j - right j) = .nan := by rcases h with h | h <;> rw [h] <;> simp
  rw [l2, fold_mem_nan (fun i => (left i - right i) * (left i - right i)) (List.finRange nd) (.val 0) j (List.mem_finRange j) hj]

example : l2 id (fun _ : Fin 2 => .val (1 : ℚ)) (fun i => if i = 0 then .val 3 else .nan) = .nan := C154_distance _ _ _ 1 (.inr rfl)

/-- **C154**: for an object with a NaN component the first cell is found, at the distance of the largest double. -/
theorem C154_bmu_object {nd : Nat} (root : K → K) (m : SOM.Map nd (Num K)) (s : Fin nd → Num K) (j : Fin nd) (hj : s j = .nan) (big : K)
    (hx : m.sx ≠ 0) (hy : m.sy ≠ 0) : SOM.findBMU m (fun w => l2 root w s) (.val big) = .ok (0, 0, .val big) := by
  obtain ⟨k, c, e, -, h⟩ := C154_bmu m (fun w => l2 root w s) big hx hy
  rcases h with ⟨rfl, rfl⟩ | ⟨w, -, hw, -⟩
  · rw [e]
    simp [SOM.coords]
  · rw [C154_distance root w s j (.inr hj)] at hw
    cases hw

example : SOM.findBMU (⟨2, 1, [fun _ => .val 7, fun _ => .val 5]⟩ : SOM.Map 1 (Num ℚ)) (fun w => l2 id w fun _ => .nan) (.val 100) = .ok (0, 0, .val 100) :=
  C154_bmu_object id _ _ 0 rfl 100 (by decide) (by decide)

/-- The component `j` of every cell is NaN. -/
def Spec.Lost {nd : Nat} (m : SOM.Map nd (Num K)) (j : Fin nd) : Prop := ∀ w ∈ m.cells, w j = .nan

theorem updateCell_keeps {nd : Nat} (nf lf : K) (s w : Fin nd → Num K) (j : Fin nd) (h : w j = .nan) : updateCell nf lf s w j = .nan := by
  unfold updateCell
  by_cases hn : nf ≠ 0
  · rw [if_pos hn]; simp [h]
  · rw [if_neg hn]; exact h

theorem updateCell_takes {nd : Nat} (nf lf : K) (s w : Fin nd → Num K) (j : Fin nd) (hn : nf ≠ 0) (h : s j = .nan) :
    updateCell nf lf s w j = .nan := by
  unfold updateCell
  rw [if_pos hn]; simp [h]

/-- **C154**: training with an object that has a NaN component makes this component NaN in all cells to which the neighbourhood of the *first* cell
reaches. -/
theorem C154_train_sample {nd : Nat} (root : K → K) (big : K) (neigh : SOM.Neigh K) (i n : Nat) (lf : K) (m : SOM.Map nd (Num K))
    (s : Fin nd → Num K) (j : Fin nd) (hj : s j = .nan) (hx : m.sx ≠ 0) (hy : m.sy ≠ 0) :
    ∃ m', trainSample root big neigh i n lf m s = .ok m' ∧ m'.sx = m.sx ∧ m'.sy = m.sy ∧ m'.cells.length = m.cells.length ∧
      ∀ k w, m'.cells[k]? = some w →
        (neigh (0, 0) (SOM.coords m.sx m.sy k) i n ≠ 0 → w j = .nan) ∧ (neigh (0, 0) (SOM.coords m.sx m.sy k) i n = 0 → m.cells[k]? = some w) := by
  refine ⟨{ m with cells := m.cells.mapIdx fun k w => updateCell (neigh (0, 0) (SOM.coords m.sx m.sy k) i n) lf s w },
    by rw [trainSample, C154_bmu_object root m s j hj big hx hy]; rfl, rfl, rfl, by simp, ?_⟩
  intro k w hw
  simp only [List.getElem?_mapIdx] at hw
  cases h : m.cells[k]? with
  | none => rw [h] at hw; cases hw
  | some v =>
    rw [h] at hw
    simp only [Option.map_some, Option.some.injEq] at hw
    subst hw
    refine ⟨fun hn => updateCell_takes _ _ _ _ _ hn hj, fun hn => ?_⟩
    rw [updateCell, if_neg (by simp [hn])]

theorem trainSample_ok {nd : Nat} (root : K → K) (big : K) (neigh : SOM.Neigh K) (i n : Nat) (lf : K) (m : SOM.Map nd (Num K))
    (s : Fin nd → Num K) (hx : m.sx ≠ 0) (hy : m.sy ≠ 0) :
    ∃ b : Nat × Nat, trainSample root big neigh i n lf m s =
      .ok { m with cells := m.cells.mapIdx fun k w => updateCell (neigh b (SOM.coords m.sx m.sy k) i n) lf s w } := by
  obtain ⟨k, c, e, -⟩ := C154_bmu m (fun w => l2 root w s) big hx hy
  exact ⟨_, by rw [trainSample, e]; rfl⟩

theorem train_keeps {nd : Nat} (root : K → K) (big : K) (neigh : SOM.Neigh K) (n : Nat) (ss : List (Nat × K × (Fin nd → Num K)))
    (m : SOM.Map nd (Num K)) (hx : m.sx ≠ 0) (hy : m.sy ≠ 0) :
    ∃ m', train root big neigh n m ss = .ok m' ∧ m'.sx = m.sx ∧ m'.sy = m.sy ∧ m'.cells.length = m.cells.length ∧
      ∀ (k : Nat) (w w' : Fin nd → Num K), m.cells[k]? = some w → m'.cells[k]? = some w' → ∀ j, w j = .nan → w' j = .nan := by
  induction ss generalizing m with
  | nil => exact ⟨m, rfl, rfl, rfl, rfl, fun k w w' h h' j hj => by rw [h] at h'; cases h'; exact hj⟩
  | cons a ss ih =>
    obtain ⟨i, lf, s⟩ := a
    obtain ⟨b, e⟩ := trainSample_ok root big neigh i n lf m s hx hy
    obtain ⟨m', e', h1, h2, h3, h4⟩ := ih { m with cells := m.cells.mapIdx fun k w => updateCell (neigh b (SOM.coords m.sx m.sy k) i n) lf s w } hx hy
    refine ⟨m', by rw [train, e, Outcome.bind_ok, e'], h1, h2, by simpa using h3, ?_⟩
    intro k w w' hw hw' j hj
    exact h4 k (updateCell (neigh b (SOM.coords m.sx m.sy k) i n) lf s w) w' (by simp [hw]) hw' j (updateCell_keeps _ _ _ _ _ hj)

/-- **C154**: a NaN in a cell stays through all training that follows. -/
theorem C154_train_keeps {nd : Nat} (root : K → K) (big : K) (neigh : SOM.Neigh K) (n : Nat) (ss : List (Nat × K × (Fin nd → Num K)))
    (m m' : SOM.Map nd (Num K)) (hx : m.sx ≠ 0) (hy : m.sy ≠ 0) (h : train root big neigh n m ss = .ok m') (k : Nat) (w w' : Fin nd → Num K)
    (hw : m.cells[k]? = some w) (hw' : m'.cells[k]? = some w') (j : Fin nd) (hj : w j = .nan) : w' j = .nan := by
  obtain ⟨m₁, e, -, -, -, hk⟩ := train_keeps root big neigh n ss m hx hy
  rw [h] at e; cases e
  exact hk k w w' hw hw' j hj

/-- **C154**: with a neighbourhood that is nowhere zero, one NaN in one training object loses the whole map: after the training every object is
assigned to the first cell. -/
theorem C154_train_lost {nd : Nat} (root : K → K) (big : K) (neigh : SOM.Neigh K) (n : Nat) (hneigh : ∀ b c i, neigh b c i n ≠ 0)
    (before after : List (Nat × K × (Fin nd → Num K))) (i : Nat) (lf : K) (s : Fin nd → Num K) (j : Fin nd) (hj : s j = .nan)
    (m : SOM.Map nd (Num K)) (hx : m.sx ≠ 0) (hy : m.sy ≠ 0) :
    ∃ m', train root big neigh n m (before ++ (i, lf, s) :: after) = .ok m' ∧ m'.cells.length = m.cells.length ∧ Spec.Lost m' j ∧
      ∀ t : Fin nd → Num K, SOM.findBMU m' (fun w => l2 root w t) (.val big) = .ok (0, 0, .val big) := by
  obtain ⟨m₁, e₁, x₁, y₁, l₁, -⟩ := train_keeps root big neigh n before m hx hy
  obtain ⟨m₂, e₂, x₂, y₂, l₂, h₂⟩ := C154_train_sample root big neigh i n lf m₁ s j hj (by rw [x₁]; exact hx) (by rw [y₁]; exact hy)
  obtain ⟨m₃, e₃, x₃, y₃, l₃, h₃⟩ := train_keeps root big neigh n after m₂ (by rw [x₂, x₁]; exact hx) (by rw [y₂, y₁]; exact hy)
  have split : ∀ (bs : List (Nat × K × (Fin nd → Num K))) (m m₁ : SOM.Map nd (Num K)) (cs : List (Nat × K × (Fin nd → Num K))),
      train root big neigh n m bs = .ok m₁ → train root big neigh n m (bs ++ cs) = train root big neigh n m₁ cs := by
    intro bs
    induction bs with
    | nil => intro m m₁ cs h; cases h; rfl
    | cons b bs ih =>
      intro m m₁ cs h
      obtain ⟨i, lf, s⟩ := b
      rw [train] at h
      rw [List.cons_append, train]
      cases hm : trainSample root big neigh i n lf m s with
      | ok v => rw [hm, Outcome.bind_ok] at h; rw [Outcome.bind_ok]; exact ih v m₁ cs h
      | throw e => rw [hm] at h; cases h
      | ub => rw [hm] at h; cases h
  have hlost : Spec.Lost m₃ j := by
    intro w hw
    obtain ⟨k, hk, rfl⟩ := List.mem_iff_getElem.mp hw
    have hk₂ : k < m₂.cells.length := by omega
    exact h₃ k _ _ (List.getElem?_eq_getElem hk₂) (List.getElem?_eq_getElem hk) j
      ((h₂ k _ (List.getElem?_eq_getElem hk₂)).1 (hneigh _ _ _))
  refine ⟨m₃, ?_, by omega, hlost, ?_⟩
  · rw [split before m m₁ _ e₁, train, e₂, Outcome.bind_ok, e₃]
  · intro t
    obtain ⟨k, c, e, -, h⟩ := C154_bmu m₃ (fun w => l2 root w t) big (by rw [x₃, x₂, x₁]; exact hx) (by rw [y₃, y₂, y₁]; exact hy)
    rcases h with ⟨rfl, rfl⟩ | ⟨w, hk, hw, -⟩
    · rw [e]
      simp [SOM.coords]
    · rw [C154_distance root w t j (.inl (hlost w (List.mem_of_getElem? hk)))] at hw
      cases hw

/-- Two objects, the first with NaN: both cells are lost. -/
example : ∃ m', train id (100 : ℚ) (fun _ _ _ _ => 1) 1 (⟨2, 1, [fun _ => .val 7, fun _ => .val 5]⟩ : SOM.Map 1 (Num ℚ))
    [(0, 1 / 2, fun _ => .nan), (0, 1 / 2, fun _ => .val 3)] = .ok m' ∧ m'.cells.length = 2 ∧ Spec.Lost m' 0 ∧
      ∀ t : Fin 1 → Num ℚ, SOM.findBMU m' (fun w => l2 id w t) (.val 100) = .ok (0, 0, .val 100) :=
  C154_train_lost id 100 (fun _ _ _ _ => 1) 1 (by intros; exact one_ne_zero) [] [(0, 1 / 2, fun _ => .val 3)] 0 (1 / 2) (fun _ => .nan) 0 rfl _
    (by decide) (by decide)

/-! ## KdTree -/

/-- What `std::sort` and `std::nth_element` ask of the comparison of elements of a list. -/
structure Spec.StrictWeak {T : Type} (before : T → T → Bool) (data : List T) : Prop where
  irrefl : ∀ a ∈ data, before a a = false
  trans : ∀ a ∈ data, ∀ b ∈ data, ∀ c ∈ data, before a b = true → before b c = true → before a c = true
  incomp : ∀ a ∈ data, ∀ b ∈ data, ∀ c ∈ data, before a b = false → before b a = false → before b c = false → before c b = false →
    before a c = false ∧ before c a = false

/-- **C154**: the comparison of the tree is a strict weak order of the data exactly when no coordinate is NaN, or all that are numbers are equal. -/
theorem C154_kdtree_order {T : Type} (key : T → Num K) (data : List T) :
    Spec.StrictWeak (kdBefore key) data ↔
      (∀ a ∈ data, key a ≠ .nan) ∨ ∀ a ∈ data, ∀ b ∈ data, ∀ x y, key a = .val x → key b = .val y → x = y := by
  constructor
  · intro h
    by_cases hn : ∀ a ∈ data, key a ≠ .nan
    · exact .inl hn
    · right
      push Not at hn
      obtain ⟨b, hb, hbn⟩ := hn
      intro a ha c hc x y hx hy
      have := h.incomp a ha b hb c hc (by simp [kdBefore, hbn]) (by simp [kdBefore, hbn]) (by simp [kdBefore, hbn]) (by simp [kdBefore, hbn])
      simp only [kdBefore, hx, hy, val_lt, decide_eq_false_iff_not, not_lt] at this
      exact le_antisymm this.2 this.1
  · intro h
    refine ⟨?_, ?_, ?_⟩
    · intro a _
      cases ha : key a <;> simp [kdBefore, ha]
    · intro a _ b _ c _ h1 h2
      cases hka : key a <;> cases hkb : key b <;> cases hkc : key c <;> simp_all [kdBefore]
      exact h1.trans h2
    · intro a ha b hb c hc h1 h2 h3 h4
      rcases h with h | h
      · have na := h a ha; have nb := h b hb; have nc := h c hc
        cases hka : key a with
        | nan => exact absurd hka na
        | val x =>
          cases hkb : key b with
          | nan => exact absurd hkb nb
          | val y =>
            cases hkc : key c with
            | nan => exact absurd hkc nc
            | val z =>
              simp only [kdBefore, hka, hkb, hkc, val_lt, decide_eq_false_iff_not, not_lt] at *
              exact ⟨h3.trans h1, h2.trans h4⟩
      · cases hka : key a with
        | nan => simp [kdBefore, hka]
        | val x =>
          cases hkc : key c with
          | nan => simp [kdBefore, hka, hkc]
          | val z =>
            have := h a ha c hc x z hka hkc
            simp [kdBefore, hka, hkc, this]

/-- Not a strict weak order: `1` and `2` are both equivalent to NaN. -/
example : ¬ Spec.StrictWeak (kdBefore (id : Num ℚ → Num ℚ)) [.val 1, .nan, .val 2] := by
  rw [C154_kdtree_order]
  rintro (h | h)
  · exact h .nan (by simp) rfl
  · have := h (.val 1) (by simp) (.val 2) (by simp) 1 2 rfl rfl
    norm_num at this

example : Spec.StrictWeak (kdBefore (id : Num ℚ → Num ℚ)) [.val 1, .val 3, .val 2] := by
  rw [C154_kdtree_order]
  left
  intro a ha
  simp only [List.mem_cons, List.not_mem_nil, or_false] at ha
  rcases ha with rfl | rfl | rfl <;> simp

theorem query_sub {T : Type} (N : Nat) (getCoord : T → Nat → Num K) (coord : Nat → Num K) (radius : Num K) (t : Tree T K) (e : T)
    (h : e ∈ t.query N getCoord coord radius) : (squareDist N getCoord e coord).lt (radius * radius) = true := by
  induction t with
  | leaf data => rw [Tree.query] at h; exact (List.mem_filter.mp h).2
  | split axis v l r ihl ihr =>
    rw [Tree.query] at h
    by_cases h1 : (coord axis + radius).lt v = true
    · rw [if_pos h1] at h; exact ihl h
    · rw [if_neg h1] at h
      by_cases h2 : v.lt (coord axis - radius) = true
      · rw [if_pos h2] at h; exact ihr h
      · rw [if_neg h2] at h
        rcases List.mem_append.mp h with h | h
        · exact ihl h
        · exact ihr h

/-- **C154**: around a point with a NaN coordinate, or with NaN as radius, no point is found, and a point with a NaN coordinate is never found. -/
theorem C154_kdtree_query {T : Type} (N : Nat) (getCoord : T → Nat → Num K) (coord : Nat → Num K) (radius : Num K) (t : Tree T K) (e : T)
    (h : e ∈ t.query N getCoord coord radius) : radius ≠ .nan ∧ ∀ i < N, coord i ≠ .nan ∧ getCoord e i ≠ .nan := by
  have hq := query_sub N getCoord coord radius t e h
  refine ⟨?_, ?_⟩
  · rintro rfl
    simp at hq
  · intro i hi
    by_contra hc
    have hn : (getCoord e i - coord i) * (getCoord e i - coord i) = .nan := by
      by_cases h1 : coord i = .nan
      · simp [h1]
      · have : getCoord e i = .nan := by
          by_contra h2
          exact hc ⟨h1, h2⟩
        simp [this]
    rw [squareDist, fold_mem_nan (fun i => (getCoord e i - coord i) * (getCoord e i - coord i)) _ _ i (List.mem_range.mpr hi) hn] at hq
    simp at hq

/-- A query that finds one of the two points. -/
example : (Tree.leaf [.nan, .val 1]).query 1 (fun e _ => e) (fun _ => .val (0 : ℚ)) (.val 2) = [.val 1] := by decide +kernel

/-! ## Without NaN -/

/-- **C154**: on numbers the functions above are those of the components. -/
theorem C154_numbers :
    (∀ (ks : List K) (fs : List (List K)) (x v : K), piecewiseEval ks fs (.val x) = .ok (.val v) ↔
      MathUtils.eval (.piecewise ks (fs.map .poly)) x = .ok v) ∧
    (∀ (ks : List K) (fs : List (List K)) (a b v : K), piecewiseIntegrate ks fs (.val a) (.val b) = .ok (.val v) ↔
      MathUtils.integ (.piecewise ks (fs.map .poly)) a b = .ok v) ∧
    (∀ (edges : List K) (x : K) (i : Int), edgeIndex edges (.val x) = .ok i ↔ Histogram.edgeIndex edges x = .ok i) ∧
    (∀ (c : List (K × K)) (ratio v : K) (position : MathUtils.Tray), findValue (c.map fun p => (p.1, .val p.2)) (.val ratio) position = .ok v ↔
      MathUtils.findValue c ratio position = .ok v) ∧
    (∀ (c : List (K × K)) (rate : K) (v : K × K), findMinInterval (c.map fun p => (p.1, .val p.2)) (.val rate) = .ok v ↔
      MathUtils.findMinInterval c rate = .ok v) ∧
    (∀ (nd : Nat) (root : K → K) (big : K) (neigh : SOM.Neigh K) (i n : Nat) (lf : K) (m m' : SOM.Map nd K) (s : Fin nd → K),
      SOM.trainSample (numL2 root) big neigh i n lf m s = .ok m' →
      trainSample root big neigh i n lf (numMap m) (fun j => .val (s j)) = .ok (numMap m')) ∧
    ∀ (T : Type) (N : Nat) (getCoord : T → Nat → K) (coord : Nat → K) (radius : K) (t : KdTree.Tree T K),
      (numTree t).query N (fun e i => .val (getCoord e i)) (fun i => .val (coord i)) (.val radius) =
        t.query (Rounding.exact K) N getCoord coord radius := by
  have f : ∀ {E A : Type} (o : Outcome E A) (a : A), forget o = .ok a ↔ o = .ok a := by
    intro E A o a
    cases o <;> simp [forget]
  refine ⟨?_, ?_, ?_, ?_, ?_, ?_, ?_⟩
  · intro ks fs x v
    rw [piecewiseEval_agree]
    cases MathUtils.eval (.piecewise ks (fs.map .poly)) x <;> simp [forget]
  · intro ks fs a b v
    rw [piecewiseIntegrate_agree]
    cases MathUtils.integ (.piecewise ks (fs.map .poly)) a b <;> simp [forget]
  · intro edges x i
    rw [edgeIndex_agree, f]
  · intro c ratio v position
    rw [findValue_agree, f]
  · intro c rate v
    rw [findMinInterval_agree, f]
  · intro nd root big neigh i n lf m m' s h
    rw [trainSample_agree, h]
    rfl
  · intro T N getCoord coord radius t
    exact query_agree N getCoord coord radius t

example : piecewiseEval [0, 1, (2 : ℚ)] [[1], [0, 1]] (.val (3 / 2)) = .ok (.val (3 / 2)) := by decide +kernel

/-! ## What does not hold -/

/-- The full property: NaN among the arguments is never undefined behaviour, and NaN among data is not counted. -/
def C154_full : Prop :=
  (∀ (ks : List ℚ) (fs : List (List ℚ)) (x : Num ℚ), ks.length = fs.length + 1 → 2 ≤ ks.length → ks.Pairwise (· < ·) → piecewiseEval ks fs x ≠ .ub) ∧
  (∀ (edges : List ℚ) (data : List (Num ℚ × Nat)), 2 ≤ edges.length → edges.Pairwise (· < ·) →
    fill edges data (List.replicate (edges.length - 1) 0) = fill edges (data.filter fun d => d.1 ≠ .nan) (List.replicate (edges.length - 1) 0)) ∧
  (∀ (xs : List ℚ) (pdf : List (Num ℚ)) (ratio : ℚ) (position : MathUtils.Tray), xs.length = pdf.length → xs ≠ [] → xs.Pairwise (· < ·) →
    0 ≤ ratio → ratio ≤ 1 → findValue (xs.zip (sums (.val 0) pdf)) (.val ratio) position ≠ .ub)

/-- None of the three parts holds. -/
theorem C154_violated :
    ¬ C154_full ∧
    (∃ ks : List ℚ, ∃ fs : List (List ℚ), ks.length = fs.length + 1 ∧ 2 ≤ ks.length ∧ ks.Pairwise (· < ·) ∧ piecewiseEval ks fs .nan = .ub) ∧
    (fill [0, 1, (2 : ℚ)] [(.nan, 1), (.val (1 / 2), 1)] [0, 0] = .ok [1, 1] ∧ fill [0, 1, (2 : ℚ)] [(.val (1 / 2), 1)] [0, 0] = .ok [1, 0]) ∧
    findValue ([0, 1, (2 : ℚ)].zip (sums (.val 0) [.nan, .val 1, .val 1])) (.val (1 / 2)) .middle = .ub := by
  have h1 : piecewiseEval [0, (1 : ℚ)] [[1]] .nan = .ub := C154_piecewise _ _
  refine ⟨fun h => h.1 [0, 1] [[1]] .nan rfl (by decide) (by decide +kernel) h1, ⟨[0, 1], [[1]], rfl, by decide, by decide +kernel, h1⟩,
    ⟨by decide +kernel, by decide +kernel⟩, C154_cumulative_first 0 [1, 2] [.val 1, .val 1] rfl _ (by decide +kernel) _⟩

end Alexandria.NotANumber
