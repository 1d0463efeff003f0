import Verif.MathUtils.SamplerRoundModel
import Verif.MathUtils.SamplerLemmas
import Verif.MathUtils.InverseRoundProps
import Verif.MathUtils.GridRoundProps
import Verif.NdArray.RoundProps

/-! # Drawing from a density on a grid with rounding (C176) -/

namespace Alexandria.MathUtils

open NdArray (Nd Heap)
open NdArray.Spec (card Valid allCoords put)

section
variable {K D : Type} [Field K] [LinearOrder K] [DecidableEq D] [IsStrictOrderedRing K] (R : Rounding K)

/-! ## Lemmas -/

theorem bind_eq_ok {E A B : Type} {o : Outcome E A} {f : A → Outcome E B} {b : B} (h : o.bind f = .ok b) : ∃ a, o = .ok a ∧ f a = .ok b := by
  cases o with
  | ok a => exact ⟨a, rfl, h⟩
  | throw e => cases h
  | ub => cases h

theorem machineInv_fits {sqrt : K → K} {ax : Axis K D} {ds : List K} {inv : Inv K D} (hi : machineInv R ax ds = .ok inv) {p : K} {x : K ⊕ D}
    (hx : machineInvCall R sqrt inv p = .ok x) : Spec.Fits ax x := by
  cases ax with
  | cont ks =>
    obtain ⟨I, -, h2⟩ := bind_eq_ok hi
    cases h2
    obtain ⟨y, -, h2⟩ := bind_eq_ok hx
    cases h2
    trivial
  | disc ks =>
    obtain ⟨cdf, -, h2⟩ := bind_eq_ok hi
    cases h2
    obtain ⟨y, h1, h2⟩ := bind_eq_ok hx
    cases h2
    simp only [discreteCall] at h1
    by_cases hp : p < 0 ∨ p > 1
    · rw [if_pos hp] at h1; cases h1
    · rw [if_neg hp] at h1
      cases hg : ks[(cdf.takeWhile fun v => decide (v < p)).length]? with
      | none => rw [hg] at h1; cases h1
      | some k =>
        rw [hg] at h1
        cases h1
        exact List.mem_of_getElem? hg

theorem machineLastLoop_rows {sqrt : K → K} {inv : Inv K D} {us : Nat → K} (n : Nat) : ∀ (k : Nat) (rows : List (List (K ⊕ D))) (k' : Nat),
    machineLastLoop R sqrt inv us n k = .ok (rows, k') → rows.length = n ∧ k' = k + n ∧
      ∀ (j : Nat) (row : List (K ⊕ D)), rows[j]? = some row → ∃ x, row = [x] ∧ machineInvCall R sqrt inv (us (k + j)) = .ok x := by
  induction n with
  | zero =>
    intro k rows k' h
    cases h
    exact ⟨rfl, rfl, by simp⟩
  | succ n ih =>
    intro k rows k' h
    obtain ⟨x, h1, h⟩ := bind_eq_ok h
    obtain ⟨⟨rs, k1⟩, h2, h⟩ := bind_eq_ok h
    cases h
    obtain ⟨e1, e2, e3⟩ := ih _ _ _ h2
    refine ⟨by simp [e1], by omega, fun j row hj => ?_⟩
    cases j with
    | zero => cases hj; exact ⟨x, rfl, h1⟩
    | succ j =>
      obtain ⟨y, f1, f2⟩ := e3 j row (by simpa using hj)
      exact ⟨y, f1, by rw [show k + (j + 1) = k + 1 + j by omega]; exact f2⟩

theorem machineNodeLoop_rows {sqrt : K → K} {I : Interp K D} {ax : Axis K D} {us : Nat → K} (subs : List (List (K ⊕ D))) : ∀ (k : Nat) (rows : List (List (K ⊕ D))) (k' : Nat),
    machineNodeLoop R sqrt I ax us subs k = .ok (rows, k') → rows.length = subs.length ∧ k' = k + subs.length ∧
      ∀ (j : Nat) (row : List (K ⊕ D)), rows[j]? = some row → ∃ x sub ds inv, subs[j]? = some sub ∧ row = x :: sub ∧ machineDensities R I sub ax.knots = .ok ds ∧
        machineInv R ax ds = .ok inv ∧ machineInvCall R sqrt inv (us (k + j)) = .ok x := by
  induction subs with
  | nil =>
    intro k rows k' h
    cases h
    exact ⟨rfl, rfl, by simp⟩
  | cons sub subs ih =>
    intro k rows k' h
    obtain ⟨ds, h1, h⟩ := bind_eq_ok h
    obtain ⟨inv, h2, h⟩ := bind_eq_ok h
    obtain ⟨x, h3, h⟩ := bind_eq_ok h
    obtain ⟨⟨rs, k1⟩, h4, h⟩ := bind_eq_ok h
    cases h
    obtain ⟨e1, e2, e3⟩ := ih _ _ _ h4
    refine ⟨by simp [e1], by simp; omega, fun j row hj => ?_⟩
    cases j with
    | zero => cases hj; exact ⟨x, sub, ds, inv, rfl, rfl, h1, h2, h3⟩
    | succ j =>
      obtain ⟨y, s, d, i, f1, f2, f3, f4, f5⟩ := e3 j row (by simpa using hj)
      exact ⟨y, s, d, i, by simpa using f1, f2, f3, f4, by rw [show k + (j + 1) = k + 1 + j by omega]; exact f5⟩

theorem machineSampler_node {h : Heap K} {ax ax2 : Axis K D} {rest : List (Axis K D)} {a : Nd} {h2 : Heap K} {s : Sampler K D}
    (hs : machineSampler R h (ax :: ax2 :: rest) a = .ok (h2, s)) :
    ∃ I h1 m sub, build h (ax :: ax2 :: rest) a = .ok I ∧ machineMarginal R h a ax = .ok (h1, m) ∧ machineSampler R h1 (ax2 :: rest) m = .ok (h2, sub) ∧ s = .node I ax sub := by
  rw [machineSampler] at hs
  by_cases hr : a.shape.length ≠ rest.length + 2
  · rw [if_pos hr] at hs; cases hs
  · rw [if_neg hr] at hs
    obtain ⟨I, h1, hs⟩ := bind_eq_ok hs
    obtain ⟨⟨g, m⟩, h3, hs⟩ := bind_eq_ok hs
    obtain ⟨⟨g2, sub⟩, h4, hs⟩ := bind_eq_ok hs
    cases hs
    exact ⟨I, g, m, sub, h1, h3, h4, rfl⟩

/-- Densities that are all 0 belong to the first knot. -/
theorem machineCdfLoop_zero (xs : List K) : ∀ x0 (r : List K), machineCdfLoop R x0 0 0 xs (List.replicate xs.length 0) = .ok r → r = List.replicate xs.length 0 := by
  induction xs with
  | nil => intro x0 r h; cases h; rfl
  | cons x1 xs ih =>
    intro x0 r h
    rw [List.length_cons, List.replicate_succ, machineCdfLoop] at h
    have e : R.rnd (R.rnd (R.rnd (R.rnd (x1 - x0) * R.rnd (0 + 0)) / 2) + 0) = 0 := by simp only [add_zero, R.zero, mul_zero, zero_div]
    simp only [e] at h
    obtain ⟨r', h1, h2⟩ := bind_eq_ok h
    cases h2
    rw [ih x1 r' h1, List.length_cons, List.replicate_succ]

theorem machineInv_zero {sqrt : K → K} (x0 : K) (xs : List K) {inv : Inv K D} (hi : machineInv R (.cont (x0 :: xs)) (List.replicate (xs.length + 1) 0) = .ok inv) {p : K} {x : K ⊕ D}
    (hx : machineInvCall R sqrt inv p = .ok x) : x = .inl x0 := by
  obtain ⟨I, hI, h2⟩ := bind_eq_ok hi
  cases h2
  obtain ⟨y, hy, h2⟩ := bind_eq_ok hx
  cases h2
  congr 1
  rw [machineInverse.eq_def] at hI
  by_cases hk : knotsOk (x0 :: xs) = false
  · rw [if_pos hk] at hI; cases hI
  rw [if_neg hk, List.replicate_succ] at hI
  simp only at hI
  obtain ⟨r, hr, hI⟩ := bind_eq_ok hI
  have hr' := machineCdfLoop_zero R xs x0 r hr
  subst hr'
  cases hI
  rw [machineInverseCall] at hy
  by_cases hp : p < 0 ∨ p > 1
  · rw [if_pos hp] at hy; cases hy
  rw [if_neg hp, ← List.replicate_succ] at hy
  have ht := trailing_spec (List.replicate (xs.length + 1) (0 : K)).reverse (by simp)
  have hlen : (x0 :: xs).length = xs.length + 1 := rfl
  simp only [List.length_reverse, List.length_replicate] at ht
  simp only [hlen, List.length_replicate, List.take_replicate] at hy
  obtain ⟨m, hm⟩ : ∃ m, xs.length + 1 - trailing (List.replicate (xs.length + 1) (0 : K)).reverse = m + 1 := ⟨xs.length - trailing (List.replicate (xs.length + 1) (0 : K)).reverse, by omega⟩
  rw [hm, Nat.min_eq_left (by omega)] at hy
  have e1 : (List.replicate (m + 1) (0 : K)).head? = some 0 := rfl
  have e2 : (List.replicate (m + 1) (0 : K)).getLast? = some 0 := by simp [List.getLast?_replicate]
  obtain ⟨l, e3⟩ : ∃ l, ((x0 :: xs).take (m + 1)).getLast? = some l := ⟨_, List.getLast?_eq_some_getLast (by simp)⟩
  have e4 : ((x0 :: xs).take (m + 1)).head? = some x0 := rfl
  simp only [e1, e2, e3, e4, sub_self, R.zero, mul_zero, add_zero, le_refl, if_true] at hy
  exact (Outcome.ok.inj hy).symm

theorem machineDensities_zero {I : Interp K D} {sub : List (K ⊕ D)} (l : List (K ⊕ D)) (h : ∀ x ∈ l, machineCall R false I (x :: sub) = .ok 0) :
    machineDensities R I sub l = .ok (List.replicate l.length 0) := by
  induction l with
  | nil => rfl
  | cons x l ih =>
    rw [machineDensities, h x List.mem_cons_self, Outcome.bind_ok, ih fun y hy => h y (List.mem_cons_of_mem _ hy)]
    rfl

theorem machineSumAxis_made {h g : Heap K} {a out : Nd} {axis : Int} (hr : a.shape.length ≠ 1) (hs : NdArray.machineSumAxis R h a axis = .ok (g, out)) :
    ∃ d, NdArray.mkData h out.shape d = .ok (g, out) := by
  unfold NdArray.machineSumAxis NdArray.sumAxis at hs
  cases hn : NdArray.normAxis a.shape.length axis with
  | ub => rw [hn] at hs; cases hs
  | throw e => rw [hn] at hs; cases hs
  | ok ax =>
    rw [hn, Outcome.bind_ok, if_neg hr] at hs
    cases hz : NdArray.mkZero (0 : K) h (a.shape.eraseIdx ax) with
    | mk h1 out1 =>
      simp only [hz] at hs
      have e1 : h1 = h ++ [List.replicate (NdArray.accU32 (a.shape.eraseIdx ax)) 0] := (congrArg Prod.fst hz).symm
      have e2 : out1 = (NdArray.mkZero (0 : K) h (a.shape.eraseIdx ax)).2 := (congrArg Prod.snd hz).symm
      generalize hf : NdArray.fillLoop out1 _ _ h1 = r at hs
      cases r with
      | ub => cases hs
      | throw e => cases hs
      | ok h2 =>
        cases hs
        rw [e1] at hf
        obtain ⟨d, h3, h4⟩ := fillLoop_snoc (h := h) (by rw [e2]; rfl) _ _ _ hf
        refine ⟨d, ?_⟩
        have : out.shape = a.shape.eraseIdx ax := by rw [e2]; rfl
        rw [this, mkData_of_zero h3 (by rw [h4]; simp), e2]

/-- The rounded sums along a discrete axis of positive numbers are positive numbers again. -/
theorem machineMarginal_disc {h h' : Heap K} {shape : List Nat} {data : List K} {a : Nd} {ks : List D} {ax2 : Axis K D} {rest : List (Axis K D)}
    (S : Spec.Setup h h' shape data a (.disc ks :: ax2 :: rest)) (hP : ∀ c, Valid shape c → ∃ x, NdArray.at' h' a c = .ok x ∧ 0 < x ∧ R.rnd x = x) :
    ∃ g m d, machineMarginal R h' a (.disc ks : Axis K D) = .ok (g, m) ∧ Spec.Setup h' g ((ax2 :: rest).map Axis.size).reverse d m (ax2 :: rest) ∧
      ∀ c, Valid ((ax2 :: rest).map Axis.size).reverse c → ∃ x, NdArray.at' g m c = .ok x ∧ 0 < x ∧ R.rnd x = x := by
  obtain ⟨_, hh', ha⟩ := NdArray.mkData_spec S.made
  have hsh : a.shape = shape := by rw [ha]
  have hshape : a.shape = ((ax2 :: rest).map Axis.size).reverse ++ [ks.length] := by
    rw [hsh, S.extents]
    simp [Axis.size]
  have hcid : a.cid < h'.length := by rw [ha, hh']; simp
  have hrank : 2 ≤ a.shape.length := by rw [hshape]; simp
  generalize hT : ((ax2 :: rest).map Axis.size).reverse = T at *
  have herase : a.shape.eraseIdx T.length = T := by
    rw [hshape, List.eraseIdx_append_of_length_le (le_refl _)]
    simp
  have hget : a.shape[T.length]? = some ks.length := by rw [hshape]; simp
  have hk : 0 < ks.length := AxisOk.pos (S.axesOk _ List.mem_cons_self)
  have hsmall : card T < 2 ^ 31 := by
    have h1 := S.small
    rw [← hsh, hshape, NdArray.card_append] at h1
    have h4 : card [ks.length] = ks.length := by simp [card]
    rw [h4] at h1
    exact lt_of_le_of_lt (Nat.le_mul_of_pos_right _ hk) h1
  choose f hf using fun c => show ∃ x, Valid shape c → NdArray.at' h' a c = .ok x ∧ 0 < x ∧ R.rnd x = x from by
    by_cases hc : Valid shape c
    · obtain ⟨x, hx⟩ := hP c hc
      exact ⟨x, fun _ => hx⟩
    · exact ⟨0, fun h => absurd h hc⟩
  have hax : ((-1 : Int) = (T.length : Int) ∨ (-1 : Int) = (T.length : Int) - (a.shape.length : Int)) ∧ a.shape[T.length]? = some ks.length := by
    refine ⟨Or.inr ?_, hget⟩
    rw [hshape]
    simp
  obtain ⟨g, m, h1, h2, h3, -⟩ := @NdArray.sumAxis_fold K ⟨fun x y => R.rnd (x + y)⟩ _ h' a f hcid (fun c hc => (hf c (hsh ▸ hc)).1) hrank (-1) T.length ks.length hax (by rw [herase]; exact hsmall)
  rw [herase] at h2
  obtain ⟨d, hd⟩ := machineSumAxis_made R (axis := -1) (by omega) (show NdArray.machineSumAxis R h' a (-1) = .ok (g, m) from h1)
  rw [h2] at hd
  refine ⟨g, m, d, ?_, ⟨hd, hsmall, by simp, fun b hb => S.axesOk b (List.mem_cons_of_mem _ hb), hT.symm⟩, fun c hc => ?_⟩
  · rw [machineMarginal, show NdArray.machineSumAxis R h' a (-1) = .ok (g, m) from h1]
    rfl
  · refine ⟨_, h3 c (by rw [h2]; exact hc), ?_⟩
    have hv : ∀ k ∈ List.range ks.length, 0 < f (put T.length k c) ∧ R.rnd (f (put T.length k c)) = f (put T.length k c) := fun k hk =>
      (hf _ (hsh ▸ (NdArray.valid_of_erase hget (by rw [herase]; exact hc) (List.mem_range.mp hk)).1)).2
    constructor
    · exact lt_of_lt_of_le (hv 0 (List.mem_range.mpr hk)).1 ((NdArray.foldl_ge (R := R) (fun k => f (put T.length k c)) (List.range ks.length)
        (fun k hk => ⟨(hv k hk).1.le, (hv k hk).2⟩) 0 le_rfl R.zero).2 0 (List.mem_range.mpr hk))
    · obtain ⟨l, q, hl⟩ : ∃ l q, List.range ks.length = l ++ [q] := ⟨List.range (ks.length - 1), ks.length - 1, by
        rw [← List.range_succ]
        congr 1
        omega⟩
      rw [hl, List.foldl_append]
      exact R.idem _

/-- The densities along a discrete axis for knots of the other, discrete axes. -/
theorem machineDensities_disc (pos : ∀ v, 0 < v → 0 < R.rnd v) {h h' : Heap K} {shape : List Nat} {data : List K} {a : Nd} {ks : List D} {axs : List (Axis K D)}
    (S : Spec.Setup h h' shape data a (.disc ks :: axs)) (hd : ∀ ax ∈ axs, ax.IsDisc) (hP : ∀ c, Valid shape c → ∃ x, NdArray.at' h' a c = .ok x ∧ 0 < x ∧ R.rnd x = x)
    {I : Interp K D} (hI : build h' (.disc ks :: axs) a = .ok I) {sub : List (K ⊕ D)} (hs : List.Forall₂ Spec.Fits axs sub) :
    ∀ l : List D, (∀ d ∈ l, d ∈ ks) → ∃ ds, machineDensities R I sub (l.map .inr) = .ok ds ∧ ds.length = l.length ∧ ∀ d ∈ ds, 0 < d ∧ R.rnd d = d := by
  have hP' : ∀ c v, NdArray.at' h' a c = .ok v → 0 < v ∧ R.rnd v = v := by
    intro c v hv
    obtain ⟨_, _, ha⟩ := NdArray.mkData_spec S.made
    have hsh : a.shape = shape := by rw [ha]
    by_cases hc : Valid shape c
    · obtain ⟨x, hx, hx'⟩ := hP c hc
      rw [hx] at hv
      cases hv
      exact hx'
    · rw [NdArray.at', NdArray.getOffset_invalid (by rw [ha]; exact NdArray.updateStrides_length _) (by rw [hsh]; exact hc)] at hv
      cases hv
  have hcall : ∀ d ∈ ks, ∃ y, machineCall R false I (.inr d :: sub) = .ok y ∧ 0 < y ∧ R.rnd y = y := by
    intro d hd'
    obtain ⟨w, v, -, h2, h3⟩ := tree_sim R false (fun v => 0 < v ∧ R.rnd v = v) (fun axs _ _ v => (∀ ax ∈ axs, ax.IsDisc) → 0 < v ∧ R.rnd v = v) (fun v hv _ => hv)
      (fun ks axs x xs _ _ _ hall => (hall _ List.mem_cons_self).elim) (fun ax axs x xs w v _ _ hq hall => hq fun b hb => hall b (List.mem_cons_of_mem _ hb))
      (by
        intro ks axs x xs i k l y z y' z' _ _ hkl _ _ _
        have hp := pos _ (sub_pos.mpr hkl)
        exact ⟨_, by rw [machineLineThrough, if_neg (ne_of_gt hkl), machineCoefs_ok R hp]; rfl, fun hall => (hall _ List.mem_cons_self).elim⟩)
      (.disc ks :: axs) I (setup_good S hI _ hP') S.axesOk (.inr d :: sub) (.cons hd' hs)
    exact ⟨v, h2, h3 fun ax hax => by
      rcases List.mem_cons.mp hax with rfl | hax
      · trivial
      · exact hd ax hax⟩
  intro l
  induction l with
  | nil => intro _; exact ⟨[], rfl, rfl, by simp⟩
  | cons d l ih =>
    intro hl
    obtain ⟨y, h1, h2⟩ := hcall d (hl d List.mem_cons_self)
    obtain ⟨ds, e1, e2, e3⟩ := ih fun d hd => hl d (List.mem_cons_of_mem _ hd)
    refine ⟨y :: ds, ?_, by simp [e2], fun z hz => ?_⟩
    · rw [List.map_cons, machineDensities, h1, Outcome.bind_ok, e1]
      rfl
    · rcases List.mem_cons.mp hz with rfl | hz
      · exact h2
      · exact e3 z hz

theorem machineInv_disc (half : R.rnd (1 / 2) = 1 / 2) {sqrt : K → K} {ks : List D} {ds : List K} (hne : ks ≠ []) (hl : ds.length = ks.length) (hd : ∀ d ∈ ds, 0 < d ∧ R.rnd d = d) :
    ∃ inv, machineInv R (.disc ks : Axis K D) ds = .ok inv ∧ ∀ p, 0 ≤ p → p ≤ 1 → ∃ x, machineInvCall R sqrt inv p = .ok x := by
  obtain ⟨v, hv⟩ : ∃ v, v ∈ ds := List.exists_mem_of_ne_nil _ (by rintro rfl; exact hne (List.length_eq_zero_iff.mp hl.symm))
  obtain ⟨cdf, h1, -, -, -, h2⟩ := C122_discrete R half ks ds hl.symm (fun v hv => (hd v hv).1.le) (fun v hv => (hd v hv).2) ⟨v, hv, (hd v hv).1⟩
  refine ⟨.disc ks cdf, by rw [machineInv, h1]; rfl, fun p h0 h1 => ?_⟩
  obtain ⟨i, d, c, h3, -⟩ := h2 p h0 h1
  exact ⟨.inr d, by rw [machineInvCall, h3]; rfl⟩

theorem machineLastLoop_ok {sqrt : K → K} {inv : Inv K D} {us : Nat → K} (h : ∀ k, ∃ x, machineInvCall R sqrt inv (us k) = .ok x) (n : Nat) :
    ∀ k, ∃ rows k', machineLastLoop R sqrt inv us n k = .ok (rows, k') := by
  induction n with
  | zero => intro k; exact ⟨[], k, rfl⟩
  | succ n ih =>
    intro k
    obtain ⟨x, hx⟩ := h k
    obtain ⟨rows, k', hr⟩ := ih (k + 1)
    exact ⟨[x] :: rows, k', by rw [machineLastLoop, hx, Outcome.bind_ok, hr]; rfl⟩

theorem machineNodeLoop_ok {sqrt : K → K} {I : Interp K D} {ax : Axis K D} {us : Nat → K} (subs : List (List (K ⊕ D)))
    (h : ∀ sub ∈ subs, ∃ ds inv, machineDensities R I sub ax.knots = .ok ds ∧ machineInv R ax ds = .ok inv ∧ ∀ k, ∃ x, machineInvCall R sqrt inv (us k) = .ok x) :
    ∀ k, ∃ rows k', machineNodeLoop R sqrt I ax us subs k = .ok (rows, k') := by
  induction subs with
  | nil => intro k; exact ⟨[], k, rfl⟩
  | cons sub subs ih =>
    intro k
    obtain ⟨ds, inv, h1, h2, h3⟩ := h sub List.mem_cons_self
    obtain ⟨x, hx⟩ := h3 k
    obtain ⟨rows, k', hr⟩ := ih (fun s hs => h s (List.mem_cons_of_mem _ hs)) (k + 1)
    exact ⟨(x :: sub) :: rows, k', by rw [machineNodeLoop, h1, Outcome.bind_ok, h2, Outcome.bind_ok, hx, Outcome.bind_ok, hr]; rfl⟩

/-! ## Theorems -/

/-- **C176 (rows).** With rounding, too, `n` draws that return give `n` rows and use `n` random numbers for each axis. Each row has one element for each axis, and that of a discrete
axis is one of its knots. -/
theorem C176_rows (sqrt : K → K) (us : Nat → K) (axes : List (Axis K D)) : ∀ (h : Heap K) (a : Nd) (h2 : Heap K) (s : Sampler K D), machineSampler R h axes a = .ok (h2, s) →
    ∀ (n k : Nat) (rows : List (List (K ⊕ D))) (k' : Nat), machineDraw R sqrt us n s k = .ok (rows, k') →
      rows.length = n ∧ k' = k + axes.length * n ∧ ∀ row ∈ rows, List.Forall₂ Spec.Fits axes row := by
  induction axes with
  | nil => intro h a h2 s hs; cases hs
  | cons ax axs ih =>
    intro h a h2 s hs n k rows k' hd
    match axs, ih, hs with
    | [], _, hs =>
      rw [machineSampler] at hs
      obtain ⟨vs, -, hs⟩ := bind_eq_ok hs
      obtain ⟨inv, h1, hs⟩ := bind_eq_ok hs
      by_cases hr : a.shape.length ≠ 1
      · rw [if_pos hr] at hs; cases hs
      rw [if_neg hr] at hs
      cases hs
      obtain ⟨e1, e2, e3⟩ := machineLastLoop_rows R n k rows k' hd
      refine ⟨e1, by simpa using e2, fun row hrow => ?_⟩
      obtain ⟨j, hj, rfl⟩ := List.mem_iff_getElem.mp hrow
      obtain ⟨x, f1, f2⟩ := e3 j _ (List.getElem?_eq_getElem hj)
      rw [f1]
      exact .cons (machineInv_fits R h1 f2) .nil
    | ax2 :: rest, ih, hs =>
      obtain ⟨I, g, m, sub, -, -, h3, rfl⟩ := machineSampler_node R hs
      obtain ⟨⟨subs, k1⟩, hd1, hd2⟩ := bind_eq_ok hd
      obtain ⟨e1, e2, e3⟩ := ih g m h2 sub h3 n k subs k1 hd1
      obtain ⟨f1, f2, f3⟩ := machineNodeLoop_rows R subs k1 rows k' hd2
      refine ⟨by omega, ?_, fun row hrow => ?_⟩
      · rw [f2, e2, e1, List.length_cons (a := ax)]
        ring
      · obtain ⟨j, hj, rfl⟩ := List.mem_iff_getElem.mp hrow
        obtain ⟨x, t, ds, inv, g1, g2, -, g4, g5⟩ := f3 j _ (List.getElem?_eq_getElem hj)
        rw [g2]
        exact .cons (machineInv_fits R g4 g5) (e3 t (List.mem_of_getElem? g1))

/-- **C176 (discrete axes).** If all axes are discrete and the elements of the array are positive, then the constructor leaves the array alone and returns, and every number of draws returns. -/
theorem C176_discrete (half : R.rnd (1 / 2) = 1 / 2) (pos : ∀ v, 0 < v → 0 < R.rnd v) (sqrt : K → K) (us : Nat → K) (hus : ∀ k, 0 ≤ us k ∧ us k ≤ 1) (axes : List (Axis K D)) :
    ∀ (h h' : Heap K) (shape : List Nat) (data : List K) (a : Nd), Spec.Setup h h' shape data a axes → (∀ ax ∈ axes, ax.IsDisc) →
    (∀ c, Valid shape c → ∃ x, NdArray.at' h' a c = .ok x ∧ 0 < x ∧ R.rnd x = x) →
    ∃ h2 s, machineSampler R h' axes a = .ok (h2, s) ∧ h' <+: h2 ∧ ∀ n k, ∃ rows, machineDraw R sqrt us n s k = .ok (rows, k + axes.length * n) := by
  have strong : ∀ (h h' : Heap K) (shape : List Nat) (data : List K) (a : Nd), Spec.Setup h h' shape data a axes → (∀ ax ∈ axes, ax.IsDisc) →
      (∀ c, Valid shape c → ∃ x, NdArray.at' h' a c = .ok x ∧ 0 < x ∧ R.rnd x = x) →
      ∃ h2 s, machineSampler R h' axes a = .ok (h2, s) ∧ h' <+: h2 ∧ ∀ n k, ∃ rows k', machineDraw R sqrt us n s k = .ok (rows, k') := by
    induction axes with
    | nil => intro h h' shape data a S; exact absurd rfl S.some
    | cons ax axs ih =>
      intro h h' shape data a S hdisc hP
      have hok := S.axesOk ax List.mem_cons_self
      have hax := hdisc ax List.mem_cons_self
      match ax, hax, axs, ih, S, hdisc, hok with
      | .disc ks, _, [], _, S, _, hok =>
        have hs : a.shape = shape := by
          obtain ⟨_, _, rfl⟩ := NdArray.mkData_spec S.made
          rfl
        have hshape : shape = [ks.length] := by rw [S.extents]; simp [Axis.size]
        obtain ⟨l, hl, hlen, hcard, hat⟩ := NdArray.C04_iteration_row_major h h' shape data a a S.made S.small (by rw [hshape]; simp) [] rfl
        have hlen' : l.length = ks.length := by rw [hlen, hcard, hs, hshape]; simp [card]
        obtain ⟨inv, h1, h2⟩ := machineInv_disc R half (sqrt := sqrt) (ks := ks) (ds := l) hok.1 hlen' (by
          intro d hd
          obtain ⟨i, hi, rfl⟩ := List.mem_iff_getElem.mp hd
          have h1 := congrArg (fun l => l[i]?) hat
          rw [hs, hshape, allCoords_one] at h1
          simp only [List.getElem?_map, List.getElem?_range (show i < ks.length by omega), Option.map_some] at h1
          obtain ⟨x, hx, hx'⟩ := hP [i] (by rw [hshape]; exact ⟨by omega, trivial⟩)
          rw [hx, List.getElem?_eq_getElem hi] at h1
          have : x = l[i] := by simpa using h1
          rwa [← this])
        refine ⟨h', .last inv, ?_, List.prefix_refl _, fun n k => machineLastLoop_ok R (fun k => h2 (us k) (hus k).1 (hus k).2) n k⟩
        rw [machineSampler, hl]
        simp only [fromNd, Outcome.bind_ok, h1]
        rw [if_neg (by simp [hs, hshape])]
        rfl
      | .disc ks, _, ax2 :: rest, ih, S, hdisc, hok =>
        have hr : a.shape.length = rest.length + 2 := by
          obtain ⟨_, _, rfl⟩ := NdArray.mkData_spec S.made
          simp [S.extents]
        obtain ⟨-, -, I, hI, -⟩ := Setup.den S
        obtain ⟨g, m, d, hm, S', hP'⟩ := machineMarginal_disc R S hP
        obtain ⟨h2, s, hs, hpre, hdraw⟩ := ih h' g _ d m S' (fun b hb => hdisc b (List.mem_cons_of_mem _ hb)) hP'
        have hpre' : h' <+: g := by
          obtain ⟨_, rfl, _⟩ := NdArray.mkData_spec S'.made
          exact List.prefix_append _ _
        refine ⟨h2, .node I (.disc ks) s, ?_, hpre'.trans hpre, fun n k => ?_⟩
        · rw [machineSampler, if_neg (by omega), hI, Outcome.bind_ok, hm]
          simp only [Outcome.bind_ok, hs]
          rfl
        · obtain ⟨subs, k1, h1⟩ := hdraw n k
          have hfit := (C176_rows R sqrt us _ g m h2 s hs n k subs k1 h1).2.2
          obtain ⟨rows, k', h3⟩ := machineNodeLoop_ok R (sqrt := sqrt) (I := I) (ax := .disc ks) (us := us) subs (by
            intro sub hsub
            obtain ⟨ds, e1, e2, e3⟩ := machineDensities_disc R pos S (fun b hb => hdisc b (List.mem_cons_of_mem _ hb)) hP hI (hfit sub hsub) ks fun d hd => hd
            obtain ⟨inv, e4, e5⟩ := machineInv_disc R half (sqrt := sqrt) hok.1 e2 e3
            exact ⟨ds, inv, e1, e4, fun k => e5 (us k) (hus k).1 (hus k).2⟩) k1
          exact ⟨rows, k', by rw [machineDraw, h1, Outcome.bind_ok]; exact h3⟩
  intro h h' shape data a S hd hP
  obtain ⟨h2, s, hs, hpre, hdraw⟩ := strong h h' shape data a S hd hP
  refine ⟨h2, s, hs, hpre, fun n k => ?_⟩
  obtain ⟨rows, k', h1⟩ := hdraw n k
  exact ⟨rows, by rw [h1, (C176_rows R sqrt us _ _ _ _ _ hs n k rows k' h1).2.1]⟩

/-- **C176 (outside).** If an element of a later axis is outside its knots, then that of a continuous first axis is its first knot, whatever the random number is. -/
theorem C176_outside (pos : ∀ v, 0 < v → 0 < R.rnd v) (sqrt : K → K) (us : Nat → K) (h h' : Heap K) (shape : List Nat) (data : List K) (a : Nd) (x0 : K) (xs : List K)
    (ax2 : Axis K D) (rest : List (Axis K D)) (S : Spec.Setup h h' shape data a (.cont (x0 :: xs) :: ax2 :: rest)) (h2 : Heap K) (s : Sampler K D)
    (hs : machineSampler R h' (.cont (x0 :: xs) :: ax2 :: rest) a = .ok (h2, s)) (n k : Nat) (rows : List (List (K ⊕ D))) (k' : Nat)
    (hd : machineDraw R sqrt us n s k = .ok (rows, k')) (x : K ⊕ D) (sub : List (K ⊕ D)) (hrow : x :: sub ∈ rows)
    (ho : ∃ (j : Nat) (ks : List K) (y : K), (ax2 :: rest)[j]? = some (.cont ks) ∧ sub[j]? = some (.inl y) ∧ ((∀ k ∈ ks, y < k) ∨ ∀ k ∈ ks, k < y)) :
    x = .inl x0 := by
  have hfit : List.Forall₂ Spec.Fits (ax2 :: rest) sub := by
    cases (C176_rows R sqrt us _ h' a h2 s hs n k rows k' hd).2.2 _ hrow with
    | cons _ h => exact h
  obtain ⟨I, g, m, t, hI, -, h3, rfl⟩ := machineSampler_node R hs
  obtain ⟨⟨subs, k1⟩, hd1, hd2⟩ := bind_eq_ok hd
  obtain ⟨-, -, f3⟩ := machineNodeLoop_rows R subs k1 rows k' hd2
  obtain ⟨j, hj, hj'⟩ := List.mem_iff_getElem.mp hrow
  obtain ⟨x', sub', ds, inv, -, g2, g3, g4, g5⟩ := f3 j (x :: sub) (by rw [List.getElem?_eq_getElem hj, hj'])
  cases g2
  have hz := machineDensities_zero R (I := I) (sub := sub) (Axis.cont (x0 :: xs) : Axis K D).knots (by
    intro y hy
    obtain ⟨q, -, rfl⟩ := List.mem_map.mp hy
    obtain ⟨j, ks, y, e1, e2, e3⟩ := ho
    exact C149_outside R pos h h' shape data a _ S I hI _ (.cons trivial hfit) ⟨j + 1, ks, y, by simpa using e1, by simpa using e2, e3⟩)
  rw [hz] at g3
  cases g3
  rw [show (Axis.cont (x0 :: xs) : Axis K D).knots.length = xs.length + 1 by simp [Axis.knots]] at g4
  exact machineInv_zero R x0 xs g4 g5

end

/-! ## What the full statement would be -/

/-- The full statement for `double` and two continuous axes: the elements lie between the first and the last knot of their axis, up to the tolerance of the code. -/
def C176_full (sqrt : ℚ → ℚ) : Prop :=
  ∀ (us : Nat → ℚ), (∀ k, 0 ≤ us k ∧ us k ≤ 1 ∧ Binary.Rep 53 (us k)) → ∀ (ks ls : List ℚ) (h h' : Heap ℚ) (shape : List Nat) (data : List ℚ) (a : Nd),
    Spec.Setup h h' shape data a ([.cont ks, .cont ls] : List (Axis ℚ Nat)) → (∀ v ∈ data, 0 ≤ v) → (∀ v ∈ ks ++ ls ++ data, Binary.Rep 53 v) →
    ∀ (h2 : Heap ℚ) (s : Sampler ℚ Nat), machineSampler (Binary.rounding 53 (by decide)) h' [.cont ks, .cont ls] a = .ok (h2, s) →
      ∀ (n k : Nat) (rows : List (List (ℚ ⊕ Nat))) (k' : Nat), machineDraw (Binary.rounding 53 (by decide)) sqrt us n s k = .ok (rows, k') → ∀ x y, [.inl x, .inl y] ∈ rows →
        ∃ l ∈ ls, l - tol ≤ y

/-- The knots of the axes are 0 and 1, and 100000000 and 100000001; along the second axis the density rises from 1 to 2. -/
def farNd : Nd := ⟨0, 0, [2, 2], [2, 1], [], 4⟩
def farInterp : Interp ℚ Nat := .node (.cont [0, 1]) [.last (.cont [100000000, 100000001]) [1, 2], .last (.cont [100000000, 100000001]) [1, 2]]
def farSampler : Sampler ℚ Nat := .node farInterp (.cont [0, 1]) (.last (.cont ⟨[100000000, 100000001], [1, 2], [1, 5 / 2]⟩))

theorem far_setup : Spec.Setup [] [[1, 1, 2, 2]] [2, 2] [1, 1, 2, 2] farNd ([.cont [0, 1], .cont [100000000, 100000001]] : List (Axis ℚ Nat)) :=
  ⟨rfl, by decide, by simp, by simp [Spec.AxisOk]; norm_num, rfl⟩

theorem far_mk : machineSampler (Binary.rounding 53 (by decide)) [[1, 1, 2, 2]] ([.cont [0, 1], .cont [100000000, 100000001]] : List (Axis ℚ Nat)) farNd =
    .ok ([[1, 1, 2, 2], [1, 2]], farSampler) := by
  have h1 : build [[1, 1, 2, 2]] ([.cont [0, 1], .cont [100000000, 100000001]] : List (Axis ℚ Nat)) farNd = .ok farInterp := by rfl
  have h2 : machineMarginal (Binary.rounding 53 (by decide)) [[1, 1, 2, 2]] farNd (.cont [0, 1] : Axis ℚ Nat) = .ok ([[1, 1, 2, 2], [1, 2]], ⟨1, 0, [2], [1], [], 2⟩) := by decide +kernel
  have h3 : NdArray.iterate [[(1 : ℚ), 1, 2, 2], [1, 2]] ⟨1, 0, [2], [1], [], 2⟩ = .ok [1, 2] := by decide +kernel
  have h4 : machineInverse (Binary.rounding 53 (by decide)) [100000000, 100000001] [1, 2] = .ok ⟨[(100000000 : ℚ), 100000001], [1, 2], [1, 5 / 2]⟩ := by decide +kernel
  rw [machineSampler, if_neg (by decide), h1, Outcome.bind_ok, h2]
  simp only [Outcome.bind_ok, machineSampler, h3, fromNd, machineInv, h4, Outcome.pure_eq]
  rfl

theorem far_call (sqrt : ℚ → ℚ) (h0 : sqrt 0 = 0) :
    machineInverseCall (Binary.rounding 53 (by decide)) sqrt ⟨[(100000000 : ℚ), 100000001], [1, 2], [1, 5 / 2]⟩ (1 / 4) = .ok 99999999 := by
  have f0 : (Binary.rounding 53 (by decide)).rnd (3 / 2) = 3 / 2 := by decide +kernel
  have f1 : (Binary.rounding 53 (by decide)).rnd (3 / 8) = 3 / 8 := by decide +kernel
  have f2 : (Binary.rounding 53 (by decide)).rnd (11 / 8) = 11 / 8 := by decide +kernel
  have f3 : (Binary.rounding 53 (by decide)).rnd (1) = 1 := by decide +kernel
  have f4 : (Binary.rounding 53 (by decide)).rnd (100000000) = 100000000 := by decide +kernel
  have f5 : (Binary.rounding 53 (by decide)).rnd (-99999999) = -99999999 := by decide +kernel
  have f6 : (Binary.rounding 53 (by decide)).rnd (1 / 2) = 1 / 2 := by decide +kernel
  have f7 : (Binary.rounding 53 (by decide)).rnd (10000000000000000) = 10000000000000000 := by decide +kernel
  have f8 : (Binary.rounding 53 (by decide)).rnd (5000000000000000) = 5000000000000000 := by decide +kernel
  have f9 : (Binary.rounding 53 (by decide)).rnd (-4999999999999999) = -4999999999999999 := by decide +kernel
  have f10 : (Binary.rounding 53 (by decide)).rnd (-9999999900000000) = -9999999900000000 := by decide +kernel
  have f11 : (Binary.rounding 53 (by decide)).rnd (4999999900000001) = 4999999900000001 := by decide +kernel
  have f12 : (Binary.rounding 53 (by decide)).rnd (-(39999999199999997 / 8)) = -4999999900000000 := by decide +kernel
  have f13 : (Binary.rounding 53 (by decide)).rnd (-9999999800000000) = -9999999800000000 := by decide +kernel
  have f14 : (Binary.rounding 53 (by decide)).rnd (9999999800000001) = 9999999800000000 := by decide +kernel
  have f15 : (Binary.rounding 53 (by decide)).rnd (0) = 0 := by decide +kernel
  have f16 : (Binary.rounding 53 (by decide)).rnd (99999999) = 99999999 := by decide +kernel
  norm_num [machineInverseCall, machineSegment, machineSolve, div?, List.takeWhile_cons, h0, f0, f1, f2, f3, f4, f5, f6, f7, f8, f9, f10, f11, f12, f13, f14, f15, f16]

theorem far_zero (sqrt : ℚ → ℚ) (p : ℚ) (h0 : 0 ≤ p) (h1 : p ≤ 1) :
    ∃ I, machineInverse (Binary.rounding 53 (by decide)) [0, (1 : ℚ)] [0, 0] = .ok I ∧ machineInverseCall (Binary.rounding 53 (by decide)) sqrt I p = .ok 0 := by
  refine ⟨⟨[0], [0, 0], [0]⟩, by decide +kernel, ?_⟩
  rw [machineInverseCall, if_neg (by simp; exact ⟨h0, h1⟩)]
  simp [Rounding.zero]

theorem far_densities : machineDensities (Binary.rounding 53 (by decide)) farInterp [.inl 99999999] (Axis.cont [0, 1] : Axis ℚ Nat).knots = .ok [0, 0] := by decide +kernel

theorem far_draw (sqrt : ℚ → ℚ) (h0 : sqrt 0 = 0) (us : Nat → ℚ) (hu : us 0 = 1 / 4) (h1 : 0 ≤ us 1 ∧ us 1 ≤ 1) :
    machineDraw (Binary.rounding 53 (by decide)) sqrt us 1 farSampler 0 = .ok ([[.inl 0, .inl 99999999]], 2) := by
  obtain ⟨I, e1, e2⟩ := far_zero sqrt (us 1) h1.1 h1.2
  rw [farSampler, machineDraw, machineDraw, machineLastLoop, hu, machineInvCall, far_call sqrt h0]
  simp only [Outcome.bind_ok, Outcome.pure_eq, machineLastLoop, machineNodeLoop, far_densities, machineInv, e1, machineInvCall, Nat.zero_add, e2]

/-- **C176 (violated).** The full statement fails: a quarter of the density that rises from 1 to 2 between 100000000 and 100000001 is drawn as 99999999. -/
theorem C176_violated (sqrt : ℚ → ℚ) (h0 : sqrt 0 = 0) : ¬ C176_full sqrt := by
  intro h
  obtain ⟨l, hl, hle⟩ := h (fun _ => 1 / 4) (fun _ => ⟨by norm_num, by norm_num, 1, -2, by decide, by norm_num⟩) [0, 1] [100000000, 100000001] _ _ _ _ _ far_setup (by decide +kernel) (by
      intro v hv
      simp only [List.cons_append, List.nil_append, List.mem_cons, List.not_mem_nil, or_false] at hv
      rcases hv with rfl | rfl | rfl | rfl | rfl | rfl | rfl | rfl
      · exact ⟨0, 0, by decide, by norm_num⟩
      · exact ⟨1, 0, by decide, by norm_num⟩
      · exact ⟨100000000, 0, by decide, by norm_num⟩
      · exact ⟨100000001, 0, by decide, by norm_num⟩
      · exact ⟨1, 0, by decide, by norm_num⟩
      · exact ⟨1, 0, by decide, by norm_num⟩
      · exact ⟨2, 0, by decide, by norm_num⟩
      · exact ⟨2, 0, by decide, by norm_num⟩) _ _ far_mk 1 0 _ _ (far_draw sqrt h0 (fun _ => 1 / 4) rfl (by norm_num)) 0 99999999 List.mem_cons_self
  simp only [List.mem_cons, List.not_mem_nil, or_false] at hl
  unfold tol at hle
  rcases hl with rfl | rfl <;> norm_num at hle

/-- **C176 (violated, consequence).** The density is the same everywhere along the first axis, and yet its element is then its first knot for every random number. -/
theorem C176_first_violated (sqrt : ℚ → ℚ) (h0 : sqrt 0 = 0) (us : Nat → ℚ) (hu : us 0 = 1 / 4) (h1 : 0 ≤ us 1 ∧ us 1 ≤ 1) :
    ∃ h2 s, machineSampler (Binary.rounding 53 (by decide)) [[1, 1, 2, 2]] ([.cont [0, 1], .cont [100000000, 100000001]] : List (Axis ℚ Nat)) farNd = .ok (h2, s) ∧
      machineDraw (Binary.rounding 53 (by decide)) sqrt us 1 s 0 = .ok ([[.inl 0, .inl 99999999]], 2) :=
  ⟨_, _, far_mk, far_draw sqrt h0 us hu h1⟩

/-- Two discrete axes with positive elements meet the conditions. -/
example (sqrt : ℚ → ℚ) := C176_discrete (Binary.rounding 53 (by decide)) (Binary.rounding_half 53 (by decide)) (fun x hx => by
    show 0 < Binary.rnd 53 x
    rw [Binary.rnd_of_pos hx]; exact Binary.rndPos_pos (by decide) hx) sqrt (fun _ => 1 / 4) (by intro _; norm_num) ([.disc [7, 8], .disc [3, 5]] : List (Axis ℚ Nat))
  [] [[1, 3, 2, 1]] [2, 2] [1, 3, 2, 1] ⟨0, 0, [2, 2], [2, 1], [], 4⟩ ⟨rfl, by decide, by simp, by simp [Spec.AxisOk], rfl⟩
  (by
    intro ax hax
    simp only [List.mem_cons, List.not_mem_nil, or_false] at hax
    rcases hax with rfl | rfl <;> trivial)
  (by
    intro c hc
    match c, hc with
    | [0, 0], _ => exact ⟨1, by decide +kernel⟩
    | [0, 1], _ => exact ⟨3, by decide +kernel⟩
    | [1, 0], _ => exact ⟨2, by decide +kernel⟩
    | [1, 1], _ => exact ⟨1, by decide +kernel⟩
    | (i + 2) :: _, h => exact absurd h.1 (by omega)
    | _ :: (i + 2) :: _, h => exact absurd h.2.1 (by omega))

/-- The draw of the counterexample meets the conditions of the theorems. -/
example (sqrt : ℚ → ℚ) (h0 : sqrt 0 = 0) := C176_rows (Binary.rounding 53 (by decide)) sqrt (fun _ => 1 / 4) _ _ _ _ _ far_mk 1 0 _ _ (far_draw sqrt h0 (fun _ => 1 / 4) rfl (by norm_num))

example (sqrt : ℚ → ℚ) (h0 : sqrt 0 = 0) := C176_outside (Binary.rounding 53 (by decide)) (fun x hx => by
    show 0 < Binary.rnd 53 x
    rw [Binary.rnd_of_pos hx]; exact Binary.rndPos_pos (by decide) hx) sqrt (fun _ => 1 / 4) _ _ _ _ _ _ _ _ _ far_setup _ _ far_mk 1 0 _ _
  (far_draw sqrt h0 (fun _ => 1 / 4) rfl (by norm_num)) (.inl 0) [.inl 99999999] List.mem_cons_self
  ⟨0, [100000000, 100000001], 99999999, rfl, rfl, Or.inl (by decide +kernel)⟩

end Alexandria.MathUtils
