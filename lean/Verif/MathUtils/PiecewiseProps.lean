import Verif.MathUtils.PolyProps
import Mathlib.Data.List.Chain
import Mathlib.MeasureTheory.Integral.Bochner.Set
import Mathlib.Tactic.Linarith

/-! # Piecewise functions (C32) -/

namespace Alexandria.MathUtils

open Finset

/-! ## Lemmas -/

theorem takeWhile_length_spec {α : Type} (p : α → Bool) (l : List α) :
    (∀ j a, j < (l.takeWhile p).length → l[j]? = some a → p a = true) ∧
      (∀ a, l[(l.takeWhile p).length]? = some a → p a = false) ∧ (l.takeWhile p).length ≤ l.length := by
  induction l with
  | nil => simp
  | cons b l ih =>
    cases hb : p b with
    | false => simp [List.takeWhile_cons, hb]
    | true =>
      simp only [List.takeWhile_cons, hb, if_true, List.length_cons, List.getElem?_cons_succ]
      refine ⟨?_, ih.2.1, by omega⟩
      intro j a hj ha
      cases j with
      | zero => simp at ha; rw [← ha]; exact hb
      | succ j => exact ih.1 j a (by omega) (by simpa using ha)

theorem takeWhile_length_eq {α : Type} (p : α → Bool) (l : List α) (i : Nat) (h1 : ∀ j a, j < i → l[j]? = some a → p a = true)
    (h2 : ∀ a, l[i]? = some a → p a = false) (h3 : i ≤ l.length) : (l.takeWhile p).length = i := by
  obtain ⟨s1, s2, s3⟩ := takeWhile_length_spec p l
  rcases Nat.lt_trichotomy (l.takeWhile p).length i with h | h | h
  · have h' : (l.takeWhile p).length < l.length := by omega
    have e := List.getElem?_eq_getElem h'
    have := h1 _ _ h e
    rw [s2 _ e] at this
    cases this
  · exact h
  · have h' : i < l.length := by omega
    have e := List.getElem?_eq_getElem h'
    have := s1 _ _ h e
    rw [h2 _ e] at this
    cases this

section
variable {K : Type} [Field K] [LinearOrder K]

theorem knotsOk_iff (ks : List K) : knotsOk ks = true ↔ ks.Pairwise (· ≤ ·) := by
  rw [← List.isChain_iff_pairwise]
  induction ks with
  | nil => simp [knotsOk]
  | cons k ks ih =>
    cases ks with
    | nil => simp [knotsOk]
    | cons l ks =>
      rw [knotsOk, List.isChain_cons_cons]
      by_cases h : l < k
      · rw [if_pos h]; simp [h]
      · rw [if_neg h, ih]; simp [not_lt.mp h]

/-- The constructor accepts exactly non-decreasing knots, one more than functions. -/
theorem C32_constructor (ks : List K) (fs : List (Fn K)) :
    (ks.length = fs.length + 1 ∧ ks.Pairwise (· ≤ ·) → mkPiecewise ks fs = .ok (.piecewise ks fs)) ∧
      (¬ (ks.length = fs.length + 1 ∧ ks.Pairwise (· ≤ ·)) → mkPiecewise ks fs = .throw .elements) := by
  unfold mkPiecewise
  by_cases h1 : ks.length = fs.length + 1
  · rw [if_neg (by simpa using h1)]
    by_cases h2 : knotsOk ks = true
    · rw [if_pos h2]
      exact ⟨fun _ => rfl, fun h => absurd ⟨h1, (knotsOk_iff ks).mp h2⟩ h⟩
    · rw [if_neg h2]
      exact ⟨fun h => absurd ((knotsOk_iff ks).mpr h.2) h2, fun _ => rfl⟩
  · rw [if_pos h1]
    exact ⟨fun h => absurd h.1 h1, fun _ => rfl⟩

theorem mkPiecewise_ok {ks : List K} {fs : List (Fn K)} {f : Fn K} (h : mkPiecewise ks fs = .ok f) :
    f = .piecewise ks fs ∧ ks.length = fs.length + 1 ∧ ks.Pairwise (· ≤ ·) := by
  by_cases hc : ks.length = fs.length + 1 ∧ ks.Pairwise (· ≤ ·)
  · rw [(C32_constructor ks fs).1 hc] at h
    cases h
    exact ⟨rfl, hc⟩
  · rw [(C32_constructor ks fs).2 hc] at h
    cases h

theorem evalNth_eq (fs : List (Fn K)) (i : Nat) (x : K) : evalNth fs i x = match fs[i]? with | some f => eval f x | none => .ub := by
  induction fs generalizing i with
  | nil => simp [evalNth]
  | cons f fs ih =>
    cases i with
    | zero => simp [evalNth]
    | succ i => rw [evalNth, ih]; simp

theorem sorted_get {ks : List K} (hs : ks.Pairwise (· ≤ ·)) {i j : Nat} {a b : K} (hij : i ≤ j) (ha : ks[i]? = some a) (hb : ks[j]? = some b) :
    a ≤ b := by
  obtain ⟨hi, rfl⟩ := List.getElem?_eq_some_iff.mp ha
  obtain ⟨hj, rfl⟩ := List.getElem?_eq_some_iff.mp hb
  rcases Nat.lt_or_eq_of_le hij with h | h
  · exact List.pairwise_iff_getElem.mp hs i j hi hj h
  · subst h; exact le_refl _

/-- The interval on which the piece with index `i` applies. -/
def Spec.InPiece (ks : List K) (i : Nat) (x : K) : Prop :=
  ∃ k l, ks[i]? = some k ∧ ks[i + 1]? = some l ∧ ((k < x ∧ x ≤ l) ∨ (i = 0 ∧ x = k))

theorem pieceIndex_in {ks : List K} (hs : ks.Pairwise (· ≤ ·)) {i : Nat} {x : K} (h : Spec.InPiece ks i x) : pieceIndex ks x = .ok (some i) := by
  obtain ⟨k, l, hk, hl, hx⟩ := h
  cases ks with
  | nil => cases hk
  | cons k0 ks =>
    rw [pieceIndex]
    rcases hx with ⟨h1, h2⟩ | ⟨rfl, rfl⟩
    · have h0 : k0 ≤ k := sorted_get hs (Nat.zero_le i) rfl hk
      rw [if_neg (not_lt.mpr (h0.trans h1.le)), if_neg (ne_of_gt (lt_of_le_of_lt h0 h1))]
      have hlen : i + 1 < (k0 :: ks).length := (List.getElem?_eq_some_iff.mp hl).1
      have e : ((k0 :: ks).takeWhile (· < x)).length = i + 1 := by
        apply takeWhile_length_eq
        · intro j a hj ha
          simpa using lt_of_le_of_lt (sorted_get hs (Nat.le_of_lt_succ hj) ha hk) h1
        · intro a ha
          rw [hl] at ha
          cases ha
          simpa using h2
        · omega
      simp only [e]
      rw [if_neg (by omega)]
      rfl
    · simp at hk
      subst hk
      rw [if_neg (lt_irrefl _), if_pos rfl]

theorem pieceIndex_out {ks : List K} (hne : ks ≠ []) {x : K} (h : (∀ k ∈ ks, x < k) ∨ ∀ k ∈ ks, k < x) : pieceIndex ks x = .ok none := by
  cases ks with
  | nil => exact absurd rfl hne
  | cons k0 ks =>
    rw [pieceIndex]
    rcases h with h | h
    · rw [if_pos (h k0 List.mem_cons_self)]
    · have h0 := h k0 List.mem_cons_self
      rw [if_neg (not_lt.mpr h0.le), if_neg (ne_of_gt h0)]
      have e : (k0 :: ks).takeWhile (· < x) = k0 :: ks := by
        have : ∀ l : List K, (∀ k ∈ l, k < x) → l.takeWhile (· < x) = l := by
          intro l
          induction l with
          | nil => intro _; rfl
          | cons a l ih =>
            intro h
            rw [List.takeWhile_cons, if_pos (by simpa using h a List.mem_cons_self), ih fun k hk => h k (List.mem_cons_of_mem _ hk)]
        exact this _ h
      simp only [e, if_true]

/-- The value is that of the piece whose interval contains the argument, and zero outside. -/
theorem C32_eval (ks : List K) (fs : List (Fn K)) (f : Fn K) (h : mkPiecewise ks fs = .ok f) (x : K) :
    (∀ i g, fs[i]? = some g → Spec.InPiece ks i x → eval f x = eval g x) ∧
      ((∀ k ∈ ks, x < k) ∨ (∀ k ∈ ks, k < x) → eval f x = .ok 0) := by
  obtain ⟨rfl, hlen, hs⟩ := mkPiecewise_ok h
  constructor
  · intro i g hg hx
    rw [eval, pieceIndex_in hs hx]
    simp only
    rw [evalNth_eq, hg]
  · intro hx
    rw [eval, pieceIndex_out (by intro e; simp [e] at hlen) hx]

/-- With at least one piece every argument is in one piece or outside. -/
theorem C32_cases (ks : List K) (fs : List (Fn K)) (f : Fn K) (h : mkPiecewise ks fs = .ok f) (hne : fs ≠ []) (x : K) :
    (∃ i g, fs[i]? = some g ∧ Spec.InPiece ks i x) ∨ (∀ k ∈ ks, x < k) ∨ ∀ k ∈ ks, k < x := by
  obtain ⟨rfl, hlen, hs⟩ := mkPiecewise_ok h
  have hpos := List.length_pos_iff.mpr hne
  obtain ⟨s1, s2, s3⟩ := takeWhile_length_spec (fun k => decide (k < x)) ks
  generalize hi : (ks.takeWhile fun k => decide (k < x)).length = i at s1 s2 s3
  by_cases hlast : i = ks.length
  · right; right
    intro k hk
    obtain ⟨j, hj, rfl⟩ := List.mem_iff_getElem.mp hk
    simpa using s1 j _ (by omega) (List.getElem?_eq_getElem hj)
  · have hi' : i < ks.length := by omega
    have hl := s2 _ (List.getElem?_eq_getElem hi')
    simp only [decide_eq_false_iff_not, not_lt] at hl
    by_cases h0 : i = 0
    · subst h0
      rcases lt_or_eq_of_le hl with hlt | heq
      · right; left
        intro k hk
        obtain ⟨j, hj, rfl⟩ := List.mem_iff_getElem.mp hk
        exact lt_of_lt_of_le hlt (sorted_get hs (Nat.zero_le j) (List.getElem?_eq_getElem hi') (List.getElem?_eq_getElem hj))
      · left
        exact ⟨0, fs[0], List.getElem?_eq_getElem hpos, _, ks[1], List.getElem?_eq_getElem hi', List.getElem?_eq_getElem (by omega), Or.inr ⟨rfl, heq⟩⟩
    · left
      have h1 : i - 1 < ks.length := by omega
      have hk := s1 (i - 1) _ (by omega) (List.getElem?_eq_getElem h1)
      simp only [decide_eq_true_eq] at hk
      refine ⟨i - 1, fs[i - 1]'(by omega), List.getElem?_eq_getElem (by omega), _, ks[i], List.getElem?_eq_getElem h1, ?_, Or.inl ⟨hk, hl⟩⟩
      rw [Nat.sub_add_cancel (by omega)]
      exact List.getElem?_eq_getElem hi'

/-- The argument moved into the interval of a piece. -/
def Spec.clamp (k l t : K) : K := max k (min t l)

theorem clamp_mem {k l : K} (h : k ≤ l) (t : K) : k ≤ Spec.clamp k l t ∧ Spec.clamp k l t ≤ l :=
  ⟨le_max_left _ _, max_le h (min_le_right _ _)⟩

theorem clamp_mono (k l : K) {s t : K} (h : s ≤ t) : Spec.clamp k l s ≤ Spec.clamp k l t :=
  max_le_max (le_refl _) (min_le_min h (le_refl _))

/-- `I i` gives the integrals of the piece with index `i` over the parts of its interval. -/
structure Spec.Integrals (ks : List K) (fs : List (Fn K)) (I : Nat → K → K → K) : Prop where
  integ : ∀ i g k l u v, fs[i]? = some g → ks[i]? = some k → ks[i + 1]? = some l → k ≤ u → u ≤ v → v ≤ l → integ g u v = .ok (I i u v)
  zero : ∀ i u, I i u u = 0

/-- The sum over the pieces of their integrals over the part of their interval between `a` and `b`. -/
def Spec.sumIntegrals (ks : List K) (n : Nat) (I : Nat → K → K → K) (a b : K) : K :=
  ∑ i ∈ range n, I i (Spec.clamp (ks.getD i 0) (ks.getD (i + 1) 0) a) (Spec.clamp (ks.getD i 0) (ks.getD (i + 1) 0) b)

theorem integLoop_eq {mn mx : K} (hm : mn < mx) (fs : List (Fn K)) : ∀ (ks : List K) (I : Nat → K → K → K) (p : Nat),
    ks.length = fs.length + 1 → ks.Pairwise (· ≤ ·) → Spec.Integrals ks fs I → (p = 0 ∨ ∃ k, ks[p]? = some k ∧ k ≤ mn) →
    integLoop mn mx p ks fs = .ok (Spec.sumIntegrals ks fs.length I mn mx) := by
  induction fs with
  | nil =>
    intro ks I p hlen hs hI hp
    match ks, hlen with
    | [k], _ =>
      have h0 : p = 0 := by
        rcases hp with h | ⟨k', h, _⟩
        · exact h
        · cases p with
          | zero => rfl
          | succ p => simp at h
      subst h0
      simp [integLoop, Spec.sumIntegrals]
  | cons f fs ih =>
    intro ks I p hlen hs hI hp
    match ks, hlen with
    | k :: l :: ks, hlen =>
      have hlen' : (l :: ks).length = fs.length + 1 := by simpa using hlen
      have hs' := (List.pairwise_cons.mp hs).2
      have hkl : k ≤ l := (List.pairwise_cons.mp hs).1 l List.mem_cons_self
      have hI' : Spec.Integrals (l :: ks) fs (fun i => I (i + 1)) :=
        ⟨fun i g k' l' u v h1 h2 h3 => hI.integ (i + 1) g k' l' u v (by simpa using h1) (by simpa using h2) (by simpa using h3), fun i u => hI.zero _ u⟩
      have hsum : Spec.sumIntegrals (k :: l :: ks) (f :: fs).length I mn mx =
          I 0 (Spec.clamp k l mn) (Spec.clamp k l mx) + Spec.sumIntegrals (l :: ks) fs.length (fun i => I (i + 1)) mn mx := by
        unfold Spec.sumIntegrals
        rw [List.length_cons, sum_range_succ', add_comm]
        rfl
      rw [hsum]
      have zero_low : l ≤ mn → I 0 (Spec.clamp k l mn) (Spec.clamp k l mx) = 0 := by
        intro h
        have e1 : Spec.clamp k l mn = l := by unfold Spec.clamp; rw [min_eq_right h, max_eq_right hkl]
        have e2 : Spec.clamp k l mx = l := by unfold Spec.clamp; rw [min_eq_right (h.trans hm.le), max_eq_right hkl]
        rw [e1, e2, hI.zero]
      cases p with
      | succ p =>
        rw [integLoop]
        obtain ⟨q, hq, hqm⟩ : ∃ q, (k :: l :: ks)[p + 1]? = some q ∧ q ≤ mn := by
          rcases hp with h | h
          · cases h
          · exact h
        have hl : l ≤ mn := (sorted_get hs (by omega : 1 ≤ p + 1) rfl hq).trans hqm
        rw [zero_low hl, zero_add]
        exact ih (l :: ks) _ p hlen' hs' hI' (Or.inr ⟨q, by simpa using hq, hqm⟩)
      | zero =>
        rw [integLoop]
        by_cases h1 : mx ≤ k
        · rw [if_pos h1]
          have all : ∀ (ks : List K) (n : Nat) (I : Nat → K → K → K), ks.length = n + 1 → ks.Pairwise (· ≤ ·) → (∀ i u, I i u u = 0) →
              (∀ q ∈ ks, mx ≤ q) → Spec.sumIntegrals ks n I mn mx = 0 := by
            intro ks n I hlen hs hz hq
            apply sum_eq_zero
            intro i hi
            have hi := mem_range.mp hi
            have hk : mx ≤ ks.getD i 0 := by
              rw [List.getD_eq_getElem _ _ (by omega)]; exact hq _ (List.getElem_mem _)
            have hl : mx ≤ ks.getD (i + 1) 0 := by
              rw [List.getD_eq_getElem _ _ (by omega)]; exact hq _ (List.getElem_mem _)
            have e1 : Spec.clamp (ks.getD i 0) (ks.getD (i + 1) 0) mn = ks.getD i 0 := by
              unfold Spec.clamp; rw [max_eq_left]; exact (min_le_left _ _).trans (hm.le.trans hk)
            have e2 : Spec.clamp (ks.getD i 0) (ks.getD (i + 1) 0) mx = ks.getD i 0 := by
              unfold Spec.clamp; rw [max_eq_left]; exact (min_le_left _ _).trans hk
            rw [e1, e2, hz]
          rw [← hsum, all _ _ _ hlen hs hI.zero]
          intro q hq
          rcases List.mem_cons.mp hq with rfl | hq
          · exact h1
          · exact h1.trans ((List.pairwise_cons.mp hs).1 q hq)
        · rw [if_neg h1]
          rw [not_le] at h1
          by_cases h2 : mn < l
          · rw [if_pos h2]
            have e1 : (if mn > k then mn else k) = Spec.clamp k l mn := by
              unfold Spec.clamp
              rw [min_eq_left h2.le]
              by_cases h : mn > k
              · rw [if_pos h, max_eq_right (le_of_lt h)]
              · rw [if_neg h, max_eq_left (not_lt.mp h)]
            have e2 : (if mx < l then mx else l) = Spec.clamp k l mx := by
              unfold Spec.clamp
              by_cases h : mx < l
              · rw [if_pos h, min_eq_left h.le, max_eq_right h1.le]
              · rw [if_neg h, min_eq_right (not_lt.mp h), max_eq_right hkl]
            rw [e1, e2, hI.integ 0 f k l _ _ rfl rfl rfl (clamp_mem hkl mn).1 (clamp_mono k l hm.le) (clamp_mem hkl mx).2,
              ih (l :: ks) _ 0 hlen' hs' hI' (Or.inl rfl)]
            rfl
          · rw [if_neg h2, zero_low (not_lt.mp h2), zero_add]
            exact ih (l :: ks) _ 0 hlen' hs' hI' (Or.inl rfl)

theorem sumIntegrals_self (ks : List K) (n : Nat) (I : Nat → K → K → K) (hz : ∀ i u, I i u u = 0) (a : K) : Spec.sumIntegrals ks n I a a = 0 :=
  sum_eq_zero fun i _ => hz i _

/-- The integral is the sum of the integrals of the pieces over the parts of their intervals between the limits; with the sign changed
if the limits are exchanged. -/
theorem C32_integrate (ks : List K) (fs : List (Fn K)) (f : Fn K) (h : mkPiecewise ks fs = .ok f) (I : Nat → K → K → K)
    (hI : Spec.Integrals ks fs I) (a b : K) (hab : a ≤ b) :
    integ f a b = .ok (Spec.sumIntegrals ks fs.length I a b) ∧ integ f b a = .ok (-Spec.sumIntegrals ks fs.length I a b) := by
  obtain ⟨rfl, hlen, hs⟩ := mkPiecewise_ok h
  rcases lt_or_eq_of_le hab with hlt | rfl
  · have hp : (ks.takeWhile (· ≤ a)).length - 1 = 0 ∨ ∃ k, ks[(ks.takeWhile (· ≤ a)).length - 1]? = some k ∧ k ≤ a := by
      obtain ⟨s1, s2, s3⟩ := takeWhile_length_spec (fun k => decide (k ≤ a)) ks
      by_cases h0 : (ks.takeWhile fun k => decide (k ≤ a)).length - 1 = 0
      · exact Or.inl h0
      · right
        have hlt : (ks.takeWhile fun k => decide (k ≤ a)).length - 1 < ks.length := by omega
        refine ⟨_, List.getElem?_eq_getElem hlt, ?_⟩
        simpa using s1 _ _ (by omega) (List.getElem?_eq_getElem hlt)
    have hloop := integLoop_eq hlt fs ks I _ hlen hs hI hp
    constructor
    · rw [integ, if_neg hlt.ne]
      simp only [gt_iff_lt, if_neg (not_lt.mpr hab), hloop, Outcome.bind_ok, Outcome.pure_eq, one_mul]
    · rw [integ, if_neg hlt.ne']
      simp only [gt_iff_lt, if_pos hlt, hloop, Outcome.bind_ok, Outcome.pure_eq, neg_mul, one_mul]
  · rw [sumIntegrals_self ks _ I hI.zero]
    constructor
    · rw [integ, if_pos rfl]
    · rw [integ, if_pos rfl, neg_zero]

/-- Exchanging the limits changes the sign, whatever the pieces are. -/
theorem C32_antisymmetric (ks : List K) (fs : List (Fn K)) (f : Fn K) (h : mkPiecewise ks fs = .ok f) (a b v : K)
    (hv : integ f a b = .ok v) : integ f b a = .ok (-v) := by
  obtain ⟨rfl, hlen, hs⟩ := mkPiecewise_ok h
  rcases lt_trichotomy a b with hab | rfl | hab
  · rw [integ, if_neg hab.ne] at hv
    rw [integ, if_neg hab.ne']
    simp only [gt_iff_lt, if_neg (not_lt.mpr hab.le), if_pos hab] at hv ⊢
    cases hl : integLoop a b ((ks.takeWhile fun x => decide (x ≤ a)).length - 1) ks fs with
    | ok r =>
      rw [hl] at hv
      simp only [Outcome.bind_ok, Outcome.pure_eq, one_mul, Outcome.ok.injEq] at hv ⊢
      rw [hv]; ring
    | throw e => rw [hl] at hv; cases hv
    | ub => rw [hl] at hv; cases hv
  · rw [integ, if_pos rfl] at hv ⊢
    cases hv
    rw [neg_zero]
  · rw [integ, if_neg hab.ne'] at hv
    rw [integ, if_neg hab.ne]
    simp only [gt_iff_lt, if_neg (not_lt.mpr hab.le), if_pos hab] at hv ⊢
    cases hl : integLoop b a ((ks.takeWhile fun x => decide (x ≤ b)).length - 1) ks fs with
    | ok r =>
      rw [hl] at hv
      simp only [Outcome.bind_ok, Outcome.pure_eq, Outcome.ok.injEq] at hv ⊢
      rw [← hv]; ring
    | throw e => rw [hl] at hv; cases hv
    | ub => rw [hl] at hv; cases hv

/-- If the integrals of the pieces are additive, so is the integral, for limits in any order. -/
theorem C32_additive (ks : List K) (fs : List (Fn K)) (f : Fn K) (h : mkPiecewise ks fs = .ok f) (I : Nat → K → K → K)
    (hI : Spec.Integrals ks fs I)
    (hadd : ∀ i k l u v w, ks[i]? = some k → ks[i + 1]? = some l → k ≤ u → u ≤ v → v ≤ w → w ≤ l → I i u v + I i v w = I i u w) (a b c : K) :
    ∃ s t, integ f a b = .ok s ∧ integ f b c = .ok t ∧ integ f a c = .ok (s + t) := by
  obtain ⟨_, hlen, hs⟩ := mkPiecewise_ok h
  have hord : ∀ a b c : K, a ≤ b → b ≤ c → Spec.sumIntegrals ks fs.length I a b + Spec.sumIntegrals ks fs.length I b c = Spec.sumIntegrals ks fs.length I a c := by
    intro a b c hab hbc
    unfold Spec.sumIntegrals
    rw [← sum_add_distrib]
    apply sum_congr rfl
    intro i hi
    have hi := mem_range.mp hi
    have h1 : i < ks.length := by omega
    have h2 : i + 1 < ks.length := by omega
    rw [List.getD_eq_getElem _ _ h1, List.getD_eq_getElem _ _ h2]
    have hkl : ks[i] ≤ ks[i + 1] := sorted_get hs (Nat.le_succ i) (List.getElem?_eq_getElem h1) (List.getElem?_eq_getElem h2)
    exact hadd i _ _ _ _ _ (List.getElem?_eq_getElem h1) (List.getElem?_eq_getElem h2) (clamp_mem hkl a).1 (clamp_mono _ _ hab) (clamp_mono _ _ hbc)
      (clamp_mem hkl c).2
  have key := C32_integrate ks fs f h I hI
  rcases le_total a b with hab | hab <;> rcases le_total b c with hbc | hbc <;> rcases le_total a c with hac | hac
  · exact ⟨_, _, (key a b hab).1, (key b c hbc).1, by rw [(key a c hac).1, ← hord a b c hab hbc]⟩
  · have e1 := hord a b c hab hbc
    have : a = c := le_antisymm (hab.trans hbc) hac
    exact ⟨_, _, (key a b hab).1, (key b c hbc).1, by subst this; rw [(key a a hac).1, ← e1]⟩
  · exact ⟨_, _, (key a b hab).1, (key c b hbc).2, by rw [(key a c hac).1, ← hord a c b hac hbc]; congr 1; ring⟩
  · exact ⟨_, _, (key a b hab).1, (key c b hbc).2, by rw [(key c a hac).2, ← hord c a b hac hab]; congr 1; ring⟩
  · exact ⟨_, _, (key b a hab).2, (key b c hbc).1, by rw [(key a c hac).1, ← hord b a c hab hac]; congr 1; ring⟩
  · exact ⟨_, _, (key b a hab).2, (key b c hbc).1, by rw [(key c a hac).2, ← hord b c a hbc hac]; congr 1; ring⟩
  · have : a = c := le_antisymm hac (hbc.trans hab)
    subst this
    have e : a = b := le_antisymm hbc hab
    subst e
    refine ⟨_, _, (key a a hab).2, (key a a hbc).2, ?_⟩
    rw [(key a a hac).1, sumIntegrals_self ks _ I hI.zero]
    simp
  · exact ⟨_, _, (key b a hab).2, (key c b hbc).2, by rw [(key c a hac).2, ← hord c b a hbc hab]; congr 1; ring⟩

end

/-- Polynomials as pieces: the integrals needed above exist and are additive. -/
theorem polynomial_pieces {K : Type} [Field K] [LinearOrder K] (ks : List K) (cs : List (List K)) :
    Spec.Integrals ks (cs.map .poly) (fun i => polyIntegrate (cs.getD i [])) ∧
      ∀ i (u v w : K), polyIntegrate (cs.getD i []) u v + polyIntegrate (cs.getD i []) v w = polyIntegrate (cs.getD i []) u w := by
  refine ⟨⟨?_, ?_⟩, ?_⟩
  · intro i g k l u v hg _ _ _ _ _
    rw [List.getElem?_map, Option.map_eq_some_iff] at hg
    obtain ⟨c, hc, rfl⟩ := hg
    rw [integ, List.getD_eq_getElem?_getD, hc]
    rfl
  · intro i u; simp [polyIntegrate]
  · intro i u v w; simp [polyIntegrate]

/-- The integral of a piecewise polynomial is the integral of the function it evaluates to. -/
theorem C32_integral (ks : List ℝ) (cs : List (List ℝ)) (f : Fn ℝ) (h : mkPiecewise ks (cs.map .poly) = .ok f) (g : ℝ → ℝ)
    (hg : ∀ x, eval f x = .ok (g x)) (a b : ℝ) : integ f a b = .ok (∫ x in a..b, g x) := by
  obtain ⟨_, hlen, hs⟩ := mkPiecewise_ok h
  rw [List.length_map] at hlen
  have key := C32_integrate ks _ f h _ (polynomial_pieces ks cs).1
  rw [List.length_map] at key
  have main : ∀ a b : ℝ, a ≤ b → Spec.sumIntegrals ks cs.length (fun i => polyIntegrate (cs.getD i [])) a b = ∫ x in a..b, g x := by
    intro a b hab
    let q : ℕ → ℝ → ℝ := fun i => (Set.Ioc (ks.getD i 0) (ks.getD (i + 1) 0)).indicator (polyEval (cs.getD i []))
    have hae : ∀ x, x ≠ ks.getD 0 0 → g x = ∑ i ∈ range cs.length, q i x := by
      intro x hx
      have heq : eval f x = .ok (∑ i ∈ range cs.length, q i x) := by
        by_cases hcs : cs = []
        · subst hcs
          match ks, hlen, hx with
          | [k], _, hx =>
            have : (∀ k' ∈ [k], x < k') ∨ ∀ k' ∈ [k], k' < x := by
              simp at hx
              rcases lt_or_gt_of_ne hx with h | h
              · left; simpa using h
              · right; simpa using h
            rw [(C32_eval _ _ f h x).2 this]
            simp
        · rcases C32_cases _ _ f h (by simpa using hcs) x with ⟨i, p, hp, hin⟩ | hout
          · rw [(C32_eval _ _ f h x).1 i p hp hin]
            rw [List.getElem?_map, Option.map_eq_some_iff] at hp
            obtain ⟨c, hc, rfl⟩ := hp
            obtain ⟨k, l, hk, hl, hx'⟩ := hin
            have hx' : k < x ∧ x ≤ l := by
              rcases hx' with h | ⟨rfl, rfl⟩
              · exact h
              · exfalso; apply hx; rw [List.getD_eq_getElem?_getD, hk]; rfl
            rw [eval, sum_eq_single i]
            · congr 1
              have hk' : ks.getD i 0 = k := by rw [List.getD_eq_getElem?_getD, hk]; rfl
              have hl' : ks.getD (i + 1) 0 = l := by rw [List.getD_eq_getElem?_getD, hl]; rfl
              have hc' : cs.getD i [] = c := by rw [List.getD_eq_getElem?_getD, hc]; rfl
              simp only [q, hk', hl', hc']
              rw [Set.indicator_of_mem (Set.mem_Ioc.mpr hx')]
            · intro j hj hji
              have hj := mem_range.mp hj
              apply Set.indicator_of_notMem
              rw [Set.mem_Ioc]
              rintro ⟨h1, h2⟩
              have hj1 : j < ks.length := by omega
              have hj2 : j + 1 < ks.length := by omega
              rw [List.getD_eq_getElem _ _ hj1] at h1
              rw [List.getD_eq_getElem _ _ hj2] at h2
              rcases Nat.lt_or_gt_of_ne hji with hlt | hgt
              · have := sorted_get hs (by omega : j + 1 ≤ i) (List.getElem?_eq_getElem hj2) hk
                linarith
              · have := sorted_get hs (by omega : i + 1 ≤ j) hl (List.getElem?_eq_getElem hj1)
                linarith
            · intro hi
              have := (List.getElem?_eq_some_iff.mp hc).1
              exact absurd (mem_range.mpr this) hi
          · rw [(C32_eval _ _ f h x).2 hout, sum_eq_zero]
            intro i hi
            have hi := mem_range.mp hi
            apply Set.indicator_of_notMem
            rw [Set.mem_Ioc]
            rintro ⟨h1, h2⟩
            have hj1 : i < ks.length := by omega
            have hj2 : i + 1 < ks.length := by omega
            rw [List.getD_eq_getElem _ _ hj1] at h1
            rw [List.getD_eq_getElem _ _ hj2] at h2
            rcases hout with ho | ho
            · have := ho _ (List.getElem_mem hj1); linarith
            · have := ho _ (List.getElem_mem hj2); linarith
      rw [hg x] at heq
      exact Outcome.ok.inj heq
    have hint : ∫ x in a..b, g x = ∫ x in a..b, ∑ i ∈ range cs.length, q i x := by
      apply intervalIntegral.integral_congr_ae
      have : ∀ᵐ x : ℝ, x ≠ ks.getD 0 0 := by
        rw [MeasureTheory.ae_iff]
        simp
      filter_upwards [this] with x hx _
      exact hae x hx
    have hqi : ∀ i, IntervalIntegrable (q i) MeasureTheory.volume a b := by
      intro i
      have hc : IntervalIntegrable (polyEval (cs.getD i [])) MeasureTheory.volume a b := (continuous_polyEval _).intervalIntegrable a b
      rw [intervalIntegrable_iff_integrableOn_Ioc_of_le hab] at hc ⊢
      exact MeasureTheory.IntegrableOn.indicator hc measurableSet_Ioc
    rw [hint, intervalIntegral.integral_finset_sum fun i _ => hqi i]
    unfold Spec.sumIntegrals
    apply sum_congr rfl
    intro i hi
    have hi := mem_range.mp hi
    have h1 : i < ks.length := by omega
    have h2 : i + 1 < ks.length := by omega
    have hkl : ks.getD i 0 ≤ ks.getD (i + 1) 0 := by
      rw [List.getD_eq_getElem _ _ h1, List.getD_eq_getElem _ _ h2]
      exact sorted_get hs (Nat.le_succ i) (List.getElem?_eq_getElem h1) (List.getElem?_eq_getElem h2)
    simp only
    rw [C31_integral]
    generalize hk : ks.getD i 0 = k at hkl
    generalize hl : ks.getD (i + 1) 0 = l at hkl
    have hset : Set.Ioc a b ∩ Set.Ioc k l = Set.Ioc (Spec.clamp k l a) (Spec.clamp k l b) := by
      ext x
      simp only [Set.mem_inter_iff, Set.mem_Ioc, Spec.clamp, max_lt_iff, le_max_iff, min_lt_iff, le_min_iff]
      constructor
      · rintro ⟨⟨h1, h2⟩, h3, h4⟩
        exact ⟨⟨h3, Or.inl h1⟩, Or.inr ⟨h2, h4⟩⟩
      · rintro ⟨⟨h3, h1⟩, h5 | ⟨h2, h4⟩⟩
        · exact absurd h3 (not_lt.mpr h5)
        · rcases h1 with h1 | h1
          · exact ⟨⟨h1, h2⟩, h3, h4⟩
          · exact absurd h1 (not_lt.mpr h4)
    rw [intervalIntegral.integral_of_le (clamp_mono _ _ hab), intervalIntegral.integral_of_le hab, ← hset]
    have hq : q i = (Set.Ioc k l).indicator (polyEval (cs.getD i [])) := by
      simp only [q, hl, hk]
    rw [hq, MeasureTheory.setIntegral_indicator measurableSet_Ioc]
  rcases le_total a b with hab | hab
  · rw [(key a b hab).1, main a b hab]
  · rw [(key b a hab).2, main b a hab, intervalIntegral.integral_symm, neg_neg]

/-- 1 on [0, 1] and x on (1, 3]: values inside, at the knots and outside; the integral from -1 to 2 is 5/2. -/
example : (mkPiecewise [(0 : ℚ), 1, 3] [.poly [1], .poly [0, 1]]).bind (fun f => eval f 2) = .ok 2 ∧
    (mkPiecewise [(0 : ℚ), 1, 3] [.poly [1], .poly [0, 1]]).bind (fun f => eval f 0) = .ok 1 ∧
    (mkPiecewise [(0 : ℚ), 1, 3] [.poly [1], .poly [0, 1]]).bind (fun f => eval f 4) = .ok 0 ∧
    (mkPiecewise [(0 : ℚ), 1, 3] [.poly [1], .poly [0, 1]]).bind (fun f => integ f (-1) 2) = .ok (5 / 2) := by
  decide +kernel

/-- A piecewise function with one knot and no pieces is accepted, and undefined at the knot. -/
theorem C32_single_knot : (mkPiecewise [(0 : ℚ)] []).bind (fun f => eval f 0) = .ub := by decide +kernel

/-- **C32**: the scheme is used for functions without an integral of their own only: for a polynomial any scheme and none give the integral; other functions get the value of the scheme, and
without one they are refused. -/
theorem C32_scheme (scheme : Option (Fn ℝ → ℝ → ℝ → Res ℝ)) (c : List ℝ) (f : ℝ → Res ℝ) (g h : Fn ℝ) (a b : ℝ) :
    integrateWith scheme (.poly c) a b = .ok (∫ x in a..b, polyEval c x) ∧
    (∀ s, scheme = some s → integrateWith scheme (.generic f) a b = s (.generic f) a b ∧ integrateWith scheme (.product g h) a b = s (.product g h) a b) ∧
    (scheme = none → integrateWith scheme (.generic f) a b = .throw .elements ∧ integrateWith scheme (.product g h) a b = .throw .elements) := by
  refine ⟨?_, ?_, ?_⟩
  · rw [← C31_integral]
    simp only [integrateWith, integ]
  · rintro s rfl
    exact ⟨rfl, rfl⟩
  · rintro rfl
    exact ⟨rfl, rfl⟩

example : integrateWith none (.generic fun x : ℚ => .ok x) 0 1 = .throw .elements ∧ integrateWith (some fun _ a b => .ok (b - a)) (.generic fun x : ℚ => .ok x) 0 1 = .ok 1 := by
  decide +kernel

/-- Integration ignores the scheme it is given when the function is piecewise, and throws if a piece is not integrable. -/
theorem C32_scheme_ignored : integrateWith (some fun _ _ _ => .ok (1 : ℚ)) (.piecewise [0, 1] [.generic fun _ => .ok 1]) 0 1 = .throw .elements := by
  decide +kernel

end Alexandria.MathUtils
