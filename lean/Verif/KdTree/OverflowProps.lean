import Verif.KdTree.OverflowModel
import Verif.KdTree.Props
import Verif.Common.Gradual
import Mathlib.Tactic.NormNum

/-!
# Property C155: radius queries for all doubles
-/

namespace Alexandria.KdTree.Overflow

variable {T K : Type} [Field K] [LinearOrder K]

/-! ## Specification -/

/-- A floating point number: finite ones can be represented and are not beyond the greatest one. -/
def Spec.Number (R : Rounding K) (M : K) : Ext K → Prop
  | .fin a => R.rnd a = a ∧ |a| ≤ M
  | _ => True

/-- Not a negative number (it may be NaN). -/
def Spec.NotNegative : Ext K → Prop
  | .fin a => 0 ≤ a
  | .ninf => False
  | _ => True

/-- The squared distance, from the first coordinate to the last. -/
def Spec.dist2 (R : Rounding K) (M : K) (getCoord : T → Nat → K) (p : T) (c : Nat → Ext K) : Nat → Ext K
  | 0 => .fin 0
  | n + 1 => Ext.add R M (Spec.dist2 R M getCoord p c n)
      (Ext.mul R M (Ext.sub R M (.fin (getCoord p n)) (c n)) (Ext.sub R M (.fin (getCoord p n)) (c n)))

/-- The linear scan. -/
def Spec.scan (R : Rounding K) (M : K) (N : Nat) (getCoord : T → Nat → K) (c : Nat → Ext K) (r : Ext K) (data : List T) : List T :=
  data.filter fun p => (Spec.dist2 R M getCoord p c N).lt (Ext.mul R M r r)

/-! ## Lemmas -/

theorem squareDist_eq (R : Rounding K) (M : K) (N : Nat) (gc : T → Nat → K) (p : T) (c : Nat → Ext K) :
    squareDist R M N gc p c = Spec.dist2 R M gc p c N := by
  unfold squareDist
  induction N with
  | zero => rfl
  | succ n ih => rw [List.range_succ, List.foldl_append, ih]; rfl

variable [IsStrictOrderedRing K] (R : Rounding K) (M : K)

/-- NaN, plus infinity, or a number that is not below `b`. -/
def Big (b : K) : Ext K → Prop
  | .nan => True
  | .pinf => True
  | .ninf => False
  | .fin s => b ≤ s ∧ s ≤ M ∧ R.rnd s = s

theorem result_big {b x : K} (h : b ≤ R.rnd x) (hM : -M ≤ R.rnd x) : Big R M b (Ext.result R M x) := by
  unfold Ext.result
  by_cases h1 : M < R.rnd x
  · rw [if_pos h1]; trivial
  · rw [if_neg h1, if_neg (not_lt.mpr hM)]
    exact ⟨h, not_lt.mp h1, R.idem x⟩

theorem add_big (hM : 0 ≤ M) {b : K} {x y : Ext K} (hx : Big R M 0 x) (hb : 0 ≤ b) (hy : Big R M b y) : Big R M b (Ext.add R M x y) := by
  cases x with
  | nan => cases y <;> trivial
  | ninf => exact hx.elim
  | pinf => cases y with
    | ninf => exact hy.elim
    | _ => trivial
  | fin s => cases y with
    | nan => trivial
    | ninf => exact hy.elim
    | pinf => trivial
    | fin t =>
      obtain ⟨h0, -, -⟩ := hx
      obtain ⟨h1, -, h3⟩ := hy
      have h4 : b ≤ R.rnd (s + t) := by
        have := R.mono t (s + t) (by linarith)
        rw [h3] at this
        linarith
      exact result_big R M h4 (by linarith)

theorem add_big' (hM : 0 ≤ M) {b : K} {x y : Ext K} (hx : Big R M b x) (hb : 0 ≤ b) (hy : Big R M 0 y) : Big R M b (Ext.add R M x y) := by
  cases x with
  | nan => cases y <;> trivial
  | ninf => exact hx.elim
  | pinf => cases y with
    | ninf => exact hy.elim
    | _ => trivial
  | fin s => cases y with
    | nan => trivial
    | ninf => exact hy.elim
    | pinf => trivial
    | fin t =>
      obtain ⟨h0, -, -⟩ := hy
      obtain ⟨h1, -, h3⟩ := hx
      have h4 : b ≤ R.rnd (s + t) := by
        have := R.mono s (s + t) (by linarith)
        rw [h3] at this
        linarith
      exact result_big R M h4 (by linarith)

theorem square_big (hM : 0 ≤ M) (d : Ext K) : Big R M 0 (Ext.mul R M d d) := by
  cases d with
  | nan => trivial
  | ninf => trivial
  | pinf => trivial
  | fin a =>
    have := rnd_nonneg R (mul_self_nonneg a)
    exact result_big R M this (by linarith)

/-- The square of what is beyond the radius. -/
theorem square_far (hM : 0 ≤ M) {rr x : K} (hr : 0 ≤ rr) (hrr : R.rnd rr = rr) (h : rr ≤ x ∨ x ≤ -rr) :
    Big R M (R.rnd (rr * rr)) (Ext.mul R M (Ext.result R M x) (Ext.result R M x)) := by
  unfold Ext.result
  by_cases h1 : M < R.rnd x
  · rw [if_pos h1]; trivial
  · rw [if_neg h1]
    by_cases h2 : R.rnd x < -M
    · rw [if_pos h2]; trivial
    · rw [if_neg h2]
      have hd : rr ≤ |R.rnd x| := by
        rcases h with h | h
        · have := R.mono _ _ h
          rw [hrr] at this
          exact le_trans this (le_abs_self _)
        · have := R.mono _ _ h
          rw [R.neg, hrr] at this
          exact le_trans (by linarith) (neg_le_abs _)
      have hm : rr * rr ≤ R.rnd x * R.rnd x := by
        rw [← abs_mul_abs_self (R.rnd x)]
        exact mul_self_le_mul_self hr hd
      have h3 := R.mono _ _ hm
      have h4 := rnd_nonneg R (mul_self_nonneg (R.rnd x))
      exact result_big R M h3 (by linarith)

theorem dist_big (hM : 0 ≤ M) (gc : T → Nat → K) (p : T) (c : Nat → Ext K) (n : Nat) : Big R M 0 (Spec.dist2 R M gc p c n) := by
  induction n with
  | zero => exact ⟨le_rfl, hM, rnd_zero R⟩
  | succ n ih => exact add_big R M hM ih le_rfl (square_big R M hM _)

theorem dist_axis (hM : 0 ≤ M) (gc : T → Nat → K) (p : T) (c : Nat → Ext K) {b : K} (hb : 0 ≤ b) {a N : Nat} (ha : a < N)
    (h : Big R M b (Ext.mul R M (Ext.sub R M (.fin (gc p a)) (c a)) (Ext.sub R M (.fin (gc p a)) (c a)))) :
    Big R M b (Spec.dist2 R M gc p c N) := by
  induction N with
  | zero => omega
  | succ n ih =>
    rcases Nat.lt_or_ge a n with h1 | h1
    · exact add_big' R M hM (ih h1) hb (square_big R M hM _)
    · have : a = n := by omega
      subst this
      exact add_big R M hM (dist_big R M hM gc p c a) hb h

/-- What is at least the rounded square of the radius is not below the square that the code compares with. -/
theorem big_not_lt {rr : K} {x : Ext K} (hr : -M ≤ R.rnd (rr * rr)) (h : Big R M (R.rnd (rr * rr)) x) :
    x.lt (Ext.mul R M (.fin rr) (.fin rr)) = false := by
  change x.lt (Ext.result R M (rr * rr)) = false
  unfold Ext.result
  cases x with
  | nan => simp
  | pinf => simp
  | ninf => exact h.elim
  | fin s =>
    obtain ⟨h1, h2, -⟩ := h
    rw [if_neg (not_lt.mpr (h1.trans h2)), if_neg (not_lt.mpr hr)]
    simp only [Ext.lt, decide_eq_false_iff_not, not_lt]
    exact h1

/-- Infinite distance. -/
def Inf : Ext K → Prop
  | .nan => True
  | .pinf => True
  | _ => False

theorem inf_big (b : K) {x : Ext K} (h : Inf x) : Big R M b x := by
  cases x <;> trivial

theorem inf_not_lt {x : Ext K} (h : Inf x) (y : Ext K) : x.lt y = false := by
  cases x with
  | nan => simp
  | pinf => simp
  | _ => exact h.elim

theorem dist_inf (hM : 0 ≤ M) (gc : T → Nat → K) (p : T) (c : Nat → Ext K) {a N : Nat} (ha : a < N)
    (h : Inf (Ext.mul R M (Ext.sub R M (.fin (gc p a)) (c a)) (Ext.sub R M (.fin (gc p a)) (c a)))) :
    Inf (Spec.dist2 R M gc p c N) := by
  have right : ∀ x y : Ext K, Big R M 0 x → Inf y → Inf (Ext.add R M x y) := by
    intro x y hx hy
    cases x <;> cases y <;> first | trivial | exact hx.elim | exact hy.elim
  have left : ∀ x y : Ext K, Inf x → Big R M 0 y → Inf (Ext.add R M x y) := by
    intro x y hx hy
    cases x <;> cases y <;> first | trivial | exact hx.elim | exact hy.elim
  induction N with
  | zero => omega
  | succ n ih =>
    rcases Nat.lt_or_ge a n with h1 | h1
    · exact left _ _ (ih h1) (square_big R M hM _)
    · have : a = n := by omega
      subst this
      exact right _ _ (dist_big R M hM gc p c a) h

/-- Points to the right of a split value that is above the centre and the radius are not within the radius. -/
theorem pruned_right (hM : 0 ≤ M) {N : Nat} {gc : T → Nat → K} {p : T} {c : Nat → Ext K} {r : Ext K} {a : Nat} (ha : a < N) {v : K}
    (hr : Spec.NotNegative r) (hrn : Spec.Number R M r) (hp : R.rnd (gc p a) = gc p a) (hv : v ≤ gc p a) (hvM : -M ≤ v)
    (h : (Ext.add R M (c a) r).lt (.fin v) = true) : (Spec.dist2 R M gc p c N).lt (Ext.mul R M r r) = false := by
  cases hc : c a with
  | nan => rw [hc] at h; cases r <;> simp [Ext.add] at h
  | pinf =>
    rw [hc] at h
    cases r with
    | ninf => exact hr.elim
    | _ => simp [Ext.add] at h
  | ninf =>
    refine inf_not_lt (dist_inf R M hM gc p c ha ?_) _
    rw [hc]; trivial
  | fin cc =>
    rw [hc] at h
    cases r with
    | nan => simp [Ext.add] at h
    | pinf => simp [Ext.add] at h
    | ninf => exact hr.elim
    | fin rr =>
      have hlt : R.rnd (cc + rr) < v := by
        simp only [Ext.add, Ext.result] at h
        by_cases h1 : M < R.rnd (cc + rr)
        · rw [if_pos h1] at h; simp at h
        · rw [if_neg h1] at h
          by_cases h2 : R.rnd (cc + rr) < -M
          · linarith
          · rw [if_neg h2] at h
            simpa [Ext.lt] using h
      have hfar := far_right R hp hlt hv
      have hs := rnd_nonneg R (mul_self_nonneg rr)
      refine big_not_lt R M (by linarith) (dist_axis R M hM gc p c hs ha ?_)
      rw [hc]
      have e : Ext.sub R M (.fin (gc p a)) (.fin cc) = Ext.result R M (gc p a - cc) := by
        simp [Ext.sub, Ext.neg, Ext.add, sub_eq_add_neg]
      rw [e]
      exact square_far R M hM hr hrn.1 (.inl hfar)

theorem pruned_left (hM : 0 ≤ M) {N : Nat} {gc : T → Nat → K} {p : T} {c : Nat → Ext K} {r : Ext K} {a : Nat} (ha : a < N) {v : K}
    (hr : Spec.NotNegative r) (hrn : Spec.Number R M r) (hp : R.rnd (gc p a) = gc p a) (hv : gc p a ≤ v) (hvM : v ≤ M)
    (h : (Ext.fin v).lt (Ext.sub R M (c a) r) = true) : (Spec.dist2 R M gc p c N).lt (Ext.mul R M r r) = false := by
  cases hc : c a with
  | nan => rw [hc] at h; cases r <;> simp [Ext.sub, Ext.neg, Ext.add] at h
  | ninf =>
    rw [hc] at h
    cases r with
    | ninf => exact hr.elim
    | _ => simp [Ext.sub, Ext.neg, Ext.add] at h
  | pinf =>
    refine inf_not_lt (dist_inf R M hM gc p c ha ?_) _
    rw [hc]; trivial
  | fin cc =>
    rw [hc] at h
    cases r with
    | nan => simp [Ext.sub, Ext.neg, Ext.add] at h
    | pinf => simp [Ext.sub, Ext.neg, Ext.add] at h
    | ninf => exact hr.elim
    | fin rr =>
      have hlt : R.rnd (cc - rr) > v := by
        simp only [Ext.sub, Ext.neg, Ext.add, Ext.result, ← sub_eq_add_neg] at h
        by_cases h1 : M < R.rnd (cc - rr)
        · linarith
        · rw [if_neg h1] at h
          by_cases h2 : R.rnd (cc - rr) < -M
          · rw [if_pos h2] at h; simp at h
          · rw [if_neg h2] at h
            simpa [Ext.lt] using h
      have hfar := far_left R hp hlt hv
      have hs := rnd_nonneg R (mul_self_nonneg rr)
      refine big_not_lt R M (by linarith) (dist_axis R M hM gc p c hs ha ?_)
      rw [hc]
      have e : Ext.sub R M (.fin (gc p a)) (.fin cc) = Ext.result R M (gc p a - cc) := by
        simp [Ext.sub, Ext.neg, Ext.add, sub_eq_add_neg]
      rw [e]
      exact square_far R M hM hr hrn.1 (.inr hfar)

theorem scan_nil {N : Nat} {gc : T → Nat → K} {c : Nat → Ext K} {r : Ext K} {l : List T}
    (h : ∀ p ∈ l, (Spec.dist2 R M gc p c N).lt (Ext.mul R M r r) = false) : Spec.scan R M N gc c r l = [] := by
  unfold Spec.scan
  rw [List.filter_eq_nil_iff]
  intro p hp
  rw [h p hp]
  simp

theorem query_split (hM : 0 ≤ M) {N : Nat} {gc : T → Nat → K} {c : Nat → Ext K} {r : Ext K} (hr : Spec.NotNegative r) (hrn : Spec.Number R M r)
    {axis : Nat} (ha : axis < N) {v : K} (hv1 : -M ≤ v) (hv2 : v ≤ M) {l rt : Tree T K} {left right : List T}
    (hl : (l.query R M N gc c r).Perm (Spec.scan R M N gc c r left)) (hrt : (rt.query R M N gc c r).Perm (Spec.scan R M N gc c r right))
    (hfl : ∀ p ∈ left, R.rnd (gc p axis) = gc p axis) (hfr : ∀ p ∈ right, R.rnd (gc p axis) = gc p axis)
    (hsl : ∀ p ∈ left, gc p axis ≤ v) (hsr : ∀ p ∈ right, v ≤ gc p axis) :
    ((Tree.split axis (.fin v) l rt).query R M N gc c r).Perm (Spec.scan R M N gc c r (left ++ right)) := by
  have happ : Spec.scan R M N gc c r (left ++ right) = Spec.scan R M N gc c r left ++ Spec.scan R M N gc c r right := by
    simp [Spec.scan]
  rw [happ, Tree.query]
  by_cases h : (Ext.add R M (c axis) r).lt (.fin v) = true
  · rw [if_pos h, scan_nil R M (l := right) (fun p hp => pruned_right R M hM ha hr hrn (hfr p hp) (hsr p hp) hv1 h), List.append_nil]
    exact hl
  · rw [if_neg h]
    by_cases h' : (Ext.fin v).lt (Ext.sub R M (c axis) r) = true
    · rw [if_pos h', scan_nil R M (l := left) (fun p hp => pruned_left R M hM ha hr hrn (hfl p hp) (hsl p hp) hv2 h'), List.nil_append]
      exact hrt
    · rw [if_neg h']
      exact hl.append hrt

/-- Without overflow of the sum the split value is that of `Model.lean`. -/
theorem splitValue_fin {a b : K} (ha : R.rnd a = a) (hb : R.rnd b = b) (h : a ≤ b) (hMa : |a| ≤ M) (hMb : |b| ≤ M) (hs : |R.rnd (a + b)| ≤ M) :
    splitValue R M a b = .fin (KdTree.splitValue R a b) := by
  have hbt := splitValue_between R ha hb h
  unfold splitValue
  unfold KdTree.splitValue at hbt ⊢
  by_cases he : a = b
  · rw [if_pos he, if_pos he]
  · rw [if_neg he] at hbt ⊢
    rw [if_neg he]
    have h1 := abs_le.mp hs
    have h2 := abs_le.mp hMa
    have h3 := abs_le.mp hMb
    rw [Ext.add, Ext.result_fin h1.2 h1.1, Ext.half, Ext.result_fin (by linarith [hbt.2, h3.2]) (by linarith [hbt.1, h2.1])]

theorem mkSplit_spec {N S : Nat} (hM : 0 ≤ M) (hN : 1 ≤ N) (hS : 1 ≤ S) (gc : T → Nat → K) (srt : Sorter T K) :
    ∀ (n : Nat) (data : List T) (axis : Nat), data.length = n → S < data.length → axis < N →
      (∀ p ∈ data, ∀ i, i < N → R.rnd (gc p i) = gc p i ∧ |gc p i| ≤ M) →
      (∀ p ∈ data, ∀ q ∈ data, ∀ i, i < N → |R.rnd (gc p i + gc q i)| ≤ M) →
      ∃ t, mkSplit R M N S gc srt data axis = .ok t ∧
        ∀ c r, Spec.NotNegative r → Spec.Number R M r → (t.query R M N gc c r).Perm (Spec.scan R M N gc c r data) := by
  intro n
  induction n using Nat.strongRecOn with
  | _ n ih =>
    intro data axis hn hlen hax hfix hsum
    have h2 : ¬ data.length < 2 := by omega
    have hperm := srt.perm (fun t => gc t axis) data
    have hsl : (srt.sort (fun t => gc t axis) data).length = data.length := hperm.length_eq
    have hsort := srt.sorted (fun t => gc t axis) data
    obtain ⟨A, hA⟩ : ∃ A, A = (srt.sort (fun t => gc t axis) data)[data.length / 2 - 1]'(by omega) := ⟨_, rfl⟩
    obtain ⟨B, hB⟩ : ∃ B, B = (srt.sort (fun t => gc t axis) data)[data.length / 2]'(by omega) := ⟨_, rfl⟩
    have hAm : A ∈ data := by rw [hA]; exact hperm.mem_iff.mp (List.getElem_mem _)
    have hBm : B ∈ data := by rw [hB]; exact hperm.mem_iff.mp (List.getElem_mem _)
    have hAB : gc A axis ≤ gc B axis := by
      rw [hA, hB]; exact List.pairwise_iff_getElem.1 hsort _ _ _ _ (by omega)
    obtain ⟨v, hv⟩ : ∃ v, v = KdTree.splitValue R (gc A axis) (gc B axis) := ⟨_, rfl⟩
    have hvE : splitValue R M (gc A axis) (gc B axis) = .fin v := by
      rw [hv]
      exact splitValue_fin R M (hfix A hAm axis hax).1 (hfix B hBm axis hax).1 hAB (hfix A hAm axis hax).2 (hfix B hBm axis hax).2
        (hsum A hAm B hBm axis hax)
    have hbt := splitValue_between R (hfix A hAm axis hax).1 (hfix B hBm axis hax).1 hAB
    rw [← hv] at hbt
    have hA' := abs_le.mp (hfix A hAm axis hax).2
    have hB' := abs_le.mp (hfix B hBm axis hax).2
    have hsep := halves_separated R (gc := fun t => gc t axis) hsort (fun p hp => (hfix p (hperm.mem_iff.mp hp) axis hax).1) (n := data.length / 2)
      (by omega) (by omega) v (by rw [hv, hA, hB])
    obtain ⟨left, hleft⟩ : ∃ l, l = (srt.sort (fun t => gc t axis) data).take (data.length / 2) := ⟨_, rfl⟩
    obtain ⟨right, hright⟩ : ∃ l, l = (srt.sort (fun t => gc t axis) data).drop (data.length / 2) := ⟨_, rfl⟩
    have hll : left.length = data.length / 2 := by rw [hleft, List.length_take]; omega
    have hlr : right.length = data.length - data.length / 2 := by rw [hright, List.length_drop]; omega
    have hax' : (axis + 1) % N < N := Nat.mod_lt _ (by omega)
    have child : ∀ l : List T, l.length < n → (∀ p ∈ l, p ∈ data) → ∃ t,
        (if l.length > S then mkSplit R M N S gc srt l ((axis + 1) % N) else .ok (.leaf l)) = .ok t ∧
        ∀ c r, Spec.NotNegative r → Spec.Number R M r → (t.query R M N gc c r).Perm (Spec.scan R M N gc c r l) := by
      intro l hl hmem
      by_cases hS' : l.length > S
      · rw [if_pos hS']
        exact ih l.length hl l _ rfl hS' hax' (fun p hp => hfix p (hmem p hp)) (fun p hp q hq => hsum p (hmem p hp) q (hmem q hq))
      · rw [if_neg hS']
        refine ⟨_, rfl, fun c r _ _ => ?_⟩
        rw [Tree.query]
        simp only [squareDist_eq]
        exact List.Perm.refl _
    have hml : ∀ p ∈ left, p ∈ data := fun p hp => hperm.mem_iff.mp (List.mem_of_mem_take (hleft ▸ hp))
    have hmr : ∀ p ∈ right, p ∈ data := fun p hp => hperm.mem_iff.mp (List.mem_of_mem_drop (hright ▸ hp))
    obtain ⟨tl, htl, hql⟩ := child left (by omega) hml
    obtain ⟨tr, htr, hqr⟩ := child right (by omega) hmr
    refine ⟨.split axis (.fin v) tl tr, ?_, ?_⟩
    · rw [mkSplit, dif_neg h2]
      simp only [← hleft, ← hright, ← hA, ← hB]
      rw [htl, htr]
      simp only [hvE]
    · intro c r hr hrn
      rw [← hleft, ← hright] at hsep
      have := query_split R M hM hr hrn hax (by linarith) (by linarith) (hql c r hr hrn) (hqr c r hr hrn) (fun p hp => (hfix p (hml p hp) axis hax).1)
        (fun p hp => (hfix p (hmr p hp) axis hax).1) hsep.1 hsep.2
      refine this.trans (List.Perm.filter _ ?_)
      rw [hleft, hright, List.take_append_drop]
      exact hperm

/-! ## The property -/

/-- **C155 (partial: no sum of two coordinates overflows).** For every centre, also infinite or NaN, and every radius that is not negative, also
infinite or NaN, the query gives what a linear scan with the same arithmetic gives, whatever overflows or underflows in the distances. -/
theorem C155_machine_partial {N S : Nat} (hM : 0 ≤ M) (hN : 1 ≤ N) (hS : 1 ≤ S) (getCoord : T → Nat → K) (srt : Sorter T K) (data : List T)
    (hfix : ∀ p ∈ data, ∀ i, i < N → Spec.Number R M (.fin (getCoord p i)))
    (hsum : ∀ p ∈ data, ∀ q ∈ data, ∀ i, i < N → |R.rnd (getCoord p i + getCoord q i)| ≤ M) :
    ∃ t, build R M N S getCoord srt data = .ok t ∧ ∀ (c : Nat → Ext K) (r : Ext K), Spec.NotNegative r → Spec.Number R M r →
      (t.query R M N getCoord c r).Perm (Spec.scan R M N getCoord c r data) := by
  unfold build
  by_cases h : data.length > S
  · rw [if_pos h]
    exact mkSplit_spec R M hM hN hS getCoord srt _ data 0 rfl h (by omega) hfix hsum
  · rw [if_neg h]
    refine ⟨_, rfl, fun c r _ _ => ?_⟩
    rw [Tree.query]
    simp only [squareDist_eq]
    exact List.Perm.refl _

open Binary in
/-- **C155 (partial)** for `double`: coordinates up to `2^1022`. -/
theorem C155_double_partial {N S : Nat} (hN : 1 ≤ N) (hS : 1 ≤ S) (getCoord : T → Nat → Rat) (srt : Sorter T Rat) (data : List T)
    (hfix : ∀ p ∈ data, ∀ i, i < N → RepG 53 (-1074) (getCoord p i) ∧ |getCoord p i| ≤ 2 ^ 1022) :
    ∃ t, build double doubleMax N S getCoord srt data = .ok t ∧ ∀ (c : Nat → Ext Rat) (r : Ext Rat), Spec.NotNegative r →
      Spec.Number double doubleMax r → (t.query double doubleMax N getCoord c r).Perm (Spec.scan double doubleMax N getCoord c r data) := by
  have hmax : (2 : Rat) ^ 1023 ≤ doubleMax := by decide +kernel
  have hmax2 : (2 : Rat) ^ 1022 ≤ doubleMax := by decide +kernel
  have hpow : double.rnd (2 ^ 1023) = 2 ^ 1023 := by decide +kernel
  refine C155_machine_partial double doubleMax (by decide +kernel) hN hS getCoord srt data ?_ ?_
  · intro p hp i hi
    exact ⟨grad_of_rep (by decide) (hfix p hp i hi).1, (hfix p hp i hi).2.trans hmax2⟩
  · intro p hp q hq i hi
    have h1 := abs_le.mp (hfix p hp i hi).2
    have h2 := abs_le.mp (hfix q hq i hi).2
    have e : (2 : Rat) ^ 1023 = 2 ^ 1022 + 2 ^ 1022 := by decide +kernel
    have h3 := double.mono (getCoord p i + getCoord q i) (2 ^ 1023) (by rw [e]; exact add_le_add h1.2 h2.2)
    have h4 := double.mono (-2 ^ 1023) (getCoord p i + getCoord q i) (by rw [e, neg_add]; exact add_le_add h1.1 h2.1)
    rw [double.neg, hpow] at h4
    rw [hpow] at h3
    exact abs_le.mpr ⟨le_trans (neg_le_neg hmax) h4, h3.trans hmax⟩

/-- **C155**: with a radius whose square is rounded to zero, or a centre that is not finite, nothing is found. -/
theorem C155_nothing {N : Nat} (hM : 0 ≤ M) (getCoord : T → Nat → K) (t : Tree T K) (c : Nat → Ext K) (r : Ext K)
    (h : (∃ rr, r = .fin rr ∧ R.rnd (rr * rr) = 0) ∨ r = .nan ∨ ∃ i, i < N ∧ (c i = .nan ∨ c i = .pinf ∨ c i = .ninf)) :
    t.query R M N getCoord c r = [] := by
  have main : ∀ p : T, (Spec.dist2 R M getCoord p c N).lt (Ext.mul R M r r) = false := by
    intro p
    rcases h with ⟨rr, rfl, h0⟩ | rfl | ⟨i, hi, hc⟩
    · refine big_not_lt R M (by rw [h0]; linarith) ?_
      rw [h0]
      exact dist_big R M hM getCoord p c N
    · simp [Ext.mul]
    · refine inf_not_lt (dist_inf R M hM getCoord p c hi ?_) _
      rcases hc with hc | hc | hc <;> rw [hc] <;> trivial
  induction t with
  | leaf data =>
    rw [Tree.query, List.filter_eq_nil_iff]
    intro p _
    rw [squareDist_eq, main p]
    simp
  | split a v l r ihl ihr =>
    rw [Tree.query, ihl, ihr]
    simp

/-! ## What does not hold -/

/-- The full property for `double`: no bound on the coordinates, and a point at the centre is found with every positive radius. -/
def C155_full : Prop :=
  ∀ (T : Type) (N S : Nat) (getCoord : T → Nat → Rat) (srt : Sorter T Rat) (data : List T), 1 ≤ N → 1 ≤ S →
    (∀ p ∈ data, ∀ i, i < N → Spec.Number Binary.double Binary.doubleMax (.fin (getCoord p i))) →
    ∃ t, build Binary.double Binary.doubleMax N S getCoord srt data = .ok t ∧ ∀ (c : Nat → Ext Rat) (r : Rat), 0 < r →
      Spec.Number Binary.double Binary.doubleMax (.fin r) →
      (t.query Binary.double Binary.doubleMax N getCoord c (.fin r)).Perm
        (Spec.scan Binary.double Binary.doubleMax N getCoord c (.fin r) data) ∧
      ∀ p ∈ data, (∀ i, i < N → c i = .fin (getCoord p i)) →
        p ∈ t.query Binary.double Binary.doubleMax N getCoord c (.fin r)

/-- The two values of the witness: `2^1023` and `1.5 · 2^1023`; their sum overflows. -/
def big1 : Rat := 2 ^ 1023
def big2 : Rat := 3 * 2 ^ 1022

/-- What happens to the witness, for every sorting algorithm. -/
theorem C155_lost (srt : Sorter Rat Rat) :
    build Binary.double Binary.doubleMax 1 1 (fun x _ => x) srt [big1, big2] = .ok (.split 0 .pinf (.leaf [big1]) (.leaf [big2])) ∧
    (Tree.split 0 .pinf (.leaf [big1]) (.leaf [big2])).query Binary.double Binary.doubleMax 1 (fun x _ => x) (fun _ => .fin big2) (.fin 1) = [] ∧
    Spec.scan Binary.double Binary.doubleMax 1 (fun (x : Rat) _ => x) (fun _ => .fin big2) (.fin 1) [big1, big2] = [big2] := by
  have hs : srt.sort (fun t => t) [big1, big2] = [big1, big2] :=
    (srt.perm (fun t => t) [big1, big2]).eq_of_pairwise (fun a b _ _ h1 h2 => le_antisymm h1 h2)
      (srt.sorted (fun t => t) [big1, big2]) (by
        rw [List.pairwise_pair]
        show big1 ≤ big2
        decide +kernel)
  have hv : splitValue Binary.double Binary.doubleMax big1 big2 = .pinf := by decide +kernel
  refine ⟨?_, by decide +kernel, by decide +kernel⟩
  rw [build, if_pos (by simp), mkSplit, dif_neg (by simp)]
  simp [hs, hv]

/-- **C155, violated** (`KdTree.icpp` 61-69): the split value between `2^1023` and `1.5 · 2^1023` is plus infinity, so a query with a finite
centre and radius looks only at the lower half; the greater point is not found even at its own place. -/
theorem C155_violated : ¬ C155_full := by
  intro h
  obtain ⟨t, hb, hq⟩ := h Rat 1 1 (fun x _ => x) (exampleSorter Rat) [big1, big2] (by decide) (by decide) (by
    intro p hp i _
    simp only [List.mem_cons, List.not_mem_nil, or_false] at hp
    rcases hp with rfl | rfl
    · exact ⟨by decide +kernel, by decide +kernel⟩
    · exact ⟨by decide +kernel, by decide +kernel⟩)
  obtain ⟨h1, h2, h3⟩ := C155_lost (exampleSorter Rat)
  rw [h1] at hb
  cases hb
  have := (hq (fun _ => .fin big2) 1 (by norm_num) ⟨by decide +kernel, by decide +kernel⟩).1
  rw [h2, h3] at this
  exact absurd this.length_eq (by decide)

/-- Also with small coordinates a part of the full property fails: with the radius `2^-600` the square of the radius is rounded to zero and a
point is not found at its own place. -/
theorem C155_radius_underflow (t : Tree Rat Rat) (c : Nat → Ext Rat) :
    t.query Binary.double Binary.doubleMax 1 (fun x _ => x) c (.fin (2 ^ (-600 : Int))) = [] :=
  C155_nothing _ _ (by decide +kernel) _ t c _ (.inl ⟨_, rfl, by decide +kernel⟩)

/-- Test: with the coordinates `0`, the least subnormal number and `2^1022` and the radius `1` the two small points are found. -/
example : ∃ t, build Binary.double Binary.doubleMax 1 1 (fun x _ => x) (exampleSorter Rat) [0, 2 ^ (-1074 : Int), 2 ^ 1022] = .ok t ∧
    (t.query Binary.double Binary.doubleMax 1 (fun x _ => x) (fun _ => .fin 0) (.fin 1)).Perm [0, 2 ^ (-1074 : Int)] := by
  obtain ⟨t, h, hq⟩ := C155_double_partial (N := 1) (S := 1) (by decide) (by decide) (fun x _ => x) (exampleSorter Rat)
    [0, 2 ^ (-1074 : Int), 2 ^ 1022] (by
      intro p hp i _
      simp only [List.mem_cons, List.not_mem_nil, or_false] at hp
      rcases hp with rfl | rfl | rfl
      · exact ⟨⟨0, 0, by decide, by decide, by decide +kernel⟩, by decide +kernel⟩
      · exact ⟨⟨1, -1074, by decide, by decide, by decide +kernel⟩, by decide +kernel⟩
      · exact ⟨⟨1, 1022, by decide, by decide, by decide +kernel⟩, by decide +kernel⟩)
  refine ⟨t, h, (hq _ (.fin 1) (by show (0 : Rat) ≤ 1; decide +kernel) ⟨by decide +kernel, by decide +kernel⟩).trans ?_⟩
  have : Spec.scan Binary.double Binary.doubleMax 1 (fun (x : Rat) _ => x) (fun _ => .fin 0) (.fin 1) [0, 2 ^ (-1074 : Int), 2 ^ 1022]
      = [0, 2 ^ (-1074 : Int)] := by decide +kernel
  rw [this]

end Alexandria.KdTree.Overflow
