import Verif.KdTree.Model
import Verif.KdTree.Spec
import Mathlib.Algebra.Order.BigOperators.Group.Finset
import Mathlib.Tactic.Linarith
import Mathlib.Tactic.Ring
import Mathlib.Data.List.Sort

set_option linter.unusedSectionVars false

namespace Alexandria.KdTree

variable {T K : Type} [Field K] [LinearOrder K]

variable (R : Rounding K)

theorem squareDist_eq (N : Nat) (gc : T → Nat → K) (p : T) (c : Nat → K) :
    squareDist R N gc p c = Spec.machineDist2 R.rnd gc p c N := by
  unfold squareDist
  induction N with
  | zero => simp [Spec.machineDist2]
  | succ n ih =>
    rw [List.range_succ, List.foldl_append, ih]
    simp [Spec.machineDist2]

theorem leafQuery_eq (N : Nat) (gc : T → Nat → K) (c : Nat → K) (r : K) (data : List T) :
    leafQuery R N gc c r data = Spec.machineScan R.rnd N gc c r data := by
  unfold Spec.machineScan
  induction data with
  | nil => rfl
  | cons x xs ih =>
    simp only [leafQuery, List.filter_cons, squareDist_eq, ih, decide_eq_true_eq]

/-- Exact distances and scans are instances. -/
theorem machineDist2_exact (gc : T → Nat → K) (p : T) (c : Nat → K) (N : Nat) :
    Spec.machineDist2 (Rounding.exact K).rnd gc p c N = Spec.dist2 N gc p c := by
  unfold Spec.dist2
  induction N with
  | zero => simp [Spec.machineDist2]
  | succ n ih =>
    rw [Spec.machineDist2, ih, Finset.sum_range_succ]
    simp [Rounding.exact, sq]

theorem machineScan_exact (N : Nat) (gc : T → Nat → K) (c : Nat → K) (r : K) (data : List T) :
    Spec.machineScan (Rounding.exact K).rnd N gc c r data = Spec.scan N gc c r data := by
  unfold Spec.machineScan Spec.scan
  simp only [machineDist2_exact]
  rfl

variable [IsStrictOrderedRing K]

theorem rnd_zero : R.rnd 0 = 0 := by
  have h := R.neg 0
  rw [neg_zero] at h
  linarith

theorem rnd_nonneg {x : K} (h : 0 ≤ x) : 0 ≤ R.rnd x := by
  have := R.mono 0 x h
  rwa [rnd_zero] at this

theorem dist_fixed (gc : T → Nat → K) (p : T) (c : Nat → K) (n : Nat) :
    R.rnd (Spec.machineDist2 R.rnd gc p c n) = Spec.machineDist2 R.rnd gc p c n := by
  cases n with
  | zero => exact rnd_zero R
  | succ n => exact R.idem _

theorem dist_nonneg (gc : T → Nat → K) (p : T) (c : Nat → K) (n : Nat) : 0 ≤ Spec.machineDist2 R.rnd gc p c n := by
  induction n with
  | zero => exact le_refl _
  | succ n ih => exact rnd_nonneg R (add_nonneg ih (rnd_nonneg R (mul_self_nonneg _)))

/-- A point is at least as far as along one axis. -/
theorem axis_le {N : Nat} {gc : T → Nat → K} {p : T} {c : Nat → K} {a : Nat} (ha : a < N) :
    R.rnd (R.rnd (gc p a - c a) * R.rnd (gc p a - c a)) ≤ Spec.machineDist2 R.rnd gc p c N := by
  induction N with
  | zero => omega
  | succ n ih =>
    have h0 := dist_nonneg R gc p c n
    have ht : 0 ≤ R.rnd (R.rnd (gc p n - c n) * R.rnd (gc p n - c n)) := rnd_nonneg R (mul_self_nonneg _)
    rcases Nat.lt_or_ge a n with h | h
    · have h1 := R.mono (Spec.machineDist2 R.rnd gc p c n) _ (le_add_of_nonneg_right ht)
      rw [dist_fixed] at h1
      exact le_trans (ih h) h1
    · have : a = n := by omega
      subst this
      have h1 := R.mono _ _ (le_add_of_nonneg_left (a := R.rnd (R.rnd (gc p a - c a) * R.rnd (gc p a - c a))) h0)
      rw [R.idem] at h1
      exact h1

/-- What is not below the radius along one axis is not within the radius. -/
theorem axis_far {N : Nat} {gc : T → Nat → K} {p : T} {c : Nat → K} {r : K} (hr : 0 ≤ r) (hrr : R.rnd r = r) {a : Nat} (ha : a < N)
    (h : r ≤ gc p a - c a ∨ gc p a - c a ≤ -r) : ¬ Spec.machineDist2 R.rnd gc p c N < R.rnd (r * r) := by
  have hd : r ≤ |R.rnd (gc p a - c a)| := by
    rcases h with h | h
    · have := R.mono _ _ h
      rw [hrr] at this
      exact le_trans this (le_abs_self _)
    · have := R.mono _ _ h
      rw [R.neg, hrr] at this
      exact le_trans (by linarith) (neg_le_abs _)
  have hm : r * r ≤ R.rnd (gc p a - c a) * R.rnd (gc p a - c a) := by
    rw [← abs_mul_abs_self (R.rnd (gc p a - c a))]
    exact mul_self_le_mul_self hr hd
  exact not_lt.mpr (le_trans (R.mono _ _ hm) (axis_le R ha))

theorem far_right {x c r v : K} (hx : R.rnd x = x) (h : R.rnd (c + r) < v) (hv : v ≤ x) : r ≤ x - c := by
  by_cases hc : x ≤ c + r
  · have := R.mono _ _ hc
    rw [hx] at this
    linarith
  · linarith [not_le.mp hc]

theorem far_left {x c r v : K} (hx : R.rnd x = x) (h : R.rnd (c - r) > v) (hv : x ≤ v) : x - c ≤ -r := by
  by_cases hc : c - r ≤ x
  · have := R.mono _ _ hc
    rw [hx] at this
    linarith
  · linarith [not_le.mp hc]

theorem splitValue_between {a b : K} (ha : R.rnd a = a) (hb : R.rnd b = b) (h : a ≤ b) : a ≤ splitValue R a b ∧ splitValue R a b ≤ b := by
  unfold splitValue
  split
  · subst_vars; exact ⟨le_refl _, le_refl _⟩
  · have h2a : R.rnd (2 * a) = 2 * a := by have := R.twice a; rwa [ha] at this
    have h2b : R.rnd (2 * b) = 2 * b := by have := R.twice b; rwa [hb] at this
    have h1 := R.mono (2 * a) (a + b) (by linarith)
    have h2 := R.mono (a + b) (2 * b) (by linarith)
    rw [h2a] at h1
    rw [h2b] at h2
    have h3 := R.mono a (R.rnd (a + b) / 2) (by rw [le_div_iff₀ (by norm_num)]; linarith)
    have h4 := R.mono (R.rnd (a + b) / 2) b (by rw [div_le_iff₀ (by norm_num)]; linarith)
    rw [ha] at h3
    rw [hb] at h4
    exact ⟨h3, h4⟩

/-- The halves of a sorted list are separated by the split value. -/
theorem halves_separated {gc : T → K} {s : List T} (hs : s.Pairwise (fun a b => gc a ≤ gc b)) {n : Nat}
    (hfix : ∀ p ∈ s, R.rnd (gc p) = gc p) (hn1 : 1 ≤ n) (hn : n < s.length) (v : K)
    (hv : v = splitValue R (gc (s[n - 1]'(by omega))) (gc (s[n]'hn))) :
    (∀ p ∈ s.take n, gc p ≤ v) ∧ (∀ p ∈ s.drop n, v ≤ gc p) := by
  have hpw := List.pairwise_iff_getElem.1 hs
  have hab : gc (s[n - 1]'(by omega)) ≤ gc (s[n]'hn) := hpw _ _ _ _ (by omega)
  obtain ⟨h1, h2⟩ := splitValue_between R (hfix _ (List.getElem_mem _)) (hfix _ (List.getElem_mem _)) hab
  rw [← hv] at h1 h2
  constructor
  · intro p hp
    obtain ⟨i, hi, rfl⟩ := List.mem_iff_getElem.1 hp
    rw [List.length_take] at hi
    rw [List.getElem_take]
    refine le_trans ?_ h1
    rcases Nat.lt_or_ge i (n - 1) with h | h
    · exact hpw _ _ _ _ h
    · have : i = n - 1 := by omega
      subst this; exact le_refl _
  · intro p hp
    obtain ⟨i, hi, rfl⟩ := List.mem_iff_getElem.1 hp
    rw [List.length_drop] at hi
    rw [List.getElem_drop]
    refine le_trans h2 ?_
    rcases Nat.eq_zero_or_pos i with h | h
    · subst h; exact le_refl _
    · exact hpw _ _ _ _ (by omega)

theorem scan_eq_nil {N : Nat} {gc : T → Nat → K} {c : Nat → K} {r : K} {l : List T}
    (h : ∀ p ∈ l, ¬ Spec.machineDist2 R.rnd gc p c N < R.rnd (r * r)) : Spec.machineScan R.rnd N gc c r l = [] := by
  unfold Spec.machineScan
  rw [List.filter_eq_nil_iff]
  intro p hp; simpa using h p hp

theorem query_split_perm {N : Nat} {gc : T → Nat → K} {c : Nat → K} {r : K} (hr : 0 ≤ r) (hrr : R.rnd r = r) {axis : Nat}
    (ha : axis < N) {v : K} {l rt : Tree T K} {left right : List T}
    (hl : (l.query R N gc c r).Perm (Spec.machineScan R.rnd N gc c r left))
    (hrt : (rt.query R N gc c r).Perm (Spec.machineScan R.rnd N gc c r right))
    (hfl : ∀ p ∈ left, R.rnd (gc p axis) = gc p axis) (hfr : ∀ p ∈ right, R.rnd (gc p axis) = gc p axis)
    (hsl : ∀ p ∈ left, gc p axis ≤ v) (hsr : ∀ p ∈ right, v ≤ gc p axis) :
    ((Tree.split axis v l rt).query R N gc c r).Perm (Spec.machineScan R.rnd N gc c r (left ++ right)) := by
  have happ : Spec.machineScan R.rnd N gc c r (left ++ right) = Spec.machineScan R.rnd N gc c r left ++ Spec.machineScan R.rnd N gc c r right := by
    simp [Spec.machineScan]
  rw [happ]
  unfold Tree.query
  split
  · rename_i h
    rw [scan_eq_nil R (l := right), List.append_nil]
    · exact hl
    · intro p hp
      exact axis_far R hr hrr ha (.inl (far_right R (hfr p hp) h (hsr p hp)))
  · split
    · rename_i h
      rw [scan_eq_nil R (l := left), List.nil_append]
      · exact hrt
      · intro p hp
        exact axis_far R hr hrr ha (.inr (far_left R (hfl p hp) h (hsl p hp)))
    · exact hl.append hrt

theorem scan_perm {N : Nat} {gc : T → Nat → K} {c : Nat → K} {r : K} {l₁ l₂ : List T} (h : l₁.Perm l₂) :
    (Spec.machineScan R.rnd N gc c r l₁).Perm (Spec.machineScan R.rnd N gc c r l₂) := h.filter _

theorem mkSplit_spec {N S : Nat} (hN : 1 ≤ N) (hS : 1 ≤ S) (gc : T → Nat → K) (srt : Sorter T K) :
    ∀ (n : Nat) (data : List T) (axis : Nat), data.length = n → S < data.length → axis < N → (∀ p ∈ data, ∀ i, i < N → R.rnd (gc p i) = gc p i) →
      ∃ t, mkSplit R N S gc srt data axis = .ok t ∧
        ∀ c r, 0 ≤ r → R.rnd r = r → (t.query R N gc c r).Perm (Spec.machineScan R.rnd N gc c r data) := by
  intro n
  induction n using Nat.strongRecOn with
  | _ n ih =>
    intro data axis hn hlen hax hfix
    have h2 : ¬ data.length < 2 := by omega
    have hperm := srt.perm (fun t => gc t axis) data
    have hsl : (srt.sort (fun t => gc t axis) data).length = data.length := hperm.length_eq
    have hsort := srt.sorted (fun t => gc t axis) data
    obtain ⟨v, hv⟩ : ∃ v, v = splitValue R
        (gc ((srt.sort (fun t => gc t axis) data)[data.length / 2 - 1]'(by omega)) axis)
        (gc ((srt.sort (fun t => gc t axis) data)[data.length / 2]'(by omega)) axis) := ⟨_, rfl⟩
    have hsep := halves_separated R (gc := fun t => gc t axis) hsort (fun p hp => hfix p (hperm.mem_iff.mp hp) axis hax) (n := data.length / 2) (by omega) (by omega) v hv
    obtain ⟨left, hleft⟩ : ∃ l, l = (srt.sort (fun t => gc t axis) data).take (data.length / 2) := ⟨_, rfl⟩
    obtain ⟨right, hright⟩ : ∃ l, l = (srt.sort (fun t => gc t axis) data).drop (data.length / 2) := ⟨_, rfl⟩
    have hll : left.length = data.length / 2 := by rw [hleft, List.length_take]; omega
    have hlr : right.length = data.length - data.length / 2 := by rw [hright, List.length_drop]; omega
    have hax' : (axis + 1) % N < N := Nat.mod_lt _ (by omega)
    have child : ∀ l : List T, l.length < n → (∀ p ∈ l, p ∈ data) → ∃ t,
        (if l.length > S then mkSplit R N S gc srt l ((axis + 1) % N) else .ok (.leaf l)) = .ok t ∧
        ∀ c r, 0 ≤ r → R.rnd r = r → (t.query R N gc c r).Perm (Spec.machineScan R.rnd N gc c r l) := by
      intro l hl hmem
      by_cases hS' : l.length > S
      · rw [if_pos hS']
        exact ih l.length hl l _ rfl hS' hax' (fun p hp => hfix p (hmem p hp))
      · rw [if_neg hS']
        refine ⟨_, rfl, fun c r _ _ => ?_⟩
        rw [Tree.query, leafQuery_eq]
    have hml : ∀ p ∈ left, p ∈ data := fun p hp => hperm.mem_iff.mp (List.mem_of_mem_take (hleft ▸ hp))
    have hmr : ∀ p ∈ right, p ∈ data := fun p hp => hperm.mem_iff.mp (List.mem_of_mem_drop (hright ▸ hp))
    obtain ⟨tl, htl, hql⟩ := child left (by omega) hml
    obtain ⟨tr, htr, hqr⟩ := child right (by omega) hmr
    refine ⟨.split axis v tl tr, ?_, ?_⟩
    · rw [mkSplit, dif_neg h2]
      simp only [← hleft, ← hright]
      rw [htl, htr]
      simp only [← hv]
    · intro c r hr hrr
      rw [← hleft, ← hright] at hsep
      have := query_split_perm R hr hrr hax (hql c r hr hrr) (hqr c r hr hrr) (fun p hp => hfix p (hml p hp) axis hax)
        (fun p hp => hfix p (hmr p hp) axis hax) hsep.1 hsep.2
      refine this.trans (scan_perm R ?_)
      rw [hleft, hright, List.take_append_drop]
      exact hperm

end Alexandria.KdTree
