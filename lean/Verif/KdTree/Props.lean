import Verif.KdTree.Lemmas
import Verif.Common.Binary
import Mathlib.Algebra.Order.Field.Rat
import Mathlib.Algebra.Order.Floor.Ring
import Mathlib.Data.Rat.Floor

/-!
# Property C01: a radius query equals a linear scan
-/

namespace Alexandria.KdTree

/-- **C01**, for machine arithmetic. For every rounding, list of points with representable coordinates, dimension `N ≥ 1`, leaf size
`S ≥ 1`, sort outcome, centre and representable radius `r ≥ 0`: building the tree succeeds and the query returns exactly the points
of the linear scan with the same arithmetic, with multiplicity. No point is lost by rounding errors at the borders of the cells. -/
theorem C01_machine {T K : Type} [Field K] [LinearOrder K] [IsStrictOrderedRing K] (R : Rounding K) (N S : Nat) (hN : 1 ≤ N)
    (hS : 1 ≤ S) (getCoord : T → Nat → K) (srt : Sorter T K) (data : List T)
    (hfix : ∀ p ∈ data, ∀ i, i < N → R.rnd (getCoord p i) = getCoord p i) :
    ∃ t, build R N S getCoord srt data = .ok t ∧
      ∀ (c : Nat → K) (r : K), 0 ≤ r → R.rnd r = r →
        (t.query R N getCoord c r).Perm (Spec.machineScan R.rnd N getCoord c r data) := by
  unfold build
  split
  · rename_i h
    exact mkSplit_spec R hN hS getCoord srt _ data 0 rfl h (by omega) hfix
  · refine ⟨_, rfl, fun c r _ _ => ?_⟩
    rw [Tree.query, leafQuery_eq]

/-- **C01**, for exact arithmetic. For every list, dimension `N ≥ 1`, leaf size `S ≥ 1`, sort outcome, centre and radius `r ≥ 0`: building the
tree succeeds and the query returns exactly the points of the linear scan, with multiplicity. -/
theorem C01_query_eq_scan {T K : Type} [Field K] [LinearOrder K] [IsStrictOrderedRing K] (N S : Nat) (hN : 1 ≤ N)
    (hS : 1 ≤ S) (getCoord : T → Nat → K) (srt : Sorter T K) (data : List T) :
    ∃ t, build (Rounding.exact K) N S getCoord srt data = .ok t ∧
      ∀ (c : Nat → K) (r : K), 0 ≤ r → (t.query (Rounding.exact K) N getCoord c r).Perm (Spec.scan N getCoord c r data) := by
  obtain ⟨t, h, hq⟩ := C01_machine (Rounding.exact K) N S hN hS getCoord srt data (fun _ _ _ _ => rfl)
  exact ⟨t, h, fun c r hr => by rw [← machineScan_exact]; exact hq c r hr rfl⟩

/-- **C01**, for `double`, as long as no operation leaves the range of the exponents. -/
theorem C01_double {T : Type} (N S : Nat) (hN : 1 ≤ N) (hS : 1 ≤ S) (getCoord : T → Nat → Rat) (srt : Sorter T Rat) (data : List T)
    (hfix : ∀ p ∈ data, ∀ i, i < N → Binary.Rep 53 (getCoord p i)) :
    ∃ t, build (Binary.rounding 53 (by decide)) N S getCoord srt data = .ok t ∧
      ∀ (c : Nat → Rat) (r : Rat), 0 ≤ r → Binary.Rep 53 r →
        (t.query (Binary.rounding 53 (by decide)) N getCoord c r).Perm (Spec.machineScan (Binary.rnd 53) N getCoord c r data) := by
  obtain ⟨t, h, hq⟩ := C01_machine (Binary.rounding 53 (by decide)) N S hN hS getCoord srt data
    (fun p hp i hi => Binary.rnd_of_rep (by decide) (hfix p hp i hi))
  exact ⟨t, h, fun c r hr hrep => hq c r hr (Binary.rnd_of_rep (by decide) hrep)⟩

/-- Test: numbers that `double` represents, and one that it rounds. -/
example : Binary.Rep 53 (3 / 4) ∧ Binary.Rep 53 (-5) ∧ Binary.rnd 53 (1 / 3) = 6004799503160661 / 18014398509481984 :=
  ⟨⟨3, -2, by decide, by norm_num⟩, ⟨-5, 0, by decide, by norm_num⟩, by decide +kernel⟩

/-- A sorter for the examples (merge sort). -/
def exampleSorter (T : Type) : Sorter T Rat where
  sort key l := l.mergeSort (fun a b => decide (key a ≤ key b))
  perm _ l := List.mergeSort_perm l _
  sorted key l := by
    have := List.pairwise_mergeSort (le := fun a b => decide (key a ≤ key b))
      (fun a b c h1 h2 => by simp only [decide_eq_true_eq] at *; exact le_trans h1 h2)
      (fun a b => by simp only [Bool.or_eq_true, decide_eq_true_eq]; exact le_total _ _) l
    exact this.imp (fun h => by simpa using h)

/-- Test: the hypotheses of C01 are met by a concrete three-point, two-dimensional tree whose scan is not empty. -/
example : ∃ t, build (Rounding.exact Rat) 2 1 (fun (p : Rat × Rat) i => if i = 0 then p.1 else p.2) (exampleSorter _)
      [(0, 0), (3, 4), (1, 1)] = .ok t ∧
    (t.query (Rounding.exact Rat) 2 (fun (p : Rat × Rat) i => if i = 0 then p.1 else p.2) (fun _ => 0) 2).Perm [(0, 0), (1, 1)] := by
  obtain ⟨t, h, hq⟩ := C01_query_eq_scan (T := Rat × Rat) (K := Rat) 2 1 (by decide) (by decide)
    (fun p i => if i = 0 then p.1 else p.2) (exampleSorter _) [(0, 0), (3, 4), (1, 1)]
  refine ⟨t, h, (hq _ 2 (by norm_num)).trans ?_⟩
  have : Spec.scan 2 (fun (p : Rat × Rat) i => if i = 0 then p.1 else p.2) (fun _ => 0) 2
      [(0, 0), (3, 4), (1, 1)] = [(0, 0), (1, 1)] := by
    unfold Spec.scan Spec.dist2
    simp [Finset.sum_range_succ]; norm_num
  rw [this]

/-- Rounding towards zero to whole numbers, for the examples. -/
def toWhole : Rounding Rat where
  rnd x := if 0 ≤ x then (⌊x⌋ : Rat) else (⌈x⌉ : Rat)
  mono x y h := by
    by_cases hx : 0 ≤ x
    · rw [if_pos hx, if_pos (le_trans hx h)]
      exact_mod_cast Int.floor_le_floor h
    · rw [if_neg hx]
      by_cases hy : 0 ≤ y
      · rw [if_pos hy]
        have h1 : ⌈x⌉ ≤ 0 := Int.ceil_le.mpr (by push_cast; linarith [not_le.mp hx])
        have h2 : 0 ≤ ⌊y⌋ := Int.floor_nonneg.mpr hy
        exact_mod_cast le_trans h1 h2
      · rw [if_neg hy]
        exact_mod_cast Int.ceil_le_ceil h
  idem x := by
    by_cases hx : 0 ≤ x
    · simp only [if_pos hx]
      rw [if_pos (by exact_mod_cast Int.floor_nonneg.mpr hx), Int.floor_intCast]
    · simp only [if_neg hx]
      by_cases h : (0 : Rat) ≤ ⌈x⌉
      · rw [if_pos h, Int.floor_intCast]
      · rw [if_neg h, Int.ceil_intCast]
  neg x := by
    rcases lt_trichotomy x 0 with h | h | h
    · rw [if_pos (by linarith), if_neg (not_le.mpr h), Int.floor_neg]; push_cast; rfl
    · subst h; simp
    · rw [if_neg (by linarith), if_pos h.le, Int.ceil_neg]; push_cast; rfl
  twice x := by
    have key : ∀ n : Int, (if (0 : Rat) ≤ 2 * (n : Rat) then (⌊2 * (n : Rat)⌋ : Rat) else (⌈2 * (n : Rat)⌉ : Rat)) = 2 * n := by
      intro n
      have e : (2 * (n : Rat)) = ((2 * n : Int) : Rat) := by push_cast; rfl
      split
      · rw [e, Int.floor_intCast]
      · rw [e, Int.ceil_intCast]
    by_cases hx : 0 ≤ x
    · simp only [if_pos hx]; exact key _
    · simp only [if_neg hx]; exact key _

/-- Test: the hypotheses of `C01_machine` with this rounding, which changes the split value 3/2 to 1. -/
example : (∀ p ∈ [(0 : Rat), 3, 7], ∀ i, i < 1 → toWhole.rnd ((fun p (_ : Nat) => p) p i) = (fun p (_ : Nat) => p) p i) ∧ toWhole.rnd 5 = 5 ∧
    splitValue toWhole 0 3 = 1 := by
  refine ⟨?_, ?_, ?_⟩
  · intro p hp i _
    simp only [List.mem_cons, List.not_mem_nil, or_false] at hp
    rcases hp with rfl | rfl | rfl <;> (clear! i; simp only []; decide +kernel)
  · decide +kernel
  · decide +kernel

/-- The hypothesis `0 ≤ r` is needed: with a negative radius (whose square is positive) the pruned search of a two-point
tree misses a point that the leaf criterion `square_dist < radius*radius` accepts. -/
theorem C01_negative_radius_differs (srt : Sorter Rat Rat) :
    ∃ (t : Tree Rat Rat), build (Rounding.exact Rat) 1 1 (fun p _ => p) srt [0, 3] = .ok t ∧
      t.query (Rounding.exact Rat) 1 (fun p _ => p) (fun _ => 2) (-5) = [0] ∧
      Spec.scan 1 (fun (p : Rat) _ => p) (fun _ => 2) (-5) [0, 3] = [0, 3] := by
  have hs : srt.sort (fun t => t) [0, 3] = [0, 3] :=
    (srt.perm (fun t => t) [0, 3]).eq_of_pairwise (fun a b _ _ h1 h2 => le_antisymm h1 h2)
      (srt.sorted (fun t => t) [0, 3]) (by simp)
  refine ⟨.split 0 (3 / 2) (.leaf [0]) (.leaf [3]), ?_, ?_, ?_⟩
  · rw [build, if_pos (by simp), mkSplit, dif_neg (by simp)]
    simp [hs, splitValue, Rounding.exact]
  · simp [Tree.query, leafQuery, squareDist, Rounding.exact]; norm_num
  · simp [Spec.scan, Spec.dist2]; norm_num

/-- The hypothesis `S ≥ 1` is needed: with leaf size 0 a single object makes the constructor throw. -/
theorem C01_leaf_size_zero_throws {T K : Type} [Field K] [LinearOrder K] (R : Rounding K) (N : Nat) (getCoord : T → Nat → K)
    (srt : Sorter T K) (x : T) : build R N 0 getCoord srt [x] = .error .outOfRange := by
  rw [build, if_pos (by simp), mkSplit, dif_pos (by simp)]

end Alexandria.KdTree
