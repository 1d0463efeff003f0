import Verif.NdArray.RoundModel
import Verif.NdArray.Props3
import Verif.Common.Close
import Verif.Common.Binary

/-! # Sums and trapezoids of arrays of floating point numbers (C133) -/

namespace Alexandria.NdArray

open Spec

section
variable {K : Type} [Field K] [LinearOrder K] [IsStrictOrderedRing K] {R : Rounding K} {u : K}

/-- A loop that adds up terms that are themselves rounded. -/
theorem foldl_close {ι : Type} (hu : 0 ≤ u) (hr : ∀ x, |R.rnd x - x| ≤ u * |x|) (m : Nat) (g' g G : ι → K) (l : List ι) : (∀ i ∈ l, Close u m (G i) (g' i) (g i)) →
    ∀ (k : Nat) (A a' a : K), Close u (m + k) A a' a →
      Close u (m + k + l.length) (A + (l.map G).sum) (l.foldl (fun s i => R.rnd (s + g' i)) a') (a + (l.map g).sum) := by
  induction l with
  | nil => intro _ k A a' a h; simpa using h
  | cons i l ih =>
    intro h k A a' a ha
    have h1 := (ha.add ((h i (by simp)).mono hu (by omega : m ≤ m + k))).rnd hu hr
    have h2 := ih (fun j hj => h j (by simp [hj])) (k + 1) _ _ _ h1
    simp only [List.foldl_cons, List.map_cons, List.sum_cons, List.length_cons]
    rw [show m + k + (l.length + 1) = m + (k + 1) + l.length by omega, ← add_assoc A, ← add_assoc a]
    exact h2

theorem foldl_zero_close {ι : Type} (hu : 0 ≤ u) (hr : ∀ x, |R.rnd x - x| ≤ u * |x|) (m : Nat) (g' g G : ι → K) (l : List ι) (h : ∀ i ∈ l, Close u m (G i) (g' i) (g i)) :
    Close u (m + l.length) (l.map G).sum (l.foldl (fun s i => R.rnd (s + g' i)) 0) (l.map g).sum := by
  have := foldl_close hu hr m g' g G l h 0 0 0 0 ((Close.zero u).mono hu (by omega))
  rwa [zero_add, zero_add] at this

/-- Adding up numbers that are not negative: the sum is at least as large as what it started from and as every term. -/
theorem foldl_ge {ι : Type} (g : ι → K) (l : List ι) : (∀ i ∈ l, 0 ≤ g i ∧ R.rnd (g i) = g i) → ∀ s : K, 0 ≤ s → R.rnd s = s →
    s ≤ l.foldl (fun s i => R.rnd (s + g i)) s ∧ ∀ i ∈ l, g i ≤ l.foldl (fun s i => R.rnd (s + g i)) s := by
  induction l with
  | nil => intro _ s _ _; simp
  | cons i l ih =>
    intro h s hs hf
    obtain ⟨h1, h2⟩ := h i (by simp)
    obtain ⟨h3, h4⟩ := ih (fun j hj => h j (by simp [hj])) (R.rnd (s + g i)) (R.nonneg (by linarith)) (R.idem _)
    have h5 : s ≤ R.rnd (s + g i) := R.fix_le (by linarith) hf
    have h6 : g i ≤ R.rnd (s + g i) := R.fix_le (by linarith) h2
    simp only [List.foldl_cons, List.mem_cons]
    refine ⟨h5.trans h3, ?_⟩
    rintro j (rfl | hj)
    · exact h6.trans h3
    · exact h4 j hj

/-- **C133**: the sum over an axis of floating point numbers is right up to as many roundings of its terms as the axis has values. -/
theorem C133_sum (hu : 0 ≤ u) (hr : ∀ x, |R.rnd x - x| ≤ u * |x|) (h : Heap K) (a : Nd) (f : List Nat → K) (hcid : a.cid < h.length)
    (hread : ∀ c, Valid a.shape c → at' h a c = .ok (f c)) (hrank : 2 ≤ a.shape.length) (axis : Int) (ax : Nat) (n : Nat)
    (hax : (axis = ax ∨ axis = (ax : Int) - a.shape.length) ∧ a.shape[ax]? = some n) (hsmall : card (a.shape.eraseIdx ax) < 2 ^ 31) :
    ∃ h' out, machineSumAxis R h a axis = .ok (h', out) ∧ out.shape = a.shape.eraseIdx ax ∧ ∀ c, Valid out.shape c → ∃ x, at' h' out c = .ok x ∧
      |x - ((List.range n).map fun k => f (put ax k c)).sum| ≤ ((1 + u) ^ n - 1) * ((List.range n).map fun k => |f (put ax k c)|).sum := by
  obtain ⟨h', out, h1, h2, h3, _⟩ := @sumAxis_fold K ⟨fun x y => R.rnd (x + y)⟩ _ h a f hcid hread hrank axis ax n hax hsmall
  refine ⟨h', out, h1, h2, fun c hv => ⟨_, h3 c hv, ?_⟩⟩
  have h4 := (foldl_zero_close hu hr 0 (fun k => f (put ax k c)) (fun k => f (put ax k c)) (fun k => |f (put ax k c)|) (List.range n) fun k _ => Close.refl u _).1
  rw [List.length_range, Nat.zero_add] at h4
  exact h4

/-- **C133**: if no element is negative, the sum is not less than any of its terms. -/
theorem C133_sum_ge (h : Heap K) (a : Nd) (f : List Nat → K) (hcid : a.cid < h.length)
    (hread : ∀ c, Valid a.shape c → at' h a c = .ok (f c)) (hrank : 2 ≤ a.shape.length) (axis : Int) (ax : Nat) (n : Nat)
    (hax : (axis = ax ∨ axis = (ax : Int) - a.shape.length) ∧ a.shape[ax]? = some n) (hsmall : card (a.shape.eraseIdx ax) < 2 ^ 31)
    (hpos : ∀ c, Valid a.shape c → 0 ≤ f c ∧ R.rnd (f c) = f c) :
    ∃ h' out, machineSumAxis R h a axis = .ok (h', out) ∧ ∀ c, Valid out.shape c → ∃ x, at' h' out c = .ok x ∧ ∀ k < n, f (put ax k c) ≤ x := by
  obtain ⟨h', out, h1, h2, h3, _⟩ := @sumAxis_fold K ⟨fun x y => R.rnd (x + y)⟩ _ h a f hcid hread hrank axis ax n hax hsmall
  refine ⟨h', out, h1, fun c hv => ⟨_, h3 c hv, fun k hk => ?_⟩⟩
  rw [h2] at hv
  exact (foldl_ge (R := R) (fun k => f (put ax k c)) (List.range n) (fun k hk => hpos _ (valid_of_erase hax.2 hv (List.mem_range.mp hk)).1) 0 le_rfl R.zero).2 k
    (List.mem_range.mpr hk)

/-- **C133**: the sum of all elements. -/
theorem C133_sum_all (hu : 0 ≤ u) (hr : ∀ x, |R.rnd x - x| ≤ u * |x|) (h : Heap K) (a : Nd) (l : List K) (hi : iterate h a = .ok l) :
    ∃ x, machineSumAll R h a = .ok x ∧ |x - l.sum| ≤ ((1 + u) ^ l.length - 1) * (l.map fun y => |y|).sum := by
  refine ⟨l.foldl (fun s y => R.rnd (s + y)) 0, ?_, ?_⟩
  · unfold machineSumAll
    letI : Add K := ⟨fun x y => R.rnd (x + y)⟩
    unfold sumAll
    rw [hi]
    rfl
  · have h4 := (foldl_zero_close hu hr 0 (fun y => y) (fun y => y) (fun y => |y|) l fun k _ => Close.refl u _).1
    rw [Nat.zero_add, List.map_id'] at h4
    exact h4

/-- One trapezoid: four roundings. -/
theorem trapezoid_close (hu : 0 ≤ u) (hr : ∀ x, |R.rnd x - x| ≤ u * |x|) (y0 y1 k0 k1 : K) :
    Close u 4 |(y0 + y1) * (k1 - k0) / 2| (R.rnd (R.rnd (R.rnd (y0 + y1) * R.rnd (k1 - k0)) / 2)) ((y0 + y1) * (k1 - k0) / 2) := by
  have h1 := (Close.refl u (y0 + y1)).rnd hu hr
  have h2 := (Close.refl u (k1 - k0)).rnd hu hr
  have h3 := (((h1.mul hu h2).rnd hu hr).div hu 2).rnd hu hr
  rwa [← abs_mul, ← abs_div] at h3

/-- **C133**: the integral by trapezoids is right up to `n + 3` roundings of the trapezoids, for knots in any order. -/
theorem C133_trapz (hu : 0 ≤ u) (hr : ∀ x, |R.rnd x - x| ≤ u * |x|) (h : Heap K) (a : Nd) (f : List Nat → K) (knots : List K) (hcid : a.cid < h.length)
    (hread : ∀ c, Valid a.shape c → at' h a c = .ok (f c)) (hrank : 2 ≤ a.shape.length) (axis : Int) (ax : Nat) (n : Nat)
    (hax : (axis = ax ∨ axis = (ax : Int) - a.shape.length) ∧ a.shape[ax]? = some n) (hpos : 0 < n) (hsmall : card (a.shape.eraseIdx ax) < 2 ^ 31)
    (hk : knots.length = n) :
    ∃ h' out, machineTrapz R h a knots axis = .ok (h', out) ∧ out.shape = a.shape.eraseIdx ax ∧ ∀ c, Valid out.shape c → ∃ x, at' h' out c = .ok x ∧
      |x - ((List.range (n - 1)).map fun i => (f (put ax i c) + f (put ax (i + 1) c)) * (knots.getD (i + 1) 0 - knots.getD i 0) / 2).sum| ≤
        ((1 + u) ^ (n + 3) - 1) *
          ((List.range (n - 1)).map fun i => |(f (put ax i c) + f (put ax (i + 1) c)) * (knots.getD (i + 1) 0 - knots.getD i 0) / 2|).sum := by
  obtain ⟨h', out, h1, h2, h3⟩ :=
    (@trapz_fold K ⟨fun x y => R.rnd (x + y)⟩ ⟨fun x y => R.rnd (x - y)⟩ ⟨fun x y => R.rnd (x * y)⟩ ⟨fun x y => R.rnd (x / y)⟩ _ _
      h a f knots hcid hread hrank axis ax n hax hpos hsmall).2 hk
  refine ⟨h', out, h1, h2, fun c hv => ⟨_, h3 c hv, ?_⟩⟩
  have h4 := (foldl_zero_close hu hr 4
    (fun i => R.rnd (R.rnd (R.rnd (f (put ax i c) + f (put ax (i + 1) c)) * R.rnd (knots.getD (i + 1) 0 - knots.getD i 0)) / 2))
    (fun i => (f (put ax i c) + f (put ax (i + 1) c)) * (knots.getD (i + 1) 0 - knots.getD i 0) / 2)
    (fun i => |(f (put ax i c) + f (put ax (i + 1) c)) * (knots.getD (i + 1) 0 - knots.getD i 0) / 2|) (List.range (n - 1)) fun i _ => trapezoid_close hu hr _ _ _ _).1
  rw [List.length_range, show 4 + (n - 1) = n + 3 by omega] at h4
  rw [List.range'_eq_map_range, List.foldl_map]
  simp only [Nat.add_comm 1, Nat.add_sub_cancel]
  exact h4

/-- **C133**: knots in order and elements that are not negative give an integral that is not negative. -/
theorem C133_trapz_nonneg (h : Heap K) (a : Nd) (f : List Nat → K) (knots : List K) (hcid : a.cid < h.length)
    (hread : ∀ c, Valid a.shape c → at' h a c = .ok (f c)) (hrank : 2 ≤ a.shape.length) (axis : Int) (ax : Nat) (n : Nat)
    (hax : (axis = ax ∨ axis = (ax : Int) - a.shape.length) ∧ a.shape[ax]? = some n) (hpos : 0 < n) (hsmall : card (a.shape.eraseIdx ax) < 2 ^ 31)
    (hk : knots.length = n) (hf : ∀ c, Valid a.shape c → 0 ≤ f c) (hs : ∀ i, i + 1 < n → knots.getD i 0 ≤ knots.getD (i + 1) 0) :
    ∃ h' out, machineTrapz R h a knots axis = .ok (h', out) ∧ ∀ c, Valid out.shape c → ∃ x, at' h' out c = .ok x ∧ 0 ≤ x := by
  obtain ⟨h', out, h1, h2, h3⟩ :=
    (@trapz_fold K ⟨fun x y => R.rnd (x + y)⟩ ⟨fun x y => R.rnd (x - y)⟩ ⟨fun x y => R.rnd (x * y)⟩ ⟨fun x y => R.rnd (x / y)⟩ _ _
      h a f knots hcid hread hrank axis ax n hax hpos hsmall).2 hk
  refine ⟨h', out, h1, fun c hv => ⟨_, h3 c hv, ?_⟩⟩
  rw [h2] at hv
  rw [List.range'_eq_map_range, List.foldl_map]
  simp only [Nat.add_comm 1, Nat.add_sub_cancel]
  refine (foldl_ge (R := R)
    (fun i => R.rnd (R.rnd (R.rnd (f (put ax i c) + f (put ax (i + 1) c)) * R.rnd (knots.getD (i + 1) 0 - knots.getD i 0)) / 2))
    (List.range (n - 1)) (fun i hi => ⟨?_, R.idem _⟩) 0 le_rfl R.zero).1
  have hi' := List.mem_range.mp hi
  have h5 := hf _ (valid_of_erase hax.2 hv (by omega : i < n)).1
  have h6 := hf _ (valid_of_erase hax.2 hv (by omega : i + 1 < n)).1
  have h7 := hs i (by omega)
  exact R.nonneg (div_nonneg (R.nonneg (mul_nonneg (R.nonneg (by linarith)) (R.nonneg (by linarith)))) (by norm_num))

end

/-- Sum and integral of doubles: the first row loses the small elements. -/
example : ∃ h a h' out h'' out', mkData ([] : Heap ℚ) [2, 3] [2 ^ 53, 1, 1, 1, 2, 3] = .ok (h, a) ∧ 2 ≤ a.shape.length ∧
    machineSumAxis (Binary.rounding 53 (by decide)) h a (-1) = .ok (h', out) ∧ iterate h' out = .ok [2 ^ 53, 6] ∧
    machineTrapz (Binary.rounding 53 (by decide)) h a [0, 1, 3] 1 = .ok (h'', out') ∧ iterate h'' out' = .ok [2 ^ 52 + 2, 13 / 2] :=
  ⟨_, _, _, _, _, _, rfl, by decide, rfl, by decide +kernel, rfl, by decide +kernel⟩

end Alexandria.NdArray
