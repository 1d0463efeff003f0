import Verif.NdArray.Props2
import Verif.NdArray.Operations
import Mathlib.Algebra.BigOperators.Group.List.Basic
import Mathlib.Algebra.Field.Basic
import Mathlib.Algebra.Order.Field.Rat
import Mathlib.Tactic.NormNum

/-!
# Properties C62-C64: reductions of n-dimensional arrays
-/

set_option linter.unusedSectionVars false

namespace Alexandria.NdArray

open Spec

variable {T : Type}

namespace Spec

/-- The coordinate vector `c` with the value `k` inserted as coordinate number `ax`. -/
def put (ax k : Nat) (c : List Nat) : List Nat := c.take ax ++ k :: c.drop ax

end Spec

/-! ### Helper lemmas -/

theorem insertIdx_set_eq {ax i : Nat} {c : List Nat} (h : ax ≤ c.length) : (c.insertIdx ax 0).set ax i = put ax i c := by
  induction ax generalizing c with
  | zero => simp [put]
  | succ n ih =>
    cases c with
    | nil => simp at h
    | cons x xs => simp at h; simp [put, ih h]

theorem valid_put {ax i d : Nat} {shape c : List Nat} (hd : shape[ax]? = some d) :
    Valid shape (put ax i c) ∧ ax ≤ c.length ↔ Valid (shape.eraseIdx ax) c ∧ i < d := by
  induction shape generalizing ax c with
  | nil => simp at hd
  | cons e es ih =>
    cases ax with
    | zero => simp at hd; subst hd; simp [put, Valid, and_comm]
    | succ n =>
      simp only [List.getElem?_cons_succ] at hd
      cases c with
      | nil => simp [put, Valid, List.eraseIdx]
      | cons x xs =>
        have := ih (c := xs) hd
        simp only [put, List.take_succ_cons, List.drop_succ_cons, List.cons_append, Valid, List.eraseIdx_cons_succ,
          List.length_cons, Nat.add_le_add_iff_right] at this ⊢
        rw [and_assoc, and_assoc, this]

theorem valid_of_erase {ax i d : Nat} {shape c : List Nat} (hd : shape[ax]? = some d)
    (hv : Valid (shape.eraseIdx ax) c) (hi : i < d) : Valid shape (put ax i c) ∧ ax ≤ c.length :=
  (valid_put hd).2 ⟨hv, hi⟩

theorem erase_length_le {ax d : Nat} {shape c : List Nat} (hd : shape[ax]? = some d)
    (hv : Valid (shape.eraseIdx ax) c) : ax ≤ c.length := by
  have h1 := valid_length hv
  have h2 := (List.getElem?_eq_some_iff.1 hd).1
  rw [List.length_eraseIdx, if_pos h2] at h1
  omega

theorem at'_of_atOffset {g h : Heap T} {a : Nd} (he : ∀ o, atOffset g a o = atOffset h a o) (c : List Nat) :
    at' g a c = at' h a c := by
  unfold at'; cases getOffset a c <;> simp [he]

theorem unravel_of_allCoords {shape : List Nat} (hne : shape ≠ []) {i : Nat} {c : List Nat}
    (h : (allCoords shape)[i]? = some c) : unravelIndex i shape = .ok c := by
  have hv : Valid shape c := mem_allCoords.1 (List.mem_of_getElem? h)
  rw [C08_unravel_index shape hne (card_pos_iff.1 (card_pos_of_valid hv)), h]

/-- The loop over the output elements writes `F c (old value)` at every output coordinate. -/
theorem fillLoop_spec {out a : Nd} (hc : Compat 1 out.shape out.strides) (hne : out.shape ≠ []) (hcid : a.cid ≠ out.cid)
    {val : Heap T → List Nat → T → Res T} {F : List Nat → T → T} {h₀ : Heap T} {z : T}
    (hval : ∀ g c, (∀ o, atOffset g a o = atOffset h₀ a o) → Valid out.shape c → val g c z = .ok (F c z)) :
    ∀ (is : List Nat) (h : Heap T), is.Nodup → (∀ i ∈ is, i < card out.shape) → (∀ o, atOffset h a o = atOffset h₀ a o) →
      (∀ c, Valid out.shape c → (∃ x, at' h out c = .ok x) ∧
        ((∃ i ∈ is, (allCoords out.shape)[i]? = some c) → at' h out c = .ok z)) →
      (∃ d, h[out.cid]? = some d ∧ ∀ c, Valid out.shape c → out.offset + dot c out.strides < d.length) →
      ∃ h', fillLoop out val is h = .ok h' ∧ (∀ o, atOffset h' a o = atOffset h₀ a o) ∧
        ∀ c, Valid out.shape c → at' h' out c =
          if ∃ i ∈ is, (allCoords out.shape)[i]? = some c then .ok (F c z) else at' h out c := by
  intro is
  induction is with
  | nil => intro h _ _ ha _ _; exact ⟨h, rfl, ha, by simp⟩
  | cons i is ih =>
    intro h hnd hlt ha hz hlen
    obtain ⟨d, hd, hdl⟩ := hlen
    have hi : i < (allCoords out.shape).length := by rw [allCoords_length]; exact hlt i (by simp)
    obtain ⟨c, hcdef⟩ : ∃ c, (allCoords out.shape)[i]? = some c := ⟨_, List.getElem?_eq_getElem hi⟩
    have hv : Valid out.shape c := mem_allCoords.1 (List.mem_of_getElem? hcdef)
    have hzc : at' h out c = .ok z := (hz c hv).2 ⟨i, by simp, hcdef⟩
    have hset : ∃ h1, set' h out c (F c z) = .ok h1 := by
      rw [set', getOffset_valid hc.length_eq hv, Outcome.bind_ok, setOffset, hd]
      simp only; rw [if_pos (hdl c hv)]; exact ⟨_, rfl⟩
    obtain ⟨h1, hh1⟩ := hset
    have hat := (set_at ⟨1, by omega, hc⟩ hh1).2
    have ha1 : ∀ o, atOffset h1 a o = atOffset h₀ a o := fun o => by
      rw [set_atOffset_other hh1 hcid, ha]
    have hd1 : ∃ d, h1[out.cid]? = some d ∧ ∀ c, Valid out.shape c → out.offset + dot c out.strides < d.length := by
      rw [set', getOffset_valid hc.length_eq hv, Outcome.bind_ok, setOffset, hd] at hh1
      simp only at hh1; rw [if_pos (hdl c hv)] at hh1; cases hh1
      refine ⟨_, List.getElem?_set_self (List.getElem?_eq_some_iff.1 hd).1, fun c' hv' => ?_⟩
      rw [List.length_set]; exact hdl c' hv'
    have hnc : ∀ j ∈ is, (allCoords out.shape)[j]? ≠ some c := by
      intro j hj hjc
      have hij : i ≠ j := fun he => (List.nodup_cons.1 hnd).1 (he ▸ hj)
      have hjl := (List.getElem?_eq_some_iff.1 hjc).1
      have e1 := (List.getElem?_eq_some_iff.1 hjc).2
      have e2 := (List.getElem?_eq_some_iff.1 hcdef).2
      exact hij ((allCoords_nodup out.shape).getElem_inj_iff.1 (e2.trans e1.symm))
    obtain ⟨h', hf, hfa, hfr⟩ := ih h1 (List.nodup_cons.1 hnd).2 (fun j hj => hlt j (by simp [hj])) ha1
      (fun c' hv' => by
        rw [hat c']
        refine ⟨?_, ?_⟩
        · split
          · exact ⟨_, rfl⟩
          · exact (hz c' hv').1
        · rintro ⟨j, hj, hjc⟩
          have : c' ≠ c := fun he => hnc j hj (he ▸ hjc)
          rw [if_neg this]; exact (hz c' hv').2 ⟨j, by simp [hj], hjc⟩) hd1
    refine ⟨h', ?_, hfa, ?_⟩
    · rw [fillLoop, unravel_of_allCoords hne hcdef, Outcome.bind_ok, hzc, Outcome.bind_ok, hval h c ha hv,
        Outcome.bind_ok, hh1, Outcome.bind_ok, hf]
    · intro c' hv'
      rw [hfr c' hv', hat c']
      by_cases hcc : c' = c
      · subst hcc
        rw [if_neg (by rintro ⟨j, hj, hjc⟩; exact hnc j hj hjc), if_pos rfl, if_pos ⟨i, by simp, hcdef⟩]
      · by_cases hex : ∃ j ∈ is, (allCoords out.shape)[j]? = some c'
        · rw [if_pos hex, if_pos]
          obtain ⟨j, hj, hjc⟩ := hex; exact ⟨j, by simp [hj], hjc⟩
        · rw [if_neg hex, if_neg hcc, if_neg]
          rintro ⟨j, hj, hjc⟩
          rcases List.mem_cons.1 hj with rfl | hj
          · rw [hcdef] at hjc; exact hcc (Option.some.inj hjc).symm
          · exact hex ⟨j, hj, hjc⟩

theorem mkZero_props (zero : T) (h : Heap T) (shape : List Nat) (hs : card shape < 2 ^ 31) :
    (mkZero zero h shape).2.shape = shape ∧ (mkZero zero h shape).2.size = card shape ∧
    Compat 1 shape (mkZero zero h shape).2.strides ∧ (mkZero zero h shape).2.cid = h.length ∧
    (∀ c, Valid shape c → at' (mkZero zero h shape).1 (mkZero zero h shape).2 c = .ok zero) ∧
    (∃ d, (mkZero zero h shape).1[h.length]? = some d ∧ ∀ c, Valid shape c → dot c (mkZero zero h shape).2.strides < d.length) ∧
    (∀ a : Nd, a.cid < h.length → ∀ o, atOffset (mkZero zero h shape).1 a o = atOffset h a o) := by
  have hacc : accU32 shape = card shape := by rw [accU32_eq, Nat.mod_eq_of_lt (by omega)]
  have hc := updateStrides_compat shape
  refine ⟨rfl, by simp [mkZero, hacc], hc, rfl, ?_, ?_, ?_⟩
  · intro c hv
    obtain ⟨k, hk, he⟩ := dot_mem hc hv
    rw [at', getOffset_valid (updateStrides_length _) (by exact hv), Outcome.bind_ok]
    simp only [mkZero, atOffset, hacc, List.getElem?_append_right (le_refl _), Nat.sub_self, List.getElem?_cons_zero]
    rw [List.getElem?_replicate, if_pos (by omega)]
  · refine ⟨List.replicate (accU32 shape) zero, by simp [mkZero], fun c hv => ?_⟩
    obtain ⟨k, hk, he⟩ := dot_mem hc hv
    simp only [mkZero, List.length_replicate, hacc]; omega
  · intro a ha o
    unfold atOffset mkZero
    rw [List.getElem?_append_left ha]

theorem sumLoop_spec [Add T] {g h : Heap T} {a : Nd} (f : List Nat → T) {ax : Nat} {c : List Nat}
    (hax : ax ≤ c.length) (is : List Nat) (acc : T) (hg : ∀ o, atOffset g a o = atOffset h a o)
    (hread : ∀ i ∈ is, at' h a (put ax i c) = .ok (f (put ax i c))) :
    sumLoop g a (c.insertIdx ax 0) ax is acc = .ok (is.foldl (fun s i => s + f (put ax i c)) acc) := by
  induction is generalizing acc with
  | nil => rfl
  | cons i is ih =>
    rw [sumLoop, insertIdx_set_eq hax, at'_of_atOffset hg, hread i (by simp), Outcome.bind_ok,
      ih _ (fun j hj => hread j (by simp [hj]))]
    rfl

/-! ### C62 -/

/-- `sum(array, axis)` for any addition. -/
theorem sumAxis_fold [Add T] [Zero T] (h : Heap T) (a : Nd) (f : List Nat → T) (hcid : a.cid < h.length)
    (hread : ∀ c, Valid a.shape c → at' h a c = .ok (f c)) (hrank : 2 ≤ a.shape.length) (axis : Int) (ax : Nat) (n : Nat)
    (hax : (axis = ax ∨ axis = (ax : Int) - a.shape.length) ∧ a.shape[ax]? = some n)
    (hsmall : card (a.shape.eraseIdx ax) < 2 ^ 31) :
    ∃ h' out, sumAxis h a axis = .ok (h', out) ∧ out.shape = a.shape.eraseIdx ax ∧
      (∀ c, Valid out.shape c → at' h' out c = .ok ((List.range n).foldl (fun s k => s + f (put ax k c)) 0)) ∧
      ∀ c, at' h' a c = at' h a c := by
  obtain ⟨haxis, hn⟩ := hax
  have hlt := (List.getElem?_eq_some_iff.1 hn).1
  have hnorm : normAxis a.shape.length axis = .ok ax := by
    unfold normAxis
    simp only
    split
    · rcases haxis with h1 | h1 <;> rw [if_neg (by omega)] <;> congr 1 <;> omega
    · rcases haxis with h1 | h1 <;> rw [if_neg (by omega)] <;> congr 1 <;> omega
  obtain ⟨p1, p2, p3, p4, p5, p6, p7⟩ := mkZero_props (0 : T) h (a.shape.eraseIdx ax) hsmall
  have hne : a.shape.eraseIdx ax ≠ [] := by
    intro he
    have := congrArg List.length he
    rw [List.length_eraseIdx, if_pos hlt] at this
    simp at this; omega
  have hgd : a.shape.getD ax 0 = n := by rw [List.getD_eq_getElem?_getD, hn]; rfl
  obtain ⟨h', hf, hfa, hfr⟩ := fillLoop_spec (out := (mkZero (0 : T) h (a.shape.eraseIdx ax)).2) (a := a)
    (val := fun g c v0 => sumLoop g a (c.insertIdx ax 0) ax (List.range (a.shape.getD ax 0)) v0)
    (F := fun c z => (List.range n).foldl (fun s i => s + f (put ax i c)) z) (h₀ := h) (z := 0)
    (by rw [p1]; exact p3) (by rw [p1]; exact hne) (by rw [p4]; omega)
    (by
      intro g c hg hv
      rw [p1] at hv
      rw [hgd]
      refine sumLoop_spec f (erase_length_le hn hv) _ _ hg ?_
      intro i hi
      exact hread _ (valid_of_erase hn hv (List.mem_range.1 hi)).1)
    (List.range (mkZero (0 : T) h (a.shape.eraseIdx ax)).2.size) (mkZero (0 : T) h (a.shape.eraseIdx ax)).1
    List.nodup_range (by intro i hi; rw [p1, ← p2]; exact List.mem_range.1 hi) (p7 a hcid)
    (by intro c hv; rw [p1] at hv; exact ⟨⟨_, p5 c hv⟩, fun _ => p5 c hv⟩)
    (by
      obtain ⟨d, hd, hdl⟩ := p6
      refine ⟨d, by rw [p4]; exact hd, fun c hv => ?_⟩
      rw [p1] at hv
      have := hdl c hv
      simpa [mkZero] using this)
  refine ⟨h', _, ?_, p1, ?_, fun c => at'_of_atOffset hfa c⟩
  · rw [sumAxis, hnorm, Outcome.bind_ok, if_neg (by omega)]
    simp only [hf, Outcome.bind_ok]
    rfl
  · intro c hv
    have hv0 := hv
    rw [p1] at hv
    obtain ⟨i, hi, he⟩ := List.mem_iff_getElem.1 (mem_allCoords.2 hv)
    rw [hfr c hv0, if_pos]
    refine ⟨i, ?_, ?_⟩
    · rw [List.mem_range, p2, ← allCoords_length]; exact hi
    · rw [p1, List.getElem?_eq_getElem hi, he]

/-- **C62.** `sum(array, axis)` of an array or slice of rank ≥ 2 whose elements are `f` has the shape without that axis, and its
element at `c` is the sum of the elements obtained by inserting all values of that axis; negative axes count from the end;
axes out of range throw. -/
theorem C62_sum_axis [AddMonoid T] (h : Heap T) (a : Nd) (f : List Nat → T) (hcid : a.cid < h.length)
    (hread : ∀ c, Valid a.shape c → at' h a c = .ok (f c)) (hrank : 2 ≤ a.shape.length) (axis : Int) (ax : Nat) (n : Nat)
    (hax : (axis = ax ∨ axis = (ax : Int) - a.shape.length) ∧ a.shape[ax]? = some n)
    (hsmall : card (a.shape.eraseIdx ax) < 2 ^ 31) :
    ∃ h' out, sumAxis h a axis = .ok (h', out) ∧ out.shape = a.shape.eraseIdx ax ∧
      (∀ c, Valid out.shape c → at' h' out c = .ok (((List.range n).map fun k => f (put ax k c)).sum)) ∧
      ∀ c, at' h' a c = at' h a c := by
  obtain ⟨h', out, h1, h2, h3, h4⟩ := sumAxis_fold h a f hcid hread hrank axis ax n hax hsmall
  exact ⟨h', out, h1, h2, fun c hv => by rw [h3 c hv, List.sum_eq_foldl, List.foldl_map], h4⟩

/-- **C62 (axis out of range).** -/
theorem C62_sum_axis_out_of_range [Add T] [Zero T] (h : Heap T) (a : Nd) (axis : Int)
    (hax : axis < -(a.shape.length : Int) ∨ (a.shape.length : Int) ≤ axis) : sumAxis h a axis = .throw .outOfRange := by
  have : normAxis a.shape.length axis = .throw .outOfRange := by
    unfold normAxis; simp only
    split <;> rw [if_pos (by omega)]
  rw [sumAxis, this]; rfl

/-- **C62 (rank one, and the total).** The sum over the only axis, and `sum(array)`, is the sum of the elements. -/
theorem C62_sum_all [AddMonoid T] (h : Heap T) (a : Nd) (l : List T) (hi : iterate h a = .ok l) :
    sumAll h a = .ok l.sum := by
  rw [sumAll, hi, Outcome.bind_ok, List.sum_eq_foldl]; rfl

/-- **C62 (rank one).** Summing a one-dimensional array over its axis gives an array of one element, the total. -/
theorem C62_sum_axis_rank_one [AddMonoid T] (h : Heap T) (a : Nd) (l : List T) (hcid : a.cid < h.length)
    (hi : iterate h a = .ok l) (hrank : a.shape.length = 1) (axis : Int) (hax : axis = 0 ∨ axis = -1) :
    ∃ h' out, sumAxis h a axis = .ok (h', out) ∧ out.shape = [1] ∧ at' h' out [0] = .ok l.sum := by
  have hnorm : normAxis a.shape.length axis = .ok 0 := by
    rw [hrank]; rcases hax with rfl | rfl <;> rfl
  obtain ⟨p1, p2, p3, p4, p5, p6, p7⟩ := mkZero_props (0 : T) h [1] (by decide)
  have hi' : iterate (mkZero (0 : T) h [1]).1 a = .ok l := by rw [iterate_congr (p7 a hcid)]; exact hi
  have hv : Valid [1] [0] := by decide
  obtain ⟨d, hd, hdl⟩ := p6
  have hset : ∃ h1, set' (mkZero (0 : T) h [1]).1 (mkZero (0 : T) h [1]).2 [0] l.sum = .ok h1 := by
    rw [set', getOffset_valid (by rw [p1]; exact p3.length_eq) (by rw [p1]; exact hv), Outcome.bind_ok, setOffset, p4, hd]
    simp only
    rw [if_pos (by have := hdl _ hv; simpa [mkZero] using this)]
    exact ⟨_, rfl⟩
  obtain ⟨h1, hh1⟩ := hset
  refine ⟨h1, _, ?_, p1, ?_⟩
  · rw [sumAxis, hnorm, Outcome.bind_ok, if_pos hrank]
    simp only [C62_sum_all _ _ _ hi', Outcome.bind_ok, hh1]
    rfl
  · rw [(set_at ⟨1, by omega, by rw [p1]; exact p3⟩ hh1).2, if_pos rfl]

example : ∃ h a h' out, mkData ([] : Heap Nat) [2, 3] [1, 2, 3, 4, 5, 6] = .ok (h, a) ∧ sumAxis h a (-1) = .ok (h', out) ∧
    iterate h' out = .ok [6, 15] := ⟨_, _, _, _, rfl, rfl, by decide⟩

/-- The element function required by C62 exists for every constructed array, e.g. this one. -/
example : ∃ h a, mkData ([] : Heap Nat) [2, 3] [1, 2, 3, 4, 5, 6] = .ok (h, a) ∧ a.cid < h.length ∧ 2 ≤ a.shape.length ∧
    (∀ c, Valid a.shape c → at' h a c = .ok (c.getD 0 0 * 3 + c.getD 1 0 + 1)) := by
  refine ⟨_, _, rfl, by decide, by decide, ?_⟩
  intro c hv
  have hm : c ∈ allCoords [2, 3] := mem_allCoords.2 hv
  clear hv
  revert c; decide

/-! ### C63 -/

/-- `k` is the position of the first largest element of `l`. -/
def Spec.IsFirstMax [LinearOrder T] (l : List T) (k : Nat) : Prop :=
  ∃ b, l[k]? = some b ∧ (∀ x ∈ l, x ≤ b) ∧ ∀ j, j < k → ∀ y, l[j]? = some y → y < b

theorem maxElementPos_spec [LinearOrder T] (xs : List T) : ∀ (pre : List T) (best : Nat) (b : T),
    pre[best]? = some b → (∀ x ∈ pre, x ≤ b) → (∀ j, j < best → ∀ y, pre[j]? = some y → y < b) →
    IsFirstMax (pre ++ xs) (maxElementPos xs pre.length best (some b)) := by
  induction xs with
  | nil =>
    intro pre best b hbe hmax hfirst
    simp only [maxElementPos, List.append_nil]
    exact ⟨b, hbe, hmax, hfirst⟩
  | cons x xs ih =>
    intro pre best b hbe hmax hfirst
    have hb := (List.getElem?_eq_some_iff.1 hbe).1
    have happ : pre ++ x :: xs = (pre ++ [x]) ++ xs := by simp
    have hlen : pre.length + 1 = (pre ++ [x]).length := by simp
    unfold maxElementPos
    rw [happ, hlen]
    split
    · rename_i hlt
      refine ih (pre ++ [x]) pre.length x (by simp) ?_ ?_
      · intro y hy
        rcases List.mem_append.1 hy with hy | hy
        · exact le_trans (hmax y hy) (le_of_lt hlt)
        · simp at hy; exact le_of_eq hy
      · intro j hj y hy
        rw [List.getElem?_append_left hj] at hy
        exact lt_of_le_of_lt (hmax _ (List.mem_of_getElem? hy)) hlt
    · rename_i hge
      refine ih (pre ++ [x]) best b (by rw [List.getElem?_append_left hb]; exact hbe) ?_ ?_
      · intro y hy
        rcases List.mem_append.1 hy with hy | hy
        · exact hmax y hy
        · simp at hy; rw [hy]; exact not_lt.1 hge
      · intro j hj y hy
        rw [List.getElem?_append_left (by omega)] at hy
        exact hfirst j hj y hy

/-- `k` is the position of the first smallest element of `l`. -/
def Spec.IsFirstMin [LinearOrder T] (l : List T) (k : Nat) : Prop :=
  ∃ b, l[k]? = some b ∧ (∀ x ∈ l, b ≤ x) ∧ ∀ j, j < k → ∀ y, l[j]? = some y → b < y

theorem minElementPos_spec [LinearOrder T] (xs : List T) : ∀ (pre : List T) (best : Nat) (b : T),
    pre[best]? = some b → (∀ x ∈ pre, b ≤ x) → (∀ j, j < best → ∀ y, pre[j]? = some y → b < y) →
    IsFirstMin (pre ++ xs) (minElementPos xs pre.length best (some b)) := by
  induction xs with
  | nil =>
    intro pre best b hbe hmax hfirst
    simp only [minElementPos, List.append_nil]
    exact ⟨b, hbe, hmax, hfirst⟩
  | cons x xs ih =>
    intro pre best b hbe hmax hfirst
    have hb := (List.getElem?_eq_some_iff.1 hbe).1
    have happ : pre ++ x :: xs = (pre ++ [x]) ++ xs := by simp
    have hlen : pre.length + 1 = (pre ++ [x]).length := by simp
    unfold minElementPos
    rw [happ, hlen]
    split
    · rename_i hlt
      refine ih (pre ++ [x]) pre.length x (by simp) ?_ ?_
      · intro y hy
        rcases List.mem_append.1 hy with hy | hy
        · exact le_trans (le_of_lt hlt) (hmax y hy)
        · simp at hy; exact le_of_eq hy.symm
      · intro j hj y hy
        rw [List.getElem?_append_left hj] at hy
        exact lt_of_lt_of_le hlt (hmax _ (List.mem_of_getElem? hy))
    · rename_i hge
      refine ih (pre ++ [x]) best b (by rw [List.getElem?_append_left hb]; exact hbe) ?_ ?_
      · intro y hy
        rcases List.mem_append.1 hy with hy | hy
        · exact hmax y hy
        · simp at hy; rw [hy]; exact not_lt.1 hge
      · intro j hj y hy
        rw [List.getElem?_append_left (by omega)] at hy
        exact hfirst j hj y hy

/-- **C63 (argmax).** For every well-formed array or slice with at least one element `argmax` returns coordinates of a largest
element, the first one in row-major order. -/
theorem C63_argmax [LinearOrder T] (h : Heap T) (a : Nd) (hw : WF a) (l : List T) (hi : iterate h a = .ok l)
    (hne : l ≠ []) :
    ∃ k c, IsFirstMax l k ∧ (allCoords a.shape)[k]? = some c ∧ argmax h a = .ok c ∧ at' h a c = .ok (l.getD k (l.head hne)) := by
  obtain ⟨u, hu, hc⟩ := hw.compat
  obtain ⟨hl, -⟩ := iterate_ok_spec (hc.getLast hw.rank) hi
  have hat := hi
  rw [iterate_eq hw] at hat
  have hat := collect_eq_ok hat
  cases l with
  | nil => exact absurd rfl hne
  | cons x xs =>
    have h1 := maxElementPos_spec xs [x] 0 x (by simp) (by simp) (by simp)
    simp only [List.length_singleton, List.singleton_append] at h1
    have hk : maxElementPos xs 1 0 (some x) < (x :: xs).length := by
      obtain ⟨b, hb, _⟩ := h1; exact (List.getElem?_eq_some_iff.1 hb).1
    have hk' : maxElementPos xs 1 0 (some x) < (allCoords a.shape).length := by
      rw [allCoords_length, ← hw.size, ← hl]; exact hk
    refine ⟨_, _, h1, List.getElem?_eq_getElem hk', ?_, ?_⟩
    · rw [argmax, hi, Outcome.bind_ok]
      exact unravel_of_allCoords hw.rank (List.getElem?_eq_getElem hk')
    · have := congrArg (·[maxElementPos xs 1 0 (some x)]?) hat
      simp only [List.getElem?_map, List.getElem?_eq_getElem hk', List.getElem?_eq_getElem hk, Option.map_some,
        Option.some.injEq] at this
      rw [this, List.getD_eq_getElem _ _ hk]

/-- **C63 (argmin).** For every well-formed array or slice with at least one element `argmin` returns coordinates of a smallest
element, the first one in row-major order. -/
theorem C63_argmin [LinearOrder T] (h : Heap T) (a : Nd) (hw : WF a) (l : List T) (hi : iterate h a = .ok l)
    (hne : l ≠ []) :
    ∃ k c, IsFirstMin l k ∧ (allCoords a.shape)[k]? = some c ∧ argmin h a = .ok c ∧ at' h a c = .ok (l.getD k (l.head hne)) := by
  obtain ⟨u, hu, hc⟩ := hw.compat
  obtain ⟨hl, -⟩ := iterate_ok_spec (hc.getLast hw.rank) hi
  have hat := hi
  rw [iterate_eq hw] at hat
  have hat := collect_eq_ok hat
  cases l with
  | nil => exact absurd rfl hne
  | cons x xs =>
    have h1 := minElementPos_spec xs [x] 0 x (by simp) (by simp) (by simp)
    simp only [List.length_singleton, List.singleton_append] at h1
    have hk : minElementPos xs 1 0 (some x) < (x :: xs).length := by
      obtain ⟨b, hb, _⟩ := h1; exact (List.getElem?_eq_some_iff.1 hb).1
    have hk' : minElementPos xs 1 0 (some x) < (allCoords a.shape).length := by
      rw [allCoords_length, ← hw.size, ← hl]; exact hk
    refine ⟨_, _, h1, List.getElem?_eq_getElem hk', ?_, ?_⟩
    · rw [argmin, hi, Outcome.bind_ok]
      exact unravel_of_allCoords hw.rank (List.getElem?_eq_getElem hk')
    · have := congrArg (·[minElementPos xs 1 0 (some x)]?) hat
      simp only [List.getElem?_map, List.getElem?_eq_getElem hk', List.getElem?_eq_getElem hk, Option.map_some,
        Option.some.injEq] at this
      rw [this, List.getD_eq_getElem _ _ hk]

example : ∃ h a, mkData ([] : Heap Nat) [2, 3] [1, 7, 3, 7, 0, 0] = .ok (h, a) ∧ argmax h a = .ok [0, 1] ∧
    argmin h a = .ok [1, 1] := ⟨_, _, rfl, by decide, by decide⟩

/-! ### C64 -/

theorem trapzLoop_spec {K : Type} [Add K] [Sub K] [Mul K] [Div K] [OfNat K 2] [Zero K] {g h : Heap K} {a : Nd} (f : List Nat → K) (knots : List K) (coords : Nat → List Nat)
    {base : List Nat} {ax : Nat} (hbase : ∀ i, base.set ax i = coords i) (hg : ∀ o, atOffset g a o = atOffset h a o)
    (hread : ∀ i, i < knots.length → at' h a (coords i) = .ok (f (coords i))) :
    ∀ (m s : Nat) (acc : K), 1 ≤ s → s + m = knots.length →
      trapzLoop g a knots base ax (List.range' s m) acc =
        .ok ((List.range' s m).foldl (fun acc i =>
          acc + (f (coords (i - 1)) + f (coords i)) * (knots.getD i 0 - knots.getD (i - 1) 0) / 2) acc) := by
  intro m
  induction m with
  | zero => intro s acc _ _; rfl
  | succ m ih =>
    intro s acc hs hm
    rw [List.range'_succ, trapzLoop]
    rw [List.getElem?_eq_getElem (by omega : s < knots.length), List.getElem?_eq_getElem (by omega : s - 1 < knots.length)]
    simp only
    rw [hbase, at'_of_atOffset hg, hread s (by omega), Outcome.bind_ok, hbase, at'_of_atOffset hg,
      hread (s - 1) (by omega), Outcome.bind_ok, ih (s + 1) _ (by omega) (by omega)]
    simp only [List.foldl_cons, List.getD_eq_getElem _ _ (by omega : s < knots.length),
      List.getD_eq_getElem _ _ (by omega : s - 1 < knots.length)]

theorem foldl_range'_sum {K : Type} [AddMonoid K] (g : Nat → K) (n : Nat) :
    (List.range' 1 n).foldl (fun acc i => acc + g i) 0 = ((List.range n).map fun i => g (i + 1)).sum := by
  rw [List.range'_eq_map_range, List.foldl_map, List.sum_eq_foldl, List.foldl_map]
  simp only [Nat.add_comm 1]

/-- `trapz(array, kbegin, kend, axis)` for any arithmetic. -/
theorem trapz_fold {K : Type} [Add K] [Sub K] [Mul K] [Div K] [OfNat K 2] [Zero K] (h : Heap K) (a : Nd) (f : List Nat → K) (knots : List K) (hcid : a.cid < h.length)
    (hread : ∀ c, Valid a.shape c → at' h a c = .ok (f c)) (hrank : 2 ≤ a.shape.length) (axis : Int) (ax : Nat) (n : Nat)
    (hax : (axis = ax ∨ axis = (ax : Int) - a.shape.length) ∧ a.shape[ax]? = some n) (hpos : 0 < n)
    (hsmall : card (a.shape.eraseIdx ax) < 2 ^ 31) :
    (knots.length ≠ n → trapz h a knots axis = .throw .lengthError) ∧
    (knots.length = n → ∃ h' out, trapz h a knots axis = .ok (h', out) ∧ out.shape = a.shape.eraseIdx ax ∧
      ∀ c, Valid out.shape c → at' h' out c = .ok ((List.range' 1 (n - 1)).foldl (fun acc i =>
        acc + (f (put ax (i - 1) c) + f (put ax i c)) * (knots.getD i 0 - knots.getD (i - 1) 0) / 2) 0)) := by
  obtain ⟨haxis, hn⟩ := hax
  have hlt := (List.getElem?_eq_some_iff.1 hn).1
  have hnorm : normAxis a.shape.length axis = .ok ax := by
    unfold normAxis
    simp only
    split
    · rcases haxis with h1 | h1 <;> rw [if_neg (by omega)] <;> congr 1 <;> omega
    · rcases haxis with h1 | h1 <;> rw [if_neg (by omega)] <;> congr 1 <;> omega
  have hgd : a.shape.getD ax 0 = n := by rw [List.getD_eq_getElem?_getD, hn]; rfl
  constructor
  · intro hk
    rw [trapz, hnorm, Outcome.bind_ok]
    simp only [hgd]
    rw [if_pos hk]
  · intro hk
    obtain ⟨p1, p2, p3, p4, p5, p6, p7⟩ := mkZero_props (0 : K) h (a.shape.eraseIdx ax) hsmall
    have hne : a.shape.eraseIdx ax ≠ [] := by
      intro he
      have := congrArg List.length he
      rw [List.length_eraseIdx, if_pos hlt] at this
      simp at this; omega
    have hr1 : ¬ a.shape.length = 1 := by omega
    obtain ⟨h', hf, hfa, hfr⟩ := fillLoop_spec (out := (mkZero (0 : K) h (a.shape.eraseIdx ax)).2) (a := a)
      (val := fun g c v0 => trapzLoop g a knots (c.insertIdx ax 0) ax (List.range' 1 (n - 1)) v0)
      (F := fun c z => (List.range' 1 (n - 1)).foldl (fun acc i =>
          acc + (f (put ax (i - 1) c) + f (put ax i c)) * (knots.getD i 0 - knots.getD (i - 1) 0) / 2) z) (h₀ := h) (z := 0)
      (by rw [p1]; exact p3) (by rw [p1]; exact hne) (by rw [p4]; omega)
      (by
        intro g c hg hv
        rw [p1] at hv
        refine trapzLoop_spec f knots (fun i => put ax i c) (fun i => insertIdx_set_eq (erase_length_le hn hv)) hg ?_
          (n - 1) 1 0 (le_refl _) (by omega)
        intro i hi
        exact hread _ (valid_of_erase hn hv (by omega)).1)
      (List.range (mkZero (0 : K) h (a.shape.eraseIdx ax)).2.size) (mkZero (0 : K) h (a.shape.eraseIdx ax)).1
      List.nodup_range (by intro i hi; rw [p1, ← p2]; exact List.mem_range.1 hi) (p7 a hcid)
      (by intro c hv; rw [p1] at hv; exact ⟨⟨_, p5 c hv⟩, fun _ => p5 c hv⟩)
      (by
        obtain ⟨d, hd, hdl⟩ := p6
        refine ⟨d, by rw [p4]; exact hd, fun c hv => ?_⟩
        rw [p1] at hv
        have := hdl c hv
        simpa [mkZero] using this)
    refine ⟨h', _, ?_, p1, ?_⟩
    · rw [trapz, hnorm, Outcome.bind_ok]
      simp only [hgd, if_neg hr1]
      rw [if_neg (by simpa using hk), hf]; rfl
    · intro c hv
      have hv0 := hv
      rw [p1] at hv
      obtain ⟨i, hi, he⟩ := List.mem_iff_getElem.1 (mem_allCoords.2 hv)
      rw [hfr c hv0, if_pos]
      refine ⟨i, ?_, ?_⟩
      · rw [List.mem_range, p2, ← allCoords_length]; exact hi
      · rw [p1, List.getElem?_eq_getElem hi, he]

/-- **C64.** `trapz` along an axis gives at every remaining coordinate the sum of the trapezoid areas between consecutive knots
(exact arithmetic), for every array or slice of rank ≥ 2; a wrong number of knots throws. -/
theorem C64_trapz {K : Type} [Field K] (h : Heap K) (a : Nd) (f : List Nat → K) (knots : List K) (hcid : a.cid < h.length)
    (hread : ∀ c, Valid a.shape c → at' h a c = .ok (f c)) (hrank : 2 ≤ a.shape.length) (axis : Int) (ax : Nat) (n : Nat)
    (hax : (axis = ax ∨ axis = (ax : Int) - a.shape.length) ∧ a.shape[ax]? = some n) (hpos : 0 < n)
    (hsmall : card (a.shape.eraseIdx ax) < 2 ^ 31) :
    (knots.length ≠ n → trapz h a knots axis = .throw .lengthError) ∧
    (knots.length = n → ∃ h' out, trapz h a knots axis = .ok (h', out) ∧ out.shape = a.shape.eraseIdx ax ∧
      ∀ c, Valid out.shape c → at' h' out c = .ok (((List.range (n - 1)).map fun i =>
        (f (put ax i c) + f (put ax (i + 1) c)) * (knots.getD (i + 1) 0 - knots.getD i 0) / 2).sum)) := by
  obtain ⟨h1, h2⟩ := trapz_fold h a f knots hcid hread hrank axis ax n hax hpos hsmall
  refine ⟨h1, fun hk => ?_⟩
  obtain ⟨h', out, h3, h4, h5⟩ := h2 hk
  refine ⟨h', out, h3, h4, fun c hv => ?_⟩
  rw [h5 c hv, foldl_range'_sum (fun i => (f (put ax (i - 1) c) + f (put ax i c)) * (knots.getD i 0 - knots.getD (i - 1) 0) / 2)]
  simp only [Nat.add_sub_cancel]

/-- **C64 (rank one).** -/
theorem C64_trapz_rank_one {K : Type} [Field K] (h : Heap K) (a : Nd) (f : List Nat → K) (knots : List K)
    (hcid : a.cid < h.length) (n : Nat) (hshape : a.shape = [n]) (hread : ∀ i, i < n → at' h a [i] = .ok (f [i]))
    (hpos : 0 < n) (axis : Int) (hax : axis = 0 ∨ axis = -1) (hk : knots.length = n) :
    ∃ h' out, trapz h a knots axis = .ok (h', out) ∧ out.shape = [1] ∧
      at' h' out [0] = .ok (((List.range (n - 1)).map fun i =>
        (f [i] + f [i + 1]) * (knots.getD (i + 1) 0 - knots.getD i 0) / 2).sum) := by
  have hnorm : normAxis a.shape.length axis = .ok 0 := by
    rw [hshape]; rcases hax with rfl | rfl <;> rfl
  obtain ⟨p1, p2, p3, p4, p5, p6, p7⟩ := mkZero_props (0 : K) h [1] (by decide)
  obtain ⟨h', hf, hfa, hfr⟩ := fillLoop_spec (out := (mkZero (0 : K) h [1]).2) (a := a)
    (val := fun g c v0 => trapzLoop g a knots c 0 (List.range' 1 (n - 1)) v0)
    (F := fun c z => (List.range' 1 (n - 1)).foldl (fun acc i =>
        acc + (f [i - 1] + f [i]) * (knots.getD i 0 - knots.getD (i - 1) 0) / 2) z) (h₀ := h) (z := 0)
    (by rw [p1]; exact p3) (by rw [p1]; simp) (by rw [p4]; omega)
    (by
      intro g c hg hv
      rw [p1] at hv
      have hc : c = [0] := by
        have : c ∈ allCoords [1] := mem_allCoords.2 hv
        simpa [allCoords] using this
      subst hc
      exact trapzLoop_spec f knots (fun i => [i]) (fun i => rfl) hg (fun i hi => hread i (by omega))
        (n - 1) 1 0 (le_refl _) (by omega))
    (List.range (mkZero (0 : K) h [1]).2.size) (mkZero (0 : K) h [1]).1
    List.nodup_range (by intro i hi; rw [p1, ← p2]; exact List.mem_range.1 hi) (p7 a hcid)
    (by intro c hv; rw [p1] at hv; exact ⟨⟨_, p5 c hv⟩, fun _ => p5 c hv⟩)
    (by
      obtain ⟨d, hd, hdl⟩ := p6
      refine ⟨d, by rw [p4]; exact hd, fun c hv => ?_⟩
      rw [p1] at hv
      have := hdl c hv
      simpa [mkZero] using this)
  refine ⟨h', _, ?_, p1, ?_⟩
  · rw [trapz, hnorm, Outcome.bind_ok]
    simp only [hshape, List.getD_cons_zero, hk]
    rw [if_neg (by simp)]
    simp only [List.length_singleton, if_true]
    rw [hf]; rfl
  · rw [hfr [0] (by rw [p1]; decide), if_pos ⟨0, by rw [p2]; decide, by rw [p1]; rfl⟩]
    rw [foldl_range'_sum (fun i => (f [i - 1] + f [i]) * (knots.getD i 0 - knots.getD (i - 1) 0) / 2)]
    simp only [Nat.add_sub_cancel]

example : ∃ h a h' out, mkData ([] : Heap Rat) [2, 2] [1, 2, 3, 5] = .ok (h, a) ∧ trapz h a [0, 2] 1 = .ok (h', out) ∧
    at' h' out [1] = .ok 8 := by
  refine ⟨_, _, _, _, rfl, rfl, ?_⟩
  decide +kernel

end Alexandria.NdArray
