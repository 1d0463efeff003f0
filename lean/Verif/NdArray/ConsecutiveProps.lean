import Verif.NdArray.ExactProps

/-!
# C05 and C07: exactly which slices can be reshaped and copied
-/

namespace Alexandria.NdArray

open Spec

variable {T : Type}

/-- The sizes of the axes that a chain of slices fixes from the right. -/
def Spec.rightSizes : List Nat → List Step → List Nat
  | _, [] => []
  | shape, .left _ :: ss => Spec.rightSizes shape.tail ss
  | shape, .right _ :: ss => shape.getLastD 1 :: Spec.rightSizes shape.dropLast ss

/-- The value at which an axis is fixed. -/
def Spec.fixedAt : Step → Nat
  | .left i => i
  | .right i => i

theorem nodup_index {l : List T} (hd : l.Nodup) {i j : Nat} (hi : i < l.length) (h : l[i]? = l[j]?) : i = j := by
  have hj : j < l.length := by
    by_contra hge
    rw [List.getElem?_eq_getElem hi, List.getElem?_eq_none (by omega)] at h
    cases h
  rw [List.getElem?_eq_getElem hi, List.getElem?_eq_getElem hj, Option.some.injEq] at h
  exact (List.Nodup.getElem_inj_iff hd).mp h

theorem card_eq_one : ∀ l : List Nat, card l = 1 ↔ ∀ d ∈ l, d = 1
  | [] => by simp [card]
  | a :: l => by
    rw [List.forall_mem_cons, ← card_eq_one l, card]
    exact ⟨fun e => ⟨Nat.eq_one_of_mul_eq_one_right e, Nat.eq_one_of_mul_eq_one_left e⟩, fun e => by rw [e.1, e.2]⟩

theorem slices_pitch {u : Nat} (hu : 0 < u) : ∀ (sts : List Step) (a b : Nd), Compat u a.shape a.strides → slices a sts = .ok b → 0 < card b.shape →
    Compat (u * card (Spec.rightSizes a.shape sts)) b.shape b.strides ∧ 0 < card a.shape ∧ a.offset ≤ b.offset ∧
      (b.offset = a.offset ↔ ∀ st ∈ sts, Spec.fixedAt st = 0) := by
  intro sts
  induction sts generalizing u with
  | nil =>
    intro a b hc h hp
    cases h
    exact ⟨by simpa [Spec.rightSizes, card] using hc, hp, le_refl _, by simp⟩
  | cons st sts ih =>
    intro a b hc h hp
    rw [slices] at h
    cases hst : st.apply a with
    | ok a' =>
      rw [hst, Outcome.bind_ok] at h
      cases st with
      | left i =>
        obtain ⟨d, d', ds, s, ss, h1, h2, hi, rfl⟩ := slice_spec hst
        rw [h1, h2] at hc
        obtain ⟨g1, g2, g3, g4⟩ := ih hu _ b (by simpa using hc.2) h hp
        simp only at g1 g2 g3 g4
        have hs : 0 < s := by rw [hc.1]; exact Nat.mul_pos hu g2
        refine ⟨by rw [h1]; simpa [Spec.rightSizes] using g1, by rw [h1, card]; exact Nat.mul_pos (by omega) g2, by omega, ?_⟩
        rw [List.forall_mem_cons, ← g4]
        show _ ↔ i = 0 ∧ _
        constructor
        · intro e
          have z : i * s = 0 := by omega
          rcases Nat.mul_eq_zero.mp z with z | z
          · subst z; exact ⟨rfl, by omega⟩
          · omega
        · rintro ⟨rfl, e⟩; omega
      | right i =>
        obtain ⟨ds, d, ss, s, hne, h1, h2, hi, rfl⟩ := rslice_spec hst
        rw [h1, h2] at hc
        obtain ⟨e1, e2⟩ := hc.append_last
        subst e1
        have hd : 0 < d := by omega
        obtain ⟨g1, g2, g3, g4⟩ := ih (Nat.mul_pos hu hd) _ b (by simpa using e2) h hp
        simp only at g1 g2 g3 g4
        refine ⟨by rw [h1]; simpa [Spec.rightSizes, card, Nat.mul_assoc] using g1, by rw [h1, card_append]; exact Nat.mul_pos g2 (by simpa [card] using hd), by omega, ?_⟩
        rw [List.forall_mem_cons, ← g4]
        show _ ↔ i = 0 ∧ _
        constructor
        · intro e
          have z : i * s = 0 := by omega
          rcases Nat.mul_eq_zero.mp z with z | z
          · subst z; exact ⟨rfl, by omega⟩
          · omega
        · rintro ⟨rfl, e⟩; omega
    | throw e => rw [hst] at h; cases h
    | ub => rw [hst] at h; cases h

/-- The elements of a chain of slices of a whole array. -/
theorem slices_elements {h h' : Heap T} {shape : List Nat} {data : List T} {a b : Nd} {sts : List Step} (hm : mkData h shape data = .ok (h', a)) (hsmall : card shape < 2 ^ 31) (hne : shape ≠ [])
    (hb : slices a sts = .ok b) (hpos : 0 < card b.shape) :
    ∃ l, iterate h' b = .ok l ∧ l.length = card b.shape ∧ ∀ j, j < card b.shape → l[j]? = data[b.offset + j * card (Spec.rightSizes shape sts)]? ∧
      b.offset + j * card (Spec.rightSizes shape sts) < data.length := by
  obtain ⟨l, h1, h2, h3, _⟩ := C04_iteration_row_major h h' shape data a b hm hsmall hne sts hb
  have hwb := slices_wf (mkData_wf hm hsmall hne) hb
  obtain ⟨hl, rfl, rfl⟩ := mkData_spec hm
  have hcid := (slices_getOffset (updateStrides_compat shape).length_eq hb []).2.1
  have hc := (slices_pitch (u := 1) (by omega) sts _ b (updateStrides_compat shape) hb hpos).1
  rw [Nat.one_mul] at hc
  refine ⟨l, h1, by rw [h2, h3], fun j hj => ?_⟩
  have := (iterate_ok_spec (hc.getLast hwb.rank) h1).2 j (by omega)
  unfold atOffset at this
  rw [hcid] at this
  simp only [List.getElem?_append_right (le_refl _), Nat.sub_self, List.getElem?_cons_zero] at this
  cases he : data[b.offset + j * card (Spec.rightSizes shape sts)]? with
  | none => simp only [he] at this; cases this
  | some x =>
    simp only [he, Outcome.ok.injEq] at this
    exact ⟨by rw [List.getElem?_eq_getElem (by omega), ← this], (List.getElem?_eq_some_iff.1 he).1⟩

/-- **C05 (exactly).** For an array whose elements are all different: reshaping a chain of slices keeps the order of the elements if and only if the slice has one element, or the axes fixed
from the right all have size one. -/
theorem C05_keeps_iff (h h' : Heap T) (shape : List Nat) (data : List T) (a b : Nd) (sts : List Step) (newShape : List Nat) (hm : mkData h shape data = .ok (h', a))
    (hsmall : card shape < 2 ^ 31) (hne : shape ≠ []) (hd : data.Nodup) (hb : slices a sts = .ok b) (hn : newShape ≠ []) (hcard : card newShape = card b.shape) (hpos : 0 < card b.shape) :
    ∃ b', reshape b newShape = .ok b' ∧ (iterate h' b' = iterate h' b ↔ card b.shape = 1 ∨ ∀ d ∈ Spec.rightSizes shape sts, d = 1) := by
  obtain ⟨l, e1, e2, e3⟩ := slices_elements hm hsmall hne hb hpos
  have hwa := mkData_wf hm hsmall hne
  have hat : b.attrs = [] := slices_attrs (by obtain ⟨_, _, rfl⟩ := mkData_spec hm; rfl) hb
  have hwb := slices_wf hwa hb
  obtain ⟨hl, rfl, rfl⟩ := mkData_spec hm
  have hda : data.length = card shape := by rw [← hl, accU32_eq, Nat.mod_eq_of_lt (by omega)]
  have hbsm := hwb.small
  obtain ⟨hoff, hroom⟩ := slices_offset (updateStrides_compat shape) rfl hwa hb hpos
  simp only at hroom
  have hcid := (slices_getOffset (updateStrides_compat shape).length_eq hb []).2.1
  refine ⟨{ b with shape := newShape, strides := updateStrides newShape }, ?_, ?_⟩
  · rw [reshape, if_neg (by simp [hat]), if_neg]
    rw [accI32_eq (by omega), hwb.size, hcard]; simp
  · have it : iterate (h ++ [data]) { b with shape := newShape, strides := updateStrides newShape } = .ok ((data.drop b.offset).take (card b.shape)) := by
      rw [iterate_unit (updateStrides_compat newShape) hn]
      simp only [hwb.size]
      apply collect_consecutive
      · rw [hcid]; simp
      · rw [hda]; exact hroom
    rw [it, e1, Outcome.ok.injEq, ← card_eq_one]
    constructor
    · intro e
      by_cases h1 : card b.shape = 1
      · exact Or.inl h1
      · refine Or.inr ?_
        obtain ⟨f1, f2⟩ := e3 1 (by omega)
        rw [← e, List.getElem?_take_of_lt (by omega), List.getElem?_drop] at f1
        have := nodup_index hd (i := b.offset + 1) (by omega) f1
        omega
    · intro hc
      apply List.ext_getElem?
      intro j
      by_cases hj : j < card b.shape
      · rw [(e3 j hj).1, List.getElem?_take_of_lt hj, List.getElem?_drop]
        rcases hc with h1 | h1
        · have : j = 0 := by omega
          subst this; simp
        · rw [h1, Nat.mul_one]
      · rw [List.getElem?_eq_none (by simp; omega), List.getElem?_eq_none (by omega)]

/-- **C07 (exactly).** For an array whose elements are all different: the copy of a chain of slices shows the same elements as the slice if and only if every axis is fixed at zero, and the
slice has one element or the axes fixed from the right all have size one. -/
theorem C07_copy_iff (h h' : Heap T) (shape : List Nat) (data : List T) (a b : Nd) (sts : List Step) (hm : mkData h shape data = .ok (h', a)) (hsmall : card shape < 2 ^ 31) (hne : shape ≠ [])
    (hd : data.Nodup) (hb : slices a sts = .ok b) (hpos : 0 < card b.shape) :
    ∃ h'' b', copy h' b = .ok (h'', b') ∧
      (iterate h'' b' = iterate h' b ↔ (∀ st ∈ sts, Spec.fixedAt st = 0) ∧ (card b.shape = 1 ∨ ∀ d ∈ Spec.rightSizes shape sts, d = 1)) := by
  obtain ⟨l, e1, e2, e3⟩ := slices_elements hm hsmall hne hb hpos
  obtain ⟨h'', b', c1, _, _, c2, _⟩ := C07_copy_any h h' shape data a b sts hm hsmall hne hb
  refine ⟨h'', b', c1, ?_⟩
  obtain ⟨hl, rfl, rfl⟩ := mkData_spec hm
  have h0 := (slices_pitch (u := 1) (by omega) sts _ b (updateStrides_compat shape) hb hpos).2.2.2
  simp only at h0
  rw [c2, e1, Outcome.ok.injEq, ← card_eq_one, ← h0]
  constructor
  · intro e
    have z : b.offset = 0 := by
      obtain ⟨f1, f2⟩ := e3 0 hpos
      rw [← e, List.getElem?_take_of_lt hpos] at f1
      have := nodup_index hd (i := 0) (by omega) f1
      omega
    refine ⟨z, ?_⟩
    by_cases h1 : card b.shape = 1
    · exact Or.inl h1
    · refine Or.inr ?_
      obtain ⟨f1, f2⟩ := e3 1 (by omega)
      have len := congrArg List.length e
      rw [List.length_take, e2] at len
      rw [← e, List.getElem?_take_of_lt (by omega)] at f1
      have := nodup_index hd (i := 1) (by omega) f1
      omega
  · rintro ⟨z, hc⟩
    apply List.ext_getElem?
    intro j
    by_cases hj : j < card b.shape
    · rw [(e3 j hj).1, List.getElem?_take_of_lt hj, z]
      rcases hc with h1 | h1
      · have : j = 0 := by omega
        subst this; simp
      · rw [h1, Nat.mul_one, Nat.zero_add]
    · rw [List.getElem?_eq_none (by simp; omega), List.getElem?_eq_none (by omega)]

/-- Test: in an array of shape 2×3×1, fixing the last axis does not disturb the order; fixing the one of size three does. -/
example : Spec.rightSizes [2, 3, 1] [.right 0] = [1] ∧ Spec.rightSizes [2, 3, 1] [.right 0, .right 1] = [1, 3] ∧ Spec.rightSizes [2, 3, 1] [.left 1, .right 0, .right 1] = [1, 3] := by decide

example : ∃ h' a b, mkData ([] : Heap Nat) [2, 3, 1] [0, 1, 2, 3, 4, 5] = .ok (h', a) ∧ slices a [.right 0] = .ok b ∧ card b.shape = 6 ∧ [0, 1, 2, 3, 4, 5].Nodup := ⟨_, _, _, rfl, rfl, by decide, by decide⟩

end Alexandria.NdArray
