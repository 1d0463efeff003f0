import Verif.NdArray.Model
import Verif.NdArray.Spec
import Mathlib.Tactic.Ring
import Mathlib.Data.List.Range
import Mathlib.Data.List.Nodup

set_option linter.unusedSectionVars false
set_option linter.unusedSimpArgs false

namespace Alexandria.NdArray

open Spec

variable {T : Type}

/-! ## The specification is what it says -/

theorem valid_length {shape c : List Nat} (h : Valid shape c) : c.length = shape.length := by
  induction shape generalizing c with
  | nil => cases c <;> simp_all [Valid]
  | cons d ds ih => cases c with
    | nil => simp [Valid] at h
    | cons x xs => simp [ih h.2]

theorem mem_allCoords {shape c : List Nat} : c ∈ allCoords shape ↔ Valid shape c := by
  induction shape generalizing c with
  | nil => cases c <;> simp [allCoords, Valid]
  | cons d ds ih =>
    cases c with
    | nil => simp [allCoords, Valid]
    | cons x xs =>
      simp only [allCoords, List.mem_flatMap, List.mem_range, List.mem_map, List.cons.injEq, Valid]
      constructor
      · rintro ⟨i, hi, a, ha, rfl, rfl⟩; exact ⟨hi, ih.1 ha⟩
      · rintro ⟨hx, hv⟩; exact ⟨x, hx, xs, ih.2 hv, rfl, rfl⟩

theorem allCoords_length (shape : List Nat) : (allCoords shape).length = card shape := by
  induction shape with
  | nil => rfl
  | cons d ds ih => simp [allCoords, card, ih, List.length_flatMap]

theorem allCoords_nodup (shape : List Nat) : (allCoords shape).Nodup := by
  induction shape with
  | nil => simp [allCoords]
  | cons d ds ih =>
    rw [allCoords, List.nodup_flatMap]
    refine ⟨fun i _ => ih.map (fun a b h => by simpa using h), ?_⟩
    refine (List.nodup_range (n := d)).imp ?_
    intro a b hab x hx hy
    simp only [List.mem_map] at hx hy
    obtain ⟨_, _, rfl⟩ := hx
    obtain ⟨_, _, h⟩ := hy
    simp at h; exact hab h.1.symm

theorem card_pos_of_valid {shape c : List Nat} (h : Valid shape c) : 0 < card shape := by
  rw [← allCoords_length]; exact List.length_pos_of_mem (mem_allCoords.2 h)

theorem valid_append {s₁ s₂ c₁ c₂ : List Nat} (hl : c₁.length = s₁.length) :
    Valid (s₁ ++ s₂) (c₁ ++ c₂) ↔ Valid s₁ c₁ ∧ Valid s₂ c₂ := by
  induction s₁ generalizing c₁ with
  | nil => cases c₁ <;> simp_all [Valid]
  | cons d ds ih =>
    cases c₁ with
    | nil => simp at hl
    | cons x xs =>
      simp only [List.length_cons, Nat.add_right_cancel_iff] at hl
      simp [Valid, ih hl, and_assoc]

theorem card_append (s₁ s₂ : List Nat) : card (s₁ ++ s₂) = card s₁ * card s₂ := by
  induction s₁ with
  | nil => simp [card]
  | cons d ds ih => simp [card, ih, Nat.mul_assoc]

/-! ## Accumulated sizes -/

theorem accU32_fold (shape : List Nat) (a : Nat) :
    shape.foldl (fun acc d => (acc * d) % 2 ^ 32) (a % 2 ^ 32) = (a * card shape) % 2 ^ 32 := by
  induction shape generalizing a with
  | nil => simp [card]
  | cons d ds ih =>
    simp only [List.foldl_cons, card]
    rw [show (a % 2 ^ 32 * d) % 2 ^ 32 = (a * d) % 2 ^ 32 by rw [Nat.mod_mul_mod], ih, Nat.mul_assoc]

theorem accU32_eq (shape : List Nat) : accU32 shape = card shape % 2 ^ 32 := by
  have := accU32_fold shape 1
  simpa [accU32] using this

theorem intToSize_mod (x : Nat) : intToSize x % 2 ^ 32 = x % 2 ^ 32 := by
  unfold intToSize; split <;> omega

theorem accI32_fold (shape : List Nat) (a : Nat) :
    shape.foldl (fun acc d => (intToSize acc * d) % 2 ^ 32) (a % 2 ^ 32) = (a * card shape) % 2 ^ 32 := by
  induction shape generalizing a with
  | nil => simp [card]
  | cons d ds ih =>
    simp only [List.foldl_cons, card]
    have h : (intToSize (a % 2 ^ 32) * d) % 2 ^ 32 = (a * d) % 2 ^ 32 := by
      rw [Nat.mul_mod, intToSize_mod, Nat.mod_mod, ← Nat.mul_mod]
    rw [h, ih, Nat.mul_assoc]

theorem accI32_eq {shape : List Nat} (h : card shape < 2 ^ 31) : accI32 shape = card shape := by
  have := accI32_fold shape 1
  simp only [Nat.one_mul, show 1 % 2 ^ 32 = 1 from rfl] at this
  rw [accI32, this, Nat.mod_eq_of_lt (by omega), intToSize, if_pos h]

/-! ## Strides -/

/-- Strides of a contiguous-up-to-unit view: the last axis has stride `u`, every other one the number of elements of the
axes after it times `u`. -/
def Compat (u : Nat) : List Nat → List Nat → Prop
  | [], [] => True
  | _ :: ds, s :: ss => s = u * card ds ∧ Compat u ds ss
  | _, _ => False

def dot : List Nat → List Nat → Nat
  | c :: cs, s :: ss => c * s + dot cs ss
  | _, _ => 0

theorem Compat.length_eq {u : Nat} {shape strides : List Nat} (h : Compat u shape strides) :
    strides.length = shape.length := by
  induction shape generalizing strides with
  | nil => cases strides <;> simp_all [Compat]
  | cons d ds ih => cases strides with
    | nil => simp [Compat] at h
    | cons x xs => simp [ih h.2]

theorem updateStrides_fold (shape : List Nat) :
    (shape.foldr (fun d (st : Nat × List Nat) => (st.1 * d, st.1 :: st.2)) (1, [])).1 = card shape ∧
    Compat 1 shape (shape.foldr (fun d (st : Nat × List Nat) => (st.1 * d, st.1 :: st.2)) (1, [])).2 := by
  induction shape with
  | nil => simp [card, Compat]
  | cons d ds ih =>
    simp only [List.foldr_cons, card, Compat, ih.1, Nat.one_mul, true_and]
    exact ⟨Nat.mul_comm _ _, ih.2⟩

theorem updateStrides_compat (shape : List Nat) : Compat 1 shape (updateStrides shape) := (updateStrides_fold shape).2

theorem updateStrides_length (shape : List Nat) : (updateStrides shape).length = shape.length :=
  (updateStrides_compat shape).length_eq

theorem range_mul (a b : Nat) : List.range (a * b) = (List.range a).flatMap fun i => (List.range b).map (i * b + ·) := by
  induction a with
  | zero => simp
  | succ n ih => rw [Nat.succ_mul, List.range_add, ih, List.range_succ]; simp

/-- The offsets of the coordinates in row-major order are the multiples of the unit. -/
theorem allCoords_map_dot {u : Nat} {shape strides : List Nat} (h : Compat u shape strides) :
    (allCoords shape).map (dot · strides) = (List.range (card shape)).map (· * u) := by
  induction shape generalizing strides with
  | nil => cases strides <;> simp_all [Compat, allCoords, dot, card]
  | cons d ds ih =>
    cases strides with
    | nil => simp [Compat] at h
    | cons s ss =>
      obtain ⟨hs, hc⟩ := h
      simp only [allCoords, card, range_mul, List.map_flatMap, List.map_map]
      congr 1; funext i
      have := congrArg (List.map (fun x => i * s + x)) (ih hc)
      simp only [List.map_map] at this
      simp only [Function.comp_def, dot] at this ⊢
      rw [this]
      apply List.map_congr_left
      intro j _
      simp only [hs]; ring

theorem dot_mem {u : Nat} {shape strides c : List Nat} (h : Compat u shape strides) (hc : Valid shape c) :
    ∃ k, k < card shape ∧ dot c strides = k * u := by
  have h1 : dot c strides ∈ (allCoords shape).map (dot · strides) := List.mem_map.2 ⟨c, mem_allCoords.2 hc, rfl⟩
  rw [allCoords_map_dot h] at h1
  simp only [List.mem_map, List.mem_range] at h1
  obtain ⟨k, hk, he⟩ := h1
  exact ⟨k, hk, he.symm⟩

theorem dot_inj {u : Nat} (hu : 0 < u) {shape strides c c' : List Nat} (h : Compat u shape strides)
    (hc : Valid shape c) (hc' : Valid shape c') (he : dot c strides = dot c' strides) : c = c' := by
  have hn : ((allCoords shape).map (dot · strides)).Nodup := by
    rw [allCoords_map_dot h]
    exact (List.nodup_range).map (fun a b hab => Nat.eq_of_mul_eq_mul_right hu hab)
  exact List.inj_on_of_nodup_map hn (mem_allCoords.2 hc) (mem_allCoords.2 hc') he

/-! ## Offsets -/

theorem offsetLoop_valid {cs ds ss : List Nat} (o : Nat) (h : Valid ds cs) (hs : ss.length = ds.length) :
    offsetLoop cs ds ss o = .ok (o + dot cs ss) := by
  induction ds generalizing cs ss o with
  | nil => cases cs <;> simp_all [Valid, offsetLoop, dot]
  | cons d ds ih =>
    cases cs with
    | nil => simp [Valid] at h
    | cons c cs =>
      cases ss with
      | nil => simp at hs
      | cons s ss =>
        simp only [List.length_cons, Nat.add_right_cancel_iff] at hs
        rw [offsetLoop, if_neg (by have := h.1; omega), ih _ h.2 hs, dot]
        congr 1; omega

theorem offsetLoop_invalid {cs ds ss : List Nat} (o : Nat) (h : ¬ Valid ds cs) (hc : cs.length = ds.length)
    (hs : ss.length = ds.length) : offsetLoop cs ds ss o = .throw .outOfRange := by
  induction ds generalizing cs ss o with
  | nil => cases cs <;> simp_all [Valid, offsetLoop, dot]
  | cons d ds ih =>
    cases cs with
    | nil => simp at hc
    | cons c cs =>
      cases ss with
      | nil => simp at hs
      | cons s ss =>
        simp only [List.length_cons, Nat.add_right_cancel_iff] at hs hc
        rw [offsetLoop]
        split
        · rfl
        · rename_i hlt
          exact ih _ (fun hv => h ⟨by omega, hv⟩) hc hs

theorem getOffset_valid {a : Nd} {c : List Nat} (hs : a.strides.length = a.shape.length) (h : Valid a.shape c) :
    getOffset a c = .ok (a.offset + dot c a.strides) := by
  rw [getOffset, if_neg (by simp [valid_length h]), offsetLoop_valid _ h hs]

theorem getOffset_invalid {a : Nd} {c : List Nat} (hs : a.strides.length = a.shape.length) (h : ¬ Valid a.shape c) :
    getOffset a c = .throw .outOfRange := by
  rw [getOffset]
  split
  · rfl
  · rename_i hl
    exact offsetLoop_invalid _ h (by simpa using hl) hs

/-! ## Slices -/

theorem dot_append {c₁ s₁ : List Nat} (h : c₁.length = s₁.length) (c₂ s₂ : List Nat) :
    dot (c₁ ++ c₂) (s₁ ++ s₂) = dot c₁ s₁ + dot c₂ s₂ := by
  induction c₁ generalizing s₁ with
  | nil => cases s₁ <;> simp_all [dot]
  | cons c cs ih =>
    cases s₁ with
    | nil => simp at h
    | cons s ss =>
      simp only [List.length_cons, Nat.add_right_cancel_iff] at h
      simp [dot, ih h, Nat.add_assoc]

/-- What the invariants of a view give: strides fit the shape, the last stride is the unit, and the size is right. -/
structure WF (a : Nd) : Prop where
  compat : ∃ u, 0 < u ∧ Compat u a.shape a.strides
  size : a.size = card a.shape
  small : card a.shape < 2 ^ 31
  rank : a.shape ≠ []

theorem WF.strides_length {a : Nd} (h : WF a) : a.strides.length = a.shape.length := by
  obtain ⟨u, _, hc⟩ := h.compat; exact hc.length_eq

theorem Compat.append_last {u : Nat} {shape strides : List Nat} {d s : Nat}
    (h : Compat u (shape ++ [d]) (strides ++ [s])) : s = u ∧ Compat (u * d) shape strides := by
  induction shape generalizing strides with
  | nil =>
    cases strides with
    | nil => simp [Compat, card] at h ⊢; exact h
    | cons x xs => have := h.length_eq; simp at this
  | cons e es ih =>
    cases strides with
    | nil => have := h.length_eq; simp at this
    | cons x xs =>
      obtain ⟨hx, hc⟩ := h
      obtain ⟨h1, h2⟩ := ih hc
      refine ⟨h1, ?_, h2⟩
      rw [hx, show es.append [d] = es ++ [d] from rfl, card_append]; simp only [card]; ring

theorem slice_spec {a b : Nd} {i : Nat} (h : slice a i = .ok b) :
    ∃ d d' ds s ss, a.shape = d :: d' :: ds ∧ a.strides = s :: ss ∧ i < d ∧
      b = ⟨a.cid, a.offset + i * s, d' :: ds, ss, a.attrs.tail, accI32 (d' :: ds)⟩ := by
  unfold slice at h
  split at h
  · rename_i d d' ds s ss h1 h2
    split at h
    · cases h
    · refine ⟨d, d', ds, s, ss, h1, h2, by omega, ?_⟩
      cases h; rfl
  · cases h
  · cases h

theorem rslice_spec {a b : Nd} {i : Nat} (h : rslice a i = .ok b) :
    ∃ ds d ss s, ds ≠ [] ∧ a.shape = ds ++ [d] ∧ a.strides = ss ++ [s] ∧ i < d ∧
      b = ⟨a.cid, a.offset + i * s, ds, ss, a.attrs.dropLast, accI32 ds⟩ := by
  unfold rslice at h
  split at h
  · cases h
  · rename_i hlen
    split at h
    · rename_i d s h1 h2
      split at h
      · cases h
      · have e1 : a.shape = a.shape.dropLast ++ [d] := by
          rw [List.getLast?_eq_some_iff] at h1; obtain ⟨ys, hy⟩ := h1; rw [hy]; simp
        have e2 : a.strides = a.strides.dropLast ++ [s] := by
          rw [List.getLast?_eq_some_iff] at h2; obtain ⟨ys, hy⟩ := h2; rw [hy]; simp
        refine ⟨a.shape.dropLast, d, a.strides.dropLast, s, ?_, e1, e2, by omega, ?_⟩
        · intro hnil; rw [hnil] at e1; rw [e1] at hlen; simp at hlen
        · cases h; rfl
    · cases h

theorem slice_getOffset {a b : Nd} {i : Nat} (_hs : a.strides.length = a.shape.length) (h : slice a i = .ok b)
    (c : List Nat) : getOffset b c = getOffset a (i :: c) := by
  obtain ⟨d, d', ds, s, ss, h1, h2, hi, rfl⟩ := slice_spec h
  simp only [getOffset, h1, h2, List.length_cons, ne_eq, Nat.add_right_cancel_iff]
  split
  · rfl
  · rw [offsetLoop, if_neg (by omega)]

theorem rslice_getOffset {a b : Nd} {i : Nat} (hs : a.strides.length = a.shape.length) (h : rslice a i = .ok b)
    (c : List Nat) : getOffset b c = getOffset a (c ++ [i]) := by
  obtain ⟨ds, d, ss, s, hne, h1, h2, hi, rfl⟩ := rslice_spec h
  have hl : ss.length = ds.length := by rw [h1, h2] at hs; simpa using hs
  by_cases hcl : c.length = ds.length
  · by_cases hv : Valid ds c
    · have hv' : Valid a.shape (c ++ [i]) := by
        rw [h1, valid_append hcl]; exact ⟨hv, hi, trivial⟩
      rw [getOffset_valid hs hv', getOffset_valid (by simpa using hl) (by simpa using hv)]
      simp only [h2]
      rw [dot_append (by omega)]
      simp [dot]; omega
    · have hv' : ¬ Valid a.shape (c ++ [i]) := by
        rw [h1, valid_append hcl]; exact fun h => hv h.1
      rw [getOffset_invalid hs hv', getOffset_invalid (by simpa using hl) (by simpa using hv)]
  · rw [getOffset, getOffset, if_pos (by simpa using hcl), if_pos (by rw [h1]; simpa using hcl)]

theorem slice_strides_length {a b : Nd} {i : Nat} (hs : a.strides.length = a.shape.length) (h : slice a i = .ok b) :
    b.strides.length = b.shape.length := by
  obtain ⟨d, d', ds, s, ss, h1, h2, hi, rfl⟩ := slice_spec h
  rw [h1, h2] at hs; simpa using hs

theorem rslice_strides_length {a b : Nd} {i : Nat} (hs : a.strides.length = a.shape.length) (h : rslice a i = .ok b) :
    b.strides.length = b.shape.length := by
  obtain ⟨ds, d, ss, s, hne, h1, h2, hi, rfl⟩ := rslice_spec h
  rw [h1, h2] at hs; simpa using hs

theorem apply_getOffset {a b : Nd} {st : Step} (hs : a.strides.length = a.shape.length) (h : st.apply a = .ok b)
    (c : List Nat) : getOffset b c = getOffset a (embed1 st c) := by
  cases st with
  | left i => exact slice_getOffset hs h c
  | right i => exact rslice_getOffset hs h c

theorem apply_strides_length {a b : Nd} {st : Step} (hs : a.strides.length = a.shape.length) (h : st.apply a = .ok b) :
    b.strides.length = b.shape.length := by
  cases st with
  | left i => exact slice_strides_length hs h
  | right i => exact rslice_strides_length hs h

theorem apply_cid {a b : Nd} {st : Step} (h : st.apply a = .ok b) : b.cid = a.cid := by
  cases st with
  | left i => obtain ⟨d, d', ds, s, ss, h1, h2, hi, rfl⟩ := slice_spec h; rfl
  | right i => obtain ⟨ds, d, ss, s, hne, h1, h2, hi, rfl⟩ := rslice_spec h; rfl

theorem slices_getOffset {a b : Nd} {sts : List Step} (hs : a.strides.length = a.shape.length)
    (h : slices a sts = .ok b) (c : List Nat) :
    getOffset b c = getOffset a (embed sts c) ∧ b.cid = a.cid ∧ b.strides.length = b.shape.length := by
  induction sts generalizing a with
  | nil => cases h; exact ⟨rfl, rfl, hs⟩
  | cons st sts ih =>
    rw [slices] at h
    cases hst : st.apply a with
    | ok a' =>
      rw [hst] at h
      simp only [Outcome.bind_ok] at h
      obtain ⟨h1, h2, h3⟩ := ih (apply_strides_length hs hst) h
      exact ⟨by rw [h1, apply_getOffset hs hst]; rfl, by rw [h2, apply_cid hst], h3⟩
    | throw e => rw [hst] at h; cases h
    | ub => rw [hst] at h; cases h

theorem slice_wf {a b : Nd} {i : Nat} (hw : WF a) (h : slice a i = .ok b) : WF b := by
  obtain ⟨d, d', ds, s, ss, h1, h2, hi, rfl⟩ := slice_spec h
  obtain ⟨u, hu, hc⟩ := hw.compat
  have hsm := hw.small
  rw [h1, h2] at hc
  rw [h1, card] at hsm
  have : card (d' :: ds) ≤ d * card (d' :: ds) := Nat.le_mul_of_pos_left _ (by omega)
  exact ⟨⟨u, hu, hc.2⟩, accI32_eq (by omega), by simpa using (by omega : card (d' :: ds) < 2 ^ 31), by simp⟩

theorem rslice_wf {a b : Nd} {i : Nat} (hw : WF a) (h : rslice a i = .ok b) : WF b := by
  obtain ⟨ds, d, ss, s, hne, h1, h2, hi, rfl⟩ := rslice_spec h
  obtain ⟨u, hu, hc⟩ := hw.compat
  have hsm := hw.small
  rw [h1, h2] at hc
  rw [h1, card_append] at hsm
  simp only [card, Nat.mul_one] at hsm
  have : card ds ≤ card ds * d := Nat.le_mul_of_pos_right _ (by omega)
  exact ⟨⟨u * d, Nat.mul_pos hu (by omega), hc.append_last.2⟩, accI32_eq (by omega),
    by simpa using (by omega : card ds < 2 ^ 31), by simpa using hne⟩

theorem slices_wf {a b : Nd} {sts : List Step} (hw : WF a) (h : slices a sts = .ok b) : WF b := by
  induction sts generalizing a with
  | nil => cases h; exact hw
  | cons st sts ih =>
    rw [slices] at h
    cases hst : st.apply a with
    | ok a' =>
      rw [hst] at h
      simp only [Outcome.bind_ok] at h
      refine ih ?_ h
      cases st with
      | left i => exact slice_wf hw hst
      | right i => exact rslice_wf hw hst
    | throw e => rw [hst] at h; cases h
    | ub => rw [hst] at h; cases h

/-! ## Iteration -/

theorem collect_map_ok {α β : Type} (f : α → Res β) (g : α → β) (l : List α) (h : ∀ x ∈ l, f x = .ok (g x)) :
    collect (l.map f) = .ok (l.map g) := by
  induction l with
  | nil => rfl
  | cons x xs ih =>
    rw [List.map_cons, collect, h x (by simp), ih (fun y hy => h y (by simp [hy]))]
    rfl

theorem Compat.getLast {u : Nat} {shape strides : List Nat} (h : Compat u shape strides) (hne : shape ≠ []) :
    strides.getLast? = some u := by
  have hl := h.length_eq
  have h1 : shape = shape.dropLast ++ [shape.getLast hne] := (List.dropLast_append_getLast hne).symm
  have hne2 : strides ≠ [] := by
    intro hn; rw [hn] at hl; simp at hl; exact hne (List.length_eq_zero_iff.1 hl.symm)
  have h2 : strides = strides.dropLast ++ [strides.getLast hne2] := (List.dropLast_append_getLast hne2).symm
  rw [h1, h2] at h
  rw [List.getLast?_eq_some_getLast hne2, h.append_last.1]

/-- The iteration of a well-formed view lists `at` over all coordinates in row-major order. -/
theorem iterate_eq {h : Heap T} {a : Nd} (hw : WF a) :
    iterate h a = collect ((allCoords a.shape).map (at' h a)) := by
  obtain ⟨u, hu, hc⟩ := hw.compat
  rw [iterate, hc.getLast hw.rank]
  simp only
  have h1 : (allCoords a.shape).map (at' h a) =
      ((allCoords a.shape).map (dot · a.strides)).map (fun o => atOffset h a (a.offset + o)) := by
    rw [List.map_map]
    apply List.map_congr_left
    intro c hcm
    rw [at', getOffset_valid hc.length_eq (mem_allCoords.1 hcm)]
    rfl
  rw [h1, allCoords_map_dot hc, hw.size, List.map_map]
  rfl

end Alexandria.NdArray

namespace Alexandria.NdArray

open Spec

variable {T : Type}

/-! ## Fresh arrays -/

theorem mkData_spec {h h' : Heap T} {shape : List Nat} {data : List T} {a : Nd} (hm : mkData h shape data = .ok (h', a)) :
    accU32 shape = data.length ∧ h' = h ++ [data] ∧ a = ⟨h.length, 0, shape, updateStrides shape, [], accU32 shape⟩ := by
  unfold mkData at hm
  split at hm
  · cases hm
  · rename_i hne
    simp only [Outcome.ok.injEq, Prod.mk.injEq] at hm
    exact ⟨by simpa using hne, hm.1.symm, hm.2.symm⟩

theorem mkData_wf {h h' : Heap T} {shape : List Nat} {data : List T} {a : Nd} (hm : mkData h shape data = .ok (h', a))
    (hs : card shape < 2 ^ 31) (hne : shape ≠ []) : WF a := by
  obtain ⟨_, _, rfl⟩ := mkData_spec hm
  exact ⟨⟨1, by omega, updateStrides_compat _⟩, by simp only [accU32_eq]; rw [Nat.mod_eq_of_lt (by omega)], hs, hne⟩

theorem map_getElem_range {α β : Type} (l : List α) (f : Nat → β) (g : α → β)
    (h : ∀ i (hi : i < l.length), f i = g l[i]) : (List.range l.length).map f = l.map g := by
  apply List.ext_getElem
  · simp
  · intro i h1 h2
    simp only [List.length_map, List.length_range] at h1
    simp [h i h1]

/-- `at` over all coordinates lists the container of a whole array. -/
theorem whole_at {h : Heap T} {a : Nd} {data : List T} (ho : a.offset = 0) (hc : Compat 1 a.shape a.strides)
    (hd : h[a.cid]? = some data) (hl : card a.shape ≤ data.length) :
    (allCoords a.shape).map (at' h a) = (data.take (card a.shape)).map .ok := by
  have h1 : (allCoords a.shape).map (at' h a) =
      ((allCoords a.shape).map (dot · a.strides)).map (fun o => atOffset h a o) := by
    rw [List.map_map]
    apply List.map_congr_left
    intro c hcm
    rw [at', getOffset_valid hc.length_eq (mem_allCoords.1 hcm), ho]
    simp
  rw [h1, allCoords_map_dot hc]
  have h2 : card a.shape = (data.take (card a.shape)).length := by simp [hl]
  rw [List.map_map]
  conv => lhs; rw [h2]
  apply map_getElem_range
  intro i hi
  have hi2 : i < data.length := by rw [← h2] at hi; omega
  simp [atOffset, hd, hi2]

theorem valid_dec (shape c : List Nat) : Valid shape c ∨ ¬ Valid shape c := Classical.em _

instance decValid : (shape c : List Nat) → Decidable (Valid shape c)
  | [], [] => isTrue trivial
  | [], _ :: _ => isFalse id
  | _ :: _, [] => isFalse id
  | d :: ds, c :: cs =>
    have := decValid ds cs
    inferInstanceAs (Decidable (c < d ∧ Valid ds cs))

/-- Writing at valid coordinates changes that element only. -/
theorem set_at {h h' : Heap T} {a : Nd} (hc : ∃ u, 0 < u ∧ Compat u a.shape a.strides) {c : List Nat} {x : T}
    (hs : set' h a c x = .ok h') : Valid a.shape c ∧
      ∀ c', at' h' a c' = if c' = c then .ok x else at' h a c' := by
  obtain ⟨u, hu, hc⟩ := hc
  have hv : Valid a.shape c := by
    by_contra hv
    rw [set', getOffset_invalid hc.length_eq hv] at hs; cases hs
  refine ⟨hv, fun c' => ?_⟩
  rw [set', getOffset_valid hc.length_eq hv, Outcome.bind_ok, setOffset] at hs
  split at hs
  · cases hs
  · rename_i data hdata
    split at hs
    · rename_i hlt
      cases hs
      have hcid : a.cid < h.length := by
        rw [List.getElem?_eq_some_iff] at hdata; exact hdata.1
      by_cases hv' : Valid a.shape c'
      · rw [at', at', getOffset_valid hc.length_eq hv']
        simp only [Outcome.bind_ok, atOffset]
        rw [List.getElem?_set_self hcid, hdata]
        simp only
        by_cases he : c' = c
        · subst he; simp [hlt]
        · have : a.offset + dot c a.strides ≠ a.offset + dot c' a.strides := by
            intro hd; exact he (dot_inj hu hc hv' hv (by omega))
          rw [if_neg he, List.getElem?_set_ne this]
      · have he : c' ≠ c := fun h => hv' (h ▸ hv)
        rw [if_neg he, at', at', getOffset_invalid hc.length_eq hv']; rfl
    · cases hs

theorem fresh_readable {h h' : Heap T} {shape : List Nat} {data : List T} {a : Nd}
    (hm : mkData h shape data = .ok (h', a)) (hsmall : card shape < 2 ^ 32) {c : List Nat} (hv : Valid shape c) :
    ∃ x, at' h' a c = .ok x := by
  obtain ⟨hl, rfl, rfl⟩ := mkData_spec hm
  rw [accU32_eq, Nat.mod_eq_of_lt hsmall] at hl
  have := whole_at (h := h ++ [data]) (a := ⟨h.length, 0, shape, updateStrides shape, [], accU32 shape⟩)
    (data := data) rfl (updateStrides_compat _) (by simp) (by simp [hl])
  have hmem := List.mem_map_of_mem (f := at' (h ++ [data]) ⟨h.length, 0, shape, updateStrides shape, [], accU32 shape⟩)
    (mem_allCoords.2 hv)
  simp only at this
  rw [this] at hmem
  obtain ⟨x, _, hx⟩ := List.mem_map.1 hmem
  exact ⟨x, hx.symm⟩

theorem exists_map_ok {α β : Type} {l : List α} {f : α → Res β} (h : ∀ x ∈ l, ∃ y, f x = .ok y) :
    ∃ l' : List β, l.map f = l'.map .ok := by
  induction l with
  | nil => exact ⟨[], rfl⟩
  | cons x xs ih =>
    obtain ⟨y, hy⟩ := h x (by simp)
    obtain ⟨ys, hys⟩ := ih (fun z hz => h z (by simp [hz]))
    exact ⟨y :: ys, by simp [hy, hys]⟩

theorem collect_ok {α : Type} (l : List α) : collect (l.map .ok) = .ok l := by
  have := collect_map_ok (fun x : α => (.ok x : Res α)) id l (fun _ _ => rfl)
  simpa using this

theorem collect_eq_ok {α : Type} {l : List (Res α)} {l' : List α} (h : collect l = .ok l') : l = l'.map .ok := by
  induction l generalizing l' with
  | nil => cases h; rfl
  | cons x xs ih =>
    rw [collect] at h
    cases x with
    | ok a =>
      simp only [Outcome.bind_ok] at h
      cases hc : collect xs with
      | ok as => rw [hc] at h; cases h; simp [ih hc]
      | throw e => rw [hc] at h; cases h
      | ub => rw [hc] at h; cases h
    | throw e => cases h
    | ub => cases h

end Alexandria.NdArray
