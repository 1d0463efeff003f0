import Verif.NdArray.Props
import Verif.NdArray.Lemmas2

/-!
# Properties C05-C08, C60, C61: reshaping, concatenating, copying and comparing n-dimensional arrays
-/

namespace Alexandria.NdArray

open Spec

variable {T : Type}

/-! ## C05 -/

/-- Full statement of C05: reshaping any slice of a constructed array keeps the order of its elements. -/
def C05_full : Prop :=
  ∀ (h h' : Heap Nat) (shape : List Nat) (data : List Nat) (a b : Nd) (sts : List Step) (newShape : List Nat),
    mkData h shape data = .ok (h', a) → card shape < 2 ^ 31 → slices a sts = .ok b → newShape ≠ [] →
    card newShape = card b.shape → ∃ b', reshape b newShape = .ok b' ∧ iterate h' b' = iterate h' b

/-- C05 is violated by the code: reshaping a right slice resets the strides to 1, so the reshaped array shows other elements. -/
theorem C05_reshape_of_right_slice_violated : ¬ C05_full := by
  intro hall
  obtain ⟨b', hb, hi⟩ := hall [] [[0, 1, 2, 3]] [2, 2] [0, 1, 2, 3] ⟨0, 0, [2, 2], [2, 1], [], 4⟩
    ⟨0, 0, [2], [2], [], 2⟩ [.right 0] [1, 2] rfl (by decide) rfl (by decide) rfl
  have : b' = ⟨0, 0, [1, 2], [2, 1], [], 2⟩ := by
    have h2 : reshape ⟨0, 0, [2], [2], [], 2⟩ [1, 2] = .ok ⟨0, 0, [1, 2], [2, 1], [], 2⟩ := rfl
    rw [h2] at hb; cases hb; rfl
  subst this
  revert hi; decide

/-- **C05 (partial: left slices only).** Reshaping a constructed array, or any left slice of it, to a non-empty shape of the same
number of elements succeeds and keeps the sequence of elements and the size; any other number of elements throws. -/
theorem C05_reshape_keeps_order_partial (h h' : Heap T) (shape : List Nat) (data : List T) (a b : Nd) (is : List Nat)
    (newShape : List Nat) (hm : mkData h shape data = .ok (h', a)) (hsmall : card shape < 2 ^ 31) (hne : shape ≠ [])
    (hb : slices a (is.map .left) = .ok b) (hn : newShape ≠ []) (hns : card newShape < 2 ^ 31) :
    (card newShape = card b.shape → ∃ b', reshape b newShape = .ok b' ∧ b'.shape = newShape ∧ b'.size = b.size ∧
      iterate h' b' = iterate h' b ∧ iterate h' b' = collect ((allCoords newShape).map (at' h' b'))) ∧
    (card newShape ≠ card b.shape → reshape b newShape = .throw .rangeError) := by
  have hwb := slices_wf (mkData_wf hm hsmall hne) hb
  obtain ⟨_, _, rfl⟩ := mkData_spec hm
  obtain ⟨hc, hat⟩ := slices_left_compat (by exact updateStrides_compat shape) hb
  have hat := hat rfl
  constructor
  · intro hcard
    have hsz : accI32 newShape = b.size := by rw [accI32_eq hns, hwb.size, hcard]
    refine ⟨{ b with shape := newShape, strides := updateStrides newShape }, ?_, rfl, rfl, ?_, ?_⟩
    · rw [reshape, if_neg (by simp [hat]), if_neg (by simp [hsz])]
    · rw [iterate_unit hc hwb.rank, iterate_unit (updateStrides_compat newShape) hn]; rfl
    · rw [iterate_eq ⟨⟨1, by omega, updateStrides_compat _⟩, ?_, hns, hn⟩]
      simp [hwb.size, hcard]
  · intro hcard
    rw [reshape, if_neg (by simp [hat]), if_pos]
    rw [accI32_eq hns, hwb.size]; exact hcard

/-- Test: a left slice of a 2x2x3 array, reshaped. -/
example : ∃ h' a b b', mkData ([] : Heap Nat) [2, 2, 3] (List.range 12) = .ok (h', a) ∧
    slices a ([1].map .left) = .ok b ∧ reshape b [3, 2] = .ok b' ∧ iterate h' b' = .ok [6, 7, 8, 9, 10, 11] ∧
    card [3, 2] = card b.shape := ⟨_, _, _, _, rfl, rfl, rfl, by decide, by decide⟩

/-! ## C06 -/

/-- Full statement of C06 for two constructed arrays. -/
def C06_full : Prop :=
  ∀ (h₀ h₁ h₂ : Heap Nat) (d d' : Nat) (ds : List Nat) (da db : List Nat) (a b : Nd),
    mkData h₀ (d :: ds) da = .ok (h₁, a) → mkData h₁ (d' :: ds) db = .ok (h₂, b) → card ((d + d') :: ds) < 2 ^ 31 →
    ∃ h₃ a', concatenate 0 h₂ a b = .ok (h₃, a') ∧ a'.shape = (d + d') :: ds ∧ a'.size = card a'.shape ∧
      iterate h₃ a' = .ok (da ++ db)

/-- C06 is violated by the code: `concatenate` does not update the size, so `size()` and iteration stay as before. -/
theorem C06_size_after_concatenate_violated : ¬ C06_full := by
  intro hall
  obtain ⟨h₃, a', hc, _, hs, _⟩ := hall [] [[7]] [[7], [8]] 1 1 [] [7] [8] ⟨0, 0, [1], [1], [], 1⟩ ⟨1, 0, [1], [1], [], 1⟩
    rfl rfl (by decide)
  have h2 : concatenate 0 [[7], [8]] ⟨0, 0, [1], [1], [], 1⟩ ⟨1, 0, [1], [1], [], 1⟩ =
      .ok ([[7, 8], [8]], ⟨0, 0, [2], [1], [], 1⟩) := rfl
  rw [h2] at hc
  cases hc
  revert hs; decide

/-- Concatenating to a slice writes out of the (shrunk) container: undefined behaviour. -/
theorem C06_concatenate_to_slice_violated : ∃ (h : Heap Nat) (a b v : Nd),
    mkData [] [3, 2] [0, 1, 2, 3, 4, 5] = .ok (h, a) ∧ slice a 0 = .ok v ∧
    mkData h [2] [8, 9] = .ok (h ++ [[8, 9]], b) ∧ concatenate 0 (h ++ [[8, 9]]) v b = .ub :=
  ⟨_, _, _, _, rfl, rfl, rfl, by decide⟩

/-- **C06 (partial: access by coordinates, target a whole array).** Concatenating any iterable array or slice `b` of another
container to a constructed array `a` with the same trailing dimensions succeeds; by coordinates the result has the rows of `a`
followed by the elements of `b`, and `b` is unchanged. Missing from the full statement: `size()`, `end()` (see the violation). -/
theorem C06_concatenate_rows_partial (zero : T) (h h' g : Heap T) (d d' : Nat) (ds : List Nat) (da lb : List T) (a b : Nd)
    (hm : mkData h (d :: ds) da = .ok (h', a)) (hg : g[a.cid]? = some da) (hbs : b.shape = d' :: ds)
    (hcid : b.cid ≠ a.cid) (hwb : WF b) (hib : iterate g b = .ok lb) (hsmall : card ((d + d') :: ds) < 2 ^ 31) :
    ∃ g' a', concatenate zero g a b = .ok (g', a') ∧ a'.shape = (d + d') :: ds ∧
      (allCoords ((d + d') :: ds)).map (at' g' a') = (da ++ lb).map .ok ∧ iterate g' b = .ok lb := by
  have hcd : card ((d + d') :: ds) = card (d :: ds) + card (d' :: ds) := by simp only [card]; ring
  obtain ⟨hl, -, rfl⟩ := mkData_spec hm
  have hda : da.length = card (d :: ds) := by
    rw [← hl, accU32_eq, Nat.mod_eq_of_lt (by omega)]
  obtain ⟨u, hu, hcb⟩ := hwb.compat
  have hlast := hcb.getLast hwb.rank
  obtain ⟨hlb, hrd⟩ := iterate_ok_spec hlast hib
  have hlb' : lb.length = card (d' :: ds) := by rw [hlb, hwb.size, hbs]
  have hcidlt : h.length < g.length := (List.getElem?_eq_some_iff.1 hg).1
  have hacc : accU32 ((d + d') :: ds) = card (d :: ds) + card (d' :: ds) := by
    rw [accU32_eq, Nat.mod_eq_of_lt (by omega), hcd]
  have hres : resizeVec zero da (accU32 ((d + d') :: ds)) = da ++ List.replicate lb.length zero := by
    rw [resizeVec, hacc, List.take_of_length_le (by omega)]
    congr 2; omega
  obtain ⟨f, hf⟩ : ∃ f : Nat → T, ∀ i (hi : i < lb.length), f i = lb[i] := by
    cases lb with
    | nil => exact ⟨fun _ => zero, by simp⟩
    | cons x xs => exact ⟨fun i => (x :: xs).getD i zero, fun i hi => List.getD_eq_getElem _ _ hi⟩
  have hcopy := copyLoop_spec (other := b) (stride := u) (cid := h.length) (by simpa using hcid) f (List.range b.size)
    da.length (g.set h.length (da ++ List.replicate lb.length zero)) (da ++ List.replicate lb.length zero)
    (by simp [hcidlt]) (by simp [hlb]) (by
      intro i hi
      rw [atOffset_set_ne (by simpa using hcid)]
      simp only [List.mem_range] at hi
      rw [hrd i (by omega), hf i (by omega)])
  have hmap : (List.range b.size).map f = lb := by
    rw [← hlb]
    have := map_getElem_range lb f id (fun i hi => by simp [hf i hi])
    simpa using this
  rw [hmap] at hcopy
  simp only [List.length_range, List.take_left, List.set_set] at hcopy
  rw [List.drop_of_length_le (by simp [hlb]), List.append_nil] at hcopy
  refine ⟨g.set h.length (da ++ lb), ⟨h.length, 0, (d + d') :: ds, updateStrides (d :: ds), [], accU32 (d :: ds)⟩, ?_, rfl, ?_, ?_⟩
  · rw [concatenate, if_neg (by simp [hbs]), if_neg (by simp [hbs])]
    simp only [hbs, hg, hlast, hres, hcopy, Outcome.bind_ok]
    rfl
  · have hcompat : Compat 1 ((d + d') :: ds) (updateStrides (d :: ds)) := by
      have := updateStrides_compat (d :: ds)
      match hus : updateStrides (d :: ds), this with
      | s :: ss, hc => exact hc
    have := whole_at (h := g.set h.length (da ++ lb))
      (a := ⟨h.length, 0, (d + d') :: ds, updateStrides (d :: ds), [], accU32 (d :: ds)⟩) (data := da ++ lb)
      rfl hcompat (by simp [hcidlt]) (by simp [hda, hlb', hcd])
    rw [this, List.take_of_length_le (by simp [hda, hlb', hcd])]
  · rw [← hib]; exact iterate_congr (fun o => atOffset_set_ne (by simpa using hcid) _ _)

/-- Different rank or trailing dimensions throw. -/
theorem C06_concatenate_mismatch_throws (zero : T) (g : Heap T) (a b : Nd)
    (hne : a.shape.length ≠ b.shape.length ∨ a.shape.tail ≠ b.shape.tail) :
    concatenate zero g a b = .throw .lengthError := by
  unfold concatenate
  rcases hne with h | h
  · rw [if_pos h]
  · split
    · rfl
    · rfl

/-- Test: the hypotheses of the partial theorem hold for a 2x2 array and a right slice of another one. -/
example : ∃ h g a b₀ b, mkData ([] : Heap Nat) [2, 2] [1, 2, 3, 4] = .ok (h, a) ∧
    mkData h [1, 2, 2] [5, 6, 7, 8] = .ok (g, b₀) ∧ slices b₀ [.right 1] = .ok b ∧ g[a.cid]? = some [1, 2, 3, 4] ∧
    b.shape = [1, 2] ∧ b.cid ≠ a.cid ∧ WF b ∧ iterate g b = .ok [6, 8] ∧ card [2 + 1, 2] < 2 ^ 31 :=
  ⟨_, _, _, _, _, rfl, rfl, rfl, by decide, rfl, by decide,
    slices_wf (mkData_wf (h := [[1, 2, 3, 4]]) (shape := [1, 2, 2]) (data := [5, 6, 7, 8]) rfl (by decide) (by decide))
      (sts := [.right 1]) rfl, by decide, by decide⟩

/-! ## C07 -/

/-- Full statement of C07 (first half): a copy of any slice has the elements of the slice. -/
def C07_full : Prop :=
  ∀ (h h' h'' : Heap Nat) (shape : List Nat) (data : List Nat) (a b b' : Nd) (sts : List Step),
    mkData h shape data = .ok (h', a) → card shape < 2 ^ 31 → slices a sts = .ok b → copy h' b = .ok (h'', b') →
    iterate h'' b' = iterate h' b

/-- C07 is violated by the code: the copy of a slice forgets the offset and the strides. -/
theorem C07_copy_of_slice_violated : ¬ C07_full := by
  intro hall
  have := hall [] [[0, 1, 2, 3]] [[0, 1, 2, 3], [0, 1, 2, 3]] [2, 2] [0, 1, 2, 3] ⟨0, 0, [2, 2], [2, 1], [], 4⟩
    ⟨0, 2, [2], [1], [], 2⟩ ⟨1, 0, [2], [1], [], 2⟩ [.left 1] rfl (by decide) rfl rfl
  revert this; decide

/-- **C07 (partial: copies of whole arrays are equal).** -/
theorem C07_copy_equal_partial (h h' : Heap T) (shape : List Nat) (data : List T) (a : Nd)
    (hm : mkData h shape data = .ok (h', a)) (hsmall : card shape < 2 ^ 31) (hne : shape ≠ []) :
    ∃ h'' b, copy h' a = .ok (h'', b) ∧ b.shape = shape ∧ b.size = a.size ∧ b.attrs = a.attrs ∧ b.cid ≠ a.cid ∧
      iterate h'' b = .ok data ∧ iterate h'' a = .ok data := by
  have hw := mkData_wf hm hsmall hne
  obtain ⟨hl, rfl, rfl⟩ := mkData_spec hm
  have hda : data.length = card shape := by rw [← hl, accU32_eq, Nat.mod_eq_of_lt (by omega)]
  refine ⟨h ++ [data] ++ [data], ⟨(h ++ [data]).length, 0, shape, updateStrides shape, [], accU32 shape⟩, ?_, rfl, rfl, rfl,
    by simp, ?_, ?_⟩
  · simp [copy]
  · have hwb : WF ⟨(h ++ [data]).length, 0, shape, updateStrides shape, [], accU32 shape⟩ :=
      ⟨hw.compat, hw.size, hw.small, hw.rank⟩
    rw [iterate_eq hwb, whole_at rfl (updateStrides_compat _) (data := data) (by simp) (by simp [hda])]
    rw [List.take_of_length_le (by simp [hda])]; exact collect_ok _
  · rw [iterate_eq hw, whole_at rfl (updateStrides_compat _) (data := data) (by simp) (by simp [hda])]
    rw [List.take_of_length_le (by simp [hda])]; exact collect_ok _

/-- **C07 (independence, for every array and slice).** After `copy()`, any sequence of writes through the copy leaves the
original as it was, and any sequence of writes through the original (or any view of the same container) leaves the copy. -/
theorem C07_copy_independent (h h' h'' : Heap T) (a b v : Nd) (hlt : a.cid < h.length) (hv : v.cid = a.cid)
    (hc : copy h a = .ok (h', b)) :
    (∀ writes : List (List Nat × T), writes.foldlM (fun g w => set' g b w.1 w.2) h' = .ok h'' →
      iterate h'' v = iterate h v) ∧
    (∀ writes : List (List Nat × T), writes.foldlM (fun g w => set' g v w.1 w.2) h' = .ok h'' →
      iterate h'' b = iterate h' b) := by
  have hcopy : ∃ c, h' = h ++ [c] ∧ b.cid = h.length := by
    unfold copy at hc
    split at hc
    · cases hc
    · cases hc; exact ⟨_, rfl, rfl⟩
  obtain ⟨c, rfl, hbc⟩ := hcopy
  have key : ∀ (x y : Nd), x.cid ≠ y.cid → ∀ (writes : List (List Nat × T)) (g g' : Heap T),
      writes.foldlM (fun g w => set' g x w.1 w.2) g = .ok g' → ∀ o, atOffset g' y o = atOffset g y o := by
    intro x y hxy writes
    induction writes with
    | nil => intro g g' hf o; cases hf; rfl
    | cons w ws ih =>
      intro g g' hf o
      rw [List.foldlM_cons] at hf
      cases hs : set' g x w.1 w.2 with
      | ok g1 =>
        rw [hs, Outcome.bind_ok] at hf
        rw [ih _ _ hf o, set_atOffset_other hs (fun he => hxy he.symm)]
      | throw e => rw [hs] at hf; cases hf
      | ub => rw [hs] at hf; cases hf
  constructor
  · intro ws hf
    apply iterate_congr
    intro o
    rw [key b v (by omega) ws _ _ hf o]
    unfold atOffset
    rw [List.getElem?_append_left (by omega)]
  · intro ws hf
    exact iterate_congr (key v b (by omega) ws _ _ hf)

example : ∃ h a h' b, mkData ([] : Heap Nat) [2, 2] [1, 2, 3, 4] = .ok (h, a) ∧ a.cid < h.length ∧
    copy h a = .ok (h', b) ∧ ∃ h'', [([0, 1], 9), ([1, 1], 8)].foldlM (fun g w => set' g b w.1 w.2) h' = .ok h'' ∧
    iterate h'' a = .ok [1, 2, 3, 4] ∧ iterate h'' b = .ok [1, 9, 3, 8] :=
  ⟨_, _, _, _, rfl, by decide, rfl, _, rfl, by decide, by decide⟩

/-! ## C08 -/

/-- **C08.** For every non-empty shape without zero dimension: `unravel_index(k, shape)` is the `k`-th coordinate vector in
row-major order if there is one, and throws otherwise. -/
theorem C08_unravel_index (shape : List Nat) (hne : shape ≠ []) (hpos : ∀ d ∈ shape, 0 < d) (k : Nat) :
    unravelIndex k shape = match (allCoords shape)[k]? with
      | some c => .ok c
      | none => .throw .outOfRange := by
  have hcp : 0 < card shape := card_pos_iff.2 hpos
  have hmod : k % card shape < (allCoords shape).length := by rw [allCoords_length]; exact Nat.mod_lt _ hcp
  obtain ⟨hv, hd⟩ := allCoords_getElem hmod
  have hloop := unravelLoop_spec _ hv (k / card shape)
  rw [hd, Nat.mul_comm (k / card shape), Nat.mod_add_div] at hloop
  rw [unravelIndex, if_neg hne, hloop, Outcome.bind_ok]
  simp only
  rcases Nat.lt_or_ge k (card shape) with hk | hk
  · have hk' : k < (allCoords shape).length := by rw [allCoords_length]; exact hk
    rw [List.getElem?_eq_getElem hk', if_neg (by rw [Nat.div_eq_of_lt hk]; omega)]
    simp only [Nat.mod_eq_of_lt hk]
  · rw [List.getElem?_eq_none (by rw [allCoords_length]; exact hk), if_pos (Nat.div_pos hk hcp)]

example : unravelIndex 4 [2, 3] = .ok [1, 1] ∧ (allCoords [2, 3])[4]? = some [1, 1] ∧
    unravelIndex 6 [2, 3] = .throw .outOfRange := by decide

/-- The hypotheses of C08 are needed: an empty shape and a zero dimension are undefined behaviour, not exceptions. -/
theorem C08_degenerate_shapes_ub : unravelIndex 0 [] = .ub ∧ unravelIndex 0 [2, 0] = .ub := by decide

/-! ## C60: attribute names -/

/-- Full statement of C60: reading an attribute through a slice reads the same attribute of the parent. -/
def C60_full : Prop :=
  ∀ (h h' : Heap Nat) (shape : List Nat) (attrs : List String) (data : List Nat) (a b : Nd) (i : Nat) (c : List Nat)
    (n : String), attrs.Nodup → n ∈ attrs → mkAttrs h shape attrs data = .ok (h', a) → slice a i = .ok b →
    Valid shape (i :: c) → atAttr h' b c n = atAttr h' a (i :: c) n

/-- C60 is violated by the code: `slice` drops the *first attribute name* instead of leaving the names of the last axis alone,
so names are shifted by one. Here the slice returns the value of attribute `x` under the name `y`. -/
theorem C60_attribute_of_slice_violated : ¬ C60_full := by
  intro hall
  have := hall [] [[1, 2, 3, 4]] [2] ["x", "y"] [1, 2, 3, 4] ⟨0, 0, [2, 2], [2, 1], ["x", "y"], 4⟩
    ⟨0, 0, [2], [1], ["y"], 2⟩ 0 [] "y" (by decide) (by decide) rfl rfl (by decide)
  revert this; decide

/-- **C60 (partial: the array itself).** In an array constructed with distinct attribute names, `at(coords, name)` of the `k`-th
name is the element `(coords, k)`, and an unknown name throws. -/
theorem C60_attribute_access_partial (h h' : Heap T) (shape : List Nat) (attrs : List String) (data : List T) (a : Nd)
    (hm : mkAttrs h shape attrs data = .ok (h', a)) (hnd : attrs.Nodup) (g : Heap T) (c : List Nat) :
    (∀ k (hk : k < attrs.length), atAttr g a c attrs[k] = at' g a (c ++ [k])) ∧
    (∀ n, n ∉ attrs → atAttr g a c n = .throw .outOfRange) := by
  have ha : a.attrs = attrs := by
    unfold mkAttrs at hm
    cases hd : mkData h (appendAttrShape shape attrs.length) data with
    | ok p => rw [hd] at hm; cases hm; rfl
    | throw e => rw [hd] at hm; cases hm
    | ub => rw [hd] at hm; cases hm
  constructor
  · intro k hk
    have hf : attrs.findIdx? (· == attrs[k]) = some k := by
      rw [List.findIdx?_eq_some_iff_getElem]
      refine ⟨hk, by simp, fun j hj => ?_⟩
      simp only [beq_iff_eq]
      intro he
      exact absurd (hnd.getElem_inj_iff.1 he) (by omega)
    rw [atAttr, at', getOffsetAttr, ha, hf]
  · intro n hn
    have hf : attrs.findIdx? (· == n) = none := by
      rw [List.findIdx?_eq_none_iff]
      intro x hx
      simp only [beq_eq_false_iff_ne, ne_eq]
      rintro rfl; exact hn hx
    rw [atAttr, getOffsetAttr, ha, hf]; rfl

example : ∃ h' a, mkAttrs ([] : Heap Nat) [2] ["x", "y"] [1, 2, 3, 4] = .ok (h', a) ∧ ["x", "y"].Nodup ∧
    atAttr h' a [1] "x" = .ok 3 := ⟨_, _, rfl, by decide, by decide⟩

/-! ## C61: equality -/

/-- **C61.** For two well-formed arrays or slices (any constructed array of fewer than `2^31` elements and its slices are
well-formed, `slices_wf`), `operator==` holds exactly if shapes and element sequences are equal. -/
theorem C61_equality [DecidableEq T] (h : Heap T) (a b : Nd) (ha : WF a) (hb : WF b) (la lb : List T)
    (hia : iterate h a = .ok la) (hib : iterate h b = .ok lb) :
    beq h a b = .ok (decide (a.shape = b.shape ∧ la = lb)) := by
  obtain ⟨u, hu, hca⟩ := ha.compat
  obtain ⟨v, hv, hcb⟩ := hb.compat
  obtain ⟨hla, hra⟩ := iterate_ok_spec (hca.getLast ha.rank) hia
  obtain ⟨hlb, hrb⟩ := iterate_ok_spec (hcb.getLast hb.rank) hib
  unfold beq
  split
  · rename_i hne; simp [hne]
  · rename_i hsh
    simp only [ne_eq, Decidable.not_not] at hsh
    rw [hca.getLast ha.rank, hcb.getLast hb.rank]
    simp only [hsh, true_and]
    have hsz : a.size = b.size := by rw [ha.size, hb.size, hsh]
    rw [hsz, Nat.min_self]
    cases la with
    | nil =>
      have : b.size = 0 := by simp at hla; omega
      rw [this]
      have : lb = [] := by apply List.length_eq_zero_iff.1; omega
      subst this; simp [eqLoop]
    | cons x xs =>
      rw [eqLoop_spec (fun i => (x :: xs).getD i x) (fun i => lb.getD i x)]
      · congr 1
        rw [decide_eq_decide]
        constructor
        · intro hall
          apply List.ext_getElem (by omega)
          intro i h1 h2
          have := hall i (by simp only [List.mem_range]; omega)
          rwa [List.getD_eq_getElem _ _ h1, List.getD_eq_getElem _ _ h2] at this
        · intro he i _; rw [he]
      · intro i hi
        simp only [List.mem_range] at hi
        rw [hra i (by omega), List.getD_eq_getElem]
      · intro i hi
        simp only [List.mem_range] at hi
        rw [hrb i (by omega), List.getD_eq_getElem]

/-- After `concatenate` the comparison looks at the old elements only: these arrays compare equal although element 1 differs. -/
theorem C61_equality_after_concatenate_violated :
    ∃ (g : Heap Nat) (a' c' : Nd), concatenate 0 [[7], [8], [7], [9]] ⟨0, 0, [1], [1], [], 1⟩ ⟨1, 0, [1], [1], [], 1⟩ = .ok (g, a') ∧
      ∃ g', concatenate 0 g ⟨2, 0, [1], [1], [], 1⟩ ⟨3, 0, [1], [1], [], 1⟩ = .ok (g', c') ∧
        beq g' a' c' = .ok true ∧ at' g' a' [1] = .ok 8 ∧ at' g' c' [1] = .ok 9 :=
  ⟨_, _, _, rfl, _, rfl, by decide, by decide, by decide⟩

example : ∃ h' a, mkData ([] : Heap Nat) [2, 2] [1, 2, 1, 2] = .ok (h', a) ∧ ∃ r s, slice a 0 = .ok r ∧ slice a 1 = .ok s ∧
    beq h' r s = .ok true := ⟨_, _, rfl, _, _, rfl, rfl, by decide⟩

end Alexandria.NdArray
