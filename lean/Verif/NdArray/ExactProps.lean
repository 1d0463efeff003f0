import Verif.NdArray.ExactLemmas

/-!
# Properties C05, C06, C07, C60, C61: what the code does where it differs from what is expected

The theorems named `_violated` in `Props2.lean` show single cases in which reshaping, copying, concatenating, comparing and
attribute names go wrong. Here the effect is stated for every view.
-/

namespace Alexandria.NdArray

open Spec

variable {T : Type}

/-! ## C05 -/

/-- **C05 (any view).** Reshaping any non-empty chain of slices, from either side, to a shape of as many elements succeeds, and the
reshaped array shows consecutive elements of the *whole* array, from the first element of the slice on (element number `k` of the
whole array). The order of the slice is kept only if the elements of the slice are consecutive. -/
theorem C05_reshape_any (h h' : Heap T) (shape : List Nat) (data : List T) (a b : Nd) (sts : List Step)
    (newShape : List Nat) (hm : mkData h shape data = .ok (h', a)) (hsmall : card shape < 2 ^ 31) (hne : shape ≠ [])
    (hb : slices a sts = .ok b) (hn : newShape ≠ []) (hcard : card newShape = card b.shape) (hpos : 0 < card b.shape) :
    ∃ b' k, reshape b newShape = .ok b' ∧ b'.shape = newShape ∧ b'.size = card newShape ∧
      (allCoords shape)[k]? = some (embed sts (b.shape.map fun _ => 0)) ∧
      iterate h' b' = .ok ((data.drop k).take (card newShape)) := by
  have hwa := mkData_wf hm hsmall hne
  have hwb := slices_wf hwa hb
  obtain ⟨hl, rfl, rfl⟩ := mkData_spec hm
  have hda : data.length = card shape := by rw [← hl, accU32_eq, Nat.mod_eq_of_lt (by omega)]
  have hbsm := hwb.small
  obtain ⟨hoff, hroom⟩ := slices_offset (updateStrides_compat shape) rfl hwa hb hpos
  have hcid := (slices_getOffset (updateStrides_compat shape).length_eq hb []).2.1
  have hat := slices_attrs rfl hb
  refine ⟨{ b with shape := newShape, strides := updateStrides newShape }, b.offset, ?_, rfl, ?_, hoff, ?_⟩
  · rw [reshape, if_neg (by simp [hat]), if_neg]
    rw [accI32_eq (by omega), hwb.size, hcard]; simp
  · simp [hwb.size, hcard]
  · rw [iterate_unit (updateStrides_compat newShape) hn]
    simp only [hwb.size]
    rw [hcard]
    apply collect_consecutive
    · rw [hcid]; simp
    · rw [hda]; exact hroom

/-- Test: the second column of a 2x3 array, reshaped, shows elements 1 and 2 instead of 1 and 4. -/
example : ∃ h' a b b', mkData ([] : Heap Nat) [2, 3] [0, 1, 2, 3, 4, 5] = .ok (h', a) ∧ slices a [.right 1] = .ok b ∧
    reshape b [1, 2] = .ok b' ∧ (allCoords [2, 3])[1]? = some (embed [.right 1] [0]) ∧ iterate h' b = .ok [1, 4] ∧
    iterate h' b' = .ok [1, 2] := ⟨_, _, _, _, rfl, rfl, rfl, by decide, by decide, by decide⟩

/-! ## C07 -/

/-- **C07 (any view).** The copy of any chain of slices has the shape of the slice, but shows the first elements of the whole
array, wherever the slice is. -/
theorem C07_copy_any (h h' : Heap T) (shape : List Nat) (data : List T) (a b : Nd) (sts : List Step)
    (hm : mkData h shape data = .ok (h', a)) (hsmall : card shape < 2 ^ 31) (hne : shape ≠ [])
    (hb : slices a sts = .ok b) :
    ∃ h'' b', copy h' b = .ok (h'', b') ∧ b'.shape = b.shape ∧ b'.size = card b.shape ∧
      iterate h'' b' = .ok (data.take (card b.shape)) ∧
      (allCoords b.shape).map (at' h'' b') = (data.take (card b.shape)).map .ok := by
  have hwa := mkData_wf hm hsmall hne
  have hwb := slices_wf hwa hb
  obtain ⟨hl, rfl, rfl⟩ := mkData_spec hm
  have hda : data.length = card shape := by rw [← hl, accU32_eq, Nat.mod_eq_of_lt (by omega)]
  have hbsm := hwb.small
  have hcid := (slices_getOffset (updateStrides_compat shape).length_eq hb []).2.1
  have hle : card b.shape ≤ data.length := by
    rcases Nat.eq_zero_or_pos (card b.shape) with h0 | hpos
    · omega
    · have := (slices_offset (updateStrides_compat shape) rfl hwa hb hpos).2
      simp only at this; omega
  have hsz : accU32 b.shape = card b.shape := by rw [accU32_eq, Nat.mod_eq_of_lt (by omega)]
  refine ⟨h ++ [data] ++ [data], ⟨(h ++ [data]).length, 0, b.shape, updateStrides b.shape, b.attrs, accU32 b.shape⟩, ?_, rfl, hsz,
    ?_, ?_⟩
  · simp [copy, hcid]
  · rw [iterate_unit (a := ⟨(h ++ [data]).length, 0, b.shape, updateStrides b.shape, b.attrs, accU32 b.shape⟩) (updateStrides_compat b.shape) hwb.rank]
    simp only [hsz]
    rw [collect_consecutive (data := data) (by simp) 0 _ (by omega)]
    simp
  · rw [whole_at (a := ⟨(h ++ [data]).length, 0, b.shape, updateStrides b.shape, b.attrs, accU32 b.shape⟩) rfl
      (updateStrides_compat _) (data := data) (by simp) hle]

/-- Test: the copy of the last row of a 2x3 array shows the first row. -/
example : ∃ h' a b h'' b', mkData ([] : Heap Nat) [2, 3] [0, 1, 2, 3, 4, 5] = .ok (h', a) ∧ slices a [.left 1] = .ok b ∧
    copy h' b = .ok (h'', b') ∧ iterate h' b = .ok [3, 4, 5] ∧ iterate h'' b' = .ok [0, 1, 2] :=
  ⟨_, _, _, _, _, rfl, rfl, rfl, by decide, by decide⟩

/-! ## C06 -/

/-- **C06 (the effect of one call).** If the container of the target has as many elements as the shape of the target says, then
concatenating an array or view `b` that iterates over `lb` (also one of the same container, also the target itself) appends `lb` to
the container, and fills up with value-initialised elements if `b` iterates over fewer elements than its shape says, as it does if
something was concatenated to it before. Of the target only the shape changes: neither size nor strides. -/
theorem C06_concatenate_effect (zero : T) (g : Heap T) (a b : Nd) (d d' : Nat) (ds : List Nat) (c lb : List T)
    (hsa : a.shape = d :: ds) (hsb : b.shape = d' :: ds) (hg : g[a.cid]? = some c) (hc : c.length = card (d :: ds))
    (hib : iterate g b = .ok lb) (hle : lb.length ≤ card (d' :: ds)) (hsmall : card ((d + d') :: ds) < 2 ^ 32) :
    concatenate zero g a b = .ok (g.set a.cid (c ++ (lb ++ List.replicate (card (d' :: ds) - lb.length) zero)),
      { a with shape := (d + d') :: ds }) := by
  have hcd : card ((d + d') :: ds) = card (d :: ds) + card (d' :: ds) := by simp only [card]; ring
  cases hlast : b.strides.getLast? with
  | none => rw [iterate, hlast] at hib; cases hib
  | some u =>
    obtain ⟨hlb, hrd⟩ := iterate_ok_spec hlast hib
    have hlt : a.cid < g.length := (List.getElem?_eq_some_iff.1 hg).1
    have hacc : accU32 ((d + d') :: ds) = card (d :: ds) + card (d' :: ds) := by
      rw [accU32_eq, Nat.mod_eq_of_lt hsmall, hcd]
    have hres : resizeVec zero c (accU32 ((d + d') :: ds)) = c ++ List.replicate (card (d' :: ds)) zero := by
      rw [resizeVec, hacc, List.take_of_length_le (by omega)]
      congr 2; omega
    obtain ⟨f, hf⟩ : ∃ f : Nat → T, ∀ i (hi : i < lb.length), f i = lb[i] :=
      ⟨fun i => lb.getD i zero, fun i hi => List.getD_eq_getElem _ _ hi⟩
    have hrange : b.cid = a.cid → ∀ i, i < b.size → b.offset + i * u < c.length := by
      intro he i hi
      have := hrd i (by omega)
      unfold atOffset at this
      rw [he, hg] at this
      simp only at this
      by_contra hge
      rw [List.getElem?_eq_none (by omega)] at this
      cases this
    have hcopy := copyLoop_same (other := b) (stride := u) (cid := a.cid) f (List.range b.size) c.length
      (g.set a.cid (c ++ List.replicate (card (d' :: ds)) zero)) (c ++ List.replicate (card (d' :: ds)) zero)
      (by simp [hlt]) (by simp; omega) (by
        intro i hi
        by_cases he : b.cid = a.cid
        · exact .inr (hrange he i (List.mem_range.1 hi))
        · exact .inl he)
      (by
        intro i hi
        have hi := List.mem_range.1 hi
        have hx := hrd i (by omega)
        by_cases he : b.cid = a.cid
        · unfold atOffset at hx ⊢
          rw [he, hg] at hx
          rw [he, List.getElem?_set_self hlt]
          simp only at hx ⊢
          rw [List.getElem?_append_left (hrange he i hi), hf i (by omega)]
          exact hx
        · rw [atOffset_set_ne he, hx, hf i (by omega)])
    have hmap : (List.range b.size).map f = lb := by
      rw [← hlb]
      have := map_getElem_range lb f id (fun i hi => by simp [hf i hi])
      simpa using this
    rw [hmap] at hcopy
    simp only [List.length_range, List.take_left, List.set_set] at hcopy
    have hdrop : (c ++ List.replicate (card (d' :: ds)) zero).drop (c.length + b.size) =
        List.replicate (card (d' :: ds) - lb.length) zero := by
      rw [← List.drop_drop, List.drop_left, List.drop_replicate, hlb]
    rw [hdrop, List.append_assoc] at hcopy
    rw [concatenate, if_neg (by simp [hsa, hsb]), if_neg (by simp [hsa, hsb])]
    simp only [hsa, hsb, hg, hlast, hres, hcopy, Outcome.bind_ok]
    rfl

/-- Test: an array concatenated to itself; and one to which something was concatenated before, of which only the first row comes. -/
example : concatenate 0 [[1, 2]] ⟨0, 0, [1, 2], [2, 1], [], 2⟩ ⟨0, 0, [1, 2], [2, 1], [], 2⟩ =
      .ok ([[1, 2, 1, 2]], ⟨0, 0, [2, 2], [2, 1], [], 2⟩) ∧
    iterate [[5, 6], [1, 2, 1, 2]] ⟨1, 0, [2, 2], [2, 1], [], 2⟩ = .ok [1, 2] ∧
    concatenate 0 [[5, 6], [1, 2, 1, 2]] ⟨0, 0, [1, 2], [2, 1], [], 2⟩ ⟨1, 0, [2, 2], [2, 1], [], 2⟩ =
      .ok ([[5, 6, 1, 2, 0, 0], [1, 2, 1, 2]], ⟨0, 0, [3, 2], [2, 1], [], 2⟩) := by decide

/-- **C06 (any number of calls).** Concatenating any list of arrays and views of other containers to a constructed array, one after
the other, always succeeds; by coordinates the array shows its own elements and then those of the others, while `size()` and
iteration are for ever those before the first call. -/
theorem C06_concatenate_chain (zero : T) (h h' g : Heap T) (d : Nat) (ds : List Nat) (da : List T) (a : Nd)
    (bs : List (Nd × List T)) (hm : mkData h (d :: ds) da = .ok (h', a)) (hg : g[a.cid]? = some da)
    (hbs : ∀ p ∈ bs, p.1.shape.tail = ds ∧ p.1.cid ≠ a.cid ∧ WF p.1 ∧ iterate g p.1 = .ok p.2)
    (hsmall : card ((d + (bs.map fun p => p.1.shape.headD 0).sum) :: ds) < 2 ^ 31) :
    ∃ g' a', bs.foldlM (fun s p => concatenate zero s.1 s.2 p.1) (g, a) = .ok (g', a') ∧
      a'.shape = (d + (bs.map fun p => p.1.shape.headD 0).sum) :: ds ∧
      (allCoords a'.shape).map (at' g' a') = (da ++ (bs.map (·.2)).flatten).map .ok ∧
      a'.size = card (d :: ds) ∧ iterate g' a' = .ok da := by
  have hle0 : card (d :: ds) ≤ card ((d + (bs.map fun p => p.1.shape.headD 0).sum) :: ds) := by
    simp only [card]; exact Nat.mul_le_mul_right _ (by omega)
  obtain ⟨hl, -, rfl⟩ := mkData_spec hm
  have hda : da.length = card (d :: ds) := by
    rw [← hl, accU32_eq, Nat.mod_eq_of_lt (by omega)]
  -- the invariant: the container holds `da ++ ext`, the shape says so, all else is as it was
  have key : ∀ (bs : List (Nd × List T)) (g : Heap T) (n : Nat) (ext : List T) (_ : g[h.length]? = some (da ++ ext))
      (_ : (da ++ ext).length = card (n :: ds)) (_ : card ((n + (bs.map fun p => p.1.shape.headD 0).sum) :: ds) < 2 ^ 31)
      (_ : ∀ p ∈ bs, p.1.shape.tail = ds ∧ p.1.cid ≠ h.length ∧ WF p.1 ∧ iterate g p.1 = .ok p.2),
      ∃ g', bs.foldlM (fun s p => concatenate zero s.1 s.2 p.1)
          (g, ⟨h.length, 0, n :: ds, updateStrides (d :: ds), [], accU32 (d :: ds)⟩) =
          .ok (g', ⟨h.length, 0, (n + (bs.map fun p => p.1.shape.headD 0).sum) :: ds, updateStrides (d :: ds), [],
            accU32 (d :: ds)⟩) ∧
        g'[h.length]? = some (da ++ (ext ++ (bs.map (·.2)).flatten)) ∧
        (da ++ (ext ++ (bs.map (·.2)).flatten)).length = card ((n + (bs.map fun p => p.1.shape.headD 0).sum) :: ds) := by
    intro bs
    induction bs with
    | nil => intro g n ext hg hlen _ _; exact ⟨g, rfl, by simpa using hg, by simpa using hlen⟩
    | cons p bs ih =>
      intro g n ext hg hlen hsm hbs
      obtain ⟨htl, hcid, hwp, hip⟩ := hbs p (by simp)
      have hps : p.1.shape = p.1.shape.headD 0 :: ds := by
        have := hwp.rank
        cases hsh : p.1.shape with
        | nil => exact absurd hsh this
        | cons x xs => rw [hsh] at htl; simp at htl; simp [htl]
      obtain ⟨u, hu, hcp⟩ := hwp.compat
      have hlp := (iterate_ok_spec (hcp.getLast hwp.rank) hip).1
      rw [hwp.size] at hlp
      have hlp' : p.2.length = card (p.1.shape.headD 0 :: ds) := by rw [hlp, ← hps]
      have hsum : n + ((p :: bs).map fun p => p.1.shape.headD 0).sum =
          (n + p.1.shape.headD 0) + (bs.map fun p => p.1.shape.headD 0).sum := by
        simp only [List.map_cons, List.sum_cons]; omega
      rw [hsum] at hsm ⊢
      have hle : card ((n + p.1.shape.headD 0) :: ds) ≤
          card ((n + p.1.shape.headD 0 + (bs.map fun p => p.1.shape.headD 0).sum) :: ds) := by
        simp only [card]; exact Nat.mul_le_mul_right _ (by omega)
      have hstep := C06_concatenate_effect zero g ⟨h.length, 0, n :: ds, updateStrides (d :: ds), [], accU32 (d :: ds)⟩
        p.1 n (p.1.shape.headD 0) ds (da ++ ext) p.2 rfl hps hg hlen hip (by omega) (by omega)
      rw [hlp', Nat.sub_self, List.replicate_zero, List.append_nil, List.append_assoc] at hstep
      have hlt : h.length < g.length := (List.getElem?_eq_some_iff.1 hg).1
      obtain ⟨g', hf, hg', hlen'⟩ := ih (g.set h.length (da ++ (ext ++ p.2))) (n + p.1.shape.headD 0) (ext ++ p.2)
        (by simp [hlt]) (by
          rw [← List.append_assoc, List.length_append, hlen, hlp']; simp only [card]; ring) hsm (by
          intro q hq
          obtain ⟨h1, h2, h3, h4⟩ := hbs q (by simp [hq])
          exact ⟨h1, h2, h3, by rw [← h4]; exact iterate_congr (fun o => atOffset_set_ne h2 _ _)⟩)
      refine ⟨g', ?_, ?_, ?_⟩
      · rw [List.foldlM_cons]
        beta_reduce
        rw [hstep, Outcome.bind_ok]
        exact hf
      · simpa using hg'
      · simpa using hlen'
  obtain ⟨g', hf, hg', hlen'⟩ := key bs g d [] (by simpa using hg) (by simpa using hda) hsmall hbs
  simp only [List.nil_append] at hg' hlen'
  refine ⟨g', _, hf, rfl, ?_, ?_, ?_⟩
  · have hcompat : Compat 1 ((d + (bs.map fun p => p.1.shape.headD 0).sum) :: ds) (updateStrides (d :: ds)) := by
      have := updateStrides_compat (d :: ds)
      match hus : updateStrides (d :: ds), this with
      | s :: ss, hc => exact hc
    have := whole_at (h := g') (a := ⟨h.length, 0, (d + (bs.map fun p => p.1.shape.headD 0).sum) :: ds,
      updateStrides (d :: ds), [], accU32 (d :: ds)⟩) (data := da ++ (bs.map (·.2)).flatten) rfl hcompat hg' (by
        simp only; rw [hlen'])
    rw [this, List.take_of_length_le (by simp only; rw [hlen'])]
  · simp only; rw [accU32_eq, Nat.mod_eq_of_lt (by omega)]
  · have hlast := (updateStrides_compat (d :: ds)).getLast (by simp)
    rw [iterate]
    simp only [hlast, Nat.mul_one, hl]
    rw [collect_consecutive hg' 0 _ (by simp)]
    simp

/-- Test: two arrays concatenated to a third; reading by coordinates shows six elements, iteration two. -/
example : ∃ g' a', [((⟨1, 0, [1, 2], [2, 1], [], 2⟩ : Nd), [3, 4]), (⟨2, 0, [1, 2], [2, 1], [], 2⟩, [5, 6])].foldlM
      (fun s p => concatenate 0 s.1 s.2 p.1) (([[1, 2], [3, 4], [5, 6]] : Heap Nat), ⟨0, 0, [1, 2], [2, 1], [], 2⟩) =
      .ok (g', a') ∧ a'.shape = [3, 2] ∧ at' g' a' [2, 1] = .ok 6 ∧ iterate g' a' = .ok [1, 2] ∧ a'.size = 2 :=
  ⟨_, _, rfl, rfl, by decide, by decide, rfl⟩

/-- **C06 (target a part of an array).** Concatenating anything that is not empty to a chain of slices with fewer elements than the
whole array, if the shapes fit, is undefined behaviour: the container is resized to the new size of the slice, but the elements are
written behind its old end. -/
theorem C06_concatenate_to_part_ub (zero : T) (h h' g : Heap T) (shape : List Nat) (data : List T) (a v b : Nd)
    (sts : List Step) (d d' : Nat) (ds : List Nat) (hm : mkData h shape data = .ok (h', a)) (hsmall : card shape < 2 ^ 31)
    (hne : shape ≠ []) (hg : g[a.cid]? = some data) (hv : slices a sts = .ok v) (hvs : v.shape = d :: ds)
    (hbs : b.shape = d' :: ds) (hwb : WF b) (hpart : card v.shape < card shape) (hbpos : 0 < card b.shape)
    (hsum : card ((d + d') :: ds) < 2 ^ 32) :
    concatenate zero g v b = .ub := by
  have hcd : card ((d + d') :: ds) = card (d :: ds) + card (d' :: ds) := by simp only [card]; ring
  obtain ⟨hl, -, rfl⟩ := mkData_spec hm
  have hda : data.length = card shape := by rw [← hl, accU32_eq, Nat.mod_eq_of_lt (by omega)]
  have hcid := (slices_getOffset (updateStrides_compat shape).length_eq hv []).2.1
  simp only at hcid hg
  obtain ⟨u, hu, hcb⟩ := hwb.compat
  have hlast := hcb.getLast hwb.rank
  have hlt : h.length < g.length := (List.getElem?_eq_some_iff.1 hg).1
  rw [concatenate, if_neg (by simp [hvs, hbs]), if_neg (by simp [hvs, hbs])]
  simp only [hvs, hbs, hcid, hg, hlast]
  have hbz := hwb.size
  rw [copyLoop_ub (List.range b.size) (by
      intro h0
      have := congrArg List.length h0
      simp at this; omega) data.length _ (resizeVec zero data (accU32 ((d + d') :: ds))) (by simp [hlt]) (by
      rw [accU32_eq, Nat.mod_eq_of_lt hsum]
      rw [hvs] at hpart
      rw [hbs] at hbz
      simp only [resizeVec, List.length_append, List.length_take, List.length_replicate, List.length_range, hbz]
      omega)]
  rfl

/-- Test: a row of a 3x2 array, to which two elements are to be concatenated. -/
example : ∃ h a v, mkData ([] : Heap Nat) [3, 2] [0, 1, 2, 3, 4, 5] = .ok (h, a) ∧ slices a [.left 0] = .ok v ∧
    v.shape = [2] ∧ card v.shape < card [3, 2] ∧ WF (⟨1, 0, [2], [1], [], 2⟩ : Nd) ∧
    concatenate 0 (h ++ [[8, 9]]) v ⟨1, 0, [2], [1], [], 2⟩ = .ub :=
  ⟨_, _, _, rfl, rfl, rfl, by decide, ⟨⟨1, by decide, by simp [Compat, card]⟩, by decide, by decide, by decide⟩, by decide⟩

/-! ## C60 -/

/-- **C60 (slices of arrays with attributes).** Let `a` be constructed with distinct attribute names. In `a.slice(i)` the first name
is gone and each other name stands for the attribute before it. In `a.rslice(i)` the last name is gone, and the other names stand
for the elements of attribute `i` along the last proper axis. -/
theorem C60_attribute_of_slices (h h' : Heap T) (shape : List Nat) (attrs : List String) (data : List T) (a : Nd)
    (hm : mkAttrs h shape attrs data = .ok (h', a)) (hnd : attrs.Nodup) (g : Heap T) (b : Nd) (i : Nat) (c : List Nat) :
    (slice a i = .ok b →
      (∀ n, attrs.head? = some n → atAttr g b c n = .throw .outOfRange) ∧
      (∀ k n m, attrs[k]? = some n → attrs[k + 1]? = some m → atAttr g b c m = atAttr g a (i :: c) n)) ∧
    (rslice a i = .ok b →
      (∀ n, attrs.getLast? = some n → atAttr g b c n = .throw .outOfRange) ∧
      (∀ k n, attrs[k]? = some n → k + 1 < attrs.length → atAttr g b c n = at' g a (c ++ [k] ++ [i]))) := by
  have ha : a.attrs = attrs ∧ a.strides.length = a.shape.length := by
    unfold mkAttrs at hm
    cases hd : mkData h (appendAttrShape shape attrs.length) data with
    | ok p =>
      rw [hd] at hm
      cases hm
      obtain ⟨_, _, h2⟩ := mkData_spec (show mkData h _ data = .ok (p.1, p.2) from hd)
      refine ⟨rfl, ?_⟩
      show p.2.strides.length = p.2.shape.length
      rw [h2]; exact updateStrides_length _
    | throw e => rw [hd] at hm; cases hm
    | ub => rw [hd] at hm; cases hm
  obtain ⟨hat, hlen⟩ := ha
  have find_none : ∀ (l : List String) n, n ∉ l → l.findIdx? (· == n) = none := by
    intro l n hn
    rw [List.findIdx?_eq_none_iff]
    intro x hx
    simp only [beq_eq_false_iff_ne, ne_eq]
    rintro rfl; exact hn hx
  have find_some : ∀ (l : List String), l.Nodup → ∀ k n, l[k]? = some n → l.findIdx? (· == n) = some k := by
    intro l hl k n hk
    obtain ⟨hlt, rfl⟩ := List.getElem?_eq_some_iff.1 hk
    rw [List.findIdx?_eq_some_iff_getElem]
    refine ⟨hlt, by simp, fun j hj => ?_⟩
    simp only [beq_iff_eq]
    intro he
    exact absurd (hl.getElem_inj_iff.1 he) (by omega)
  constructor
  · intro hb
    have hba : b.attrs = attrs.tail ∧ b.cid = a.cid := by
      obtain ⟨d, d', ds, s, ss, h1, h2, hi, rfl⟩ := slice_spec hb; exact ⟨by simp [hat], rfl⟩
    have hget : ∀ o, atOffset g b o = atOffset g a o := fun o => by unfold atOffset; rw [hba.2]
    constructor
    · intro n hn
      have : n ∉ attrs.tail := by
        cases attrs with
        | nil => simp
        | cons x xs => simp at hn; subst hn; exact (List.nodup_cons.1 hnd).1
      rw [atAttr, getOffsetAttr, hba.1, find_none _ _ this]; rfl
    · intro k n m hn hm'
      have htl : attrs.tail[k]? = some m := by rw [List.getElem?_tail]; exact hm'
      have hnt : attrs.tail.Nodup := hnd.sublist (List.tail_sublist _)
      rw [atAttr, getOffsetAttr, hba.1, find_some _ hnt _ _ htl, atAttr, getOffsetAttr, hat, find_some _ hnd _ _ hn]
      simp only [slice_getOffset hlen hb, List.cons_append, hget]
  · intro hb
    have hba : b.attrs = attrs.dropLast ∧ b.cid = a.cid := by
      obtain ⟨ds, d, ss, s, hne, h1, h2, hi, rfl⟩ := rslice_spec hb; exact ⟨by simp [hat], rfl⟩
    have hget : ∀ o, atOffset g b o = atOffset g a o := fun o => by unfold atOffset; rw [hba.2]
    constructor
    · intro n hn
      have : n ∉ attrs.dropLast := by
        have hne : attrs ≠ [] := by rintro rfl; simp at hn
        have hs := List.dropLast_append_getLast hne
        rw [List.getLast?_eq_some_getLast hne] at hn
        rw [Option.some.inj hn] at hs
        rw [← hs, List.nodup_append] at hnd
        intro hmem
        exact hnd.2.2 n hmem n (by simp) rfl
      rw [atAttr, getOffsetAttr, hba.1, find_none _ _ this]; rfl
    · intro k n hn hk
      have hdl : attrs.dropLast[k]? = some n := by
        rw [List.getElem?_dropLast, if_pos (by omega)]; exact hn
      have hnt : attrs.dropLast.Nodup := hnd.sublist (List.dropLast_sublist _)
      rw [atAttr, getOffsetAttr, hba.1, find_some _ hnt _ _ hdl, at']
      simp only [rslice_getOffset hlen hb, hget]

/-- Test: two rows with the attributes `x`, `y`; `y` of the second row is its `x`; in the column `y` the name `x` is row 0. -/
example : ∃ h' a b v, mkAttrs ([] : Heap Nat) [2] ["x", "y"] [1, 2, 3, 4] = .ok (h', a) ∧ ["x", "y"].Nodup ∧
    slice a 1 = .ok b ∧ atAttr h' b [] "y" = .ok 3 ∧ atAttr h' a [1] "x" = .ok 3 ∧ atAttr h' b [] "x" = .throw .outOfRange ∧
    rslice a 1 = .ok v ∧ atAttr h' v [] "x" = .ok 2 ∧ at' h' a [0, 1] = .ok 2 :=
  ⟨_, _, _, _, rfl, by decide, rfl, by decide, by decide, by decide, rfl, by decide, by decide⟩

/-! ## C61 -/

/-- **C61 (any arrays).** `operator==` compares the shapes and then the elements over which both arrays iterate, up to the shorter
sequence. (Equal shapes with sequences of different lengths exist after `concatenate`.) -/
theorem C61_equality_any [DecidableEq T] (h : Heap T) (a b : Nd) (la lb : List T)
    (hia : iterate h a = .ok la) (hib : iterate h b = .ok lb) :
    beq h a b = .ok (decide (a.shape = b.shape ∧ (la <+: lb ∨ lb <+: la))) := by
  cases hsa : a.strides.getLast? with
  | none => rw [iterate, hsa] at hia; cases hia
  | some sa =>
  cases hsb : b.strides.getLast? with
  | none => rw [iterate, hsb] at hib; cases hib
  | some sb =>
  obtain ⟨hla, hra⟩ := iterate_ok_spec hsa hia
  obtain ⟨hlb, hrb⟩ := iterate_ok_spec hsb hib
  unfold beq
  by_cases hsh : a.shape = b.shape
  · rw [if_neg (by simpa using hsh), hsa, hsb]
    simp only [hsh, true_and]
    have hpre : (la <+: lb ∨ lb <+: la) ↔ ∀ i (h1 : i < la.length) (h2 : i < lb.length), la[i] = lb[i] := by
      constructor
      · rintro (hp | hp) i h1 h2
        · exact hp.getElem h1
        · exact (hp.getElem h2).symm
      · intro hall
        rcases Nat.le_total la.length lb.length with hle | hle
        · left
          rw [List.prefix_iff_eq_take]
          apply List.ext_getElem (by simp; omega)
          intro i h1 h2
          simp only [List.getElem_take]
          exact hall i h1 (by omega)
        · right
          rw [List.prefix_iff_eq_take]
          apply List.ext_getElem (by simp; omega)
          intro i h1 h2
          simp only [List.getElem_take]
          exact (hall i (by omega) h1).symm
    cases la with
    | nil =>
      have : a.size = 0 := by simpa using hla.symm
      rw [this]
      simp [eqLoop]
    | cons x xs =>
      rw [eqLoop_spec (fun i => (x :: xs).getD i x) (fun i => lb.getD i x)]
      · congr 1
        rw [decide_eq_decide, hpre]
        constructor
        · intro hall i h1 h2
          have := hall i (by simp only [List.mem_range]; omega)
          rwa [List.getD_eq_getElem _ _ h1, List.getD_eq_getElem _ _ h2] at this
        · intro hall i hi
          simp only [List.mem_range] at hi
          rw [List.getD_eq_getElem _ _ (by omega), List.getD_eq_getElem _ _ (by omega)]
          exact hall i _ _
      · intro i hi
        simp only [List.mem_range] at hi
        rw [hra i (by omega), List.getD_eq_getElem]
      · intro i hi
        simp only [List.mem_range] at hi
        rw [hrb i (by omega), List.getD_eq_getElem]
  · rw [if_pos hsh]; simp [hsh]

/-- Test: two arrays of shape 2, of which the first was one element long before the second was concatenated to it. -/
example : iterate [[7, 8], [7, 9]] ⟨0, 0, [2], [1], [], 1⟩ = .ok [7] ∧ iterate [[7, 8], [7, 9]] ⟨1, 0, [2], [1], [], 2⟩ = .ok [7, 9] ∧
    beq [[7, 8], [7, 9]] ⟨0, 0, [2], [1], [], 1⟩ ⟨1, 0, [2], [1], [], 2⟩ = .ok true := by decide

end Alexandria.NdArray
