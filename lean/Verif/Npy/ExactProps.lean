import Verif.Npy.Props

/-! # Exactly what is read from a file that ends early (C76) -/

namespace Alexandria.Npy

open Alexandria.Str Alexandria.NdArray.Spec Spec

variable {T : Type}

/-- Reading an array whose header was read, and then whatever follows. -/
theorem read_after_header (E : Elem T) (g : NdArray.Heap T) (s : List Nat) (attrs : List String)
    (hpos : 0 < card (NdArray.appendAttrShape s attrs.length))
    (hsmall : card (NdArray.appendAttrShape s attrs.length) < 2 ^ 31)
    (input body : Bytes) (hread : readHeader input = .ok (⟨false, false, E.dtype.str, s, attrs.map String.toList, NdArray.accI32 s⟩, body)) :
    readNpy E g input =
      .ok (g ++ [decodeAll E (card (NdArray.appendAttrShape s attrs.length))
        (readZero (E.dtype.size * card (NdArray.appendAttrShape s attrs.length)) body).1], ⟨g.length, 0, NdArray.appendAttrShape s attrs.length, NdArray.updateStrides (NdArray.appendAttrShape s attrs.length),
        attrs, card (NdArray.appendAttrShape s attrs.length)⟩) := by
  have hposs : ∀ d ∈ s, 0 < d := fun d hd => NdArray.card_pos_iff.mp hpos d (by
    rw [NdArray.appendAttrShape]; split <;> simp [hd])
  have hcard : card (NdArray.appendAttrShape s attrs.length) = card s * (if attrs.length ≠ 0 then attrs.length else 1) := by
    rw [NdArray.appendAttrShape]
    split
    · rw [NdArray.card_append]; simp [card]
    · simp
  have hcs : 0 < card s := NdArray.card_pos_iff.mpr hposs
  have hle : card s ≤ card (NdArray.appendAttrShape s attrs.length) := by
    rw [hcard]
    exact Nat.le_mul_of_pos_right _ (by split <;> omega)
  rw [readNpy, hread]
  simp only [Outcome.bind_ok, ne_eq, not_true_eq_false, if_false, List.map_eq_nil_iff, List.length_map, map_toList_ofList]
  have hn : (if ¬attrs = [] then NdArray.accI32 s * attrs.length % 2 ^ 64 else NdArray.accI32 s) =
      card (NdArray.appendAttrShape s attrs.length) := by
    rw [NdArray.accI32_eq (by omega), hcard]
    by_cases ha : attrs = []
    · subst ha; simp
    · have hal : attrs.length ≠ 0 := by simpa using ha
      rw [if_pos ha, if_pos hal]
      rw [hcard, if_pos hal] at hsmall
      exact Nat.mod_eq_of_lt (by omega)
  rw [hn, if_neg (by omega)]
  have hdl : ∀ n (x : Bytes), (decodeAll E n x).length = n := by
    intro n
    induction n with
    | zero => intro x; rfl
    | succ n ih => intro x; simp [decodeAll, ih]
  rw [NdArray.mkAttrs, NdArray.mkData, NdArray.accU32_eq, Nat.mod_eq_of_lt (by omega), if_neg (by simp [hdl])]
  rfl


/-- A written file that ends after its dictionary, perhaps in the padding: the header is read, and the rest of the file follows. -/
theorem readHeader_cut (d : Dtype) {attrs : List Bytes} (ha : ∀ a ∈ attrs, SafeName a) {s : List Nat} (hne : s ≠ []) (hb : ∀ n ∈ s, n < 2 ^ 64)
    (hlen : (dict d.str attrs s).length + 65 < 2 ^ 32) (body : Bytes) (k : Nat) (hk : 12 + (dict d.str attrs s).length ≤ k) :
    readHeader ((headerBytes d.str attrs s ++ body).take k) =
      .ok (⟨false, false, d.str, s, attrs, NdArray.accI32 s⟩, body.take (k - (headerBytes d.str attrs s).length)) := by
  obtain ⟨j, hp, _, hpl⟩ := padHeader_eq (dict d.str attrs s)
  have hH : headerBytes d.str attrs s = magic ++ version ++ le32 (padHeader (dict d.str attrs s)).length ++ padHeader (dict d.str attrs s) := by
    rw [headerBytes, Nat.mod_eq_of_lt (by omega)]
  have hHl : (headerBytes d.str attrs s).length = 12 + (padHeader (dict d.str attrs s)).length := by
    rw [hH]; simp [magic, version, le32]; omega
  by_cases hge : (headerBytes d.str attrs s).length ≤ k
  · rw [List.take_append, List.take_of_length_le hge, readHeader_written d ha hne hb hlen]
  · have hlt : k < (headerBytes d.str attrs s).length := Nat.lt_of_not_le hge
    rw [List.take_append_of_le_length (Nat.le_of_lt hlt), Nat.sub_eq_zero_of_le (Nat.le_of_lt hlt), List.take_zero]
    generalize hN : padHeader (dict d.str attrs s) = N at *
    have e0 : (headerBytes d.str attrs s).take k = magic ++ version ++ le32 N.length ++ N.take (k - 12) := by
      rw [hH, List.take_append, List.take_of_length_le (by simp [magic, version, le32]; omega)]
      congr 2
    have eN : N.take (k - 12) = dict d.str attrs s ++ (List.replicate j ' ' ++ ['\n']).take (k - 12 - (dict d.str attrs s).length) := by
      rw [hp, List.take_append, List.take_of_length_le (by omega)]
    have e1 : readExact 6 (magic ++ version ++ le32 N.length ++ N.take (k - 12)) = .ok (magic, version ++ le32 N.length ++ N.take (k - 12)) := by
      simp [readExact, magic]
    have e2 : readExact 2 (version ++ le32 N.length ++ N.take (k - 12)) = .ok (version, le32 N.length ++ N.take (k - 12)) := by
      simp [readExact, version]
    have e3 : readExact 4 (le32 N.length ++ N.take (k - 12)) = .ok (le32 N.length, N.take (k - 12)) := by
      simp [readExact, le32]
    have hp2 : parseDict (readZero N.length (N.take (k - 12))).1 = .ok ⟨false, false, d.str, s, attrs, NdArray.accI32 s⟩ := by
      rw [readZero, List.take_of_length_le (by simp), eN, List.append_assoc]
      apply parseDict_dict d ha hne hb
      rw [← List.append_assoc, ← eN]
      simp only [List.length_append, List.length_replicate, List.length_take]
      omega
    have hr : (readZero N.length (N.take (k - 12))).2 = [] := by
      rw [readZero, List.drop_eq_nil_of_le (by simp)]
    rw [e0]
    unfold readHeader
    rw [e1]
    simp only [Outcome.bind_ok, ne_eq, not_true_eq_false, if_false]
    rw [e2]
    simp only [Outcome.bind_ok]
    rw [if_neg (by decide), if_neg (by decide), e3]
    simp only [Outcome.bind_ok, le32_val (show N.length < 2 ^ 32 by omega), hp2, hr, Bool.false_eq_true, if_false, Outcome.pure_eq,
      if_neg (parseDict_set hp2 (dtype_ne_nil d))]

/-- The elements of a data section that ends early. -/
theorem decodeAll_cut (E : Elem T) (l : List T) (m : Nat) (i : Nat) (x : T) (hx : l[i]? = some x) :
    (decodeAll E l.length ((l.flatMap E.enc).take m ++ List.replicate (E.dtype.size * l.length - m) '\x00'))[i]? =
      some (E.dec ((E.enc x).take (m - i * E.dtype.size) ++ List.replicate (E.dtype.size - (m - i * E.dtype.size)) '\x00')) := by
  induction l generalizing m i with
  | nil => cases hx
  | cons y l ih =>
    have hy := E.enc_length y
    rw [List.length_cons, decodeAll, List.flatMap_cons]
    cases i with
    | zero =>
      cases hx
      rw [List.getElem?_cons_zero]
      congr 2
      rw [Nat.zero_mul, Nat.sub_zero]
      by_cases hm : m ≤ E.dtype.size
      · have e : (E.enc x ++ l.flatMap E.enc).take m = (E.enc x).take m := List.take_append_of_le_length (by omega)
        have hlen : ((E.enc x).take m).length = m := by rw [List.length_take]; omega
        rw [e, List.take_append, List.take_of_length_le (by omega), List.take_replicate, hlen]
        congr 2
        rw [Nat.mul_succ]; omega
      · have e : (E.enc x ++ l.flatMap E.enc).take m = E.enc x ++ (l.flatMap E.enc).take (m - E.dtype.size) := by
          rw [List.take_append, List.take_of_length_le (by omega), hy]
        rw [e, List.append_assoc, List.take_append_of_le_length (by omega), Nat.sub_eq_zero_of_le (by omega), List.replicate_zero, List.append_nil,
          List.take_of_length_le (by omega), List.take_of_length_le (by omega)]
    | succ i =>
      rw [List.getElem?_cons_succ] at hx ⊢
      have := ih (m - E.dtype.size) i hx
      rw [show m - (i + 1) * E.dtype.size = m - E.dtype.size - i * E.dtype.size by rw [Nat.succ_mul]; omega, ← this]
      congr 2
      by_cases hm : m ≤ E.dtype.size
      · rw [List.take_append_of_le_length (by omega), Nat.sub_eq_zero_of_le hm, List.take_zero, List.nil_append, List.drop_append,
          List.drop_eq_nil_of_le (by simp; omega), List.nil_append, List.drop_replicate]
        congr 1
        simp only [List.length_take, hy, Nat.mul_succ]
        omega
      · rw [List.take_append, List.take_of_length_le (by omega), List.append_assoc, List.drop_append, List.drop_eq_nil_of_le (by omega), hy,
          Nat.sub_self, List.drop_zero, List.nil_append]
        congr 2
        rw [Nat.mul_succ]; omega

/-- **C76 (exactly).** A written file that ends after `k` bytes: with fewer than 12 bytes its reading is undefined; if the dictionary of the header is complete, an
array of the written shape and names is read, in which element `i` has those of its bytes that the file still has, and zero for the others.
(Files that end inside the dictionary are not covered.) -/
theorem C76_cut_anywhere_partial (E : Elem T) (g : NdArray.Heap T) (s : List Nat) (attrs : List String) (l : List T)
    (hsafe : ∀ n ∈ attrs, SafeName n.toList) (hne : s ≠ []) (hl : l.length = card (NdArray.appendAttrShape s attrs.length))
    (hpos : ∀ d ∈ s, 0 < d) (hsmall : card (NdArray.appendAttrShape s attrs.length) < 2 ^ 31)
    (hlen : (dict E.dtype.str (attrs.map String.toList) s).length + 65 < 2 ^ 32) :
    ∃ hd, writeHeader E.dtype.str (NdArray.appendAttrShape s attrs.length) (attrs.map String.toList) = .ok hd ∧
      12 + (dict E.dtype.str (attrs.map String.toList) s).length < hd.length ∧
      (∀ k < 12, readNpy E g ((hd ++ l.flatMap E.enc).take k) = .ub) ∧
      ∀ k, 12 + (dict E.dtype.str (attrs.map String.toList) s).length ≤ k →
        ∃ cells a', readNpy E g ((hd ++ l.flatMap E.enc).take k) = .ok (g ++ [cells], a') ∧
          a' = ⟨g.length, 0, NdArray.appendAttrShape s attrs.length, NdArray.updateStrides (NdArray.appendAttrShape s attrs.length), attrs, l.length⟩ ∧
          cells.length = l.length ∧
          ∀ (i : Nat) x, l[i]? = some x → cells[i]? = some (E.dec ((E.enc x).take (k - hd.length - i * E.dtype.size) ++
            List.replicate (E.dtype.size - (k - hd.length - i * E.dtype.size)) '\x00')) := by
  have hP : 0 < card (NdArray.appendAttrShape s attrs.length) := by
    apply NdArray.card_pos_iff.mpr
    intro d hd'
    rw [NdArray.appendAttrShape] at hd'
    split at hd'
    · rcases List.mem_append.mp hd' with h | h
      · exact hpos d h
      · rw [List.mem_singleton.mp h]; omega
    · exact hpos d hd'
  have hw := writeHeader_ok E.dtype.str s (attrs.map String.toList)
  rw [List.length_map] at hw
  have hbound : ∀ (s : List Nat), (∀ d ∈ s, 0 < d) → ∀ n ∈ s, n ≤ card s := by
    intro s
    induction s with
    | nil => intro _ n hn; cases hn
    | cons d ds ih =>
      intro hp n hn
      have hd : 0 < card ds := NdArray.card_pos_iff.mpr fun x hx => hp x (by simp [hx])
      rw [card]
      rcases List.mem_cons.mp hn with rfl | hn
      · exact Nat.le_mul_of_pos_right _ hd
      · exact Nat.le_trans (ih (fun x hx => hp x (by simp [hx])) n hn) (Nat.le_mul_of_pos_left _ (hp d (by simp)))
  have hle : card s ≤ card (NdArray.appendAttrShape s attrs.length) := by
    rw [NdArray.appendAttrShape]
    split
    · rw [NdArray.card_append]
      exact Nat.le_mul_of_pos_right _ (by simp [card]; omega)
    · exact Nat.le_refl _
  have hdl : ∀ n (x : Bytes), (decodeAll E n x).length = n := by
    intro n
    induction n with
    | zero => intro x; rfl
    | succ n ih => intro x; simp [decodeAll, ih]
  have hHl : (headerBytes E.dtype.str (attrs.map String.toList) s).length = 12 + (padHeader (dict E.dtype.str (attrs.map String.toList) s)).length := by
    rw [headerBytes]; simp [magic, version, le32]; omega
  refine ⟨_, hw, ?_, ?_, ?_⟩
  · obtain ⟨j, hp, _, _⟩ := padHeader_eq (dict E.dtype.str (attrs.map String.toList) s)
    rw [hHl, hp]
    simp
  · intro k hk
    have : readHeader ((headerBytes E.dtype.str (attrs.map String.toList) s ++ l.flatMap E.enc).take k) = .ub := by
      rw [headerBytes]
      simp only [List.append_assoc]
      generalize (le32 ((padHeader (dict E.dtype.str (attrs.map String.toList) s)).length % 2 ^ 32) ++
        (padHeader (dict E.dtype.str (attrs.map String.toList) s) ++ l.flatMap E.enc)) = z
      unfold readHeader
      by_cases h6 : k < 6
      · rw [readExact, if_pos (by simp; omega)]
        rfl
      · have e1 : readExact 6 ((magic ++ (version ++ z)).take k) = .ok (magic, (version ++ z).take (k - 6)) := by
          rw [List.take_append, List.take_of_length_le (by simp [magic]; omega)]
          simp [readExact, magic]
        rw [e1]
        simp only [Outcome.bind_ok, ne_eq, not_true_eq_false, if_false]
        by_cases h8 : k < 8
        · rw [readExact, if_pos (by simp; omega)]
          rfl
        · have e2 : readExact 2 ((version ++ z).take (k - 6)) = .ok (version, z.take (k - 8)) := by
            rw [List.take_append, List.take_of_length_le (by simp [version]; omega)]
            rw [readExact, if_neg (by simp [version])]
            simp [version, Nat.sub_sub]
          rw [e2]
          simp only [Outcome.bind_ok]
          rw [if_neg (by decide), if_neg (by decide), readExact, if_pos (by simp; omega)]
          rfl
    rw [readNpy, this]
    rfl
  · intro k hk
    have hr := readHeader_cut E.dtype (attrs := attrs.map String.toList) (by simpa using hsafe) hne
      (fun n hn => by have := hbound s hpos n hn; omega) hlen (l.flatMap E.enc) k hk
    have := read_after_header E g s attrs hP hsmall _ _ hr
    rw [← hl] at this
    refine ⟨_, _, this, rfl, hdl _ _, ?_⟩
    intro i x hx
    generalize k - (headerBytes E.dtype.str (attrs.map String.toList) s).length = m
    have hz : (readZero (E.dtype.size * l.length) ((l.flatMap E.enc).take m)).1 =
        (l.flatMap E.enc).take m ++ List.replicate (E.dtype.size * l.length - m) '\x00' := by
      rw [readZero, List.take_of_length_le (by rw [List.length_take, enc_flat_length]; omega), List.length_take, enc_flat_length]
      generalize E.dtype.size * l.length = n
      rw [show n - min m n = n - m by omega]
    rw [hz]
    exact decodeAll_cut E l m i x hx

/-- The file of an array of three elements that ends in the padding of the header, and one that ends in the length of the header. -/
example : ∃ b, writeNpy byteElem [[1, 2, 3]] ⟨0, 0, [3], [1], [], 3⟩ = .ok b ∧ b.length = 131 ∧
    readNpy byteElem [] (b.take 100) = .ok ([[0, 0, 0]], ⟨0, 0, [3], [1], [], 3⟩) ∧ readNpy byteElem [] (b.take 11) = .ub :=
  ⟨_, rfl, by decide +kernel, by decide +kernel, by decide +kernel⟩

end Alexandria.Npy
