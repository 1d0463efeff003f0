import Verif.Npy.Header

/-!
# Properties of npy files
-/

namespace Alexandria.Npy

open Alexandria.Str Alexandria.NdArray.Spec Spec

variable {T : Type}

/-- `NdArray<uint8_t>`: one byte per element. -/
def byteElem : Elem (Fin 256) where
  dtype := .u8
  enc x := [Char.ofNat x.val]
  dec s := match s with
    | c :: _ => Fin.ofNat 256 c.toNat
    | [] => 0
  enc_length _ := rfl
  dec_enc x := by
    have h : x.val.isValidChar := Or.inl (by have := x.isLt; omega)
    have : (Char.ofNat x.val).toNat = x.val := by
      simp only [Char.ofNat, h, dif_pos]
      rfl
    simp only [this]
    exact Fin.ext (Nat.mod_eq_of_lt x.isLt)

/-! ## C10: alignment -/

/-- **C10**: the data section starts at a multiple of 64, for every header; the header ends in a newline; the length field is the
length of the dictionary when that fits in 32 bits. -/
theorem C10_header_alignment (ty : Bytes) (shape : List Nat) (attrs : List Bytes) (b : Bytes)
    (h : writeHeader ty shape attrs = .ok b) :
    b.length % 64 = 0 ∧ b.getLast? = some '\n' ∧ b.take 8 = ['\x93', 'N', 'U', 'M', 'P', 'Y', '\x02', '\x00'] ∧
      (b.length < 2 ^ 32 → leVal ((b.drop 8).take 4) = b.length - 12) := by
  obtain ⟨s, _, rfl⟩ := writeHeader_spec h
  obtain ⟨k, he, hal, _⟩ := padHeader_eq (dict ty attrs s)
  rw [headerBytes]
  generalize hP : padHeader (dict ty attrs s) = P at he hal ⊢
  have hlen : (magic ++ version ++ le32 (P.length % 2 ^ 32) ++ P).length = 12 + P.length := by
    simp [magic, version, le32]; omega
  refine ⟨by rw [hlen]; exact hal, ?_, by simp [magic, version], ?_⟩
  · rw [he]
    simp only [← List.append_assoc]
    simp
  · intro hlt
    rw [hlen] at hlt ⊢
    have : ((magic ++ version ++ le32 (P.length % 2 ^ 32) ++ P).drop 8).take 4 = le32 (P.length % 2 ^ 32) := by
      simp [magic, version, le32]
    rw [this, Nat.mod_eq_of_lt (by omega), le32_val (by omega)]
    omega

example : ∃ b, writeHeader Dtype.f64.str [3, 2] ["x".toList, "y".toList] = .ok b ∧ b.length = 128 :=
  ⟨_, rfl, by decide +kernel⟩

/-- The header is written for every shape whose last axis matches the names, and refused otherwise. -/
theorem C10_header_written_iff (ty : Bytes) (shape : List Nat) (attrs : List Bytes) (hne : shape ≠ []) :
    (∃ b, writeHeader ty shape attrs = .ok b) ↔ (attrs = [] ∨ shape.getLast? = some attrs.length) := by
  constructor
  · rintro ⟨b, hb⟩
    obtain ⟨s, hs, _⟩ := writeHeader_spec hb
    by_cases hn : attrs = []
    · exact .inl hn
    · right
      rw [hs, NdArray.appendAttrShape, if_pos (by simpa using hn)]
      simp
  · rintro (rfl | h)
    · exact ⟨_, rfl⟩
    · by_cases hn : attrs = []
      · subst hn; exact ⟨_, rfl⟩
      · obtain ⟨ys, rfl⟩ := List.getLast?_eq_some_iff.mp h
        have := writeHeader_ok ty ys attrs
        rw [NdArray.appendAttrShape, if_pos (by simpa using hn)] at this
        exact ⟨_, this⟩

example : writeHeader Dtype.u8.str [3, 2] ["x".toList] = .throw .outOfRange := by decide +kernel

/-! ## C09: round trip -/

/-- **C09**, as one would wish it: what is written for an array is read back. -/
def C09_full : Prop :=
  ∀ (h₀ h g : NdArray.Heap (Fin 256)) (shape : List Nat) (attrs : List String) (data : List (Fin 256)) (a : NdArray.Nd) (b : Bytes),
    NdArray.mkAttrs h₀ shape attrs data = .ok (h, a) → writeNpy byteElem h a = .ok b →
    ∃ g' a', readNpy byteElem g b = .ok (g', a') ∧ a'.shape = a.shape ∧ a'.attrs = a.attrs ∧
      NdArray.iterate g' a' = .ok data

/-- An attribute called `shape` makes the file unreadable. -/
theorem C09_attribute_called_shape_violated : ∃ h a b,
    NdArray.mkAttrs [] [1] ["x", "shape"] [(1 : Fin 256), 2] = .ok (h, a) ∧ writeNpy byteElem h a = .ok b ∧
      readNpy byteElem [] b = .throw .elements :=
  ⟨_, _, _, rfl, rfl, by decide +kernel⟩

/-- An array of a single record (no axis besides the attributes) cannot be read: `back()` of an empty string. -/
theorem C09_single_record_violated : ∃ h a b,
    NdArray.mkAttrs [] [] ["x", "y"] [(1 : Fin 256), 2] = .ok (h, a) ∧ writeNpy byteElem h a = .ok b ∧
      readNpy byteElem [] b = .ub :=
  ⟨_, _, _, rfl, rfl, by decide +kernel⟩

/-- A bracket in a name ends the list of fields early: no field is recognised, and the byte order, which was not set, is read. -/
theorem C09_bracket_in_name_violated : ∃ h a b,
    NdArray.mkAttrs [] [1] ["x[0]"] [(1 : Fin 256)] = .ok (h, a) ∧ writeNpy byteElem h a = .ok b ∧
      readNpy byteElem [] b = .ub :=
  ⟨_, _, _, rfl, rfl, by decide +kernel⟩

/-- An empty array is read through `&data[0]` of an empty vector. -/
theorem C09_empty_array_violated : ∃ h a b,
    NdArray.mkAttrs [] [0] [] ([] : List (Fin 256)) = .ok (h, a) ∧ writeNpy byteElem h a = .ok b ∧ readNpy byteElem [] b = .ub :=
  ⟨_, _, _, rfl, rfl, by decide +kernel⟩

theorem C09_round_trip_violated : ¬ C09_full := by
  intro hf
  obtain ⟨h, a, b, h1, h2, h3⟩ := C09_attribute_called_shape_violated
  obtain ⟨g', a', h4, _⟩ := hf [] h [] [1] ["x", "shape"] _ a b h1 h2
  rw [h3] at h4
  cases h4

theorem map_toList_ofList (l : List String) : (l.map String.toList).map String.ofList = l := by
  induction l with
  | nil => rfl
  | cons s l ih => simp [ih]

/-- Reading the header of an array and then whatever follows. -/
theorem read_raw (E : Elem T) (g : NdArray.Heap T) (s : List Nat) (attrs : List String)
    (hsafe : ∀ n ∈ attrs, SafeName n.toList) (hne : s ≠ []) (hpos : 0 < card (NdArray.appendAttrShape s attrs.length))
    (hsmall : card (NdArray.appendAttrShape s attrs.length) < 2 ^ 31)
    (hlen : (dict E.dtype.str (attrs.map String.toList) s).length + 65 < 2 ^ 32) (body : Bytes) :
    readNpy E g (headerBytes E.dtype.str (attrs.map String.toList) s ++ body) =
      .ok (g ++ [decodeAll E (card (NdArray.appendAttrShape s attrs.length))
        (readZero (E.dtype.size * card (NdArray.appendAttrShape s attrs.length)) body).1], ⟨g.length, 0, NdArray.appendAttrShape s attrs.length, NdArray.updateStrides (NdArray.appendAttrShape s attrs.length),
        attrs, card (NdArray.appendAttrShape s attrs.length)⟩) := by
  have hposs : ∀ d ∈ s, 0 < d := fun d hd => NdArray.card_pos_iff.mp hpos d (by
    rw [NdArray.appendAttrShape]; split <;> simp [hd])
  have hcard : card (NdArray.appendAttrShape s attrs.length) = card s * (if attrs.length ≠ 0 then attrs.length else 1) := by
    rw [NdArray.appendAttrShape]
    split
    · rw [NdArray.card_append]; simp [card]
    · simp
  have hcs : 0 < card s := NdArray.card_pos_iff.mpr hposs
  have hle : card s ≤ card (NdArray.appendAttrShape s attrs.length) := by
    rw [hcard]
    exact Nat.le_mul_of_pos_right _ (by split <;> omega)
  have hbound : ∀ (s : List Nat), (∀ d ∈ s, 0 < d) → ∀ n ∈ s, n ≤ card s := by
    intro s
    induction s with
    | nil => intro _ n hn; cases hn
    | cons d ds ih =>
      intro hp n hn
      have hd : 0 < card ds := NdArray.card_pos_iff.mpr fun x hx => hp x (by simp [hx])
      rw [card]
      rcases List.mem_cons.mp hn with rfl | hn
      · exact Nat.le_mul_of_pos_right _ hd
      · exact Nat.le_trans (ih (fun x hx => hp x (by simp [hx])) n hn) (Nat.le_mul_of_pos_left _ (hp d (by simp)))
  rw [readNpy, readHeader_written E.dtype (by simpa using hsafe) hne
    (fun n hn => by have := hbound s hposs n hn; omega) hlen]
  simp only [Outcome.bind_ok, ne_eq, not_true_eq_false, if_false, List.map_eq_nil_iff, List.length_map, map_toList_ofList]
  have hn : (if ¬attrs = [] then NdArray.accI32 s * attrs.length % 2 ^ 64 else NdArray.accI32 s) =
      card (NdArray.appendAttrShape s attrs.length) := by
    rw [NdArray.accI32_eq (by omega), hcard]
    by_cases ha : attrs = []
    · subst ha; simp
    · have hal : attrs.length ≠ 0 := by simpa using ha
      rw [if_pos ha, if_pos hal]
      rw [hcard, if_pos hal] at hsmall
      exact Nat.mod_eq_of_lt (by omega)
  rw [hn, if_neg (by omega)]
  have hdl : ∀ n (x : Bytes), (decodeAll E n x).length = n := by
    intro n
    induction n with
    | zero => intro x; rfl
    | succ n ih => intro x; simp [decodeAll, ih]
  rw [NdArray.mkAttrs, NdArray.mkData, NdArray.accU32_eq, Nat.mod_eq_of_lt (by omega), if_neg (by simp [hdl])]
  rfl

/-- Reading the header of an array and then its data. -/
theorem read_back (E : Elem T) (g : NdArray.Heap T) (s : List Nat) (attrs : List String) (l : List T)
    (hsafe : ∀ n ∈ attrs, SafeName n.toList) (hne : s ≠ []) (hpos : 0 < card (NdArray.appendAttrShape s attrs.length))
    (hsmall : card (NdArray.appendAttrShape s attrs.length) < 2 ^ 31) (hl : l.length = card (NdArray.appendAttrShape s attrs.length))
    (hlen : (dict E.dtype.str (attrs.map String.toList) s).length + 65 < 2 ^ 32) (extra : Bytes) :
    readNpy E g (headerBytes E.dtype.str (attrs.map String.toList) s ++ (l.flatMap E.enc ++ extra)) =
      .ok (g ++ [l], ⟨g.length, 0, NdArray.appendAttrShape s attrs.length, NdArray.updateStrides (NdArray.appendAttrShape s attrs.length),
        attrs, card (NdArray.appendAttrShape s attrs.length)⟩) := by
  rw [read_raw E g s attrs hsafe hne hpos hsmall hlen, ← hl]
  have hz : readZero (E.dtype.size * l.length) (l.flatMap E.enc ++ extra) = (l.flatMap E.enc, extra) := by
    rw [readZero, ← enc_flat_length E l]
    simp
  rw [hz]
  have hd := decodeAll_enc E l []
  rw [List.append_nil] at hd
  rw [hd]

/-- **C09** for freshly built arrays: names must be free of quotes, brackets and the keywords of the header, there must be an axis
besides the attributes, no axis is empty, and sizes fit.  (`C09_full` fails without each of the first three.)  The array that
is read has the same shape, names and elements at all coordinates. -/
theorem C09_round_trip_partial (E : Elem T) (h₀ h g : NdArray.Heap T) (shape : List Nat) (attrs : List String) (data : List T) (a : NdArray.Nd)
    (hmk : NdArray.mkAttrs h₀ shape attrs data = .ok (h, a)) (hne : shape ≠ []) (hpos : ∀ d ∈ shape, 0 < d)
    (hsmall : card a.shape < 2 ^ 31) (hsafe : ∀ n ∈ attrs, SafeName n.toList)
    (hlen : (dict E.dtype.str (attrs.map String.toList) shape).length + 65 < 2 ^ 32) :
    ∃ b g' a', writeNpy E h a = .ok b ∧ readNpy E g b = .ok (g', a') ∧ a'.shape = a.shape ∧ a'.attrs = attrs ∧
      NdArray.iterate g' a' = .ok data ∧ ∀ c, NdArray.at' g' a' c = NdArray.at' h a c := by
  unfold NdArray.mkAttrs at hmk
  cases hd : NdArray.mkData h₀ (NdArray.appendAttrShape shape attrs.length) data with
  | throw e => rw [hd] at hmk; cases hmk
  | ub => rw [hd] at hmk; cases hmk
  | ok r =>
    obtain ⟨h1, a1⟩ := r
    rw [hd] at hmk
    simp only [Outcome.bind_ok, Outcome.pure_eq, Outcome.ok.injEq, Prod.mk.injEq] at hmk
    obtain ⟨rfl, rfl⟩ := hmk
    obtain ⟨hsz, rfl, rfl⟩ := NdArray.mkData_spec hd
    simp only at hsmall
    have hS : NdArray.appendAttrShape shape attrs.length ≠ [] := by
      rw [NdArray.appendAttrShape]; split <;> simp [hne]
    have hP : 0 < card (NdArray.appendAttrShape shape attrs.length) := by
      apply NdArray.card_pos_iff.mpr
      intro d hd'
      rw [NdArray.appendAttrShape] at hd'
      split at hd'
      · rename_i hne'
        rcases List.mem_append.mp hd' with h | h
        · exact hpos d h
        · rw [List.mem_singleton.mp h]; omega
      · exact hpos d hd'
    rw [NdArray.accU32_eq, Nat.mod_eq_of_lt (by omega)] at hsz
    have hit : ∀ (k : NdArray.Heap T), NdArray.iterate (k ++ [data]) ⟨k.length, 0, NdArray.appendAttrShape shape attrs.length,
        NdArray.updateStrides (NdArray.appendAttrShape shape attrs.length), attrs, card (NdArray.appendAttrShape shape attrs.length)⟩ = .ok data := by
      intro k
      rw [NdArray.iterate_unit (NdArray.updateStrides_compat _) hS]
      have : ∀ i, i < data.length → NdArray.atOffset (k ++ [data]) ⟨k.length, 0, NdArray.appendAttrShape shape attrs.length,
        NdArray.updateStrides (NdArray.appendAttrShape shape attrs.length), attrs, card (NdArray.appendAttrShape shape attrs.length)⟩ (0 + i) =
          Outcome.ok (data.getD i (data[0]'(by omega))) := by
        intro i hi
        simp [NdArray.atOffset, hi]
      rw [← NdArray.collect_ok data]
      congr 1
      simp only [hsz]
      apply List.ext_getElem (by simp)
      intro i h1 h2
      simp at h1
      simp [NdArray.atOffset, h1]
    have hA : NdArray.accU32 (NdArray.appendAttrShape shape attrs.length) = card (NdArray.appendAttrShape shape attrs.length) := by
      rw [NdArray.accU32_eq, Nat.mod_eq_of_lt (by omega)]
    have hw : writeHeader E.dtype.str (NdArray.appendAttrShape shape attrs.length) (attrs.map String.toList) =
        .ok (headerBytes E.dtype.str (attrs.map String.toList) shape) := by
      have := writeHeader_ok E.dtype.str shape (attrs.map String.toList)
      rwa [List.length_map] at this
    refine ⟨_, g ++ [data], _, ?_, read_back E g shape attrs data hsafe hne hP hsmall (by omega) hlen [], rfl, rfl, hit g, ?_⟩
    · rw [writeNpy]
      simp only
      rw [hw, hA, hit h₀]
      simp [ofNd]
    · intro c
      have : ∀ (k : NdArray.Heap T) (o : Nat) (n : Nat), NdArray.atOffset (k ++ [data]) ⟨k.length, 0, NdArray.appendAttrShape shape attrs.length,
        NdArray.updateStrides (NdArray.appendAttrShape shape attrs.length), attrs, n⟩ o = match data[o]? with | none => .ub | some x => .ok x := by
        intro k o n
        simp only [NdArray.atOffset, List.getElem?_concat_length]
        cases data[o]? <;> rfl
      simp only [NdArray.at', NdArray.getOffset, this]

example : ∃ h a b g' a', NdArray.mkAttrs [] [2] ["x", "descr"] [(1 : Fin 256), 2, 3, 255] = .ok (h, a) ∧ writeNpy byteElem h a = .ok b ∧
    readNpy byteElem [] b = .ok (g', a') ∧ a'.shape = [2, 2] ∧ a'.attrs = ["x", "descr"] ∧ g' = [[1, 2, 3, 255]] :=
  ⟨_, _, _, [[1, 2, 3, 255]], ⟨0, 0, [2, 2], [2, 1], ["x", "descr"], 4⟩, rfl, rfl, by decide +kernel, rfl, rfl, rfl⟩

example : SafeName "descr".toList := ⟨by decide, by decide, by decide, by decide⟩

/-- **C09** for views (for example slices) without attribute names: the file has the elements of the view, in row-major order. -/
theorem C09_round_trip_view_partial (E : Elem T) (h g : NdArray.Heap T) (a : NdArray.Nd) (l : List T) (hw : NdArray.WF a)
    (hattr : a.attrs = []) (hi : NdArray.iterate h a = .ok l) (hpos : ∀ d ∈ a.shape, 0 < d)
    (hlen : (dict E.dtype.str [] a.shape).length + 65 < 2 ^ 32) :
    ∃ b g' a', writeNpy E h a = .ok b ∧ readNpy E g b = .ok (g', a') ∧ a'.shape = a.shape ∧ a'.attrs = [] ∧
      ∀ c, Valid a.shape c → NdArray.at' g' a' c = NdArray.at' h a c := by
  have h1 := NdArray.iterate_eq (h := h) hw
  rw [hi] at h1
  have hm := NdArray.collect_eq_ok h1.symm
  have hll : l.length = card a.shape := by
    have := congrArg List.length hm
    simpa [NdArray.allCoords_length] using this.symm
  have happ : NdArray.appendAttrShape a.shape ([] : List String).length = a.shape := by simp [NdArray.appendAttrShape]
  have hr := read_back E g a.shape [] l (by simp) hw.rank (by rw [happ]; exact NdArray.card_pos_iff.mpr hpos) (by rw [happ]; exact hw.small)
    (by rw [happ]; exact hll) (by simpa using hlen) []
  rw [happ] at hr
  have hwr : writeNpy E h a = .ok (headerBytes E.dtype.str [] a.shape ++ l.flatMap E.enc) := by
    rw [writeNpy, hattr, hi]
    have := writeHeader_ok E.dtype.str a.shape []
    simp only [List.length_nil, NdArray.appendAttrShape, ne_eq, not_true_eq_false, if_false] at this
    rw [List.map_nil, this]
    simp only [Outcome.bind_ok, ofNd, Outcome.pure_eq]
  simp only [List.map_nil, List.append_nil] at hr
  refine ⟨_, _, _, hwr, hr, rfl, rfl, ?_⟩
  intro c hc
  obtain ⟨i, hi', hic⟩ := List.getElem_of_mem (NdArray.mem_allCoords.mpr hc)
  have e1 : NdArray.at' h a c = .ok (l[i]'(by rw [hll, ← NdArray.allCoords_length]; exact hi')) := by
    have := List.getElem_of_eq hm (i := i) (by simpa using hi')
    simpa [hic] using this
  rw [e1]
  have hwhole := NdArray.whole_at (h := g ++ [l]) (a := ⟨g.length, 0, a.shape, NdArray.updateStrides a.shape, [], card a.shape⟩) (data := l) rfl
    (NdArray.updateStrides_compat _) (by simp) (by simp [hll])
  have := List.getElem_of_eq hwhole (i := i) (by simpa using hi')
  simpa [hic] using this

/-- A slice along the last axis (which is not contiguous in memory) is written and read back. -/
example : ∃ h a r b, NdArray.mkData [] [2, 2] [(1 : Fin 256), 2, 3, 4] = .ok (h, a) ∧ NdArray.rslice a 1 = .ok r ∧
    writeNpy byteElem h r = .ok b ∧ readNpy byteElem [] b = .ok ([[2, 4]], ⟨0, 0, [2], [1], [], 2⟩) :=
  ⟨_, _, _, _, rfl, rfl, rfl, by decide +kernel⟩

/-! ## C76: truncated files -/

/-- **C76**, as one would wish it: a file that ends early is not read as an array. -/
def C76_full : Prop :=
  ∀ (h g : NdArray.Heap (Fin 256)) (a : NdArray.Nd) (b : Bytes) (k : Nat), writeNpy byteElem h a = .ok b → k < b.length →
    ¬ ∃ r, readNpy byteElem g (b.take k) = .ok r

/-- What happens: a file cut in its data section is read, the missing bytes are zero.  (`input.read` is not checked.) -/
theorem C76_truncated_data_reads_zeros_partial (E : Elem T) (g : NdArray.Heap T) (s : List Nat) (attrs : List String) (l : List T) (zero : T)
    (hzero : E.enc zero = List.replicate E.dtype.size '\x00')
    (hsafe : ∀ n ∈ attrs, SafeName n.toList) (hne : s ≠ []) (m : Nat) (hm : l.length + m = card (NdArray.appendAttrShape s attrs.length))
    (hpos : ∀ d ∈ s, 0 < d) (hsmall : card (NdArray.appendAttrShape s attrs.length) < 2 ^ 31)
    (hlen : (dict E.dtype.str (attrs.map String.toList) s).length + 65 < 2 ^ 32) :
    ∃ hd g' a', writeHeader E.dtype.str (NdArray.appendAttrShape s attrs.length) (attrs.map String.toList) = .ok hd ∧
      readNpy E g (hd ++ l.flatMap E.enc) = .ok (g', a') ∧ g' = g ++ [l ++ List.replicate m zero] ∧
      a'.shape = NdArray.appendAttrShape s attrs.length ∧ a'.attrs = attrs := by
  have hP : 0 < card (NdArray.appendAttrShape s attrs.length) := by
    apply NdArray.card_pos_iff.mpr
    intro d hd'
    rw [NdArray.appendAttrShape] at hd'
    split at hd'
    · rcases List.mem_append.mp hd' with h | h
      · exact hpos d h
      · rw [List.mem_singleton.mp h]; omega
    · exact hpos d hd'
  have hw := writeHeader_ok E.dtype.str s (attrs.map String.toList)
  rw [List.length_map] at hw
  have hraw := read_raw E g s attrs hsafe hne hP hsmall hlen (l.flatMap E.enc)
  refine ⟨_, _, _, hw, hraw, ?_, rfl, rfl⟩
  have hrep : ∀ k, (List.replicate k zero).flatMap E.enc = List.replicate (E.dtype.size * k) '\x00' := by
    intro k
    induction k with
    | zero => rfl
    | succ k ih =>
      rw [List.replicate_succ, List.flatMap_cons, ih, hzero, ← List.replicate_add]
      congr 1
      rw [Nat.mul_succ]; omega
  have hz : (readZero (E.dtype.size * card (NdArray.appendAttrShape s attrs.length)) (l.flatMap E.enc)).1 =
      (l ++ List.replicate m zero).flatMap E.enc := by
    have hle : E.dtype.size * l.length ≤ E.dtype.size * card (NdArray.appendAttrShape s attrs.length) := Nat.mul_le_mul_left _ (by omega)
    rw [List.flatMap_append, hrep, readZero, enc_flat_length, List.take_of_length_le (by rw [enc_flat_length]; exact hle), ← hm,
      Nat.mul_add, Nat.add_sub_cancel_left]
  rw [hz, ← hm]
  have := decodeAll_enc E (l ++ List.replicate m zero) []
  rw [List.append_nil, List.length_append, List.length_replicate] at this
  rw [this]

theorem C76_truncated_file_violated : ¬ C76_full := by
  intro hf
  have h1 : ∃ b, writeNpy byteElem [[1, 2, 3]] ⟨0, 0, [3], [1], [], 3⟩ = .ok b ∧ b.length = 131 ∧
      readNpy byteElem [] (b.take 129) = .ok ([[1, 0, 0]], ⟨0, 0, [3], [1], [], 3⟩) :=
    ⟨_, rfl, by decide +kernel, by decide +kernel⟩
  obtain ⟨b, hb, hl, hr⟩ := h1
  exact hf _ [] _ b 129 hb (by omega) ⟨_, hr⟩

/-! ## C77: files written by numpy -/

/-- **C77**: files of numpy, of the formats 1.0 and 2.0, with a plain little endian type are recognised: the header gives the type and
the shape, and the data follow.  (Arrays without axes, whose shape is `()`, are the exception: `C77_scalar_violated`.) -/
theorem C77_numpy_header_partial (d : Dtype) (shape : List Nat) (hne : shape ≠ []) (hb : ∀ n ∈ shape, n < 2 ^ 64) (k : Nat)
    (hl : (numpyDict d.str shape).length + k + 1 < 2 ^ 16) (data : Bytes) :
    readHeader (['\x93', 'N', 'U', 'M', 'P', 'Y', '\x01', '\x00'] ++ (le32 ((numpyDict d.str shape).length + k + 1)).take 2 ++
        (numpyDict d.str shape ++ (List.replicate k ' ' ++ ['\n'])) ++ data) = .ok (⟨false, false, d.str, shape, [], NdArray.accI32 shape⟩, data) ∧
    readHeader (['\x93', 'N', 'U', 'M', 'P', 'Y', '\x02', '\x00'] ++ le32 ((numpyDict d.str shape).length + k + 1) ++
        (numpyDict d.str shape ++ (List.replicate k ' ' ++ ['\n'])) ++ data) = .ok (⟨false, false, d.str, shape, [], NdArray.accI32 shape⟩, data) := by
  have hlen : (numpyDict d.str shape ++ (List.replicate k ' ' ++ ['\n'])).length = (numpyDict d.str shape).length + k + 1 := by
    simp; omega
  have hp := parseDict_numpy d hne hb (List.replicate k ' ' ++ ['\n']) (by omega)
  rw [← hlen]
  exact ⟨readHeader_v1 (by omega) hp rfl rfl (dtype_ne_nil d), readHeader_v2 (by omega) hp rfl rfl (dtype_ne_nil d)⟩

example : numpyDict Dtype.f64.str [3, 4] = "{'descr': '<f8', 'fortran_order': False, 'shape': (3, 4), }".toList := by decide
example : numpyDict Dtype.f64.str [3] = "{'descr': '<f8', 'fortran_order': False, 'shape': (3,), }".toList := by decide

/-- **C77**, as one would wish it, for all shapes. -/
def C77_full : Prop := ∀ (d : Dtype) (shape : List Nat), (∀ n ∈ shape, n < 2 ^ 64) → (numpyDict d.str shape).length < 2 ^ 16 →
  ∃ hd, readHeader (magic ++ version ++ le32 (numpyDict d.str shape).length ++ numpyDict d.str shape) = .ok (hd, [])

/-- `numpy.save(f, numpy.array(1.0))`: `back()` of an empty string. -/
theorem C77_scalar_violated : ¬ C77_full := by
  intro hf
  obtain ⟨hd, h⟩ := hf .f64 [] (by simp) (by decide)
  have : readHeader (magic ++ version ++ le32 (numpyDict Dtype.f64.str []).length ++ numpyDict Dtype.f64.str []) = .ub := by decide +kernel
  rw [this] at h
  cases h

/-- Arrays in Fortran order and of the other endianness are refused. -/
theorem C77_unsupported_refused :
    readHeader (magic ++ version ++ le32 58 ++ "{'descr': '<f8', 'fortran_order': True, 'shape': (3, 4), }".toList) = .throw .elements ∧
    readHeader (magic ++ version ++ le32 59 ++ "{'descr': '>f8', 'fortran_order': False, 'shape': (3, 4), }".toList) = .throw .elements := by
  decide +kernel

/-! ## C78: memory mapped files -/

/-- What a memory mapped file should look like: aligned header for its shape, as many elements as the shape has, a file that holds
exactly these, and a mapping that is large enough. -/
structure Consistent (d : Dtype) (m : Mapped) (shape : List Nat) : Prop where
  header : ∃ h body, writeHeader d.str shape m.attrs = .ok h ∧ m.file = h ++ body ∧ h.length = m.dataOffset ∧
    body.length = d.size * m.nElements
  aligned : m.dataOffset % 64 = 0
  elements : m.nElements = card shape
  fits : m.dataOffset + d.size * m.nElements ≤ m.maxSize

/-- **C78**: a mapped file that is created is consistent. -/
theorem C78_create_consistent (d : Dtype) (shape : List Nat) (attrs : List Bytes) (maxSize : Nat)
    (hsmall : card shape < 2 ^ 31) :
    ∃ m, createMmap d shape attrs maxSize = .ok m ∧ Consistent d m (NdArray.appendAttrShape shape attrs.length) := by
  have hw := writeHeader_ok d.str shape attrs
  have hal := (C10_header_alignment _ _ _ _ hw).1
  unfold createMmap
  rw [hw]
  simp only [Outcome.bind_ok, Outcome.pure_eq]
  refine ⟨_, rfl, ⟨⟨_, _, hw, rfl, rfl, ?_⟩, hal, ?_, ?_⟩⟩
  · simp [Nat.mul_comm]
  · simp only
    rw [NdArray.accI32_eq hsmall, NdArray.appendAttrShape]
    by_cases ha : attrs = []
    · subst ha; simp
    · have hal : attrs.length ≠ 0 := by simpa using ha
      rw [if_pos ha, if_pos hal, NdArray.card_append]
      simp [card]
  · simp only
    rw [Nat.mul_comm d.size]
    split <;> split <;> omega

/-- **C78**: a mapped file stays consistent when it is resized. -/
theorem C78_resize_consistent (d : Dtype) (m m' : Mapped) (shape shape' : List Nat) (hc : Consistent d m shape)
    (hsmall : card shape' < 2 ^ 32) (h : m.resize d shape' = (m', .ok ())) :
    Consistent d m' shape' ∧ m'.dataOffset = m.dataOffset ∧ m'.attrs = m.attrs ∧ m'.maxSize = m.maxSize ∧
      ∀ k, k < min (d.size * m.nElements) (d.size * m'.nElements) → m'.file[m.dataOffset + k]? = m.file[m.dataOffset + k]? := by
  unfold Mapped.resize at h
  cases hw : writeHeader d.str shape' m.attrs with
  | throw e => rw [hw] at h; simp at h
  | ub => rw [hw] at h; simp at h
  | ok hd =>
    rw [hw] at h
    simp only at h
    have hU : NdArray.accU32 shape' = card shape' := by rw [NdArray.accU32_eq, Nat.mod_eq_of_lt hsmall]
    rw [hU] at h
    by_cases h1 : hd.length ≠ m.dataOffset
    · rw [if_pos h1] at h; simp at h
    · rw [if_neg h1] at h
      by_cases h2 : hd.length + d.size * card shape' > m.maxSize
      · rw [if_pos h2] at h; simp at h
      · rw [if_neg h2] at h
        simp only [Prod.mk.injEq, and_true] at h
        subst h
        have h1' : hd.length = m.dataOffset := by simpa using h1
        obtain ⟨ho, body, hw0, hf0, hl0, hb0⟩ := hc.header
        have hrl : (resizeFile m.file (hd.length + d.size * card shape')).length = hd.length + d.size * card shape' := by
          simp [resizeFile]; omega
        refine ⟨⟨⟨hd, _, hw, rfl, h1', ?_⟩, hc.aligned, rfl, by simp only; omega⟩, rfl, rfl, rfl, ?_⟩
        · rw [List.length_drop, hrl]; simp
        · intro k hk
          simp only at hk
          have hfl : m.file.length = m.dataOffset + d.size * m.nElements := by rw [hf0]; simp [hl0, hb0]
          rw [← h1', List.getElem?_append_right (by omega), Nat.add_sub_cancel_left, List.getElem?_drop, resizeFile,
            List.getElem?_append_left (by simp; omega), List.getElem?_take_of_lt (by omega)]

/-- **C78**, as one would wish it: a resize that is refused changes nothing. -/
def C78_full : Prop := ∀ (d : Dtype) (m m' : Mapped) (shape : List Nat) (e : Err), m.resize d shape = (m', .throw e) → m' = m

/-- `m_n_elements` is assigned before the size is checked: after a refused resize, `size()` is larger than the mapping. -/
theorem C78_refused_resize_violated : ¬ C78_full := by
  intro hf
  have h1 : ∃ m, createMmap .u8 [3] [] 0 = .ok m ∧ (m.resize .u8 [9]).2 = .throw .elements ∧ m.nElements = 3 ∧
      (m.resize .u8 [9]).1.nElements = 9 :=
    ⟨_, rfl, by decide +kernel, by decide +kernel, by decide +kernel⟩
  obtain ⟨m, _, h2, h3, h4⟩ := h1
  have := hf .u8 m (m.resize .u8 [9]).1 [9] .elements (Prod.ext rfl h2)
  rw [this] at h4
  omega

example : ∃ m, createMmap .u8 [3] [] 200 = .ok m ∧ (m.resize .u8 [9]).2 = .ok () ∧ (m.resize .u8 [9]).1.nElements = 9 ∧
    (m.resize .u8 [9]).1.file.length = 137 :=
  ⟨_, rfl, by decide +kernel, by decide +kernel, by decide +kernel⟩

end Alexandria.Npy
