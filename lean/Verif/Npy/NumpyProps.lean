import Verif.Npy.NumpyLemmas

/-!
# C151: arrays and records saved by numpy
-/

namespace Alexandria.Npy

open Alexandria.Str Alexandria.NdArray.Spec Spec

variable {T : Type}

/-- The types of numpy for the numbers that the library supports. -/
def Spec.numpyType : Dtype → PyType
  | .i8 => ⟨'|', "i1".toList⟩ | .i16 => ⟨'<', "i2".toList⟩ | .i32 => ⟨'<', "i4".toList⟩ | .i64 => ⟨'<', "i8".toList⟩
  | .u8 => ⟨'|', "u1".toList⟩ | .u16 => ⟨'<', "u2".toList⟩ | .u32 => ⟨'<', "u4".toList⟩ | .u64 => ⟨'<', "u8".toList⟩
  | .f32 => ⟨'<', "f4".toList⟩ | .f64 => ⟨'<', "f8".toList⟩

/-- The type of an array of numbers, or of an array of records with the given names. -/
def Spec.numpyDescr (d : Dtype) (names : List String) : PyDescr :=
  if names = [] then .plain (numpyType d) else .record (names.map fun n => ⟨n.toList, numpyType d, []⟩)

/-- The header fits into its length field, the shape is not empty, and no axis is empty. -/
structure Spec.Saved.Sound (s : Saved) : Prop where
  length : s.header.length < 2 ^ (if s.short then 16 else 32)
  axes : s.shape ≠ []
  pos : ∀ n ∈ s.shape, 0 < n
  size : card s.shape < 2 ^ 31

theorem numpyType_safe (d : Dtype) : (numpyType d).Safe := by
  cases d <;> exact ⟨by decide, ⟨by decide, by decide, by decide, by decide⟩, by decide, by decide⟩

theorem numpyType_code {d : Dtype} (h1 : d ≠ .i8) (h2 : d ≠ .u8) : (numpyType d).code = d.str ∧ (numpyType d).order ≠ '>' := by
  cases d <;> first | exact absurd rfl h1 | exact absurd rfl h2 | decide

theorem sound_dims {s : Saved} (h : s.Sound) : ∀ n ∈ s.shape, n < 2 ^ 64 := fun n hn => by
  have := dim_le_card h.pos n hn
  have := h.size
  omega

/-- What `readNpyHeader` makes of a file of numpy. -/
theorem readHeader_sound {s : Saved} (hs : s.descr.Safe) (h : s.Sound) (data : Bytes) :
    readHeader (s.start ++ data) = (savedHeader s).bind fun hd =>
      if hd.fortran then .throw .elements else if hd.dtype = [] then .ub else if hd.big then .throw .elements else .ok (hd, data) := by
  have hp := parseDict_header s hs h.axes (sound_dims h) h.length
  rw [readHeader_saved s h.length, hp]
  cases hsv : savedHeader s with
  | ub => rfl
  | throw e => rfl
  | ok hd =>
    have hiff : endianUnset s.header hd ↔ hd.dtype = [] := by
      constructor
      · intro hu
        by_contra hne
        exact parseDict_set (hp.trans hsv) hne hu
      · intro ht
        have hl2 : s.header.length < 2 ^ 63 := by
          have := h.length
          cases hsh : s.short <;> rw [hsh] at this <;> simp at this <;> omega
        have he : s.header = s.dict ++ (List.replicate s.padding ' ' ++ ['\n']) := by simp [Saved.header]
        obtain ⟨r, P⟩ := pieces_saved s hs (List.replicate s.padding ' ' ++ ['\n']) (by rw [← he]; exact hl2)
        rw [← he] at P
        unfold savedHeader at hsv
        cases hd' : s.descr with
        | plain t =>
          rw [hd'] at hsv hs
          cases hsv
          exact absurd ht hs.code
        | record fs =>
          rw [hd'] at hsv P hs
          simp only at hsv
          cases hsc : scalars fs with
          | nil =>
            rw [hsc] at hsv
            cases hsv
            refine ⟨rfl, ?_⟩
            have he2 : (PyDescr.record fs).text ++ r = '[' :: (", ".toList.intercalate (fs.map PyField.text) ++ ']' :: r) := by simp [PyDescr.text]
            rw [he2] at P
            obtain ⟨D0, hH, hpos⟩ := descr_pos P
            rw [hpos, hH]
            simp
          | cons f gs =>
            rw [hsc] at hsv
            simp only at hsv
            by_cases hall : ∀ g ∈ gs, Agrees (f.ty.order == '>') f.ty.code g
            · rw [if_pos hall] at hsv
              cases hsv
              have hf : f ∈ fs := by
                have : f ∈ scalars fs := by rw [hsc]; simp
                exact (List.mem_filter.1 this).1
              exact absurd ht (hs f hf).2.code
            · rw [if_neg hall] at hsv; cases hsv
    show (if hd.fortran then _ else if endianUnset s.header hd then _ else _) = _
    by_cases h1 : hd.fortran = true
    · rw [if_pos h1]; simp [Outcome.bind, h1]
    · rw [if_neg h1]
      by_cases h2 : hd.dtype = []
      · rw [if_pos (hiff.2 h2)]; simp [Outcome.bind, h1, h2]
      · rw [if_neg (fun h => h2 (hiff.1 h))]; simp [Outcome.bind, h1, h2]

/-- **C151**, as one would wish it: an array of numbers or of records that numpy saved is read with its shape, its names and its
elements. -/
def C151_full : Prop := ∀ (T : Type) (E : Elem T) (g : NdArray.Heap T) (s : Saved) (names : List String) (l : List T),
  s.descr = numpyDescr E.dtype names → (∀ n ∈ names, SafeName n.toList) → s.fortran = false → s.Sound →
  l.length = card (NdArray.appendAttrShape s.shape names.length) → l.length < 2 ^ 31 →
  ∃ g' a', readNpy E g (s.start ++ l.flatMap E.enc) = .ok (g', a') ∧ a'.shape = NdArray.appendAttrShape s.shape names.length ∧
    a'.attrs = names ∧ NdArray.iterate g' a' = .ok l

/-- The names of the plain fields. -/
theorem readNpy_scalars (E : Elem T) (g : NdArray.Heap T) {s : Saved} {fs : List PyField} (hd : s.descr = .record fs)
    (hs : ∀ f ∈ fs, SafeName f.name ∧ f.ty.Safe) (hf : s.fortran = false) (h : s.Sound)
    (hne : scalars fs ≠ []) (hty : ∀ f ∈ scalars fs, f.ty.code = E.dtype.str ∧ f.ty.order ≠ '>') (l : List T)
    (hl : card s.shape * (scalars fs).length ≤ l.length) (hsmall : card s.shape * (scalars fs).length < 2 ^ 31) :
    readNpy E g (s.start ++ l.flatMap E.enc) = .ok (g ++ [l.take (card s.shape * (scalars fs).length)],
      ⟨g.length, 0, s.shape ++ [(scalars fs).length], NdArray.updateStrides (s.shape ++ [(scalars fs).length]),
        (scalars fs).map fun f => String.ofList f.name, card s.shape * (scalars fs).length⟩) := by
  have hh := readHeader_sound (s := s) (by rw [hd]; exact hs) h (l.flatMap E.enc)
  unfold savedHeader at hh
  rw [hd] at hh
  cases hsc : scalars fs with
  | nil => exact absurd hsc hne
  | cons f gs =>
    rw [hsc] at hty hl hsmall
    have hf1 := hty f (by simp)
    have hb1 : (f.ty.order == '>') = false := by simpa using hf1.2
    have hall : ∀ g ∈ gs, Agrees (f.ty.order == '>') f.ty.code g := by
      intro g hg
      have := hty g (by simp [hg])
      exact ⟨by rw [this.1, hf1.1], by rw [hb1]; simpa using this.2⟩
    simp only [hsc] at hh
    rw [if_pos hall] at hh
    simp only [Outcome.bind, hf, hb1, hf1.1, Bool.false_eq_true, if_false, if_neg (dtype_ne_nil E.dtype)] at hh
    have hS : NdArray.appendAttrShape s.shape ((f :: gs).map PyField.name).length = s.shape ++ [(f :: gs).length] := by
      rw [NdArray.appendAttrShape, if_pos (by simp)]; simp
    have hc : card (s.shape ++ [(f :: gs).length]) = card s.shape * (f :: gs).length := by
      rw [NdArray.card_append]; simp [card]
    have := readNpy_of_header E g hh h.pos (by rw [hS, hc]; exact hsmall) (by rw [hS, hc]; exact hl)
    rw [hS, hc, List.map_map] at this
    exact this

/-- **C151** for numbers of more than one byte: all of `C151_full`.  (Numbers of one byte: `C151_bytes_refused`.) -/
theorem C151_read_partial (E : Elem T) (g : NdArray.Heap T) (s : Saved) (names : List String) (l : List T)
    (hi : E.dtype ≠ .i8) (hu : E.dtype ≠ .u8)
    (hd : s.descr = numpyDescr E.dtype names) (hn : ∀ n ∈ names, SafeName n.toList) (hf : s.fortran = false) (h : s.Sound)
    (hl : l.length = card (NdArray.appendAttrShape s.shape names.length)) (hsmall : l.length < 2 ^ 31) :
    ∃ g' a', readNpy E g (s.start ++ l.flatMap E.enc) = .ok (g', a') ∧ a'.shape = NdArray.appendAttrShape s.shape names.length ∧
      a'.attrs = names ∧ NdArray.iterate g' a' = .ok l := by
  obtain ⟨hc, ho⟩ := numpyType_code hi hu
  have ho' : ((numpyType E.dtype).order == '>') = false := by simpa using ho
  by_cases hnn : names = []
  · subst hnn
    have hS : NdArray.appendAttrShape s.shape 0 = s.shape := by simp [NdArray.appendAttrShape]
    rw [List.length_nil, hS] at hl ⊢
    rw [numpyDescr, if_pos rfl] at hd
    have hh := readHeader_sound (s := s) (by rw [hd]; exact numpyType_safe _) h (l.flatMap E.enc)
    unfold savedHeader at hh
    rw [hd] at hh
    simp only [Outcome.bind, hf, hc, ho', Bool.false_eq_true, if_false, if_neg (dtype_ne_nil E.dtype)] at hh
    have := readNpy_of_header E g hh h.pos (by rw [List.length_nil, hS]; omega) (by rw [List.length_nil, hS]; omega)
    rw [List.length_nil, hS, List.take_of_length_le (by omega)] at this
    exact ⟨_, _, this, rfl, rfl, iterate_fresh g l s.shape _ h.axes hl⟩
  · rw [numpyDescr, if_neg hnn] at hd
    have hsc : scalars (names.map fun n => (⟨n.toList, numpyType E.dtype, []⟩ : PyField)) =
        names.map fun n => (⟨n.toList, numpyType E.dtype, []⟩ : PyField) := by
      simp [scalars]
    have hlen : names.length ≠ 0 := by simpa using hnn
    have hS : NdArray.appendAttrShape s.shape names.length = s.shape ++ [names.length] := by rw [NdArray.appendAttrShape, if_pos hlen]
    have hcd : card (s.shape ++ [names.length]) = card s.shape * names.length := by rw [NdArray.card_append]; simp [card]
    rw [hS] at hl ⊢
    have := readNpy_scalars E g hd ?_ hf h ?_ ?_ l ?_ ?_
    · rw [hsc, List.length_map, ← hcd, List.take_of_length_le (by omega)] at this
      refine ⟨_, _, this, rfl, ?_, iterate_fresh g l _ _ (by simp) hl⟩
      have h1 := map_toList_ofList names
      rw [List.map_map] at h1
      rw [List.map_map]
      exact h1
    · simp only [List.mem_map, forall_exists_index, and_imp, forall_apply_eq_imp_iff₂]
      exact fun n hn' => ⟨hn n hn', numpyType_safe _⟩
    · rw [hsc]; simpa using hnn
    · rw [hsc]
      simp only [List.mem_map, forall_exists_index, and_imp, forall_apply_eq_imp_iff₂]
      exact fun n _ => ⟨hc, ho⟩
    · rw [hsc, List.length_map]; omega
    · rw [hsc, List.length_map]; omega

/-- What can be read: little endian or one-byte numbers of the wanted type only, in the order of C. -/
def Spec.Readable (code : Bytes) (s : Saved) : Prop :=
  s.fortran = false ∧ match s.descr with
    | .plain t => t.code = code ∧ t.order ≠ '>'
    | .record fs => scalars fs ≠ [] ∧ ∀ f ∈ scalars fs, f.ty.code = code ∧ f.ty.order ≠ '>'

/-- Records all of whose fields are arrays, in the order of C: no field is recognised. -/
def Spec.Unseen (s : Saved) : Prop := s.fortran = false ∧ ∃ fs, s.descr = .record fs ∧ scalars fs = []

/-- **C151**: of a file of records all of whose fields are arrays the byte order, which was not set, is read. -/
theorem C151_unset_violated (E : Elem T) (g : NdArray.Heap T) (s : Saved) (hs : s.descr.Safe) (h : s.Sound) (hu : Spec.Unseen s) (data : Bytes) :
    readNpy E g (s.start ++ data) = .ub := by
  obtain ⟨hf, fs, hd, hsc⟩ := hu
  have hh := readHeader_sound hs h data
  unfold savedHeader at hh
  simp only [hd, hsc] at hh
  simp only [Outcome.bind, hf, Bool.false_eq_true, if_false, if_true] at hh
  rw [readNpy, hh]
  rfl

/-- **C151**: every other file is refused: the order of Fortran, big endian numbers, numbers of another type, records of mixed
types. -/
theorem C151_refused (E : Elem T) (g : NdArray.Heap T) (s : Saved) (hs : s.descr.Safe) (h : s.Sound) (hr : ¬ Spec.Readable E.dtype.str s)
    (hu : ¬ Spec.Unseen s) (data : Bytes) : ∃ e, readNpy E g (s.start ++ data) = .throw e := by
  have hh := readHeader_sound hs h data
  have key : ∀ hd : Header, savedHeader s = .ok hd → (hd.fortran = true ∨ hd.dtype ≠ []) → (hd.fortran = true ∨ hd.big = true ∨ hd.dtype ≠ E.dtype.str) →
      ∃ e, readNpy E g (s.start ++ data) = .throw e := by
    intro hd he hz hc
    rw [he] at hh
    replace hh : readHeader (s.start ++ data) =
      if hd.fortran then .throw .elements else if hd.dtype = [] then .ub else if hd.big then .throw .elements else .ok (hd, data) := hh
    by_cases h1 : hd.fortran = true
    · rw [if_pos h1] at hh
      exact ⟨_, by rw [readNpy, hh]; rfl⟩
    · rw [if_neg h1, if_neg (hz.resolve_left h1)] at hh
      by_cases h2 : hd.big = true
      · rw [if_pos h2] at hh
        exact ⟨_, by rw [readNpy, hh]; rfl⟩
      · rw [if_neg h2] at hh
        have h3 : hd.dtype ≠ E.dtype.str := by tauto
        exact ⟨.elements, by rw [readNpy, hh]; simp only [Outcome.bind_ok]; rw [if_pos h3]⟩
  unfold savedHeader at key hh
  cases hd : s.descr with
  | plain t =>
    rw [hd] at key hs
    refine key _ rfl (Or.inr hs.code) ?_
    by_contra hcon
    simp only [not_or, not_not, Bool.not_eq_true, beq_eq_false_iff_ne] at hcon
    exact hr ⟨hcon.1, by rw [hd]; exact ⟨hcon.2.2, hcon.2.1⟩⟩
  | record fs =>
    rw [hd] at key hh
    simp only at key hh
    cases hsc : scalars fs with
    | nil =>
      rw [hsc] at key
      have hft : s.fortran = true := by
        by_contra hf
        exact hu ⟨by simpa using hf, fs, hd, hsc⟩
      exact key _ rfl (Or.inl hft) (Or.inl hft)
    | cons f gs =>
      rw [hsc] at key hh
      simp only at key hh
      by_cases hall : ∀ g ∈ gs, Agrees (f.ty.order == '>') f.ty.code g
      · rw [if_pos hall] at key
        have hff : f ∈ fs := by
          have : f ∈ scalars fs := by rw [hsc]; simp
          exact (List.mem_filter.1 this).1
        rw [hd] at hs
        refine key _ rfl (Or.inr (hs f hff).2.code) ?_
        by_contra hcon
        simp only [not_or, not_not, Bool.not_eq_true] at hcon
        refine hr ⟨hcon.1, ?_⟩
        rw [hd]
        refine ⟨by simp [hsc], ?_⟩
        rw [hsc]
        intro x hx
        rcases List.mem_cons.mp hx with rfl | hx
        · exact ⟨hcon.2.2, by simpa using hcon.2.1⟩
        · obtain ⟨h1, h2⟩ := hall x hx
          refine ⟨by rw [h1]; exact hcon.2.2, ?_⟩
          have h3 : (x.ty.order == '>') = false := by rw [h2]; exact hcon.2.1
          simpa using h3
      · rw [if_neg hall] at hh
        exact ⟨_, by rw [readNpy, hh]; rfl⟩

/-- **C151**: numbers of one byte that numpy saved (`|i1`, `|u1`) are refused, whatever is asked for: the library calls them `b` and
`B`. -/
theorem C151_bytes_refused (E : Elem T) (g : NdArray.Heap T) (s : Saved) (d : Dtype) (hd1 : d = .i8 ∨ d = .u8) (names : List String)
    (hd : s.descr = numpyDescr d names) (hn : ∀ n ∈ names, SafeName n.toList) (h : s.Sound) (data : Bytes) :
    ∃ e, readNpy E g (s.start ++ data) = .throw e := by
  have hc : (numpyType d).code ≠ E.dtype.str := by
    rcases hd1 with rfl | rfl <;> cases E.dtype <;> decide
  refine C151_refused E g s ?_ h ?_ ?_ data
  · rw [hd, numpyDescr]
    split
    · exact numpyType_safe _
    · intro f hf
      simp only [List.mem_map] at hf
      obtain ⟨n, hn', rfl⟩ := hf
      exact ⟨hn n hn', numpyType_safe _⟩
  · rintro ⟨_, hm⟩
    rw [hd, numpyDescr] at hm
    by_cases hnn : names = []
    · rw [if_pos hnn] at hm
      exact hc hm.1
    · rw [if_neg hnn] at hm
      obtain ⟨n, ns, rfl⟩ := List.exists_cons_of_ne_nil hnn
      exact hc (hm.2 ⟨n.toList, numpyType d, []⟩ (by simp [scalars])).1
  · rintro ⟨_, fs, hfs, hsc⟩
    rw [hd, numpyDescr] at hfs
    by_cases hnn : names = []
    · rw [if_pos hnn] at hfs; cases hfs
    · rw [if_neg hnn] at hfs
      obtain ⟨n, ns, rfl⟩ := List.exists_cons_of_ne_nil hnn
      cases hfs
      simp [scalars] at hsc

/-- **C151**: a field that is an array itself is passed over in silence: the other fields are read as if it were not there, with the
numbers that come first in the file. -/
theorem C151_arrays_in_fields (E : Elem T) (g : NdArray.Heap T) (s : Saved) (fs : List PyField) (hd : s.descr = .record fs)
    (hs : ∀ f ∈ fs, SafeName f.name ∧ f.ty.Safe) (h : s.Sound) (hr : Spec.Readable E.dtype.str s) (l : List T)
    (hl : card s.shape * (scalars fs).length ≤ l.length) (hsmall : card s.shape * (scalars fs).length < 2 ^ 31) :
    ∃ g' a', readNpy E g (s.start ++ l.flatMap E.enc) = .ok (g', a') ∧ a'.shape = s.shape ++ [(scalars fs).length] ∧
      a'.attrs = (scalars fs).map (fun f => String.ofList f.name) ∧
      NdArray.iterate g' a' = .ok (l.take (card s.shape * (scalars fs).length)) := by
  obtain ⟨hf, hm⟩ := hr
  rw [hd] at hm
  refine ⟨_, _, readNpy_scalars E g hd hs hf h hm.1 hm.2 l hl hsmall, rfl, rfl, ?_⟩
  have hc : card (s.shape ++ [(scalars fs).length]) = card s.shape * (scalars fs).length := by rw [NdArray.card_append]; simp [card]
  have := iterate_fresh g (l.take (card s.shape * (scalars fs).length)) (s.shape ++ [(scalars fs).length])
    ((scalars fs).map fun f => String.ofList f.name) (by simp) (by rw [hc]; simp; omega)
  rw [hc] at this
  exact this

/-! ## Witnesses -/

/-- `NdArray<uint16_t>`: two bytes per element. -/
def wordElem : Elem (Fin 65536) where
  dtype := .u16
  enc x := [Char.ofNat (x.val % 256), Char.ofNat (x.val / 256)]
  dec s := match s with
    | c :: d :: _ => Fin.ofNat 65536 (c.toNat + 256 * d.toNat)
    | _ => 0
  enc_length _ := rfl
  dec_enc x := by
    have hv : ∀ k, k < 256 → (Char.ofNat k).toNat = k := by
      intro k hk
      have h : k.isValidChar := Or.inl (by omega)
      simp only [Char.ofNat, h, dif_pos]
      rfl
    have hx := x.isLt
    simp only
    rw [hv _ (Nat.mod_lt _ (by decide)), hv _ (by omega)]
    apply Fin.ext
    simp only [Fin.ofNat]
    omega

/-- `numpy.save` of two records of two `uint16`, `[(1, 2), (3, 515)]`. -/
def savedPairs : Saved := ⟨true, .record [⟨"x".toList, ⟨'<', "u2".toList⟩, []⟩, ⟨"y".toList, ⟨'<', "u2".toList⟩, []⟩], false, [2], 39⟩

example : savedPairs.dict = "{'descr': [('x', '<u2'), ('y', '<u2')], 'fortran_order': False, 'shape': (2,), }".toList := by decide +kernel

theorem savedPairs_sound : savedPairs.Sound := ⟨by decide +kernel, by decide, by decide, by decide⟩

example : ∃ g' a', readNpy wordElem [] (savedPairs.start ++ [1, 2, 3, 515].flatMap wordElem.enc) = .ok (g', a') ∧ a'.shape = [2, 2] ∧
    a'.attrs = ["x", "y"] ∧ NdArray.iterate g' a' = .ok [1, 2, 3, 515] :=
  C151_read_partial wordElem [] savedPairs ["x", "y"] [1, 2, 3, 515] (by decide) (by decide) rfl
    (by simp only [List.mem_cons, List.not_mem_nil, or_false]; rintro n (rfl | rfl) <;> exact ⟨by decide, by decide, by decide, by decide⟩)
    rfl savedPairs_sound rfl (by decide)

/-- `numpy.save` of `numpy.array([7], dtype='u1')`. -/
def savedByte : Saved := ⟨true, .plain ⟨'|', "u1".toList⟩, false, [1], 61⟩

theorem savedByte_sound : savedByte.Sound := ⟨by decide +kernel, by decide, by decide, by decide⟩

/-- `C151_full` fails for `uint8_t`. -/
theorem C151_bytes_violated : ¬ C151_full := by
  intro hf
  obtain ⟨g', a', h, _⟩ := hf (Fin 256) byteElem [] savedByte [] [7] rfl (by simp) rfl savedByte_sound rfl (by decide)
  obtain ⟨e, he⟩ := C151_bytes_refused byteElem [] savedByte .u8 (Or.inr rfl) [] rfl (by simp) savedByte_sound ([7].flatMap byteElem.enc)
  rw [he] at h
  cases h

/-- A record of mixed types is refused. -/
example : ∃ e, readNpy wordElem [] (Saved.start ⟨true, .record [⟨"x".toList, ⟨'<', "u2".toList⟩, []⟩, ⟨"y".toList, ⟨'<', "f8".toList⟩, []⟩],
    false, [2], 39⟩) = .throw e := by
  have := C151_refused wordElem [] ⟨true, .record [⟨"x".toList, ⟨'<', "u2".toList⟩, []⟩, ⟨"y".toList, ⟨'<', "f8".toList⟩, []⟩], false, [2], 39⟩
    (by
      intro f hf
      simp only [List.mem_cons, List.not_mem_nil, or_false] at hf
      rcases hf with rfl | rfl <;>
        exact ⟨⟨by decide, by decide, by decide, by decide⟩, by decide, ⟨by decide, by decide, by decide, by decide⟩, by decide, by decide⟩)
    ⟨by decide +kernel, by decide, by decide, by decide⟩ (by
      rintro ⟨_, _, h⟩
      exact absurd (h ⟨"y".toList, ⟨'<', "f8".toList⟩, []⟩ (by decide)).1 (by decide))
    (by rintro ⟨_, fs, h, hsc⟩; cases h; exact absurd hsc (by decide)) []
  simpa using this

/-- `numpy.save` of `numpy.zeros(2, dtype=[('x', '<u2', (2,))])`. -/
example : Spec.Unseen ⟨true, .record [⟨"x".toList, ⟨'<', "u2".toList⟩, [2]⟩], false, [2], 46⟩ ∧
    readNpy wordElem [] (Saved.start ⟨true, .record [⟨"x".toList, ⟨'<', "u2".toList⟩, [2]⟩], false, [2], 46⟩ ++ [1, 2, 3, 4].flatMap wordElem.enc) = .ub :=
  ⟨⟨rfl, _, rfl, by decide⟩, by decide +kernel⟩

/-- How many numbers a record has. -/
def Spec.perRecord (fs : List PyField) : Nat := (fs.map fun f => card f.sub).sum

/-- What one would wish for arrays in fields: a file is refused, or all of its numbers are read. -/
def C151_silent_full : Prop := ∀ (T : Type) (E : Elem T) (g : NdArray.Heap T) (s : Saved) (fs : List PyField) (l : List T) (g' : NdArray.Heap T)
  (a' : NdArray.Nd), s.descr = .record fs → (∀ f ∈ fs, SafeName f.name ∧ f.ty = numpyType E.dtype) → s.fortran = false → s.Sound →
  l.length = card s.shape * Spec.perRecord fs → readNpy E g (s.start ++ l.flatMap E.enc) = .ok (g', a') → NdArray.iterate g' a' = .ok l

/-- `numpy.save` of two records of a pair and a number, `[([1, 2], 3), ([4, 5], 6)]`: the two values of `y` are read as `1` and `2`. -/
def savedNested : Saved := ⟨true, .record [⟨"x".toList, ⟨'<', "u2".toList⟩, [2]⟩, ⟨"y".toList, ⟨'<', "u2".toList⟩, []⟩], false, [2], 33⟩

example : savedNested.dict = "{'descr': [('x', '<u2', (2,)), ('y', '<u2')], 'fortran_order': False, 'shape': (2,), }".toList := by decide +kernel

theorem C151_silent_violated : ¬ C151_silent_full := by
  intro hf
  obtain ⟨g', a', h1, h2, h3, h4⟩ := C151_arrays_in_fields wordElem [] savedNested _ rfl
    (by
      intro f hf
      simp only [List.mem_cons, List.not_mem_nil, or_false] at hf
      rcases hf with rfl | rfl <;>
        exact ⟨⟨by decide, by decide, by decide, by decide⟩, by decide, ⟨by decide, by decide, by decide, by decide⟩, by decide, by decide⟩)
    ⟨by decide +kernel, by decide, by decide, by decide⟩
    ⟨rfl, by decide, by decide⟩ [1, 2, 3, 4, 5, 6] (by decide) (by decide)
  have := hf _ wordElem [] savedNested _ [1, 2, 3, 4, 5, 6] g' a' rfl (by
      intro f hf
      simp only [List.mem_cons, List.not_mem_nil, or_false] at hf
      rcases hf with rfl | rfl <;> exact ⟨⟨by decide, by decide, by decide, by decide⟩, rfl⟩) rfl
    ⟨by decide +kernel, by decide, by decide, by decide⟩ (by decide) h1
  rw [this] at h4
  exact absurd h4 (by decide)

/-- A name with a quote (`numpy` then writes it between double quotes) is passed over in the same way: the numbers of the field `x` are
`1` and `3`, not `1` and `2`. -/
theorem C151_quote_violated :
    readNpy wordElem [] (['\x93', 'N', 'U', 'M', 'P', 'Y', '\x01', '\x00', '\x76', '\x00'] ++
      ("{'descr': [('x', '<u2'), (\"it's\", '<u2')], 'fortran_order': False, 'shape': (2,), }".toList ++ List.replicate 34 ' ' ++ ['\n']) ++
      [1, 2, 3, 4].flatMap wordElem.enc) = .ok ([[1, 2]], ⟨0, 0, [2, 1], [1, 1], ["x"], 2⟩) := by
  decide +kernel

end Alexandria.Npy
