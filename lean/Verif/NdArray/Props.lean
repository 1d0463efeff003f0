import Verif.NdArray.Lemmas

/-!
# Properties C02-C08, C60, C61: n-dimensional arrays
-/

namespace Alexandria.NdArray

open Spec

variable {T : Type}

/-! ## C02 -/

/-- **C02 (addressing).** An array constructed from a shape of fewer than `2^32` elements and data: construction
succeeds exactly if the data has as many elements as the shape, and then `at` over the coordinate vectors in row-major
order gives the data in order, while every other coordinate vector throws. -/
theorem C02_at_row_major (h : Heap T) (shape : List Nat) (data : List T) (hsmall : card shape < 2 ^ 32) :
    (data.length ≠ card shape → mkData h shape data = .throw .invalidArgument) ∧
    (data.length = card shape → ∃ h' a, mkData h shape data = .ok (h', a) ∧ a.shape = shape ∧ a.size = data.length ∧
      (allCoords shape).map (at' h' a) = data.map .ok ∧
      ∀ c, ¬ Valid shape c → at' h' a c = .throw .outOfRange) := by
  have hacc : accU32 shape = card shape := by rw [accU32_eq, Nat.mod_eq_of_lt hsmall]
  constructor
  · intro hne; rw [mkData, if_pos (by rw [hacc]; exact fun h => hne h.symm)]
  · intro he
    refine ⟨_, _, by rw [mkData, if_neg (by rw [hacc, he]; simp)], rfl, by simp [hacc, he], ?_, ?_⟩
    · have := whole_at (h := h ++ [data]) (a := ⟨h.length, 0, shape, updateStrides shape, [], accU32 shape⟩)
        (data := data) rfl (updateStrides_compat _) (by simp) (by simp [he])
      rw [this]; simp [← he]
    · intro c hv
      rw [at', getOffset_invalid (by simp [updateStrides_length]) (by simpa using hv)]
      rfl

/-- The enumeration used above really contains every valid coordinate vector exactly once. -/
theorem C02_enumeration_complete (shape : List Nat) :
    (allCoords shape).Nodup ∧ (allCoords shape).length = card shape ∧ ∀ c, c ∈ allCoords shape ↔ Valid shape c :=
  ⟨allCoords_nodup shape, allCoords_length shape, fun _ => mem_allCoords⟩

/-- **C02 (distinct cells).** In a constructed array a write at valid coordinates succeeds and changes that element only. -/
theorem C02_write_changes_one (h h' : Heap T) (shape : List Nat) (data : List T) (a : Nd) (hsmall : card shape < 2 ^ 32)
    (hm : mkData h shape data = .ok (h', a)) (c : List Nat) (hv : Valid shape c) (x : T) :
    ∃ h'', set' h' a c x = .ok h'' ∧ ∀ c', at' h'' a c' = if c' = c then .ok x else at' h' a c' := by
  obtain ⟨hl, rfl, rfl⟩ := mkData_spec hm
  have hc := updateStrides_compat shape
  have hset : ∃ h'', set' (h ++ [data]) ⟨h.length, 0, shape, updateStrides shape, [], accU32 shape⟩ c x = .ok h'' := by
    rw [set', getOffset_valid (updateStrides_length _) hv, Outcome.bind_ok, setOffset]
    obtain ⟨k, hk, he⟩ := dot_mem hc hv
    simp only [List.getElem?_append_right (le_refl _), Nat.sub_self, List.getElem?_cons_zero]
    rw [if_pos]
    · exact ⟨_, rfl⟩
    · rw [accU32_eq, Nat.mod_eq_of_lt hsmall] at hl
      simp only [Nat.zero_add]; omega
  obtain ⟨h'', hh⟩ := hset
  exact ⟨h'', hh, (set_at ⟨1, by omega, hc⟩ hh).2⟩

/-- Test: a 2x3 array, its hypotheses and its element (1,2). -/
example : card [2, 3] < 2 ^ 32 ∧ ∃ h' a, mkData ([] : Heap Nat) [2, 3] [10, 11, 12, 13, 14, 15] = .ok (h', a) ∧
    at' h' a [1, 2] = .ok 15 ∧ at' h' a [2, 0] = .throw .outOfRange ∧ Valid [2, 3] [1, 2] :=
  ⟨by decide, _, _, rfl, by decide, by decide, by decide⟩

/-- The size bound of C02 is needed: the number of elements is accumulated in 32 bits, so the array of shape
65536 x 65536 is created with `size() = 0` and its element (0,0) is out of the container. -/
theorem C02_large_shape_violated (zero : T) :
    (mkZero zero [] [65536, 65536]).2.size = 0 ∧
    at' (mkZero zero [] [65536, 65536]).1 (mkZero zero [] [65536, 65536]).2 [0, 0] = .ub := by
  constructor <;> rfl

/-! ## C03 -/

/-- **C03 (slices are views).** For every chain of slices of a constructed array, every heap content and every coordinate
vector: reading or writing element `c` of the slice is reading or writing element `embed sts c` of the array. -/
theorem C03_slices_are_views (h h' : Heap T) (shape : List Nat) (data : List T) (a b : Nd)
    (hm : mkData h shape data = .ok (h', a)) (sts : List Step) (hb : slices a sts = .ok b) (g : Heap T)
    (c : List Nat) : at' g b c = at' g a (embed sts c) ∧ ∀ x, set' g b c x = set' g a (embed sts c) x := by
  obtain ⟨_, _, rfl⟩ := mkData_spec hm
  obtain ⟨h1, h2, _⟩ := slices_getOffset (by simp [updateStrides_length]) hb c
  constructor
  · rw [at', at', h1]
    cases getOffset _ (embed sts c) <;> simp [atOffset, h2]
  · intro x; rw [set', set', h1, h2]

/-- **C03 (coordinates of slices).** The valid coordinates of a slice are those whose embedding is valid in the array. -/
theorem C03_slice_coordinates (h h' : Heap T) (shape : List Nat) (data : List T) (a b : Nd)
    (hm : mkData h shape data = .ok (h', a)) (sts : List Step) (hb : slices a sts = .ok b) (c : List Nat) :
    Valid b.shape c ↔ Valid shape (embed sts c) := by
  obtain ⟨_, _, rfl⟩ := mkData_spec hm
  have hs : (updateStrides shape).length = shape.length := updateStrides_length _
  obtain ⟨h1, h2, h3⟩ := slices_getOffset (a := ⟨_, 0, shape, updateStrides shape, [], _⟩) hs hb c
  constructor
  · intro hv
    by_contra hn
    rw [getOffset_valid h3 hv, getOffset_invalid (by exact hs) hn] at h1; cases h1
  · intro hv
    by_contra hn
    rw [getOffset_invalid h3 hn, getOffset_valid (by exact hs) hv] at h1; cases h1

/-- **C03 (when slicing succeeds).** On an array or slice of rank `n`, `slice(i)` and `rslice(i)` succeed exactly if
`n ≥ 2` and `i` is below the first (last) dimension; otherwise they throw. -/
theorem C03_slice_succeeds_iff (h h' : Heap T) (shape : List Nat) (data : List T) (a b : Nd)
    (hm : mkData h shape data = .ok (h', a)) (sts : List Step) (hb : slices a sts = .ok b) (i : Nat) :
    ((∃ w, slice b i = .ok w ∧ w.shape = b.shape.tail) ∧ 2 ≤ b.shape.length ∧ (∃ d, b.shape.head? = some d ∧ i < d) ∨
      slice b i = .throw .outOfRange ∧ ¬ (2 ≤ b.shape.length ∧ ∃ d, b.shape.head? = some d ∧ i < d)) ∧
    ((∃ w, rslice b i = .ok w ∧ w.shape = b.shape.dropLast) ∧ 2 ≤ b.shape.length ∧
        (∃ d, b.shape.getLast? = some d ∧ i < d) ∨
      rslice b i = .throw .outOfRange ∧ ¬ (2 ≤ b.shape.length ∧ ∃ d, b.shape.getLast? = some d ∧ i < d)) := by
  obtain ⟨_, _, rfl⟩ := mkData_spec hm
  have hs : (updateStrides shape).length = shape.length := updateStrides_length _
  obtain ⟨-, -, h3⟩ := slices_getOffset (a := ⟨_, 0, shape, updateStrides shape, [], _⟩) hs hb []
  constructor
  · unfold slice
    split
    · rename_i d d' ds s ss h1 h2
      split
      · right; refine ⟨rfl, ?_⟩
        rintro ⟨_, e, he, hlt⟩
        rw [h1] at he; simp at he; omega
      · left; exact ⟨⟨_, rfl, by simp [h1]⟩, by simp [h1], d, by simp [h1], by omega⟩
    · rename_i h1 h2; rw [h1, h2] at h3; simp at h3
    · rename_i hsh hst
      right; refine ⟨rfl, ?_⟩
      rintro ⟨h2, _⟩
      match hb1 : b.shape, hb2 : b.strides with
      | [], _ => rw [hb1] at h2; simp at h2
      | [_], _ => rw [hb1] at h2; simp at h2
      | d :: d' :: ds, s :: ss => exact hsh d d' ds s ss hb1 hb2
      | d :: d' :: ds, [] => exact hst d d' ds hb1 hb2
  · unfold rslice
    split
    · right; exact ⟨rfl, fun h => by omega⟩
    · rename_i hlen
      split
      · rename_i d s h1 h2
        split
        · right; refine ⟨rfl, ?_⟩
          rintro ⟨_, e, he, hlt⟩
          rw [h1] at he; simp at he; omega
        · left; exact ⟨⟨_, rfl, rfl⟩, by omega, d, h1, by omega⟩
      · rename_i hno
        exfalso
        have e1 : b.shape ≠ [] := by intro h; rw [h] at hlen; simp at hlen
        have e2 : b.strides ≠ [] := by intro h; rw [h] at h3; simp at h3; rw [← h3] at hlen; simp at hlen
        exact hno _ _ (List.getLast?_eq_some_getLast e1) (List.getLast?_eq_some_getLast e2)

/-- Test: a chain of a left and a right slice of a 2x3x2 array. -/
example : ∃ h' a b, mkData ([] : Heap Nat) [2, 3, 2] (List.range 12) = .ok (h', a) ∧
    slices a [.left 1, .right 1] = .ok b ∧ b.shape = [3] ∧ embed [.left 1, .right 1] [2] = [1, 2, 1] ∧
    at' h' b [2] = .ok 11 := ⟨_, _, _, rfl, rfl, rfl, rfl, by decide⟩

/-! ## C04 -/

/-- **C04.** Iterating an array of fewer than `2^31` elements, or any slice of it obtained by left and right slices, yields
exactly one element for each coordinate vector, in row-major order, and `size()` of them. -/
theorem C04_iteration_row_major (h h' : Heap T) (shape : List Nat) (data : List T) (a b : Nd)
    (hm : mkData h shape data = .ok (h', a)) (hsmall : card shape < 2 ^ 31) (hne : shape ≠ []) (sts : List Step)
    (hb : slices a sts = .ok b) :
    ∃ l, iterate h' b = .ok l ∧ l.length = b.size ∧ b.size = card b.shape ∧
      (allCoords b.shape).map (at' h' b) = l.map .ok := by
  have hwa := mkData_wf hm hsmall hne
  have hwb := slices_wf hwa hb
  have hread : ∀ c, Valid b.shape c → ∃ x, at' h' b c = .ok x := by
    intro c hv
    rw [(C03_slices_are_views h h' shape data a b hm sts hb h' c).1]
    exact fresh_readable hm (by omega) ((C03_slice_coordinates h h' shape data a b hm sts hb c).1 hv)
  obtain ⟨l, hl⟩ := exists_map_ok (l := allCoords b.shape) (f := at' h' b)
    (fun c hc => hread c (mem_allCoords.1 hc))
  refine ⟨l, ?_, ?_, hwb.size, hl⟩
  · rw [iterate_eq hwb, hl]; exact collect_ok l
  · have := congrArg List.length hl
    simp only [List.length_map, allCoords_length] at this
    rw [hwb.size, this]

/-- Test: iteration of a right slice, and the hypotheses. -/
example : ∃ h' a b, mkData ([] : Heap Nat) [2, 3, 2] (List.range 12) = .ok (h', a) ∧ card [2, 3, 2] < 2 ^ 31 ∧
    slices a [.right 1] = .ok b ∧ iterate h' b = .ok [1, 3, 5, 7, 9, 11] :=
  ⟨_, _, _, rfl, by decide, rfl, by decide⟩

end Alexandria.NdArray
