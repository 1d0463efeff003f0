import Verif.NdArray.VariadicModel
import Verif.NdArray.Props2

/-!
# Properties C02, C05 and C60 for coordinates and dimensions that are given one by one
-/

namespace Alexandria.NdArray

open Spec

variable {T : Type}

theorem atHelper_eq (h : Heap T) (a : Nd) (attr : Option String) : ∀ (rest acc : List Nat),
    atHelper h a acc attr rest = (match attr with | none => at' h a (acc ++ rest) | some name => atAttr h a (acc ++ rest) name)
  | [], acc => by rw [List.append_nil]; rfl
  | i :: rest, acc => by
    rw [atHelper, atHelper_eq h a attr rest, List.append_assoc]
    rfl

theorem reshapeHelper_eq (a : Nd) : ∀ (rest acc : List Nat), reshapeHelper a acc rest = reshape a (acc ++ rest)
  | [], acc => by rw [List.append_nil]; rfl
  | i :: rest, acc => by
    rw [reshapeHelper, reshapeHelper_eq a rest, List.append_assoc]
    rfl

/-- **C02 (one by one).** In an array made from a shape and data, `at(i, j, ...)` with the coordinates of an element gives the element: over all coordinates in row-major order, it
gives the data. With too many or too few coordinates, or one that is too large, it throws. -/
theorem C02_one_by_one (h h' : Heap T) (shape : List Nat) (data : List T) (a : Nd) (hsmall : card shape < 2 ^ 32) (hne : shape ≠ [])
    (hm : mkData h shape data = .ok (h', a)) :
    (allCoords shape).map (fun c => atArgs h' a (c.headD 0) c.tail none) = data.map .ok ∧
    ∀ i rest, ¬ Valid shape (i :: rest) → atArgs h' a i rest none = .throw .outOfRange := by
  have hl : data.length = card shape := by
    by_contra hc
    rw [(C02_at_row_major h shape data hsmall).1 hc] at hm
    cases hm
  obtain ⟨h1, a1, e1, -, -, e2, e3⟩ := (C02_at_row_major h shape data hsmall).2 hl
  rw [hm] at e1
  cases e1
  refine ⟨?_, fun i rest hv => ?_⟩
  · rw [← e2]
    refine List.map_congr_left fun c hc => ?_
    have hv := (C02_enumeration_complete shape).2.2 c |>.mp hc
    cases c with
    | nil =>
      cases shape with
      | nil => exact absurd rfl hne
      | cons d ds => exact absurd hv (by simp [Valid])
    | cons i rest => exact atHelper_eq h' a none rest [i]
  · rw [atArgs, atHelper_eq]
    exact e3 _ hv

/-- **C60 (one by one).** In an array made with distinct attribute names, `at(i, j, ..., name)` with the `k`-th name gives the element `(i, j, ..., k)`, and throws for a name that the
array does not have. -/
theorem C60_one_by_one (h h' : Heap T) (shape : List Nat) (attrs : List String) (data : List T) (a : Nd)
    (hm : mkAttrs h shape attrs data = .ok (h', a)) (hnd : attrs.Nodup) (g : Heap T) (i : Nat) (rest : List Nat) :
    (∀ k (hk : k < attrs.length), atArgs g a i rest (some attrs[k]) = atArgs g a i (rest ++ [k]) none) ∧
    (∀ n, n ∉ attrs → atArgs g a i rest (some n) = .throw .outOfRange) := by
  obtain ⟨e1, e2⟩ := C60_attribute_access_partial h h' shape attrs data a hm hnd g (i :: rest)
  refine ⟨fun k hk => ?_, fun n hn => ?_⟩
  · unfold atArgs
    rw [atHelper_eq, atHelper_eq]
    exact e1 k hk
  · unfold atArgs
    rw [atHelper_eq]
    exact e2 n hn

/-- **C05 (one by one).** `reshape(d, e, ...)` of an array made from a shape and data, or of a slice taken from its left, succeeds if and only if the dimensions that are given have
the right number of elements, and keeps the elements in their order. -/
theorem C05_one_by_one (h h' : Heap T) (shape : List Nat) (data : List T) (a b : Nd) (is : List Nat) (d : Nat) (rest : List Nat)
    (hm : mkData h shape data = .ok (h', a)) (hsmall : card shape < 2 ^ 31) (hne : shape ≠ []) (hb : slices a (is.map .left) = .ok b)
    (hns : card (d :: rest) < 2 ^ 31) :
    (card (d :: rest) = card b.shape → ∃ b', reshapeArgs b d rest = .ok b' ∧ b'.shape = d :: rest ∧ b'.size = b.size ∧
      iterate h' b' = iterate h' b ∧ iterate h' b' = collect ((allCoords (d :: rest)).map (at' h' b'))) ∧
    (card (d :: rest) ≠ card b.shape → reshapeArgs b d rest = .throw .rangeError) := by
  have e : reshapeArgs b d rest = reshape b (d :: rest) := reshapeHelper_eq b rest [d]
  rw [e]
  exact C05_reshape_keeps_order_partial h h' shape data a b is (d :: rest) hm hsmall hne hb (by simp) hns

/-- The six elements of an array of two rows, one by one, and as three rows. -/
example : ∃ h a b, mkData ([] : Heap Nat) [2, 3] [1, 2, 3, 4, 5, 6] = .ok (h, a) ∧ atArgs h a 1 [0] none = .ok 4 ∧ atArgs h a 1 [] none = .throw .outOfRange ∧
    reshapeArgs a 3 [2] = .ok b ∧ atArgs h b 1 [0] none = .ok 3 := ⟨_, _, _, rfl, rfl, rfl, rfl, rfl⟩

/-- The elements of an array with names. -/
example : ∃ h a, mkAttrs ([] : Heap Nat) [2] ["x", "y"] [1, 2, 3, 4] = .ok (h, a) ∧ atArgs h a 1 [] (some "x") = .ok 3 ∧
    atArgs h a 1 [] (some "z") = .throw .outOfRange := ⟨_, _, rfl, by decide, by decide⟩

end Alexandria.NdArray
