import Verif.NdArray.Props2

/-!
# Lemmas for the exact effect of reshaping, copying and concatenating arbitrary views
-/

namespace Alexandria.NdArray

open Spec

variable {T : Type}

theorem valid_zeros {shape : List Nat} (h : 0 < card shape) : Valid shape (shape.map fun _ => 0) := by
  induction shape with
  | nil => simp [Valid]
  | cons d ds ih =>
    simp only [card] at h
    exact ⟨Nat.pos_of_mul_pos_right h, ih (Nat.pos_of_mul_pos_left h)⟩

theorem dot_zeros (shape strides : List Nat) : dot (shape.map fun _ => 0) strides = 0 := by
  induction shape generalizing strides with
  | nil => simp [dot]
  | cons d ds ih => cases strides with
    | nil => rfl
    | cons s ss => rw [List.map_cons, dot, ih ss, Nat.zero_mul]

theorem slices_attrs {a b : Nd} {sts : List Step} (ha : a.attrs = []) (h : slices a sts = .ok b) : b.attrs = [] := by
  induction sts generalizing a with
  | nil => cases h; exact ha
  | cons st sts ih =>
    rw [slices] at h
    cases hst : st.apply a with
    | ok a' =>
      rw [hst, Outcome.bind_ok] at h
      refine ih ?_ h
      cases st with
      | left i => obtain ⟨d, d', ds, s, ss, h1, h2, hi, rfl⟩ := slice_spec hst; simp [ha]
      | right i => obtain ⟨ds, d, ss, s, hne, h1, h2, hi, rfl⟩ := rslice_spec hst; simp [ha]
    | throw e => rw [hst] at h; cases h
    | ub => rw [hst] at h; cases h

/-- The element of a whole array at which a chain of slices begins, and the room behind it. -/
theorem slices_offset {a b : Nd} {sts : List Step} (hc : Compat 1 a.shape a.strides) (ho : a.offset = 0)
    (hw : WF a) (h : slices a sts = .ok b) (hpos : 0 < card b.shape) :
    (allCoords a.shape)[b.offset]? = some (embed sts (b.shape.map fun _ => 0)) ∧
      b.offset + card b.shape ≤ card a.shape := by
  have hwb := slices_wf hw h
  obtain ⟨u, hu, hcb⟩ := hwb.compat
  have hlen := hc.length_eq
  have key : ∀ c, Valid b.shape c → Valid a.shape (embed sts c) ∧ b.offset + dot c b.strides = dot (embed sts c) a.strides := by
    intro c hv
    obtain ⟨h1, _, h3⟩ := slices_getOffset hlen h c
    rw [getOffset_valid h3 hv] at h1
    by_cases hva : Valid a.shape (embed sts c)
    · rw [getOffset_valid hlen hva, ho] at h1
      refine ⟨hva, ?_⟩
      have := Outcome.ok.inj h1
      omega
    · rw [getOffset_invalid hlen hva] at h1; cases h1
  constructor
  · obtain ⟨hv, hd⟩ := key _ (valid_zeros hpos)
    rw [dot_zeros, Nat.add_zero] at hd
    obtain ⟨k, hk, he⟩ := List.getElem_of_mem (mem_allCoords.2 hv)
    have hmap := congrArg (·[k]?) (allCoords_map_dot hc)
    rw [allCoords_length] at hk
    simp only [List.getElem?_map, List.getElem?_range hk, List.getElem?_eq_getElem (by rw [allCoords_length]; exact hk :
      k < (allCoords a.shape).length), Option.map_some, Nat.mul_one, Option.some.injEq, he] at hmap
    rw [hd, hmap, List.getElem?_eq_getElem (by rw [allCoords_length]; exact hk), he]
  · have hmem : (card b.shape - 1) * u ∈ (allCoords b.shape).map (dot · b.strides) := by
      rw [allCoords_map_dot hcb]
      exact List.mem_map.2 ⟨_, List.mem_range.2 (by omega), rfl⟩
    obtain ⟨c, hcm, hcd⟩ := List.mem_map.1 hmem
    obtain ⟨hv, hd⟩ := key c (mem_allCoords.1 hcm)
    obtain ⟨k, hk, he⟩ := dot_mem hc hv
    have : card b.shape - 1 ≤ (card b.shape - 1) * u := Nat.le_mul_of_pos_right _ hu
    rw [hcd, he] at hd
    omega

/-- Reading consecutive elements of a container. -/
theorem collect_consecutive {h : Heap T} {a : Nd} {data : List T} (hc : h[a.cid]? = some data) (o n : Nat)
    (hl : o + n ≤ data.length) :
    collect ((List.range n).map fun i => atOffset h a (o + i)) = .ok ((data.drop o).take n) := by
  have hmap : ((List.range n).map fun i => atOffset h a (o + i)) = ((data.drop o).take n).map .ok := by
    apply List.ext_getElem (by simp; omega)
    intro i h1 h2
    simp only [List.length_map, List.length_range] at h1
    simp only [List.getElem_map, List.getElem_range, List.getElem_take, List.getElem_drop]
    simp only [atOffset, hc]
    rw [List.getElem?_eq_getElem (by omega)]
  rw [hmap, collect_ok]

/-- `copyLoop_spec` for a source in any container, as long as nothing is read behind the place where writing starts. -/
theorem copyLoop_same {other : Nd} {stride cid : Nat} (f : Nat → T) (is : List Nat) :
    ∀ (pos : Nat) (h : Heap T) (c : List T), h[cid]? = some c → pos + is.length ≤ c.length →
    (∀ i ∈ is, other.cid ≠ cid ∨ other.offset + i * stride < pos) →
    (∀ i ∈ is, atOffset h other (other.offset + i * stride) = .ok (f i)) →
    copyLoop other stride cid is pos h = .ok (h.set cid (c.take pos ++ is.map f ++ c.drop (pos + is.length))) := by
  induction is with
  | nil =>
    intro pos h c hc _ _ _
    simp only [copyLoop, List.map_nil, List.append_nil, List.length_nil, Nat.add_zero, List.take_append_drop]
    congr 1
    obtain ⟨hlt, he⟩ := List.getElem?_eq_some_iff.1 hc
    rw [← he, List.set_getElem_self]
  | cons i is ih =>
    intro pos h c hc hl hs hr
    have hlt : cid < h.length := (List.getElem?_eq_some_iff.1 hc).1
    simp only [List.length_cons] at hl
    rw [copyLoop, hr i (by simp), Outcome.bind_ok, setOffset, hc]
    simp only
    rw [if_pos (by omega), Outcome.bind_ok, ih (pos + 1) _ (c.set pos (f i)) (by simp [hlt]) (by simp; omega)]
    · rw [List.set_set]
      congr 2
      simp only [List.length_cons, List.map_cons]
      have e1 : (c.set pos (f i)).take (pos + 1) = c.take pos ++ [f i] := by
        rw [List.take_set, List.take_succ_eq_append_getElem (by omega)]
        rw [List.set_append_right _ _ (by simp)]
        have : pos - (c.take pos).length = 0 := by simp; omega
        rw [this]; simp
      have e2 : (c.set pos (f i)).drop (pos + 1 + is.length) = c.drop (pos + (is.length + 1)) := by
        rw [List.drop_set_of_lt (by omega)]; congr 1; omega
      rw [e1, e2]; simp
    · intro j hj
      rcases hs j (by simp [hj]) with h1 | h1
      · exact .inl h1
      · exact .inr (by omega)
    · intro j hj
      rw [← hr j (by simp [hj])]
      rcases hs j (by simp [hj]) with h1 | h1
      · exact atOffset_set_ne h1 _ _
      · by_cases hcid : other.cid = cid
        · unfold atOffset
          rw [hcid, hc, List.getElem?_set_self hlt]
          simp only
          rw [List.getElem?_set_ne (by omega)]
        · exact atOffset_set_ne hcid _ _

/-- Writing past the end of the container is undefined behaviour, whatever is read. -/
theorem copyLoop_ub {other : Nd} {stride cid : Nat} (is : List Nat) (hne : is ≠ []) :
    ∀ (pos : Nat) (h : Heap T) (c : List T), h[cid]? = some c → c.length < pos + is.length →
    copyLoop other stride cid is pos h = .ub := by
  induction is with
  | nil => exact absurd rfl hne
  | cons i is ih =>
    intro pos h c hc hl
    have hlt : cid < h.length := (List.getElem?_eq_some_iff.1 hc).1
    simp only [List.length_cons] at hl
    rw [copyLoop]
    have hrd : (∃ x, atOffset h other (other.offset + i * stride) = .ok x) ∨
        atOffset h other (other.offset + i * stride) = .ub := by
      unfold atOffset
      cases h[other.cid]? with
      | none => exact .inr rfl
      | some c' => cases hx : c'[other.offset + i * stride]? with
        | none => exact .inr (by simp [hx])
        | some x => exact .inl ⟨x, by simp [hx]⟩
    rcases hrd with ⟨x, hx⟩ | hx
    · rw [hx, Outcome.bind_ok, setOffset, hc]
      simp only
      by_cases hp : pos < c.length
      · rw [if_pos hp, Outcome.bind_ok]
        refine ih ?_ (pos + 1) _ (c.set pos x) (by simp [hlt]) (by simp; omega)
        rintro rfl
        simp at hl; omega
      · rw [if_neg hp]; rfl
    · rw [hx]; rfl

end Alexandria.NdArray
