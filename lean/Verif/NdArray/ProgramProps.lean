import Verif.NdArray.ProgramLemmas
import Verif.NdArray.ExactProps

/-! # Programs over n-dimensional arrays (C132) -/

namespace Alexandria.NdArray

open Spec (card Valid allCoords)

variable {T : Type}

theorem idxOf_dot {shape c : List Nat} (h : Valid shape c) :
    (allCoords shape).idxOf c = dot c (updateStrides shape) ∧ (allCoords shape).idxOf c < card shape := by
  have h1 := mem_allCoords.mpr h
  have h2 : (allCoords shape).idxOf c < (allCoords shape).length := List.idxOf_lt_length_iff.mpr h1
  have h3 := (allCoords_getElem h2).2
  rw [List.getElem_idxOf h2] at h3
  rw [← allCoords_length]
  exact ⟨h3.symm, h2⟩

theorem make_rel {shape : List Nat} {data : List T} (hl : data.length = card shape) :
    GRel shape data fun c => data[(allCoords shape).idxOf c]? :=
  ⟨hl, fun c hc => by rw [(idxOf_dot hc).1]⟩

theorem make_var {n : Nat} {shape : List Nat} {attrs : List String} {names : Option (List String)} (hs : card shape < 2 ^ 31) (hne : shape ≠ [])
    (hn : ∀ l, names = some l → attrs = l) :
    VRel shape ⟨n, 0, shape, updateStrides shape, attrs, accU32 shape⟩ ⟨n, shape, id, true, true, true, names⟩ := by
  refine ⟨rfl, rfl, ⟨⟨1, by omega, updateStrides_compat _⟩, rfl, hs, hne⟩, fun _ => by simp only [accU32_eq]; rw [Nat.mod_eq_of_lt (by omega)], hn, ?_,
    fun _ => updateStrides_compat _, fun _ => ⟨rfl, updateStrides_compat _, rfl⟩⟩
  intro c hc
  exact ⟨hc, by simp⟩

theorem kept_some {names rest : Option (List String)} {l : List String} (h : Spec.kept false names rest = some l) : names = some [] ∧ l = [] := by
  rw [Spec.kept, if_neg (by simp)] at h
  by_cases e : names = some []
  · rw [if_pos e] at h; cases h; exact ⟨e, rfl⟩
  · rw [if_neg e] at h; cases h

theorem slice_rel {bs : List Nat} {nd : Nd} {a : Spec.Arr} (h : VRel bs nd a) {i : Nat} (h2 : 2 ≤ a.shape.length) (hi : i < a.shape.headD 0) :
    ∃ b, slice nd i = .ok b ∧ VRel bs b
      { a with shape := a.shape.tail, view := fun c => a.view (i :: c), whole := false, fresh := true, names := Spec.kept false a.names a.names } := by
  obtain ⟨cid, offset, shape, strides, attrs, size⟩ := nd
  obtain ⟨grid, shape', view, cont, whole, fresh, names⟩ := a
  have e := h.shape
  simp only at e h2 hi
  subst e
  match shape, h2, hi with
  | d :: d' :: ds, _, hi =>
    have hl := h.len
    match strides, hl with
    | s :: ss, hl =>
      have hs : ∀ size, slice ⟨cid, offset, d :: d' :: ds, s :: ss, attrs, size⟩ i = .ok ⟨cid, offset + i * s, d' :: ds, ss, attrs.tail, accI32 (d' :: ds)⟩ := by
        intro size; rw [slice]; simp only; rw [if_neg (by simpa using hi)]
      have hw := slice_wf h.wf (hs _)
      refine ⟨_, hs _, h.cid, rfl, ⟨hw.compat, rfl, hw.small, hw.rank⟩, fun _ => hw.size, ?_, ?_, ?_, fun h => by cases h⟩
      · intro l hl
        obtain ⟨e, rfl⟩ := kept_some (names := names) (rest := names) hl
        have := h.attrs _ e; simp only at this; simp [this]
      · intro c hc
        have := h.view (i :: c) ⟨by simpa using hi, hc⟩
        refine ⟨this.1, ?_⟩
        rw [← this.2]
        simp only [dot]
        omega
      · intro hc
        have := h.contiguous hc
        simp only [Compat] at this
        exact this.2

theorem rslice_rel {bs : List Nat} {nd : Nd} {a : Spec.Arr} (h : VRel bs nd a) {i : Nat} (h2 : 2 ≤ a.shape.length) (hi : i < a.shape.getLastD 0) :
    ∃ b, rslice nd i = .ok b ∧
      VRel bs b { a with shape := a.shape.dropLast, view := fun c => a.view (c ++ [i]), contiguous := false, whole := false, fresh := true,
                         names := Spec.kept false a.names (some []) } := by
  obtain ⟨cid, offset, shape, strides, attrs, size⟩ := nd
  obtain ⟨grid, shape', view, cont, whole, fresh, names⟩ := a
  have e := h.shape
  simp only at e h2 hi
  subst e
  have hl := h.len
  simp only at hl
  have hne : shape ≠ [] := by rintro rfl; simp at h2
  have hne' : strides ≠ [] := by rintro rfl; exact hne (List.length_eq_zero_iff.mp hl.symm)
  obtain ⟨ds, d, rfl⟩ : ∃ ds d, shape = ds ++ [d] := ⟨_, _, (List.dropLast_append_getLast hne).symm⟩
  obtain ⟨ss, s, rfl⟩ : ∃ ss s, strides = ss ++ [s] := ⟨_, _, (List.dropLast_append_getLast hne').symm⟩
  have hi' : i < d := by simpa using hi
  have hs : ∀ size, rslice ⟨cid, offset, ds ++ [d], ss ++ [s], attrs, size⟩ i = .ok ⟨cid, offset + i * s, ds, ss, attrs.dropLast, accI32 ds⟩ := by
    intro size
    rw [rslice, if_neg (by simp only; omega)]
    simp only [List.getLast?_append, List.getLast?_singleton, Option.some_or, List.dropLast_concat]
    rw [if_neg (by omega)]
  have hll : ss.length = ds.length := by simpa using hl
  have hw := rslice_wf h.wf (hs _)
  refine ⟨_, hs _, h.cid, by simp, ⟨hw.compat, rfl, hw.small, hw.rank⟩, fun _ => hw.size, ?_, ?_, fun h' => Bool.noConfusion h', fun h' => Bool.noConfusion h'⟩
  · intro l hl
    obtain ⟨e, rfl⟩ := kept_some (names := names) (rest := some []) hl
    have := h.attrs _ e; simp only at this; simp [this]
  · intro c hc
    simp only [List.dropLast_concat] at hc
    have hcl := valid_length hc
    have := h.view (c ++ [i]) ((valid_append hcl).mpr ⟨hc, hi', trivial⟩)
    refine ⟨this.1, ?_⟩
    rw [← this.2]
    simp only
    rw [dot_append (by omega)]
    simp only [dot]
    omega

theorem slice_thrown {nd : Nd} {i : Nat} (hl : nd.strides.length = nd.shape.length) (h : ¬ (2 ≤ nd.shape.length ∧ i < nd.shape.headD 0)) :
    slice nd i = .throw .outOfRange := by
  obtain ⟨cid, offset, shape, strides, attrs, size⟩ := nd
  simp only at hl h
  match shape, strides with
  | d :: d' :: ds, s :: ss =>
    rw [slice]; simp only
    rw [if_pos (by simp at h; omega)]
  | d :: d' :: ds, [] => simp at hl
  | [], ss => cases ss <;> rfl
  | [d], ss => cases ss <;> rfl

theorem rslice_thrown {nd : Nd} {i : Nat} (hl : nd.strides.length = nd.shape.length) (h : ¬ (2 ≤ nd.shape.length ∧ i < nd.shape.getLastD 0)) :
    rslice nd i = .throw .outOfRange := by
  obtain ⟨cid, offset, shape, strides, attrs, size⟩ := nd
  simp only at hl h
  by_cases h2 : shape.length ≤ 1
  · rw [rslice, if_pos h2]
  · have hne : shape ≠ [] := by rintro rfl; simp at h2
    have hne' : strides ≠ [] := by rintro rfl; exact hne (List.length_eq_zero_iff.mp hl.symm)
    obtain ⟨ds, d, rfl⟩ : ∃ ds d, shape = ds ++ [d] := ⟨_, _, (List.dropLast_append_getLast hne).symm⟩
    obtain ⟨ss, s, rfl⟩ : ∃ ss s, strides = ss ++ [s] := ⟨_, _, (List.dropLast_append_getLast hne').symm⟩
    rw [rslice, if_neg h2]
    simp only [List.getLast?_append, List.getLast?_singleton, Option.some_or]
    rw [if_pos]
    have h3 : ¬ i < (ds ++ [d]).getLastD 0 := fun h' => h ⟨by omega, h'⟩
    simp at h3
    omega

theorem reshape_rel {bs : List Nat} {nd : Nd} {a : Spec.Arr} (h : VRel bs nd a) {shape : List Nat} (hne : shape ≠ []) (hs : card shape < 2 ^ 31)
    (hn : a.names = some []) (hf : a.fresh = true) :
    (card shape ≠ card a.shape → reshape nd shape = .throw .rangeError) ∧
    (card shape = card a.shape → a.contiguous = true →
      ∃ b, reshape nd shape = .ok b ∧ VRel bs b { a with shape := shape, view := fun c => a.view (Spec.samePlace shape a.shape c) }) := by
  have hsz := (h.wf' hf).size
  rw [h.shape] at hsz
  rw [reshape, if_neg (by simp [h.attrs _ hn]), accI32_eq hs, hsz]
  constructor
  · intro hc; rw [if_pos hc]
  · intro hc hcont
    rw [if_neg (by simp [hc])]
    have hcm := h.contiguous hcont
    have est : nd.strides = updateStrides a.shape := by rw [← h.shape]; exact hcm.unique (updateStrides_compat _)
    refine ⟨_, rfl, h.cid, rfl, ⟨⟨1, by omega, updateStrides_compat _⟩, rfl, hs, hne⟩, fun _ => hc.symm, h.attrs, ?_, fun _ => updateStrides_compat _, ?_⟩
    · intro c hv
      obtain ⟨h1, h2⟩ := idxOf_dot hv
      have hlt : (allCoords shape).idxOf c < (allCoords a.shape).length := by rw [allCoords_length, ← hc]; exact h2
      have e : Spec.samePlace shape a.shape c = (allCoords a.shape)[(allCoords shape).idxOf c] := by
        rw [Spec.samePlace, List.getD_eq_getElem?_getD, List.getElem?_eq_getElem hlt]; rfl
      obtain ⟨h3, h4⟩ := allCoords_getElem hlt
      rw [← e] at h3 h4
      have h5 := h.view _ h3
      refine ⟨h5.1, ?_⟩
      rw [← h5.2, est, h4, h1]
    · intro hw
      obtain ⟨h1, _, h3⟩ := h.whole hw
      exact ⟨h1, updateStrides_compat _, hc.trans h3⟩

theorem copy_rel {bs : List Nat} {nd : Nd} {a : Spec.Arr} (h : VRel bs nd a) {s : State T} {t : Spec.State T} {data : List T} {g : List Nat → Option T}
    (hd : s.heap[a.grid]? = some data) (hg : t.grids[a.grid]? = some g) (hr : GRel bs data g) (hw : a.whole = true) :
    copy s.heap nd = .ok (s.heap ++ [data], ⟨s.heap.length, 0, a.shape, updateStrides a.shape, nd.attrs, accU32 a.shape⟩) ∧ GRel a.shape data (t.elem a) := by
  obtain ⟨h1, h2, h3⟩ := h.whole hw
  constructor
  · rw [copy, h.cid, hd, h.shape]
  · refine ⟨by rw [hr.len, h3], fun c hc => ?_⟩
    obtain ⟨h4, h5⟩ := h.view c hc
    have est : nd.strides = updateStrides a.shape := by rw [← h.shape]; exact h2.unique (updateStrides_compat _)
    rw [Spec.State.elem, hg]
    simp only
    rw [hr.val _ h4, ← h5, h1, est, Nat.zero_add]

theorem set_rel [DecidableEq T] {B : List (List Nat)} {s : State T} {t : Spec.State T} (h : Rel B s t) {v : Nat} {a : Spec.Arr} (ha : t.vars[v]? = some a) {c : List Nat}
    (hc : Valid a.shape c) (x : T) :
    ∃ nd h', s.vars[v]? = some nd ∧ set' s.heap nd c x = .ok h' ∧
      Rel B ⟨h', s.vars⟩ ⟨t.grids.modify a.grid fun g c' => if c' = a.view c then some x else g c', t.vars⟩ := by
  obtain ⟨nd, bs, data, g, hnd, hb, hv, hd, hg, hr⟩ := h.var' ha
  obtain ⟨h1, h2⟩ := hv.view c hc
  obtain ⟨k, hk, he⟩ := dot_mem (updateStrides_compat bs) h1
  have hlt : dot (a.view c) (updateStrides bs) < data.length := by rw [hr.len]; omega
  refine ⟨nd, s.heap.set a.grid (data.set (dot (a.view c) (updateStrides bs)) x), hnd, ?_, ?_⟩
  · rw [set', getOffset_valid hv.len (by rw [hv.shape]; exact hc), Outcome.bind_ok, setOffset, hv.cid, hd, h2]
    simp only
    rw [if_pos hlt]
  · refine ⟨by simp [h.lenh], by simp [h.leng], ?_, h.lenv, h.var⟩
    intro j data' g' bs' h3 h4 h5
    simp only at h3 h4
    by_cases e : a.grid = j
    · subst e
      have hltg := (List.getElem?_eq_some_iff.mp hd).1
      rw [List.getElem?_set_self hltg] at h3
      rw [List.getElem?_modify_eq, hg] at h4
      rw [hb] at h5
      cases h3
      cases h4
      cases h5
      refine ⟨by rw [List.length_set]; exact hr.len, fun c' hc' => ?_⟩
      by_cases e : c' = a.view c
      · simp only [e, if_true]
        rw [List.getElem?_set_self hlt]
      · simp only [if_neg e]
        rw [hr.val c' hc', List.getElem?_set_ne]
        exact fun h => e (dot_inj (by omega) (updateStrides_compat bs) hc' h1 h.symm)
    · rw [List.getElem?_set_ne e] at h3
      rw [List.getElem?_modify_ne _ _ e] at h4
      exact h.grid j _ _ _ h3 h4 h5

theorem var_ok {s : State T} {v : Nat} {nd : Nd} (h : s.vars[v]? = some nd) : s.var v = .ok nd := by rw [State.var, h]

/-- A new array. -/
theorem made_rel {B : List (List Nat)} {s : State T} {t t' : Spec.State T} {shape : List Nat} {names : List String} {data : List T} {r : Out T} (h : Rel B s t)
    (hs : t.made shape names data = some (t', r)) : ∃ s' B', caught s (do
      let (h, a) ← mkData s.heap shape data
      return (⟨h, s.vars ++ [{ a with attrs := names }]⟩, .done)) = .ok (s', r) ∧ Rel B' s' t' := by
  rw [Spec.State.made] at hs
  by_cases h1 : shape = [] ∨ 2 ^ 31 ≤ card shape
  · rw [if_pos h1] at hs; cases hs
  rw [if_neg h1] at hs
  obtain ⟨hne, hsm⟩ := not_or.mp h1
  have eacc : accU32 shape = card shape := by rw [accU32_eq, Nat.mod_eq_of_lt (by omega)]
  by_cases h2 : data.length ≠ card shape
  · rw [if_pos h2] at hs
    cases hs
    refine ⟨s, B, ?_, h⟩
    rw [mkData, eacc, if_pos (fun e => h2 e.symm)]
    rfl
  · rw [if_neg h2] at hs
    cases hs
    have h2' := not_not.mp h2
    refine ⟨⟨s.heap ++ [data], s.vars ++ [⟨s.heap.length, 0, shape, updateStrides shape, names, accU32 shape⟩]⟩, B ++ [shape], ?_, ?_⟩
    · rw [mkData, if_neg (by rw [eacc, h2']; simp)]
      rfl
    · have h3 := (h.pushGrid (make_rel h2')).push (a := ⟨t.grids.length, shape, id, true, true, true, some names⟩) (bs := shape) (by simp [h.leng])
        (make_var (n := t.grids.length) (attrs := names) (by omega) hne fun l hl => Option.some.inj hl)
      rw [h.lenh, ← h.leng]
      exact h3

/-- Reading an element. -/
theorem read_rel {B : List (List Nat)} {s : State T} {t t' : Spec.State T} {v : Nat} {a : Spec.Arr} {nd : Nd} {c : List Nat} {r : Out T} (h : Rel B s t)
    (ha : t.vars[v]? = some a) (hnd : s.vars[v]? = some nd) (hs : t.read a c = some (t', r)) :
    t' = t ∧ caught s (do
      let o ← getOffset nd c
      let x ← atOffset s.heap nd o
      return (s, .value x)) = .ok (s, r) := by
  obtain ⟨nd', bs, data, g, hnd', hb, hv, hd, hg, hr⟩ := h.var' ha
  rw [hnd] at hnd'
  cases hnd'
  rw [Spec.State.read] at hs
  by_cases hc : c ∈ allCoords a.shape
  · rw [if_pos hc] at hs
    obtain ⟨x, h1, h2⟩ := elem_eq hv hd hg hr (mem_allCoords.mp hc)
    rw [h2] at hs
    cases hs
    refine ⟨rfl, ?_⟩
    rw [at', getOffset_valid hv.len (by rw [hv.shape]; exact mem_allCoords.mp hc), Outcome.bind_ok] at h1
    rw [getOffset_valid hv.len (by rw [hv.shape]; exact mem_allCoords.mp hc), Outcome.bind_ok, h1]
    rfl
  · rw [if_neg hc] at hs
    cases hs
    refine ⟨rfl, ?_⟩
    rw [getOffset_invalid hv.len (by rw [hv.shape]; exact fun h => hc (mem_allCoords.mpr h))]
    rfl

/-- Writing an element. -/
theorem write_rel [DecidableEq T] {B : List (List Nat)} {s : State T} {t t' : Spec.State T} {v : Nat} {a : Spec.Arr} {nd : Nd} {c : List Nat} {x : T} {r : Out T}
    (h : Rel B s t) (ha : t.vars[v]? = some a) (hnd : s.vars[v]? = some nd) (hs : t.write a c x = some (t', r)) :
    ∃ s', caught s (do
      let o ← getOffset nd c
      let h ← setOffset s.heap nd.cid o x
      return (⟨h, s.vars⟩, .done)) = .ok (s', r) ∧ Rel B s' t' := by
  rw [Spec.State.write] at hs
  by_cases hc : c ∈ allCoords a.shape
  · rw [if_pos hc] at hs
    cases hs
    obtain ⟨nd', h', hnd', h1, h2⟩ := set_rel h ha (mem_allCoords.mp hc) x
    rw [hnd] at hnd'
    cases hnd'
    refine ⟨_, ?_, h2⟩
    obtain ⟨nd', bs, data, g, hnd', hb, hv, hd, hg, hr⟩ := h.var' ha
    rw [hnd] at hnd'
    cases hnd'
    rw [set', getOffset_valid hv.len (by rw [hv.shape]; exact mem_allCoords.mp hc), Outcome.bind_ok] at h1
    rw [getOffset_valid hv.len (by rw [hv.shape]; exact mem_allCoords.mp hc), Outcome.bind_ok, h1]
    rfl
  · rw [if_neg hc] at hs
    cases hs
    obtain ⟨nd', bs, data, g, hnd', hb, hv, hd, hg, hr⟩ := h.var' ha
    rw [hnd] at hnd'
    cases hnd'
    refine ⟨s, ?_, h⟩
    rw [getOffset_invalid hv.len (by rw [hv.shape]; exact fun h => hc (mem_allCoords.mpr h))]
    rfl

/-- The coordinates of an attribute. -/
theorem offset_named {nd : Nd} {names : List String} (ha : nd.attrs = names) {name : String} (c : List Nat) :
    (name ∈ names → getOffsetAttr nd c name = getOffset nd (c ++ [names.idxOf name])) ∧ (name ∉ names → getOffsetAttr nd c name = .throw .outOfRange) := by
  subst ha
  constructor
  · intro h
    have h1 : nd.attrs.findIdx? (· == name) = some (nd.attrs.idxOf name) := by
      rw [List.findIdx?_eq_some_iff_findIdx_eq]
      exact ⟨List.idxOf_lt_length_iff.mpr h, rfl⟩
    rw [getOffsetAttr, h1]
  · intro h
    have h1 : nd.attrs.findIdx? (· == name) = none := by
      rw [List.findIdx?_eq_none_iff]
      intro x hx
      simp only [beq_eq_false_iff_ne, ne_eq]
      rintro rfl
      exact h hx
    rw [getOffsetAttr, h1]

/-- The strides do not depend on the number of rows. -/
theorem strides_rows (d d' : Nat) (ds : List Nat) : updateStrides (d :: ds) = updateStrides (d' :: ds) := rfl

theorem filterMap_get {α β : Type} {f : α → Option β} (l : List α) (hf : ∀ x ∈ l, ∃ y, f x = some y) (i : Nat) (hi : i < l.length) :
    (l.filterMap f)[i]? = f l[i] := by
  induction l generalizing i with
  | nil => simp at hi
  | cons x l ih =>
    obtain ⟨y, hy⟩ := hf x (by simp)
    rw [List.filterMap_cons_some hy]
    cases i with
    | zero => simp [hy]
    | succ i => simpa using ih (fun x hx => hf x (by simp [hx])) i (by simpa using hi)

/-- The elements of a variable, by their numbers. -/
theorem elems_get {bs : List Nat} {nd : Nd} {a : Spec.Arr} {s : State T} {t : Spec.State T} {data : List T} {g : List Nat → Option T} (hv : VRel bs nd a)
    (hd : s.heap[a.grid]? = some data) (hg : t.grids[a.grid]? = some g) (hr : GRel bs data g) {c : List Nat} (hc : Valid a.shape c) :
    (t.elems a)[dot c (updateStrides a.shape)]? = t.elem a c := by
  obtain ⟨h1, h2⟩ := idxOf_dot hc
  have hlt : dot c (updateStrides a.shape) < (allCoords a.shape).length := by rw [allCoords_length, ← h1]; exact h2
  rw [Spec.State.elems, filterMap_get _ (fun x hx => by obtain ⟨y, _, h⟩ := elem_eq hv hd hg hr (mem_allCoords.mp hx); exact ⟨y, h⟩) _ hlt]
  congr 1
  obtain ⟨h3, h4⟩ := allCoords_getElem hlt
  exact dot_inj (by omega) (updateStrides_compat _) h3 hc h4

/-- Concatenation to a whole array. -/
theorem concatenate_rel [DecidableEq T] {B : List (List Nat)} {s : State T} {t : Spec.State T} {v w : Nat} {a b : Spec.Arr} {na nb : Nd} (zero : T) (h : Rel B s t)
    (ha : t.vars[v]? = some a) (hb : t.vars[w]? = some b) (hna : s.vars[v]? = some na) (hnb : s.vars[w]? = some nb)
    (ht : a.shape.tail = b.shape.tail) (hsm : card (Spec.stack a b) < 2 ^ 31) (hw : a.whole = true) (hf : b.fresh = true) :
    ∃ h' n, concatenate zero s.heap na nb = .ok (h', n) ∧
      Rel (B.set a.grid (Spec.stack a b)) ⟨h', s.vars.set v n⟩
        ⟨t.grids.set a.grid (t.stacked a b), (t.vars.map a.moved).set v { a with shape := Spec.stack a b, view := id, fresh := false }⟩ := by
  obtain ⟨na', bs, data, g, hna', hbs, hva, hda, hga, hra⟩ := h.var' ha
  rw [hna] at hna'
  cases hna'
  obtain ⟨nb', bs', data', g', hnb', hbs', hvb, hdb, hgb, hrb⟩ := h.var' hb
  rw [hnb] at hnb'
  cases hnb'
  obtain ⟨w1, w2, w3⟩ := hva.whole hw
  have est : na.strides = updateStrides a.shape := by rw [← hva.shape]; exact w2.unique (updateStrides_compat _)
  obtain ⟨d, ds, hsa⟩ : ∃ d ds, a.shape = d :: ds := by
    have := hva.wf.rank
    cases e : a.shape with
    | nil => exact absurd (hva.shape.trans e) this
    | cons d ds => exact ⟨d, ds, rfl⟩
  obtain ⟨d', hsb⟩ : ∃ d', b.shape = d' :: ds := by
    have := hvb.wf.rank
    cases e : b.shape with
    | nil => exact absurd (hvb.shape.trans e) this
    | cons d' ds' => rw [hsa, e] at ht; simp only [List.tail_cons] at ht; exact ⟨d', by rw [ht]⟩
  have hst : Spec.stack a b = (d + d') :: ds := by simp [Spec.stack, hsa, hsb]
  rw [hst] at hsm ⊢
  have hib := iterate_elems hvb hdb hgb hrb hf
  have hlb : (t.elems b).length = card (d' :: ds) := by
    obtain ⟨u, hu, hcb⟩ := (hvb.wf' hf).compat
    have := (iterate_ok_spec (hcb.getLast (hvb.wf' hf).rank) hib).1
    rw [this, (hvb.wf' hf).size, hvb.shape, hsb]
  have hle := C06_concatenate_effect zero s.heap na nb d d' ds data (t.elems b) (hva.shape.trans hsa) (hvb.shape.trans hsb) (by rw [hva.cid]; exact hda)
    (by rw [hra.len, ← w3, hsa]) hib (by omega) (by omega)
  rw [hlb, Nat.sub_self, List.replicate_zero, List.append_nil, hva.cid] at hle
  have hlen : data.length = card (d :: ds) := by rw [hra.len, ← w3, hsa]
  refine ⟨_, _, hle, ?_⟩
  have hgl := (List.getElem?_eq_some_iff.mp hda).1
  have hgl' := (List.getElem?_eq_some_iff.mp hga).1
  have hgl'' := (List.getElem?_eq_some_iff.mp hbs).1
  have hsr : ∀ x, updateStrides ((d + d') :: ds) = updateStrides (x :: ds) := fun x => strides_rows _ _ _
  refine ⟨by simp [h.lenh], by simp [h.leng], ?_, by simp [h.lenv], ?_⟩
  · intro k dk gk bk h1 h2 h3
    simp only at h1 h2
    by_cases e : a.grid = k
    · subst e
      rw [List.getElem?_set_self hgl] at h1
      rw [List.getElem?_set_self hgl'] at h2
      rw [List.getElem?_set_self hgl''] at h3
      cases h1
      cases h2
      cases h3
      refine ⟨by rw [List.length_append, hlen, hlb]; simp only [card]; ring, ?_⟩
      intro c hc
      match c, hc with
      | i :: c, hc =>
        obtain ⟨hc1, hc2⟩ := hc
        rw [Spec.State.stacked, hsa]
        by_cases hi : i < d
        · rw [if_pos (show (i :: c).headD 0 < (d :: ds).headD 0 from hi), hsr d]
          have hv : Valid a.shape (i :: c) := by rw [hsa]; exact ⟨hi, hc2⟩
          have h4 := idxOf_dot hv
          rw [hsa] at h4
          rw [List.getElem?_append_left (by omega)]
          obtain ⟨h5, h6⟩ := hva.view _ hv
          rw [Spec.State.elem, hga]
          simp only
          rw [hra.val _ h5, ← h6, w1, est, hsa, Nat.zero_add]
        · rw [if_neg (show ¬ (i :: c).headD 0 < (d :: ds).headD 0 from hi)]
          simp only [List.headD_cons, List.tail_cons]
          have hv : Valid b.shape ((i - d) :: c) := by rw [hsb]; exact ⟨by omega, hc2⟩
          rw [← elems_get hvb hdb hgb hrb hv, hsb]
          have h4 : dot (i :: c) (updateStrides ((d + d') :: ds)) = data.length + dot ((i - d) :: c) (updateStrides (d' :: ds)) := by
            rw [hsr d', hlen]
            have h5 := updateStrides_compat (d' :: ds)
            match h6 : updateStrides (d' :: ds), h5 with
            | s :: ss, h5 =>
              simp only [Compat] at h5
              rw [h5.1]
              simp only [dot, card, one_mul]
              have : i * card ds = d * card ds + (i - d) * card ds := by rw [← Nat.add_mul]; congr 1; omega
              omega
          rw [h4, List.getElem?_append_right (by omega)]
          congr 1
          omega
    · rw [List.getElem?_set_ne e] at h1 h2 h3
      exact h.grid k _ _ _ h1 h2 h3
  · intro x nd u h1 h2
    simp only [List.getElem?_set, List.length_map] at h1 h2
    rw [h.lenv] at h1
    by_cases e : v = x
    · rw [if_pos e] at h1 h2
      have hlt : x < t.vars.length := by rw [← e]; exact (List.getElem?_eq_some_iff.mp ha).1
      simp only [e, hlt, if_true, Option.some.injEq] at h1 h2
      subst h1 h2
      refine ⟨_, List.getElem?_set_self hgl'', ?_⟩
      have hcm : Compat 1 ((d + d') :: ds) na.strides := by rw [est, hsa, ← hsr d]; exact updateStrides_compat _
      refine ⟨rfl, rfl, ⟨⟨1, by omega, hcm⟩, rfl, hsm, by simp⟩, fun h => (by cases h), hva.attrs, ?_, fun _ => hcm, fun _ => ⟨w1, hcm, rfl⟩⟩
      intro c hc
      refine ⟨hc, ?_⟩
      simp only [id]
      rw [w1, est, hsa, ← hsr d, Nat.zero_add]
    · rw [if_neg e] at h1 h2
      rw [List.getElem?_map, Option.map_eq_some_iff] at h2
      obtain ⟨u, h2, rfl⟩ := h2
      obtain ⟨bu, hbu, hvu⟩ := h.var x nd u h1 h2
      by_cases eg : u.grid = a.grid
      · rw [Spec.Arr.moved, if_pos eg]
        simp only [eg]
        refine ⟨_, List.getElem?_set_self hgl'', ?_⟩
        rw [eg, hbs] at hbu
        cases hbu
        refine ⟨hvu.cid.trans eg, hvu.shape, hvu.wf, hvu.fresh, hvu.attrs, ?_, hvu.contiguous, fun h => by cases h⟩
        intro c hc
        obtain ⟨h3, h4⟩ := hvu.view c hc
        obtain ⟨k, hk, he⟩ := dot_mem (updateStrides_compat bs) h3
        have hlt : dot (u.view c) (updateStrides bs) < (allCoords a.shape).length := by rw [allCoords_length, w3]; omega
        obtain ⟨h5, h6⟩ := allCoords_getElem hlt
        obtain ⟨h7, h8⟩ := hva.view _ h5
        have h9 : a.view (allCoords a.shape)[dot (u.view c) (updateStrides bs)] = u.view c := by
          refine dot_inj (by omega) (updateStrides_compat bs) h7 h3 ?_
          rw [← h8, w1, est, h6, Nat.zero_add]
        have h10 : ((allCoords a.shape).find? fun c' => a.view c' = u.view c).isSome = true := by
          rw [List.find?_isSome]
          exact ⟨_, List.getElem_mem hlt, by simpa using h9⟩
        obtain ⟨c', hc'⟩ := Option.isSome_iff_exists.mp h10
        have h11 : Spec.place a (u.view c) = c' := by rw [Spec.place, hc']; rfl
        have h12 : a.view c' = u.view c := by simpa using List.find?_some hc'
        have h13 : Valid a.shape c' := mem_allCoords.mp (List.mem_of_find?_eq_some hc')
        simp only
        rw [h11]
        have h14 := (hva.view _ h13).2
        rw [h12, w1, est, Nat.zero_add, hsa, ← hsr d] at h14
        refine ⟨?_, by rw [h4, h14]⟩
        rw [hsa] at h13
        match c', h13 with
        | i :: c', h13 => exact ⟨by have := h13.1; omega, h13.2⟩
      · rw [Spec.Arr.moved, if_neg eg]
        exact ⟨bu, by rw [List.getElem?_set_ne (Ne.symm eg)]; exact hbu, hvu⟩

/-- One call. -/
theorem step_rel [DecidableEq T] [Inhabited T] {B : List (List Nat)} {s : State T} {t t' : Spec.State T} {o : Op T} {r : Out T} (h : Rel B s t)
    (hs : Spec.step false t o = some (t', r)) : ∃ s' B', step s o = .ok (s', r) ∧ Rel B' s' t' := by
  cases o with
  | make shape data =>
    obtain ⟨s', B', h1, h2⟩ := made_rel h hs
    refine ⟨s', B', ?_, h2⟩
    rw [← h1, step, mkData]
    by_cases hc : accU32 shape ≠ data.length
    · rw [if_pos hc]; rfl
    · rw [if_neg hc]; rfl
  | makeNamed shape names data =>
    obtain ⟨s', B', h1, h2⟩ := made_rel h hs
    refine ⟨s', B', ?_, h2⟩
    rw [← h1, step, mkAttrs, appendAttrShape]
    have e : (if names.length ≠ 0 then shape ++ [names.length] else shape) = if names = [] then shape else shape ++ [names.length] := by
      cases names <;> simp
    rw [e, mkData]
    by_cases hc : accU32 (if names = [] then shape else shape ++ [names.length]) ≠ data.length
    · rw [if_pos hc]; rfl
    · rw [if_neg hc]; rfl
  | share v =>
    simp only [Spec.step, Option.bind_eq_some_iff] at hs
    obtain ⟨a, ha, hs⟩ := hs
    cases hs
    obtain ⟨nd, bs, data, g, hnd, hb, hv, hd, hg, hr⟩ := h.var' ha
    refine ⟨_, B, ?_, h.push hb hv⟩
    rw [step, var_ok hnd]
    rfl
  | assign v w =>
    simp only [Spec.step, Option.bind_eq_some_iff] at hs
    obtain ⟨a, ha, b, hb', hs⟩ := hs
    cases hs
    obtain ⟨nd, _, _, _, hnd, _⟩ := h.var' ha
    obtain ⟨nd', bs, data, g, hnd', hb, hv, hd, hg, hr⟩ := h.var' hb'
    refine ⟨_, B, ?_, h.setVar hb hv⟩
    rw [step, var_ok hnd, var_ok hnd']
    rfl
  | slice v i =>
    simp only [Spec.step, Option.bind_eq_some_iff] at hs
    obtain ⟨a, ha, hs⟩ := hs
    obtain ⟨nd, bs, data, g, hnd, hb, hv, hd, hg, hr⟩ := h.var' ha
    by_cases hc : 2 ≤ a.shape.length ∧ i < a.shape.headD 0
    · rw [if_pos hc] at hs
      cases hs
      obtain ⟨b, h1, h2⟩ := slice_rel hv hc.1 hc.2
      refine ⟨_, B, ?_, h.push hb h2⟩
      rw [step, var_ok hnd, Outcome.bind_ok, h1]
      rfl
    · rw [if_neg hc] at hs
      cases hs
      refine ⟨s, B, ?_, h⟩
      rw [step, var_ok hnd, Outcome.bind_ok, slice_thrown hv.len (by rw [hv.shape]; exact hc)]
      rfl
  | rslice v i =>
    simp only [Spec.step, Option.bind_eq_some_iff] at hs
    obtain ⟨a, ha, hs⟩ := hs
    obtain ⟨nd, bs, data, g, hnd, hb, hv, hd, hg, hr⟩ := h.var' ha
    by_cases hc : 2 ≤ a.shape.length ∧ i < a.shape.getLastD 0
    · rw [if_pos hc] at hs
      cases hs
      obtain ⟨b, h1, h2⟩ := rslice_rel hv hc.1 hc.2
      refine ⟨_, B, ?_, h.push hb h2⟩
      rw [step, var_ok hnd, Outcome.bind_ok, h1]
      rfl
    · rw [if_neg hc] at hs
      cases hs
      refine ⟨s, B, ?_, h⟩
      rw [step, var_ok hnd, Outcome.bind_ok, rslice_thrown hv.len (by rw [hv.shape]; exact hc)]
      rfl
  | reshape v shape =>
    simp only [Spec.step, Option.bind_eq_some_iff] at hs
    obtain ⟨a, ha, names, hn, hs⟩ := hs
    obtain ⟨nd, bs, data, g, hnd, hb, hv, hd, hg, hr⟩ := h.var' ha
    by_cases h0 : names ≠ []
    · rw [if_pos h0] at hs
      cases hs
      refine ⟨s, B, ?_, h⟩
      rw [step, var_ok hnd, Outcome.bind_ok, reshape, if_pos (by rw [hv.attrs _ hn]; exact h0)]
      rfl
    rw [if_neg h0] at hs
    by_cases h1 : shape = [] ∨ 2 ^ 31 ≤ card shape ∨ (false || a.fresh) = false
    · rw [if_pos h1] at hs; cases hs
    rw [if_neg h1] at hs
    obtain ⟨hne, h1'⟩ := not_or.mp h1
    obtain ⟨hsm, hf⟩ := not_or.mp h1'
    rw [Bool.false_or, Bool.not_eq_false] at hf
    obtain ⟨h2, h3⟩ := reshape_rel hv hne (by omega) (by rw [hn, not_not.mp h0]) hf
    by_cases hc : card shape ≠ card a.shape
    · rw [if_pos hc] at hs
      cases hs
      refine ⟨s, B, ?_, h⟩
      rw [step, var_ok hnd, Outcome.bind_ok, h2 hc]
      rfl
    · rw [if_neg hc] at hs
      rw [Bool.false_or] at hs
      by_cases hcont : a.contiguous = true
      · rw [if_pos hcont] at hs
        cases hs
        obtain ⟨b, h4, h5⟩ := h3 (not_not.mp hc) hcont
        refine ⟨_, B, ?_, h.setVar hb h5⟩
        rw [step, var_ok hnd, Outcome.bind_ok, h4]
        rfl
      · rw [if_neg hcont] at hs; cases hs
  | copy v =>
    simp only [Spec.step, Option.bind_eq_some_iff] at hs
    obtain ⟨a, ha, hs⟩ := hs
    obtain ⟨nd, bs, data, g, hnd, hb, hv, hd, hg, hr⟩ := h.var' ha
    rw [Bool.false_or] at hs
    by_cases hw : a.whole = true
    · rw [if_pos hw] at hs
      cases hs
      obtain ⟨h1, h2⟩ := copy_rel hv hd hg hr hw
      have hsm := hv.wf.small
      have hne := hv.wf.rank
      simp only at hsm hne
      rw [hv.shape] at hsm hne
      refine ⟨⟨s.heap ++ [data], s.vars ++ [⟨s.heap.length, 0, a.shape, updateStrides a.shape, nd.attrs, accU32 a.shape⟩]⟩, B ++ [a.shape], ?_, ?_⟩
      · rw [step, var_ok hnd, Outcome.bind_ok, h1]
        rfl
      · have h3 := (h.pushGrid h2).push (a := ⟨t.grids.length, a.shape, id, true, true, true, a.names⟩) (bs := a.shape) (by simp [h.leng])
          (make_var (n := t.grids.length) hsm hne hv.attrs)
        rw [h.lenh, ← h.leng]
        exact h3
    · rw [if_neg hw] at hs; cases hs
  | concatenate v w =>
    simp only [Spec.step, Option.bind_eq_some_iff] at hs
    obtain ⟨a, ha, b, hb, hs⟩ := hs
    obtain ⟨na, _, _, _, hna, _, hva, _⟩ := h.var' ha
    obtain ⟨nb, _, _, _, hnb, _, hvb, _⟩ := h.var' hb
    by_cases hc : a.shape.length ≠ b.shape.length ∨ a.shape.tail ≠ b.shape.tail
    · rw [if_pos hc] at hs
      cases hs
      refine ⟨s, B, ?_, h⟩
      rw [step, var_ok hna, Outcome.bind_ok, var_ok hnb, Outcome.bind_ok, C06_concatenate_mismatch_throws _ _ _ _ (by rw [hva.shape, hvb.shape]; exact hc)]
      rfl
    rw [if_neg hc] at hs
    by_cases h1 : 2 ^ 31 ≤ card (Spec.stack a b)
    · rw [if_pos h1] at hs; cases hs
    rw [if_neg h1] at hs
    by_cases h2 : (a.whole && (false || b.fresh)) = true
    · rw [if_pos h2] at hs
      cases hs
      rw [Bool.false_or, Bool.and_eq_true] at h2
      obtain ⟨h', n, h3, h4⟩ := concatenate_rel default h ha hb hna hnb (not_not.mp (not_or.mp hc).2) (by omega) h2.1 h2.2
      refine ⟨_, _, ?_, h4⟩
      rw [step, var_ok hna, Outcome.bind_ok, var_ok hnb, Outcome.bind_ok, h3]
      rfl
    · rw [if_neg h2] at hs; cases hs
  | get v c =>
    simp only [Spec.step, Option.bind_eq_some_iff] at hs
    obtain ⟨a, ha, hs⟩ := hs
    obtain ⟨nd, bs, data, g, hnd, hb, hv, hd, hg, hr⟩ := h.var' ha
    obtain ⟨rfl, h1⟩ := read_rel h ha hnd hs
    refine ⟨s, B, ?_, h⟩
    rw [step, var_ok hnd, Outcome.bind_ok, ← h1, at']
    cases getOffset nd c <;> rfl
  | set v c x =>
    simp only [Spec.step, Option.bind_eq_some_iff] at hs
    obtain ⟨a, ha, hs⟩ := hs
    obtain ⟨nd, bs, data, g, hnd, hb, hv, hd, hg, hr⟩ := h.var' ha
    obtain ⟨s', h1, h2⟩ := write_rel h ha hnd hs
    refine ⟨s', B, ?_, h2⟩
    rw [step, var_ok hnd, Outcome.bind_ok, ← h1, set']
    cases getOffset nd c <;> rfl
  | getNamed v c name =>
    simp only [Spec.step, Option.bind_eq_some_iff] at hs
    obtain ⟨a, ha, names, hn, hs⟩ := hs
    obtain ⟨nd, bs, data, g, hnd, hb, hv, hd, hg, hr⟩ := h.var' ha
    obtain ⟨h1, h2⟩ := offset_named (hv.attrs _ hn) (name := name) c
    by_cases hc : name ∈ names
    · rw [if_pos hc] at hs
      obtain ⟨rfl, h3⟩ := read_rel h ha hnd hs
      refine ⟨s, B, ?_, h⟩
      rw [step, var_ok hnd, Outcome.bind_ok, ← h3, atAttr, h1 hc]
      cases getOffset nd (c ++ [names.idxOf name]) <;> rfl
    · rw [if_neg hc] at hs
      cases hs
      refine ⟨s, B, ?_, h⟩
      rw [step, var_ok hnd, Outcome.bind_ok, atAttr, h2 hc]
      rfl
  | setNamed v c name x =>
    simp only [Spec.step, Option.bind_eq_some_iff] at hs
    obtain ⟨a, ha, names, hn, hs⟩ := hs
    obtain ⟨nd, bs, data, g, hnd, hb, hv, hd, hg, hr⟩ := h.var' ha
    obtain ⟨h1, h2⟩ := offset_named (hv.attrs _ hn) (name := name) c
    by_cases hc : name ∈ names
    · rw [if_pos hc] at hs
      obtain ⟨s', h3, h4⟩ := write_rel h ha hnd hs
      refine ⟨s', B, ?_, h4⟩
      rw [step, var_ok hnd, Outcome.bind_ok, ← h3, setAttr, h1 hc]
      cases getOffset nd (c ++ [names.idxOf name]) <;> rfl
    · rw [if_neg hc] at hs
      cases hs
      refine ⟨s, B, ?_, h⟩
      rw [step, var_ok hnd, Outcome.bind_ok, setAttr, h2 hc]
      rfl
  | iter v =>
    simp only [Spec.step, Option.bind_eq_some_iff] at hs
    obtain ⟨a, ha, hs⟩ := hs
    obtain ⟨nd, bs, data, g, hnd, hb, hv, hd, hg, hr⟩ := h.var' ha
    rw [Bool.false_or] at hs
    by_cases hf : a.fresh = true
    · rw [if_pos hf] at hs
      cases hs
      refine ⟨s, B, ?_, h⟩
      rw [step, var_ok hnd, Outcome.bind_ok, iterate_elems hv hd hg hr hf]
      rfl
    · rw [if_neg hf] at hs; cases hs
  | equal v w =>
    simp only [Spec.step, Option.bind_eq_some_iff] at hs
    obtain ⟨a, ha, b, hb', hs⟩ := hs
    obtain ⟨nd, bs, data, g, hnd, hb, hv, hd, hg, hr⟩ := h.var' ha
    obtain ⟨nd', bs', data', g', hnd', _, hv', hd', hg', hr'⟩ := h.var' hb'
    by_cases hc : a.shape ≠ b.shape
    · rw [if_pos hc] at hs
      cases hs
      refine ⟨s, B, ?_, h⟩
      rw [step, var_ok hnd, Outcome.bind_ok, var_ok hnd', Outcome.bind_ok, beq, if_pos (by rw [hv.shape, hv'.shape]; exact hc)]
      rfl
    rw [if_neg hc] at hs
    rw [Bool.false_or] at hs
    by_cases hf : (a.fresh && b.fresh) = true
    · rw [if_pos hf] at hs
      cases hs
      rw [Bool.and_eq_true] at hf
      refine ⟨s, B, ?_, h⟩
      rw [step, var_ok hnd, Outcome.bind_ok, var_ok hnd', Outcome.bind_ok,
        C61_equality s.heap nd nd' (hv.wf' hf.1) (hv'.wf' hf.2) _ _ (iterate_elems hv hd hg hr hf.1) (iterate_elems hv' hd' hg' hr' hf.2), hv.shape, hv'.shape]
      simp only [not_not.mp hc, true_and]
      rfl
    · rw [if_neg hf] at hs; cases hs
  | size v =>
    simp only [Spec.step, Option.bind_eq_some_iff] at hs
    obtain ⟨a, ha, hs⟩ := hs
    obtain ⟨nd, bs, data, g, hnd, hb, hv, hd, hg, hr⟩ := h.var' ha
    rw [Bool.false_or] at hs
    by_cases hf : a.fresh = true
    · rw [if_pos hf] at hs
      cases hs
      refine ⟨s, B, ?_, h⟩
      rw [step, var_ok hnd, Outcome.bind_ok, hv.fresh hf, hv.shape]
      rfl
    · rw [if_neg hf] at hs; cases hs
  | shape v =>
    simp only [Spec.step, Option.bind_eq_some_iff] at hs
    obtain ⟨a, ha, hs⟩ := hs
    cases hs
    obtain ⟨nd, bs, data, g, hnd, hb, hv, hd, hg, hr⟩ := h.var' ha
    refine ⟨s, B, ?_, h⟩
    rw [step, var_ok hnd, Outcome.bind_ok, hv.shape]
    rfl
  | names v =>
    simp only [Spec.step, Option.bind_eq_some_iff] at hs
    obtain ⟨a, ha, names, hn, hs⟩ := hs
    cases hs
    obtain ⟨nd, bs, data, g, hnd, hb, hv, hd, hg, hr⟩ := h.var' ha
    refine ⟨s, B, ?_, h⟩
    rw [step, var_ok hnd, Outcome.bind_ok, hv.attrs _ hn]
    rfl

theorem run_rel [DecidableEq T] [Inhabited T] (os : List (Op T)) : ∀ {B : List (List Nat)} {s : State T} {t : Spec.State T} {rs : List (Out T)}, Rel B s t →
    Spec.run false t os = some rs → run s os = .ok rs := by
  induction os with
  | nil => intro B s t rs _ hs; cases hs; rfl
  | cons o os ih =>
    intro B s t rs h hs
    simp only [Spec.run, Option.bind_eq_some_iff] at hs
    obtain ⟨⟨t', r⟩, h1, rs', h2, h3⟩ := hs
    cases h3
    obtain ⟨s', B', h4, h5⟩ := step_rel h h1
    rw [run, h4, Outcome.bind_ok]
    simp only
    rw [ih h5 h2]
    rfl

/-- **C132**, as it should be: a program over n-dimensional arrays sees what the specification says, whatever arrays share their elements. -/
def C132_full : Prop := ∀ (os : List (Op Nat)) (rs : List (Out Nat)), Spec.run true (⟨[], []⟩ : Spec.State Nat) os = some rs → run (⟨[], []⟩ : State Nat) os = .ok rs

/-- **C132** (partial: no copies of parts, no reshape after a last axis has been fixed, no size, iteration, comparison or reshape of a variable something has been
concatenated to, and no names in slices of arrays with names, where the code errs). -/
theorem C132_programs_partial [DecidableEq T] [Inhabited T] (os : List (Op T)) (rs : List (Out T)) (h : Spec.run false (⟨[], []⟩ : Spec.State T) os = some rs) :
    run (⟨[], []⟩ : State T) os = .ok rs :=
  run_rel os (B := []) ⟨rfl, rfl, by simp, rfl, by simp⟩ h

/-- The copy of a row is another row. -/
theorem C132_violated : ¬ C132_full := fun h => by
  have := h [.make [2, 2] [1, 2, 3, 4], .slice 0 1, .copy 1, .iter 1, .iter 2] [.done, .done, .done, .values [3, 4], .values [3, 4]] (by decide)
  exact absurd this (by decide)

/-- The reshape of a column shows elements of other columns. -/
theorem C132_reshape_violated : ∃ (os : List (Op Nat)) (rs : List (Out Nat)), (∀ v, Op.copy v ∉ os) ∧
    Spec.run true (⟨[], []⟩ : Spec.State Nat) os = some rs ∧ run (⟨[], []⟩ : State Nat) os ≠ .ok rs :=
  ⟨[.make [2, 2] [1, 2, 3, 4], .rslice 0 1, .iter 1, .reshape 1 [2, 1], .iter 1], [.done, .done, .values [2, 4], .done, .values [2, 4]], by simp, by decide, by decide⟩

/-- After a concatenation the size is the old one. -/
theorem C132_size_violated : ∃ (os : List (Op Nat)) (rs : List (Out Nat)), (∀ v, Op.copy v ∉ os) ∧ (∀ v l, Op.reshape v l ∉ os) ∧
    Spec.run true (⟨[], []⟩ : Spec.State Nat) os = some rs ∧ run (⟨[], []⟩ : State Nat) os ≠ .ok rs :=
  ⟨[.make [1, 2] [1, 2], .make [1, 2] [3, 4], .concatenate 0 1, .shape 0, .size 0, .iter 0],
    [.done, .done, .done, .dims [2, 2], .number 4, .values [1, 2, 3, 4]], by simp, by simp, by decide, by decide⟩

/-- In a row of an array with names, a name stands for another element. -/
theorem C132_names_violated : ∃ (os : List (Op Nat)) (rs : List (Out Nat)), (∀ v, Op.copy v ∉ os) ∧ (∀ v l, Op.reshape v l ∉ os) ∧ (∀ v w, Op.concatenate v w ∉ os) ∧
    Spec.run true (⟨[], []⟩ : Spec.State Nat) os = some rs ∧ run (⟨[], []⟩ : State Nat) os ≠ .ok rs :=
  ⟨[.makeNamed [2] ["x", "y"] [1, 2, 3, 4], .getNamed 0 [1] "y", .slice 0 1, .getNamed 1 [] "y"], [.done, .value 4, .done, .value 4], by simp, by simp, by simp,
    by decide, by decide⟩

/-- A program that concatenates: a slice and a reshaped variable of the same elements show what they have shown before, a copy shows all rows, and the array can be
concatenated to itself and have a row written through a slice. -/
example : run (⟨[], []⟩ : State Nat) [.make [2, 3] [1, 2, 3, 4, 5, 6], .slice 0 1, .share 0, .reshape 2 [3, 2], .make [2, 2] [7, 8, 9, 10], .concatenate 2 3, .shape 2,
      .get 2 [4, 1], .iter 0, .iter 1, .set 2 [2, 0] 50, .iter 0, .copy 2, .size 4, .iter 4, .slice 2 3, .set 5 [0] 70, .get 2 [3, 0], .concatenate 4 4, .get 4 [9, 1],
      .concatenate 2 0, .equal 0 2] =
    .ok [.done, .done, .done, .done, .done, .done, .dims [5, 2], .value 10, .values [1, 2, 3, 4, 5, 6], .values [4, 5, 6], .done, .values [1, 2, 3, 4, 50, 6], .done,
      .number 10, .values [1, 2, 3, 4, 50, 6, 7, 8, 9, 10], .done, .done, .value 70, .done, .value 10, .thrown .lengthError, .truth false] :=
  C132_programs_partial _ _ (by decide)

/-- A program with names: the names of repeated attributes stand for the first, a row has no names that the specification knows, but its elements. -/
example : run (⟨[], []⟩ : State Nat) [.makeNamed [2] ["x", "y", "x"] [1, 2, 3, 4, 5, 6], .names 0, .shape 0, .getNamed 0 [1] "x", .setNamed 0 [0] "y" 20,
      .getNamed 0 [0] "z", .getNamed 0 [2] "x", .reshape 0 [6], .slice 0 0, .iter 1, .makeNamed [1] ["x", "y", "x"] [7, 8, 9], .concatenate 0 2, .getNamed 0 [2] "y"] =
    .ok [.done, .strings ["x", "y", "x"], .dims [2, 3], .value 4, .done, .thrown .outOfRange, .thrown .outOfRange, .thrown .invalidArgument, .done, .values [1, 20, 3],
      .done, .done, .value 8] :=
  C132_programs_partial _ _ (by decide)

/-- A program that writes through a slice of a reshaped array and looks at the array, at a copy and at another slice. -/
example : run (⟨[], []⟩ : State Nat) [.make [2, 3] [1, 2, 3, 4, 5, 6], .copy 0, .share 0, .reshape 2 [3, 2], .slice 2 1, .rslice 0 2, .set 3 [0] 9, .get 0 [0, 2],
      .iter 0, .iter 1, .iter 4, .equal 0 1, .get 3 [2], .reshape 0 [4]] =
    .ok [.done, .done, .done, .done, .done, .done, .done, .value 9, .values [1, 2, 9, 4, 5, 6], .values [1, 2, 3, 4, 5, 6], .values [9, 6], .truth false,
      .thrown .outOfRange, .thrown .rangeError] :=
  C132_programs_partial _ _ (by decide)

end Alexandria.NdArray
