import Verif.NdArray.ProgramSpec
import Verif.NdArray.Lemmas2
import Verif.NdArray.Props2
import Mathlib.Data.List.Basic

/-! # Lemmas: programs over n-dimensional arrays -/

namespace Alexandria.NdArray

open Spec (card Valid allCoords)

variable {T : Type}

/-- The elements of a container are those of a grid, in row-major order. -/
structure GRel (bs : List Nat) (data : List T) (g : List Nat → Option T) : Prop where
  len : data.length = card bs
  val : ∀ c, Valid bs c → g c = data[dot c (updateStrides bs)]?

/-- A view shows the part of a grid of the given shape that the specification says. -/
structure VRel (bs : List Nat) (nd : Nd) (a : Spec.Arr) : Prop where
  cid : nd.cid = a.grid
  shape : nd.shape = a.shape
  wf : WF { nd with size := card nd.shape }
  fresh : a.fresh = true → nd.size = card nd.shape
  attrs : ∀ l, a.names = some l → nd.attrs = l
  view : ∀ c, Valid a.shape c → Valid bs (a.view c) ∧ nd.offset + dot c nd.strides = dot (a.view c) (updateStrides bs)
  contiguous : a.contiguous = true → Compat 1 nd.shape nd.strides
  whole : a.whole = true → nd.offset = 0 ∧ Compat 1 nd.shape nd.strides ∧ card a.shape = card bs

theorem VRel.wf' {bs : List Nat} {nd : Nd} {a : Spec.Arr} (h : VRel bs nd a) (hf : a.fresh = true) : WF nd := ⟨h.wf.compat, h.fresh hf, h.wf.small, h.wf.rank⟩

theorem VRel.len {bs : List Nat} {nd : Nd} {a : Spec.Arr} (h : VRel bs nd a) : nd.strides.length = nd.shape.length := h.wf.strides_length

/-- The states agree; `B` are the shapes of the grids. -/
structure Rel (B : List (List Nat)) (s : State T) (t : Spec.State T) : Prop where
  lenh : s.heap.length = B.length
  leng : t.grids.length = B.length
  grid : ∀ (k : Nat) data g bs, s.heap[k]? = some data → t.grids[k]? = some g → B[k]? = some bs → GRel bs data g
  lenv : s.vars.length = t.vars.length
  var : ∀ (v : Nat) nd a, s.vars[v]? = some nd → t.vars[v]? = some a → ∃ bs, B[a.grid]? = some bs ∧ VRel bs nd a

theorem Compat.unique {u : Nat} {shape s s' : List Nat} (h : Compat u shape s) (h' : Compat u shape s') : s = s' := by
  induction shape generalizing s s' with
  | nil => cases s <;> cases s' <;> simp_all [Compat]
  | cons d ds ih =>
    cases s with
    | nil => simp [Compat] at h
    | cons a s =>
      cases s' with
      | nil => simp [Compat] at h'
      | cons b s' => simp only [Compat] at h h'; rw [h.1, h'.1, ih h.2 h'.2]

theorem getElem?_of_len {α β : Type} {l : List α} {m : List β} (h : l.length = m.length) {k : Nat} {y : β} (hy : m[k]? = some y) : ∃ x, l[k]? = some x := by
  have : k < l.length := by rw [h]; exact (List.getElem?_eq_some_iff.mp hy).1
  exact ⟨_, List.getElem?_eq_getElem this⟩

namespace Rel
variable {B : List (List Nat)} {s : State T} {t : Spec.State T}

/-- The variable of the model that stands for a variable of the specification. -/
theorem var' (h : Rel B s t) {v : Nat} {a : Spec.Arr} (ha : t.vars[v]? = some a) :
    ∃ nd bs data g, s.vars[v]? = some nd ∧ B[a.grid]? = some bs ∧ VRel bs nd a ∧ s.heap[a.grid]? = some data ∧ t.grids[a.grid]? = some g ∧ GRel bs data g := by
  obtain ⟨nd, hnd⟩ := getElem?_of_len h.lenv ha
  obtain ⟨bs, hb, hv⟩ := h.var v nd a hnd ha
  obtain ⟨data, hd⟩ := getElem?_of_len h.lenh hb
  obtain ⟨g, hg⟩ := getElem?_of_len h.leng hb
  exact ⟨nd, bs, data, g, hnd, hb, hv, hd, hg, h.grid _ _ _ _ hd hg hb⟩

theorem push (h : Rel B s t) {nd : Nd} {a : Spec.Arr} {bs : List Nat} (hb : B[a.grid]? = some bs) (hv : VRel bs nd a) :
    Rel B ⟨s.heap, s.vars ++ [nd]⟩ ⟨t.grids, t.vars ++ [a]⟩ := by
  refine ⟨h.lenh, h.leng, h.grid, by simp [h.lenv], ?_⟩
  intro v nd' a' h1 h2
  simp only [List.getElem?_append] at h1 h2
  rw [h.lenv] at h1
  by_cases hlt : v < t.vars.length
  · rw [if_pos hlt] at h1 h2
    exact h.var v nd' a' h1 h2
  · rw [if_neg hlt] at h1 h2
    by_cases h0 : v - t.vars.length = 0
    · rw [h0] at h1 h2
      simp only [List.getElem?_cons_zero, Option.some.injEq] at h1 h2
      subst h1 h2
      exact ⟨bs, hb, hv⟩
    · rw [List.getElem?_eq_none (by simp; omega)] at h1
      cases h1

theorem setVar (h : Rel B s t) {v : Nat} {nd : Nd} {a : Spec.Arr} {bs : List Nat} (hb : B[a.grid]? = some bs) (hv : VRel bs nd a) :
    Rel B ⟨s.heap, s.vars.set v nd⟩ ⟨t.grids, t.vars.set v a⟩ := by
  refine ⟨h.lenh, h.leng, h.grid, by simp [h.lenv], ?_⟩
  intro w nd' a' h1 h2
  simp only [List.getElem?_set] at h1 h2
  rw [h.lenv] at h1
  by_cases e : v = w
  · rw [if_pos e] at h1 h2
    by_cases hlt : w < t.vars.length
    · simp only [e, hlt, if_true, Option.some.injEq] at h1 h2
      subst h1 h2
      exact ⟨bs, hb, hv⟩
    · simp only [e, hlt, if_false] at h1; cases h1
  · rw [if_neg e] at h1 h2
    exact h.var w nd' a' h1 h2

theorem pushGrid (h : Rel B s t) {data : List T} {g : List Nat → Option T} {bs : List Nat} (hg : GRel bs data g) :
    Rel (B ++ [bs]) ⟨s.heap ++ [data], s.vars⟩ ⟨t.grids ++ [g], t.vars⟩ := by
  refine ⟨by simp [h.lenh], by simp [h.leng], ?_, h.lenv, ?_⟩
  · intro k data' g' bs' h1 h2 h3
    simp only [List.getElem?_append] at h1 h2 h3
    rw [h.lenh] at h1
    rw [h.leng] at h2
    by_cases hlt : k < B.length
    · rw [if_pos hlt] at h1 h2 h3
      exact h.grid k _ _ _ h1 h2 h3
    · rw [if_neg hlt] at h1 h2 h3
      by_cases h0 : k - B.length = 0
      · rw [h0] at h1 h2 h3
        simp only [List.getElem?_cons_zero, Option.some.injEq] at h1 h2 h3
        subst h1 h2 h3
        exact hg
      · rw [List.getElem?_eq_none (by simp; omega)] at h1
        cases h1
  · intro v nd a h1 h2
    obtain ⟨bs', hb, hv⟩ := h.var v nd a h1 h2
    exact ⟨bs', by rw [List.getElem?_append_left (List.getElem?_eq_some_iff.mp hb).1]; exact hb, hv⟩

end Rel

/-- The elements agree. -/
theorem elem_eq {bs : List Nat} {nd : Nd} {a : Spec.Arr} {s : State T} {t : Spec.State T} {data : List T} {g : List Nat → Option T} (hv : VRel bs nd a)
    (hd : s.heap[a.grid]? = some data) (hg : t.grids[a.grid]? = some g) (hr : GRel bs data g) {c : List Nat} (hc : Valid a.shape c) :
    ∃ x, at' s.heap nd c = .ok x ∧ t.elem a c = some x := by
  obtain ⟨h1, h2⟩ := hv.view c hc
  obtain ⟨k, hk, he⟩ := dot_mem (updateStrides_compat bs) h1
  have hlt : dot (a.view c) (updateStrides bs) < data.length := by rw [hr.len]; omega
  refine ⟨data[dot (a.view c) (updateStrides bs)], ?_, ?_⟩
  · rw [at', getOffset_valid hv.len (by rw [hv.shape]; exact hc), Outcome.bind_ok, atOffset, hv.cid, hd, h2]
    simp only [List.getElem?_eq_getElem hlt]
  · rw [Spec.State.elem, hg]
    simp only
    rw [hr.val _ h1, List.getElem?_eq_getElem hlt]

theorem iterate_elems {bs : List Nat} {nd : Nd} {a : Spec.Arr} {s : State T} {t : Spec.State T} {data : List T} {g : List Nat → Option T} (hv : VRel bs nd a)
    (hd : s.heap[a.grid]? = some data) (hg : t.grids[a.grid]? = some g) (hr : GRel bs data g) (hf : a.fresh = true) :
    iterate s.heap nd = .ok (t.elems a) := by
  rw [iterate_eq (hv.wf' hf), hv.shape, Spec.State.elems]
  have h : ∀ l : List (List Nat), (∀ c ∈ l, Valid a.shape c) → collect (l.map (at' s.heap nd)) = .ok (l.filterMap (t.elem a)) := by
    intro l
    induction l with
    | nil => intro _; rfl
    | cons c l ih =>
      intro hl
      obtain ⟨x, h1, h2⟩ := elem_eq hv hd hg hr (hl c (by simp))
      rw [List.map_cons, collect, h1, Outcome.bind_ok, ih (fun c hc => hl c (List.mem_cons_of_mem _ hc)), List.filterMap_cons_some h2]
      rfl
  exact h _ fun c hc => mem_allCoords.mp hc

end Alexandria.NdArray
