import Verif.NdArray.Lemmas
import Mathlib.Data.List.GetD

set_option linter.unusedSectionVars false
set_option linter.unusedSimpArgs false

namespace Alexandria.NdArray

open Spec

variable {T : Type}

/-! ## Left slices keep unit stride -/

theorem slices_left_compat {a b : Nd} {is : List Nat} (hc : Compat 1 a.shape a.strides)
    (h : slices a (is.map .left) = .ok b) : Compat 1 b.shape b.strides ∧ (a.attrs = [] → b.attrs = []) := by
  induction is generalizing a with
  | nil => cases h; exact ⟨hc, id⟩
  | cons i is ih =>
    rw [List.map_cons, slices] at h
    cases hst : (Step.left i).apply a with
    | ok a' =>
      rw [hst, Outcome.bind_ok] at h
      obtain ⟨d, d', ds, s, ss, h1, h2, hi, rfl⟩ := slice_spec hst
      rw [h1, h2] at hc
      obtain ⟨h3, h4⟩ := ih (by simpa using hc.2) h
      exact ⟨h3, fun h0 => h4 (by simp [h0])⟩
    | throw e => rw [hst] at h; cases h
    | ub => rw [hst] at h; cases h

theorem iterate_unit {h : Heap T} {a : Nd} (hc : Compat 1 a.shape a.strides) (hne : a.shape ≠ []) :
    iterate h a = collect ((List.range a.size).map fun i => atOffset h a (a.offset + i)) := by
  rw [iterate, hc.getLast hne]; simp

/-! ## Concatenation -/

theorem atOffset_set_ne {h : Heap T} {a : Nd} {cid : Nat} (hne : a.cid ≠ cid) (c : List T) (o : Nat) :
    atOffset (h.set cid c) a o = atOffset h a o := by
  unfold atOffset; rw [List.getElem?_set_ne (by exact fun h => hne h.symm)]

theorem copyLoop_spec {other : Nd} {stride cid : Nat} (hne : other.cid ≠ cid) (f : Nat → T) (is : List Nat) :
    ∀ (pos : Nat) (h : Heap T) (c : List T), h[cid]? = some c → pos + is.length ≤ c.length →
    (∀ i ∈ is, atOffset h other (other.offset + i * stride) = .ok (f i)) →
    copyLoop other stride cid is pos h = .ok (h.set cid (c.take pos ++ is.map f ++ c.drop (pos + is.length))) := by
  induction is with
  | nil =>
    intro pos h c hc _ _
    simp only [copyLoop, List.map_nil, List.append_nil, List.length_nil, Nat.add_zero, List.take_append_drop]
    congr 1
    obtain ⟨hlt, he⟩ := List.getElem?_eq_some_iff.1 hc
    rw [← he, List.set_getElem_self]
  | cons i is ih =>
    intro pos h c hc hl hr
    have hlt : cid < h.length := (List.getElem?_eq_some_iff.1 hc).1
    simp only [List.length_cons] at hl
    rw [copyLoop, hr i (by simp), Outcome.bind_ok, setOffset, hc]
    simp only
    rw [if_pos (by omega), Outcome.bind_ok, ih (pos + 1) _ (c.set pos (f i)) (by simp [hlt]) (by simp; omega)]
    · rw [List.set_set]
      congr 2
      simp only [List.length_cons, List.map_cons]
      have e1 : (c.set pos (f i)).take (pos + 1) = c.take pos ++ [f i] := by
        rw [List.take_set, List.take_succ_eq_append_getElem (by omega)]
        rw [List.set_append_right _ _ (by simp)]
        have : pos - (c.take pos).length = 0 := by simp; omega
        rw [this]; simp
      have e2 : (c.set pos (f i)).drop (pos + 1 + is.length) = c.drop (pos + (is.length + 1)) := by
        rw [List.drop_set_of_lt (by omega)]; congr 1; omega
      rw [e1, e2]; simp
    · intro j hj
      rw [atOffset_set_ne hne]; exact hr j (by simp [hj])

theorem iterate_ok_spec {h : Heap T} {a : Nd} {l : List T} {u : Nat} (hu : a.strides.getLast? = some u)
    (hi : iterate h a = .ok l) : l.length = a.size ∧
      ∀ i (hlt : i < l.length), atOffset h a (a.offset + i * u) = .ok l[i] := by
  rw [iterate, hu] at hi
  have h1 := collect_eq_ok hi
  have hlen : l.length = a.size := by
    have := congrArg List.length h1; simpa using this.symm
  refine ⟨hlen, fun i hlt => ?_⟩
  have h2 := congrArg (·[i]?) h1
  simp only [List.getElem?_map, List.getElem?_range (by omega : i < a.size), Option.map_some,
    List.getElem?_eq_getElem hlt, Option.some.injEq] at h2
  exact h2

/-! ## unravel_index -/

theorem unravelLoop_spec {shape : List Nat} (c : List Nat) (hv : Valid shape c) (j : Nat) :
    unravelLoop shape (dot c (updateStrides shape) + j * card shape) = .ok (j, c) := by
  induction shape generalizing c j with
  | nil => cases c <;> simp_all [Valid, unravelLoop, dot, card]
  | cons d ds ih =>
    cases c with
    | nil => simp [Valid] at hv
    | cons x xs =>
      obtain ⟨hx, hv⟩ := hv
      have hus : updateStrides (d :: ds) = card ds :: updateStrides ds := by
        have := (updateStrides_fold ds).1
        simp only [updateStrides, List.foldr_cons, this]
      have harg : dot (x :: xs) (updateStrides (d :: ds)) + j * card (d :: ds) =
          dot xs (updateStrides ds) + (x + j * d) * card ds := by
        rw [hus, dot, card]; ring
      have hstep : ∀ n, unravelLoop (d :: ds) n = (unravelLoop ds n >>= fun st =>
          if d = 0 then .ub else .ok (st.1 / d, (st.1 % d) :: st.2)) := fun n => rfl
      rw [hstep, harg, ih xs hv, Outcome.bind_ok, if_neg (by omega)]
      simp only [Outcome.ok.injEq, Prod.mk.injEq, List.cons.injEq, and_true]
      constructor
      · rw [Nat.add_mul_div_right _ _ (by omega), Nat.div_eq_of_lt hx, Nat.zero_add]
      · rw [Nat.add_mul_mod_self_right, Nat.mod_eq_of_lt hx]

theorem allCoords_getElem {shape : List Nat} {k : Nat} (hk : k < (allCoords shape).length) :
    Valid shape (allCoords shape)[k] ∧ dot (allCoords shape)[k] (updateStrides shape) = k := by
  refine ⟨mem_allCoords.1 (List.getElem_mem _), ?_⟩
  have h := congrArg (·[k]?) (allCoords_map_dot (updateStrides_compat shape))
  rw [allCoords_length] at hk
  simp only [List.getElem?_map, List.getElem?_range hk, List.getElem?_eq_getElem (by rw [allCoords_length]; exact hk :
    k < (allCoords shape).length), Option.map_some, Nat.mul_one, Option.some.injEq] at h
  exact h

theorem card_pos_iff {shape : List Nat} : 0 < card shape ↔ ∀ d ∈ shape, 0 < d := by
  induction shape with
  | nil => simp [card]
  | cons d ds ih =>
    simp only [card, List.mem_cons, forall_eq_or_imp, ← ih]
    exact ⟨fun h => ⟨Nat.pos_of_mul_pos_right h, Nat.pos_of_mul_pos_left h⟩, fun h => Nat.mul_pos h.1 h.2⟩

theorem set_atOffset_other {h h' : Heap T} {a b : Nd} {c : List Nat} {x : T} (hs : set' h a c x = .ok h')
    (hne : b.cid ≠ a.cid) (o : Nat) : atOffset h' b o = atOffset h b o := by
  rw [set'] at hs
  cases ho : getOffset a c with
  | ok off =>
    rw [ho, Outcome.bind_ok, setOffset] at hs
    split at hs
    · cases hs
    · split at hs
      · cases hs; exact atOffset_set_ne hne _ _
      · cases hs
  | throw e => rw [ho] at hs; cases hs
  | ub => rw [ho] at hs; cases hs

theorem iterate_congr {h h' : Heap T} {a : Nd} (he : ∀ o, atOffset h' a o = atOffset h a o) :
    iterate h' a = iterate h a := by
  unfold iterate; simp only [he]

theorem eqLoop_spec [DecidableEq T] {h : Heap T} {a b : Nd} {sa sb : Nat} (f g : Nat → T) (is : List Nat)
    (ha : ∀ i ∈ is, atOffset h a (a.offset + i * sa) = .ok (f i))
    (hb : ∀ i ∈ is, atOffset h b (b.offset + i * sb) = .ok (g i)) :
    eqLoop h a b sa sb is = .ok (decide (∀ i ∈ is, f i = g i)) := by
  induction is with
  | nil => simp [eqLoop]
  | cons i is ih =>
    rw [eqLoop, ha i (by simp), hb i (by simp), Outcome.bind_ok, Outcome.bind_ok,
      ih (fun j hj => ha j (by simp [hj])) (fun j hj => hb j (by simp [hj]))]
    by_cases hfg : f i = g i <;> simp [hfg]

end Alexandria.NdArray
