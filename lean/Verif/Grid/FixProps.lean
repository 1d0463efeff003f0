import Verif.Grid.FixModel
import Verif.Grid.Props
import Mathlib.Tactic.Linarith

/-!
# Property C111: iterators of grids that are fixed on the way
-/

namespace Alexandria.Grid

open Spec

variable {V : Type}

namespace Spec

/-- The position `p` is that of the first cell from `k` on that agrees with the fixed coordinates, or the end if there is none. -/
def FirstFrom (ss : List Nat) (fs : List (Option Nat)) (k p : Nat) : Prop :=
  (∃ cs, InRange cs ss ∧ Agrees fs cs ∧ cellNo ss cs = p ∧ k ≤ p ∧ ∀ cs', InRange cs' ss → Agrees fs cs' → k ≤ cellNo ss cs' → p ≤ cellNo ss cs') ∨
  (p = total ss ∧ ∀ cs', InRange cs' ss → Agrees fs cs' → ¬ k ≤ cellNo ss cs')

end Spec

/-- The iterators of a new grid that a program can have. -/
inductive ItReach (axes : List (Axis V)) : Iter → Prop
  | begin (it : Iter) : (mk axes).begin' = .ok it → ItReach axes it
  | next (it it' : Iter) : ItReach axes it → it.pos < cellCount axes → it.next (sizes axes) (cellCount axes) = .ok it' → ItReach axes it'
  | fix (it it' : Iter) (axis index : Nat) : ItReach axes it → it.pos < cellCount axes → it.fixAxisByIndex (sizes axes) axis index = .ok it' → ItReach axes it'

/-- What is documented: the iterator is moved to the first cell from the current one on that has the fixed indices. -/
def C111_full : Prop := ∀ (axes : List (Axis Nat)) (it it' : Iter) (axis index : Nat), ItReach axes it → it.pos < cellCount axes → axis < axes.length →
  it.fixAxisByIndex (sizes axes) axis index = .ok it' → FirstFrom (sizes axes) it'.fixed it.pos it'.pos

def axes32 : List (Axis Nat) := [⟨"x", [10, 20, 30]⟩, ⟨"y", [1, 2]⟩]

theorem reach2 : ItReach axes32 ⟨2, [none, none]⟩ :=
  .next ⟨1, [none, none]⟩ _ (.next ⟨0, [none, none]⟩ _ (.begin _ rfl) (by decide) rfl) (by decide) rfl

/-- Cells are skipped: from the cell (2, 0) of a grid with 3 x 2 cells the second axis is fixed at 1. The iterator goes to (2, 1) and not to (0, 1), which comes first. -/
theorem C111_skip_violated : ¬ C111_full := by
  intro hall
  have h := hall axes32 ⟨2, [none, none]⟩ ⟨5, [none, some 1]⟩ 1 1 reach2 (by decide) (by decide) (by decide)
  rcases h with ⟨cs, _, _, _, _, hmin⟩ | ⟨h, _⟩
  · have := hmin [0, 1] (by simp [InRange, sizes, axes32, Axis.size]) (by simp [Agrees]) (by decide)
    revert this
    decide
  · revert h
    decide

/-- An axis that was fixed before is left: from the cell (2, 0) of the same grid, where the second axis is fixed at 0, the first axis is fixed at 1. The iterator goes to the cell (1, 1). -/
theorem C111_off_violated : ∃ it it' : Iter, ItReach axes32 it ∧ it.pos < cellCount axes32 ∧ it.fixed = [none, some 0] ∧ it.fixAxisByIndex (sizes axes32) 0 1 = .ok it' ∧
    it'.fixed = [some 1, some 0] ∧ axisIndex (sizes axes32) 0 it'.pos = .ok 1 ∧ axisIndex (sizes axes32) 1 it'.pos = .ok 1 :=
  ⟨⟨2, [none, some 0]⟩, ⟨4, [some 1, some 0]⟩, .fix ⟨2, [none, none]⟩ _ 1 0 reach2 (by decide) (by decide), by decide, rfl, by decide, rfl, by decide, by decide⟩

/-- The iterator goes beyond the end and never meets it: from the cell (2, 1) the second axis is fixed at 0. -/
theorem C111_beyond_violated : ∃ it it' : Iter, ItReach axes32 it ∧ it.pos < cellCount axes32 ∧ it.fixAxisByIndex (sizes axes32) 1 0 = .ok it' ∧ cellCount axes32 < it'.pos ∧
    ∀ l, ¬ Loop (sizes axes32) (cellCount axes32) it' l := by
  refine ⟨⟨5, [none, none]⟩, ⟨8, [none, some 0]⟩, ?_, by decide, by decide, by decide, ?_⟩
  · exact .next ⟨4, [none, none]⟩ _ (.next ⟨3, [none, none]⟩ _ (.next ⟨2, [none, none]⟩ _ reach2 (by decide) rfl) (by decide) rfl) (by decide) rfl
  · intro l h
    cases h with
    | stop _ h => revert h; decide
    | step _ _ _ _ h => revert h; decide

/-! ## What holds -/

theorem split_at {α : Type} {l : List α} {a : Nat} {x : α} (h : l[a]? = some x) : ∃ p q, l = p ++ x :: q ∧ p.length = a := by
  obtain ⟨ha, hx⟩ := List.getElem?_eq_some_iff.1 h
  refine ⟨l.take a, l.drop (a + 1), ?_, by simp; omega⟩
  rw [← hx, List.getElem_cons_drop, List.take_append_drop]

theorem cellNo_split (pre : List Nat) (s : Nat) (post pc : List Nat) (c : Nat) (qc : List Nat) (h : pc.length = pre.length) :
    cellNo (pre ++ s :: post) (pc ++ c :: qc) = cellNo pre pc + total pre * (c + s * cellNo post qc) := by
  induction pre generalizing pc with
  | nil =>
    cases pc with
    | nil => simp [cellNo, total]
    | cons _ _ => simp at h
  | cons p pre ih =>
    cases pc with
    | nil => simp at h
    | cons d pc =>
      simp only [List.cons_append, cellNo, total]
      rw [ih pc (by simpa using h)]
      ring

theorem inRange_split {pre : List Nat} {s : Nat} {post pc : List Nat} {c : Nat} {qc : List Nat} (h : InRange (pc ++ c :: qc) (pre ++ s :: post)) (hl : pc.length = pre.length) :
    InRange pc pre ∧ c < s ∧ InRange qc post := by
  induction pre generalizing pc with
  | nil =>
    cases pc with
    | nil => exact ⟨trivial, h⟩
    | cons _ _ => simp at hl
  | cons p pre ih =>
    cases pc with
    | nil => simp at hl
    | cons d pc =>
      obtain ⟨h1, h2⟩ := h
      obtain ⟨h3, h4⟩ := ih h2 (by simpa using hl)
      exact ⟨⟨h1, h3⟩, h4⟩

theorem inRange_pos {cs ss : List Nat} (h : InRange cs ss) : 0 < total ss := by
  have := cellNo_lt h
  omega

theorem inRange_set {cs ss : List Nat} (h : InRange cs ss) (a i : Nat) (hi : i < ss.getD a 0) : InRange (cs.set a i) ss := by
  induction ss generalizing cs a with
  | nil => simp at hi
  | cons s ss ih =>
    cases cs with
    | nil => exact h.elim
    | cons c cs =>
      cases a with
      | zero => exact ⟨by simpa using hi, h.2⟩
      | succ a => exact ⟨h.1, ih h.2 a (by simpa using hi)⟩

/-- Moving forward on one axis changes that coordinate only. -/
theorem forward_set (ss cs : List Nat) (h : InRange cs ss) (a c i : Nat) (hc : cs[a]? = some c) (hci : c ≤ i) (hi : i < ss.getD a 0) :
    forwardToIndex ss (cellNo ss cs) a i = .ok (cellNo ss (cs.set a i)) := by
  obtain ⟨pc, qc, rfl, hpc⟩ := split_at hc
  have hlen := inRange_length h
  have ha : a < ss.length := by
    rw [← hlen]
    simp [hpc]
  obtain ⟨s, hs⟩ : ∃ s, ss[a]? = some s := ⟨_, List.getElem?_eq_getElem ha⟩
  obtain ⟨pre, post, rfl, hpre⟩ := split_at hs
  obtain ⟨h1, h2, h3⟩ := inRange_split h (by omega)
  have hp0 := inRange_pos h1
  have hlt := cellNo_lt h1
  subst hpre
  rw [List.getD_append_right _ _ _ _ (Nat.le_refl _)] at hi
  simp only [Nat.sub_self, List.getD_cons_zero] at hi
  rw [forwardToIndex_pre _ _ _ _ _ hp0 (by omega), cellNo_split _ _ _ _ _ _ (by omega), Nat.add_mul_div_left _ _ hp0, Nat.div_eq_of_lt hlt, Nat.zero_add, Nat.add_mul_mod_self_left,
    Nat.mod_eq_of_lt h2, ← hpc, List.set_append_right _ _ (Nat.le_refl _), Nat.sub_self, List.set_cons_zero, cellNo_split _ _ _ _ _ _ (by omega)]
  congr 1
  rcases Nat.lt_or_ge c i with hlt' | hge
  · rw [if_neg (by omega), if_pos hlt']
    obtain ⟨d, rfl⟩ := Nat.exists_eq_add_of_lt hlt'
    rw [show c + d + 1 - c = d + 1 by omega]
    ring
  · rw [if_pos (by omega)]
    have : c = i := by omega
    subst this
    ring

/-- **C111** (partial: forward moves only, and the first cell only if the coordinates of the axes before are 0): if the index is not behind that of the current cell, fixing an axis changes the
index of this axis and no other. If the current cell is the first of its block, it is the first cell from the current one on with this index. -/
theorem C111_fix_partial (ss cs : List Nat) (h : InRange cs ss) (fs : List (Option Nat)) (a c i : Nat) (hc : cs[a]? = some c) (hci : c ≤ i) (hi : i < ss.getD a 0)
    (hf : fs.getD a none = none ∨ fs.getD a none = some i) :
    Iter.fixAxisByIndex ss ⟨cellNo ss cs, fs⟩ a i = .ok ⟨cellNo ss (cs.set a i), fs.set a (some i)⟩ ∧ InRange (cs.set a i) ss ∧
    ((∀ b, b < a → cs[b]? = some 0) → ∀ cs', InRange cs' ss → cs'[a]? = some i → cellNo ss cs ≤ cellNo ss cs' → cellNo ss (cs.set a i) ≤ cellNo ss cs') := by
  refine ⟨?_, inRange_set h a i hi, ?_⟩
  · have hgo : Iter.fixAxisByIndex.go ss ⟨cellNo ss cs, fs⟩ a i = .ok ⟨cellNo ss (cs.set a i), fs.set a (some i)⟩ := by
      rw [Iter.fixAxisByIndex.go, if_neg (by omega)]
      simp only
      rw [forward_set ss cs h a c i hc hci hi, Outcome.bind_ok]
      rfl
    rw [Iter.fixAxisByIndex]
    rcases hf with hf | hf
    · simp only [hf]
      exact hgo
    · simp only [hf]
      rw [if_neg (by simp)]
      exact hgo
  · intro hz cs' h' hi' hle
    have hlen := inRange_length h
    have hlen' := inRange_length h'
    obtain ⟨pc, qc, rfl, hpc⟩ := split_at hc
    obtain ⟨pc', qc', rfl, hpc'⟩ := split_at hi'
    have ha : a < ss.length := by
      rw [← hlen]
      simp [hpc]
    obtain ⟨s, hs⟩ : ∃ s, ss[a]? = some s := ⟨_, List.getElem?_eq_getElem ha⟩
    obtain ⟨pre, post, rfl, hpre⟩ := split_at hs
    obtain ⟨h1, h2, h3⟩ := inRange_split h (by omega)
    obtain ⟨h1', h2', h3'⟩ := inRange_split h' (by omega)
    have hlow : cellNo pre pc = 0 := by
      have : ∀ (pre pc : List Nat), (∀ b, b < pc.length → pc[b]? = some 0) → cellNo pre pc = 0 := by
        intro pre
        induction pre with
        | nil => intros; cases ‹List Nat› <;> rfl
        | cons p pre ih =>
          intro pc hpc
          cases pc with
          | nil => rfl
          | cons d pc =>
            have h0 : d = 0 := by
              have := hpc 0 (by simp)
              simpa using this
            rw [cellNo, ih pc (fun b hb => by simpa using hpc (b + 1) (by simpa using hb)), h0]
            simp
      refine this pre pc ?_
      intro b hb
      have := hz b (by omega)
      rwa [List.getElem?_append_left hb] at this
    have hlt' := cellNo_lt h1'
    subst hpc
    rw [List.set_append_right _ _ (Nat.le_refl _), Nat.sub_self, List.set_cons_zero]
    rw [cellNo_split _ _ _ _ _ _ (by omega), cellNo_split _ _ _ _ _ _ (by omega), hlow] at *
    generalize cellNo post qc = hi1 at *
    generalize cellNo post qc' = hi2 at *
    generalize total pre = P at *
    generalize cellNo pre pc' = lo at *
    have hge : hi1 ≤ hi2 := by
      rcases Nat.lt_or_ge hi2 hi1 with hlt | hge
      · exfalso
        have e1 : s * (hi2 + 1) ≤ s * hi1 := Nat.mul_le_mul_left s hlt
        have e2 : P * (i + s * hi2 + 1) ≤ P * (c + s * hi1) := Nat.mul_le_mul_left P (by rw [Nat.mul_add] at e1; omega)
        rw [Nat.mul_add P (i + s * hi2) 1] at e2
        omega
      · exact hge
    have e1 : P * (i + s * hi1) ≤ P * (i + s * hi2) := Nat.mul_le_mul_left P (by
      have := Nat.mul_le_mul_left s hge
      omega)
    omega

theorem found_lt [DecidableEq V] {l : List V} {v : V} {i : Nat} (h : l.findIdx? (· == v) = some i) : i < l.length ∧ l[i]? = some v := by
  rw [List.findIdx?_eq_some_iff_getElem] at h
  obtain ⟨h1, h2, _⟩ := h
  refine ⟨h1, ?_⟩
  rw [List.getElem?_eq_getElem h1]
  congr 1
  simpa using h2

theorem sizes_getD_values (axes : List (Axis V)) (n : Nat) (a : Axis V) (h : axes[n]? = some a) : (sizes axes).getD n 0 = a.values.length := by
  simp [sizes, List.getD, h, Axis.size]

theorem byValue_ok [DecidableEq V] (g : GridC V) (cs : List Nat) (h : InRange cs (sizes g.axes)) (fs : List (Option Nat)) (n c i : Nat) (a : Axis V) (v : V) (ha : g.axes[n]? = some a)
    (hv : a.values.findIdx? (· == v) = some i) (hc : cs[n]? = some c) (hci : c ≤ i) (hf : fs.getD n none = none ∨ fs.getD n none = some i) :
    Iter.fixAxisByValue g ⟨cellNo (sizes g.axes) cs, fs⟩ n v = .ok ⟨cellNo (sizes g.axes) (cs.set n i), fs.set n (some i)⟩ ∧ InRange (cs.set n i) (sizes g.axes) := by
  have hi : i < (sizes g.axes).getD n 0 := by
    rw [sizes_getD_values _ _ _ ha]
    exact (found_lt hv).1
  obtain ⟨h1, h2, _⟩ := C111_fix_partial (sizes g.axes) cs h fs n c i hc hci hi hf
  refine ⟨?_, h2⟩
  rw [Iter.fixAxisByValue, ha]
  simp only
  rw [hv]
  simp only
  exact h1

/-- **C111** (partial: from a cell that is not behind on any axis, such as the first of the grid or of a slice): `fixAllAxes` moves the iterator to the cell that has on every axis the knot of
the cell of the other iterator, whatever grid that belongs to, and it stays fixed there. -/
theorem C111_all_partial [DecidableEq V] (g : GridC V) (cs : List Nat) (h : InRange cs (sizes g.axes)) (fs : List (Option Nat)) (g' : GridC V) (other : Iter) (vs : List V) (is : List Nat)
    (hfl : fs.length = g.axes.length) (hil : is.length = g.axes.length)
    (hval : ∀ n (a : Axis V), g.axes[n]? = some a → ∃ v i c, vs[n]? = some v ∧ is[n]? = some i ∧ cs[n]? = some c ∧ g'.iterAxisValue other n = .ok v ∧ a.values.findIdx? (· == v) = some i ∧
      c ≤ i ∧ (fs.getD n none = none ∨ fs.getD n none = some i)) :
    ∃ it, Iter.fixAllAxes g ⟨cellNo (sizes g.axes) cs, fs⟩ g' other = .ok it ∧ it.pos = cellNo (sizes g.axes) is ∧ it.fixed = is.map some ∧ InRange is (sizes g.axes) ∧
      ∀ n, n < g.axes.length → g.iterAxisValue it n = g'.iterAxisValue other n := by
  have key : ∀ (n : Nat) (cs : List Nat) (fs : List (Option Nat)), n ≤ g.axes.length → InRange cs (sizes g.axes) → fs.length = g.axes.length →
      (∀ m, m < n → ∃ i c, is[m]? = some i ∧ cs[m]? = some c ∧ c ≤ i ∧ (fs.getD m none = none ∨ fs.getD m none = some i)) →
      (∀ m, n ≤ m → m < g.axes.length → cs[m]? = is[m]? ∧ fs[m]? = (is[m]?).map some) →
      fixSameAxes (g'.iterAxisValue other) g n ⟨cellNo (sizes g.axes) cs, fs⟩ = .ok ⟨cellNo (sizes g.axes) is, is.map some⟩ ∧ InRange is (sizes g.axes) := by
    intro n
    induction n with
    | zero =>
      intro cs fs _ hr hfl _ hdone
      have hlen := inRange_length hr
      rw [sizes_length] at hlen
      have e1 : cs = is := by
        apply List.ext_getElem?
        intro m
        by_cases hm : m < g.axes.length
        · exact (hdone m (by omega) hm).1
        · rw [List.getElem?_eq_none (by omega), List.getElem?_eq_none (by omega)]
      have e2 : fs = is.map some := by
        apply List.ext_getElem?
        intro m
        rw [List.getElem?_map]
        by_cases hm : m < g.axes.length
        · exact (hdone m (by omega) hm).2
        · rw [List.getElem?_eq_none (by omega), List.getElem?_eq_none (by omega)]
          rfl
      subst e1
      subst e2
      exact ⟨rfl, hr⟩
    | succ n ih =>
      intro cs fs hn hr hfl htodo hdone
      obtain ⟨a, ha⟩ : ∃ a, g.axes[n]? = some a := ⟨_, List.getElem?_eq_getElem (by omega)⟩
      obtain ⟨v, i, _, _, hi, _, hv, hfound, _⟩ := hval n a ha
      obtain ⟨i', c, hi', hc, hci, hff⟩ := htodo n (by omega)
      rw [hi] at hi'
      cases hi'
      obtain ⟨h1, h2⟩ := byValue_ok g cs hr fs n c i a v ha hfound hc hci hff
      have hcl := inRange_length hr
      rw [sizes_length] at hcl
      rw [fixSameAxes, hv, Outcome.bind_ok, h1, Outcome.bind_ok]
      refine ih (cs.set n i) (fs.set n (some i)) (by omega) h2 (by simp [hfl]) ?_ ?_
      · intro m hm
        obtain ⟨im, cm, hm1, hm2, hm3, hm4⟩ := htodo m (by omega)
        refine ⟨im, cm, hm1, ?_, hm3, ?_⟩
        · rw [List.getElem?_set_ne (by omega)]
          exact hm2
        · rw [List.getD, List.getElem?_set_ne (by omega)]
          exact hm4
      · intro m hm hm'
        by_cases hmn : m = n
        · subst hmn
          rw [List.getElem?_set_self (by omega), List.getElem?_set_self (by omega), hi]
          exact ⟨rfl, rfl⟩
        · rw [List.getElem?_set_ne (by omega), List.getElem?_set_ne (by omega)]
          exact hdone m (by omega) hm'
  obtain ⟨h1, h2⟩ := key g.axes.length cs fs (Nat.le_refl _) h hfl (by
    intro m hm
    obtain ⟨v, i, c, _, hi, hc, _, _, hci, hf⟩ := hval m _ (List.getElem?_eq_getElem hm)
    exact ⟨i, c, hi, hc, hci, hf⟩) (by
    intro m h1 h2
    omega)
  refine ⟨_, h1, rfl, rfl, h2, ?_⟩
  intro n hn
  obtain ⟨v, i, c, _, hi, _, hv, hfound, _⟩ := hval n _ (List.getElem?_eq_getElem hn)
  have hpos : ∀ s ∈ sizes g.axes, 0 < s := total_pos.1 (inRange_pos h2)
  obtain ⟨d, hd, hax⟩ := axisIndex_digits [] (sizes g.axes) (cellNo (sizes g.axes) is) n (by simpa using hpos) (by rw [sizes_length]; exact hn)
  simp only [total, Nat.div_one, digits_cellNo _ _ h2, List.nil_append, List.length_nil, Nat.zero_add] at hd hax
  rw [hi] at hd
  cases hd
  rw [hv, GridC.iterAxisValue, GridC.iterAxisIndex, hax, Outcome.bind_ok, List.getElem?_eq_getElem hn]
  simp only
  rw [(found_lt hfound).2]

/-- **C111**: `fixAllAxes` throws if an axis does not have the knot. -/
theorem C111_all_missing [DecidableEq V] (g : GridC V) (cs : List Nat) (h : InRange cs (sizes g.axes)) (fs : List (Option Nat)) (g' : GridC V) (other : Iter)
    (hval : ∀ n (a : Axis V), g.axes[n]? = some a → ∃ v, g'.iterAxisValue other n = .ok v ∧ ∀ i, a.values.findIdx? (· == v) = some i →
      ∃ c, cs[n]? = some c ∧ c ≤ i ∧ (fs.getD n none = none ∨ fs.getD n none = some i))
    (hmiss : ∃ n a v, g.axes[n]? = some a ∧ g'.iterAxisValue other n = .ok v ∧ v ∉ a.values) :
    ∃ e, Iter.fixAllAxes g ⟨cellNo (sizes g.axes) cs, fs⟩ g' other = .throw e := by
  have key : ∀ (n : Nat) (cs : List Nat) (fs : List (Option Nat)), n ≤ g.axes.length → InRange cs (sizes g.axes) →
      (∀ m (a : Axis V), m < n → g.axes[m]? = some a → ∃ v, g'.iterAxisValue other m = .ok v ∧ ∀ i, a.values.findIdx? (· == v) = some i →
        ∃ c, cs[m]? = some c ∧ c ≤ i ∧ (fs.getD m none = none ∨ fs.getD m none = some i)) →
      (∃ m a v, m < n ∧ g.axes[m]? = some a ∧ g'.iterAxisValue other m = .ok v ∧ v ∉ a.values) →
      ∃ e, fixSameAxes (g'.iterAxisValue other) g n ⟨cellNo (sizes g.axes) cs, fs⟩ = .throw e := by
    intro n
    induction n with
    | zero =>
      intro cs fs _ _ _ ⟨m, _, _, hm, _⟩
      omega
    | succ n ih =>
      intro cs fs hn hr htodo ⟨m, am, vm, hm, ham, hvm, hnot⟩
      obtain ⟨a, ha⟩ : ∃ a, g.axes[n]? = some a := ⟨_, List.getElem?_eq_getElem (by omega)⟩
      obtain ⟨v, hv, hfound⟩ := htodo n a (by omega) ha
      rw [fixSameAxes, hv, Outcome.bind_ok]
      match hi : a.values.findIdx? (· == v) with
      | none =>
        refine ⟨.elements "given value not found", ?_⟩
        rw [Iter.fixAxisByValue, ha]
        simp only
        rw [hi]
        rfl
      | some i =>
        obtain ⟨c, hc, hci, hff⟩ := hfound i hi
        obtain ⟨h1, h2⟩ := byValue_ok g cs hr fs n c i a v ha hi hc hci hff
        rw [h1, Outcome.bind_ok]
        refine ih (cs.set n i) (fs.set n (some i)) (by omega) h2 ?_ ?_
        · intro m' a' hm' ha'
          obtain ⟨v', hv', hf'⟩ := htodo m' a' (by omega) ha'
          refine ⟨v', hv', ?_⟩
          intro i' hi'
          obtain ⟨c', hc', hci', hff'⟩ := hf' i' hi'
          refine ⟨c', ?_, hci', ?_⟩
          · rw [List.getElem?_set_ne (by omega)]
            exact hc'
          · rw [List.getD, List.getElem?_set_ne (by omega)]
            exact hff'
        · refine ⟨m, am, vm, ?_, ham, hvm, hnot⟩
          rcases Nat.lt_or_ge m n with hlt | hge
          · exact hlt
          · exfalso
            have : m = n := by omega
            subst this
            rw [ha] at ham
            cases ham
            rw [hv] at hvm
            cases hvm
            exact hnot (List.mem_of_getElem? (found_lt hi).2)
  obtain ⟨n, a, v, ha, hv, hnot⟩ := hmiss
  have hn : n < g.axes.length := (List.getElem?_eq_some_iff.1 ha).1
  exact key g.axes.length cs fs (Nat.le_refl _) h (fun m a _ ha => hval m a ha) ⟨n, a, v, hn, ha, hv, hnot⟩

/-! ## Examples -/

example : Iter.fixAxisByIndex [3, 2] ⟨cellNo [3, 2] [1, 0], [none, none]⟩ 0 2 = .ok ⟨cellNo [3, 2] [2, 0], [some 2, none]⟩ :=
  (C111_fix_partial [3, 2] [1, 0] (by simp [InRange]) [none, none] 0 1 2 rfl (by decide) (by decide) (.inl rfl)).1

/-- A grid with the same knots in another order. -/
def axesOther : List (Axis Nat) := [⟨"x", [30, 20, 10]⟩, ⟨"y", [2, 3, 1]⟩]

example : ∃ it, Iter.fixAllAxes (mk axes32) ⟨0, [none, none]⟩ (mk axesOther) ⟨7, [none, none]⟩ = .ok it ∧ it.pos = 1 := by
  obtain ⟨it, h1, h2, _⟩ := C111_all_partial (mk axes32) [0, 0] (by simp [InRange, mk, sizes, axes32, Axis.size]) [none, none] (mk axesOther) ⟨7, [none, none]⟩ [20, 1] [1, 0] rfl rfl (by
    intro n a ha
    match n, ha with
    | 0, ha => cases ha; exact ⟨20, 1, 0, rfl, rfl, rfl, by decide, by decide, by decide, .inl rfl⟩
    | 1, ha => cases ha; exact ⟨1, 0, 0, rfl, rfl, rfl, by decide, by decide, by decide, .inl rfl⟩)
  exact ⟨it, h1, h2⟩

example : ∃ e, Iter.fixAllAxes (mk axes32) ⟨0, [none, none]⟩ (mk axesOther) ⟨4, [none, none]⟩ = .throw e :=
  C111_all_missing (mk axes32) [0, 0] (by simp [InRange, mk, sizes, axes32, Axis.size]) [none, none] (mk axesOther) ⟨4, [none, none]⟩ (by
    intro n a ha
    match n, ha with
    | 0, ha => cases ha; exact ⟨20, by decide, fun i _ => ⟨0, rfl, by omega, .inl rfl⟩⟩
    | 1, ha => cases ha; exact ⟨3, by decide, fun i _ => ⟨0, rfl, by omega, .inl rfl⟩⟩) ⟨1, ⟨"y", [1, 2]⟩, 3, rfl, by decide, by decide⟩

end Alexandria.Grid
