import Verif.Grid.Model
import Verif.Grid.Spec
import Mathlib.Data.List.GetD
import Mathlib.Tactic.Ring

set_option linter.unusedSectionVars false

/-!
# Lemmas about grid index arithmetic
-/

namespace Alexandria.Grid

open Spec

variable {V T : Type}

theorem axisIndexFactor_cons (s : Nat) (ss : List Nat) (n : Nat) :
    axisIndexFactor (s :: ss) (n + 1) = s * axisIndexFactor ss n := by
  induction n with
  | zero => simp [axisIndexFactor]
  | succ n ih => rw [axisIndexFactor, ih, axisIndexFactor, List.getD_cons_succ]; ring

theorem axisIndexFactor_append (pre ss : List Nat) (n : Nat) :
    axisIndexFactor (pre ++ ss) (pre.length + n) = total pre * axisIndexFactor ss n := by
  induction pre with
  | nil => simp [total]
  | cons s pre ih =>
    have : (s :: pre).length + n = (pre.length + n) + 1 := by simp; omega
    rw [this, List.cons_append, axisIndexFactor_cons, ih, total]; ring

theorem axisIndexFactor_length (ss : List Nat) : axisIndexFactor ss ss.length = total ss := by
  have := axisIndexFactor_append ss [] 0
  simpa [axisIndexFactor] using this

theorem axisIndexFactor_pre (pre ss : List Nat) : axisIndexFactor (pre ++ ss) pre.length = total pre := by
  have := axisIndexFactor_append pre ss 0
  simpa [axisIndexFactor] using this

theorem axisIndexFactor_pre_succ (pre : List Nat) (s : Nat) (ss : List Nat) :
    axisIndexFactor (pre ++ s :: ss) (pre.length + 1) = total pre * s := by
  rw [axisIndexFactor_append]; simp [axisIndexFactor]

theorem factors_length (ss : List Nat) : (factors ss).length = ss.length + 1 := by simp [factors]

theorem factors_getD (ss : List Nat) (n : Nat) (h : n ≤ ss.length) :
    (factors ss).getD n 0 = axisIndexFactor ss n := by
  rw [List.getD_eq_getElem _ _ (by rw [factors_length]; omega)]
  simp [factors]

theorem factors_getElem? (ss : List Nat) (n : Nat) (h : n ≤ ss.length) :
    (factors ss)[n]? = some (axisIndexFactor ss n) := by
  rw [List.getElem?_eq_getElem (by rw [factors_length]; omega)]
  simp [factors]

theorem total_append (pre ss : List Nat) : total (pre ++ ss) = total pre * total ss := by
  induction pre with
  | nil => simp [total]
  | cons s pre ih => simp [total, ih, Nat.mul_assoc]

theorem total_pos {ss : List Nat} : 0 < total ss ↔ ∀ s ∈ ss, 0 < s := by
  induction ss with
  | nil => simp [total]
  | cons s ss ih =>
    rw [total, List.forall_mem_cons, ← ih]
    exact ⟨fun h => ⟨Nat.pos_of_mul_pos_right h, Nat.pos_of_mul_pos_left h⟩, fun h => Nat.mul_pos h.1 h.2⟩

theorem sizes_length (axes : List (Axis V)) : (sizes axes).length = axes.length := by simp [sizes]

theorem cellCount_eq (axes : List (Axis V)) : cellCount axes = total (sizes axes) := by
  unfold cellCount
  rw [← sizes_length, axisIndexFactor_length]

theorem size_eq (g : GridC V) : g.size = total (sizes g.axesFixed) := by
  unfold GridC.size
  have : (factors (sizes g.axesFixed)) ≠ [] := by
    intro h; have := congrArg List.length h; rw [factors_length] at this; simp at this
  have h2 := factors_getElem? (sizes g.axesFixed) (sizes g.axesFixed).length (Nat.le_refl _)
  rw [List.getLastD_eq_getLast?, List.getLast?_eq_getElem?, factors_length, Nat.add_sub_cancel, h2,
    axisIndexFactor_length]
  rfl

/-! ## totals and coordinates -/

theorem inRange_length {cs ss : List Nat} (h : InRange cs ss) : cs.length = ss.length := by
  induction cs generalizing ss with
  | nil => cases ss <;> simp_all [InRange]
  | cons c cs ih =>
    cases ss with
    | nil => simp [InRange] at h
    | cons s ss => simp [ih h.2]

theorem cellNo_lt {cs ss : List Nat} (h : InRange cs ss) : cellNo ss cs < total ss := by
  induction cs generalizing ss with
  | nil => cases ss <;> simp_all [InRange, cellNo, total]
  | cons c cs ih =>
    cases ss with
    | nil => simp [InRange] at h
    | cons s ss =>
      have h2 := ih h.2
      have h1 := h.1
      simp only [cellNo, total]
      calc c + s * cellNo ss cs < s + s * cellNo ss cs := by omega
        _ = s * (cellNo ss cs + 1) := by ring
        _ ≤ s * total ss := Nat.mul_le_mul_left _ h2

theorem calculateTotalIndex_pre (pre ss cs : List Nat) (h : cs.length = ss.length) :
    calculateTotalIndex (factors (pre ++ ss)) cs = total pre * cellNo ss cs := by
  induction cs generalizing pre ss with
  | nil => cases ss <;> simp_all [calculateTotalIndex, cellNo]
  | cons c cs ih =>
    cases ss with
    | nil => simp at h
    | cons s ss =>
      have h' : cs.length = ss.length := by simpa using h
      rw [calculateTotalIndex]
      have e : (factors (pre ++ s :: ss)).length - cs.length - 2 = pre.length := by
        rw [factors_length]; simp; omega
      rw [e, factors_getD _ _ (by simp), axisIndexFactor_pre]
      have := ih (pre ++ [s]) ss h'
      rw [List.append_assoc, List.singleton_append] at this
      rw [this, total_append]
      simp [total, cellNo]; ring

theorem calculateTotalIndex_eq (ss cs : List Nat) (h : cs.length = ss.length) :
    calculateTotalIndex (factors ss) cs = cellNo ss cs := by
  have := calculateTotalIndex_pre [] ss cs h
  simpa [total] using this

theorem checkBounds_pre (pre ss cs : List Nat) (h : cs.length = ss.length) [Decidable (InRange cs ss)] :
    checkBounds (pre ++ ss) cs = if InRange cs ss then .ok () else .throw (.elements "out of bound") := by
  induction cs generalizing pre ss with
  | nil => cases ss <;> simp_all [checkBounds, InRange]
  | cons c cs ih =>
    cases ss with
    | nil => simp at h
    | cons s ss =>
      have h' : cs.length = ss.length := by simpa using h
      rw [checkBounds]
      have e : (pre ++ s :: ss).length - cs.length - 1 = pre.length := by simp; omega
      have e2 : (pre ++ s :: ss).getD pre.length 0 = s := by simp [List.getD]
      rw [e, e2]
      by_cases hc : c ≥ s
      · rw [if_pos hc, if_neg (by simp [InRange]; omega)]
      · rw [if_neg hc]
        haveI := Classical.dec (InRange cs ss)
        have := ih (pre ++ [s]) ss h'
        rw [List.append_assoc, List.singleton_append] at this
        rw [this]
        have : InRange (c :: cs) (s :: ss) ↔ InRange cs ss := by
          simp only [InRange]; constructor
          · exact fun h => h.2
          · exact fun h => ⟨by omega, h⟩
        by_cases hr : InRange cs ss
        · rw [if_pos hr, if_pos (this.2 hr)]
        · rw [if_neg hr, if_neg (fun x => hr (this.1 x))]

theorem checkAllFixedAreZero_pre (pre fs : List (Option Nat)) (cs : List Nat) (n : Nat) (hn : n = pre.length + fs.length)
    (h : cs.length = fs.length) [Decidable (ZeroAtFixed fs cs)] :
    checkAllFixedAreZero n (pre ++ fs) cs =
      if ZeroAtFixed fs cs then .ok () else .throw (.elements "out of bound") := by
  induction cs generalizing pre fs with
  | nil => cases fs <;> simp_all [checkAllFixedAreZero, ZeroAtFixed]
  | cons c cs ih =>
    cases fs with
    | nil => simp at h
    | cons f fs =>
      have h' : cs.length = fs.length := by simpa using h
      rw [checkAllFixedAreZero]
      have e : n - cs.length - 1 = pre.length := by rw [hn]; simp; omega
      have e2 : (pre ++ f :: fs).getD pre.length none = f := by simp [List.getD]
      rw [e, e2]
      haveI := Classical.dec (ZeroAtFixed fs cs)
      have hi := ih (pre ++ [f]) fs (by rw [hn]; simp; omega) h'
      rw [List.append_assoc, List.singleton_append] at hi
      cases f with
      | none =>
        rw [if_neg (by simp), hi]
        by_cases hz : ZeroAtFixed fs cs
        · rw [if_pos hz, if_pos (show ZeroAtFixed (none :: fs) (c :: cs) from hz)]
        · rw [if_neg hz, if_neg (show ¬ ZeroAtFixed (none :: fs) (c :: cs) from hz)]
      | some i =>
        by_cases hc : c = 0
        · rw [if_neg (by simp [hc]), hi]
          by_cases hz : ZeroAtFixed fs cs
          · rw [if_pos hz, if_pos (show ZeroAtFixed (some i :: fs) (c :: cs) from ⟨hc, hz⟩)]
          · rw [if_neg hz, if_neg (show ¬ ZeroAtFixed (some i :: fs) (c :: cs) from fun x => hz x.2)]
        · rw [if_pos (by simp [hc]), if_neg (show ¬ ZeroAtFixed (some i :: fs) (c :: cs) from fun x => hc x.1)]

theorem addFixed_pre (preF fs : List (Option Nat)) (pre ss : List Nat) (hp : preF.length = pre.length)
    (h : fs.length = ss.length) (t : Nat) :
    (List.range' pre.length fs.length).foldl
      (fun t axis => match (preF ++ fs).getD axis none with
        | some index => t + index * (factors (pre ++ ss)).getD axis 0
        | none => t) t = t + total pre * cellNo ss (fs.map (·.getD 0)) := by
  induction fs generalizing preF pre ss t with
  | nil => cases ss <;> simp_all [cellNo]
  | cons f fs ih =>
    cases ss with
    | nil => simp at h
    | cons s ss =>
      have h' : fs.length = ss.length := by simpa using h
      rw [List.length_cons, List.range'_succ, List.foldl_cons]
      have e2 : (preF ++ f :: fs).getD pre.length none = f := by simp [List.getD, ← hp]
      rw [e2, factors_getD _ _ (by simp), axisIndexFactor_pre]
      have hi := fun t => ih (preF ++ [f]) (pre ++ [s]) ss (by simp [hp]) h' t
      simp only [List.append_assoc, List.singleton_append, List.length_append, List.length_singleton] at hi
      rw [hi]
      rw [total_append]
      cases f with
      | none => simp [total, cellNo]; ring
      | some i => simp [total, cellNo]; ring

theorem addFixed_eq (fs : List (Option Nat)) (ss : List Nat) (h : fs.length = ss.length) (t : Nat) :
    addFixed (factors ss) fs t = t + cellNo ss (fs.map (·.getD 0)) := by
  have := addFixed_pre [] fs [] ss rfl h t
  simp only [total, Nat.one_mul, List.nil_append] at this
  rw [addFixed, List.range_eq_range']
  exact this

theorem cellNo_place (ss cs : List Nat) (fs : List (Option Nat)) (h1 : fs.length = ss.length)
    (h2 : cs.length = ss.length) (hz : ZeroAtFixed fs cs) :
    cellNo ss (place fs cs) = cellNo ss cs + cellNo ss (fs.map (·.getD 0)) := by
  induction ss generalizing cs fs with
  | nil => simp [cellNo]
  | cons s ss ih =>
    cases cs with
    | nil => simp at h2
    | cons c cs =>
      cases fs with
      | nil => simp at h1
      | cons f fs =>
        cases f with
        | none =>
          have := ih cs fs (by simpa using h1) (by simpa using h2) hz
          simp [place, cellNo, this]; ring
        | some i =>
          have := ih cs fs (by simpa using h1) (by simpa using h2) hz.2
          simp [place, cellNo, this, hz.1]; ring

/-! ## axisIndex -/

theorem axisIndex_pre (pre : List Nat) (s : Nat) (ss : List Nat) (k : Nat) (hp : 0 < total pre) (hs : 0 < s) :
    axisIndex (pre ++ s :: ss) pre.length k = .ok (k / total pre % s) := by
  unfold axisIndex
  rw [factors_getElem? _ _ (by simp), factors_getElem? _ _ (by simp), axisIndexFactor_pre, axisIndexFactor_pre_succ]
  simp only
  rw [if_neg (by simp; omega), Nat.mod_mul_right_div_self]

/-- Coordinates of a cell number. -/
def digits : List Nat → Nat → List Nat
  | [], _ => []
  | s :: ss, k => k % s :: digits ss (k / s)

theorem digits_length (ss : List Nat) (k : Nat) : (digits ss k).length = ss.length := by
  induction ss generalizing k with
  | nil => rfl
  | cons s ss ih => simp [digits, ih]

theorem digits_inRange (ss : List Nat) (k : Nat) (h : ∀ s ∈ ss, 0 < s) : InRange (digits ss k) ss := by
  induction ss generalizing k with
  | nil => simp [digits, InRange]
  | cons s ss ih =>
    exact ⟨Nat.mod_lt _ (h s (by simp)), ih _ (fun x hx => h x (by simp [hx]))⟩

theorem cellNo_digits (ss : List Nat) (k : Nat) (h : k < total ss) : cellNo ss (digits ss k) = k := by
  induction ss generalizing k with
  | nil => simp [total] at h; simp [cellNo, h]
  | cons s ss ih =>
    simp only [total] at h
    have hs : 0 < s := by
      rcases Nat.eq_zero_or_pos s with h0 | h0
      · subst h0; simp at h
      · exact h0
    simp only [digits, cellNo]
    rw [ih _ (Nat.div_lt_of_lt_mul h)]
    exact Nat.mod_add_div k s

theorem digits_cellNo (ss cs : List Nat) (h : InRange cs ss) : digits ss (cellNo ss cs) = cs := by
  induction ss generalizing cs with
  | nil => cases cs <;> simp_all [InRange, digits]
  | cons s ss ih =>
    cases cs with
    | nil => simp [InRange] at h
    | cons c cs =>
      simp only [cellNo, digits]
      have h1 := h.1
      rw [Nat.add_mul_mod_self_left, Nat.mod_eq_of_lt h1, Nat.add_mul_div_left _ _ (by omega), Nat.div_eq_of_lt h1,
        Nat.zero_add, ih _ h.2]

theorem axisIndex_digits (pre ss : List Nat) (k a : Nat) (hp : ∀ s ∈ pre ++ ss, 0 < s) (ha : a < ss.length) :
    ∃ d, (digits ss (k / total pre))[a]? = some d ∧ axisIndex (pre ++ ss) (pre.length + a) k = .ok d := by
  induction ss generalizing pre a with
  | nil => simp at ha
  | cons s ss ih =>
    cases a with
    | zero =>
      refine ⟨k / total pre % s, by simp [digits], ?_⟩
      exact axisIndex_pre pre s ss k (total_pos.2 fun x hx => hp x (by simp [hx])) (hp s (by simp))
    | succ a =>
      have := ih (pre ++ [s]) a (by simpa using hp) (by simpa using ha)
      obtain ⟨d, h1, h2⟩ := this
      refine ⟨d, ?_, ?_⟩
      · simp only [digits, List.getElem?_cons_succ]
        rw [Nat.div_div_eq_div_mul]
        simpa [total_append, total] using h1
      · rw [List.append_assoc, List.singleton_append] at h2
        rw [← h2]
        congr 1
        simp; omega

/-! ## moving to the fixed coordinates -/

/-- `forwardAll` written by recursion over the axes. -/
def fwd : List Nat → List (Option Nat) → Nat → Nat
  | s :: ss, none :: fs, k => k % s + s * fwd ss fs (k / s)
  | s :: ss, some i :: fs, k =>
    let k1 := k + (if i = k % s then 0 else if i > k % s then i - k % s else s + i - k % s)
    k1 % s + s * fwd ss fs (k1 / s)
  | _, _, k => k

theorem forwardToIndex_pre (pre : List Nat) (s : Nat) (ss : List Nat) (k i : Nat) (hp : 0 < total pre) (hs : 0 < s) :
    forwardToIndex (pre ++ s :: ss) k pre.length i =
      .ok (k + (if i = k / total pre % s then 0 else if i > k / total pre % s then i - k / total pre % s
        else s + i - k / total pre % s) * total pre) := by
  unfold forwardToIndex
  rw [axisIndex_pre _ _ _ _ hp hs, Outcome.bind_ok, factors_getD _ _ (by simp), axisIndexFactor_pre]
  have e2 : (pre ++ s :: ss).getD pre.length 0 = s := by simp [List.getD]
  rw [e2]
  by_cases h : i = k / total pre % s
  · simp [← h]
  · simp [h]

theorem forwardAll_pre (pre ss : List Nat) (fs : List (Option Nat)) (k : Nat) (hp : ∀ s ∈ pre ++ ss, 0 < s)
    (hl : fs.length = ss.length) :
    forwardAll (pre ++ ss) fs pre.length k = .ok (k % total pre + total pre * fwd ss fs (k / total pre)) := by
  induction fs generalizing pre ss k with
  | nil =>
    cases ss with
    | nil => simp [forwardAll, fwd, Nat.mod_add_div]
    | cons => simp at hl
  | cons f fs ih =>
    cases ss with
    | nil => simp at hl
    | cons s ss =>
      have hs : 0 < s := hp s (by simp)
      have hpp : 0 < total pre := total_pos.2 fun x hx => hp x (by simp [hx])
      have hi := fun k => ih (pre ++ [s]) ss k (by simpa using hp) (by simpa using hl)
      simp only [List.append_assoc, List.singleton_append, List.length_append, List.length_singleton, total_append,
        total, Nat.mul_one] at hi
      cases f with
      | none =>
        rw [forwardAll, hi, fwd, ← Nat.div_div_eq_div_mul, Nat.mod_mul]
        congr 1; ring
      | some i =>
        rw [forwardAll, forwardToIndex_pre _ _ _ _ _ hpp hs, Outcome.bind_ok, hi, fwd]
        generalize hx : (if i = k / total pre % s then 0 else if i > k / total pre % s then i - k / total pre % s
          else s + i - k / total pre % s) = x
        rw [← Nat.div_div_eq_div_mul, Nat.mod_mul, Nat.add_mul_mod_self_right, Nat.add_mul_div_right _ _ hpp]
        congr 1; ring

theorem forwardAll_eq (ss : List Nat) (fs : List (Option Nat)) (k : Nat) (hp : ∀ s ∈ ss, 0 < s)
    (hl : fs.length = ss.length) : forwardAll ss fs 0 k = .ok (fwd ss fs k) := by
  have := forwardAll_pre [] ss fs k hp hl
  simpa [total, Nat.mod_one] using this

/-- The fixed indices are in range. -/
def FixedOk : List Nat → List (Option Nat) → Prop
  | [], [] => True
  | _ :: ss, none :: fs => FixedOk ss fs
  | s :: ss, some i :: fs => i < s ∧ FixedOk ss fs
  | _, _ => False

theorem FixedOk.length {ss : List Nat} {fs : List (Option Nat)} (h : FixedOk ss fs) : fs.length = ss.length := by
  induction ss generalizing fs with
  | nil => cases fs <;> simp_all [FixedOk]
  | cons s ss ih =>
    cases fs with
    | nil => simp [FixedOk] at h
    | cons f fs =>
      cases f with
      | none => simp [ih h]
      | some i => simp [ih h.2]

/-- Cell numbers of a slice in iteration order. -/
def cells : List Nat → List (Option Nat) → List Nat
  | s :: ss, none :: fs => (cells ss fs).flatMap fun k => (List.range s).map fun c => c + s * k
  | s :: ss, some i :: fs => (cells ss fs).map fun k => i + s * k
  | _, _ => [0]

theorem cells_eq (ss : List Nat) (fs : List (Option Nat)) :
    cells ss fs = (sliceCoords ss fs).map (cellNo ss) := by
  induction ss generalizing fs with
  | nil => cases fs <;> simp [cells, sliceCoords, cellNo]
  | cons s ss ih =>
    cases fs with
    | nil => simp [cells, sliceCoords, cellNo]
    | cons f fs =>
      cases f with
      | none => simp [cells, sliceCoords, cellNo, ih, List.map_flatMap, List.flatMap_map, Function.comp_def]
      | some i => simp [cells, sliceCoords, cellNo, ih]

theorem cells_ne_nil {ss : List Nat} {fs : List (Option Nat)} (hp : ∀ s ∈ ss, 0 < s) : cells ss fs ≠ [] := by
  induction ss generalizing fs with
  | nil => cases fs <;> simp [cells]
  | cons s ss ih =>
    cases fs with
    | nil => simp [cells]
    | cons f fs =>
      have := @ih fs (fun x hx => hp x (by simp [hx]))
      have hs := hp s (by simp)
      cases f with
      | none =>
        simp only [cells]
        obtain ⟨a, l, hl⟩ := List.exists_cons_of_ne_nil this
        simp [hl]
        omega
      | some i => simpa [cells] using this

/-- The digits at fixed axes have their fixed value. -/
def Fixed : List Nat → List (Option Nat) → Nat → Prop
  | s :: ss, none :: fs, k => Fixed ss fs (k / s)
  | s :: ss, some i :: fs, k => k % s = i ∧ Fixed ss fs (k / s)
  | _, _, _ => True

theorem fwd_of_fixed (ss : List Nat) (fs : List (Option Nat)) (k : Nat) (h : Fixed ss fs k) : fwd ss fs k = k := by
  induction ss generalizing fs k with
  | nil => cases fs <;> simp [fwd]
  | cons s ss ih =>
    cases fs with
    | nil => simp [fwd]
    | cons f fs =>
      cases f with
      | none => rw [fwd, ih _ _ h, Nat.mod_add_div]
      | some i =>
        rw [fwd]
        simp only [h.1, if_true, Nat.add_zero]
        rw [ih _ _ h.2]
        have := Nat.mod_add_div k s
        rw [h.1] at this; exact this

theorem fixed_cons_none {s : Nat} {ss : List Nat} {fs : List (Option Nat)} {c k : Nat} (hc : c < s) (h : Fixed ss fs k) :
    Fixed (s :: ss) (none :: fs) (c + s * k) := by
  simp only [Fixed]
  rw [Nat.add_mul_div_left _ _ (by omega), Nat.div_eq_of_lt hc, Nat.zero_add]; exact h

theorem fixed_cons_some {s i : Nat} {ss : List Nat} {fs : List (Option Nat)} {k : Nat} (hc : i < s) (h : Fixed ss fs k) :
    Fixed (s :: ss) (some i :: fs) (i + s * k) := by
  simp only [Fixed]
  rw [Nat.add_mul_div_left _ _ (by omega), Nat.div_eq_of_lt hc, Nat.zero_add, Nat.add_mul_mod_self_left,
    Nat.mod_eq_of_lt hc]
  exact ⟨rfl, h⟩

theorem cells_fixed {ss : List Nat} {fs : List (Option Nat)} (hf : FixedOk ss fs) : ∀ k ∈ cells ss fs, Fixed ss fs k := by
  induction ss generalizing fs with
  | nil => cases fs <;> simp [cells, Fixed]
  | cons s ss ih =>
    cases fs with
    | nil => simp [FixedOk] at hf
    | cons f fs =>
      cases f with
      | none =>
        simp only [cells, List.mem_flatMap, List.mem_map, List.mem_range]
        rintro k ⟨k', hk', c, hc, rfl⟩
        exact fixed_cons_none hc (ih hf k' hk')
      | some i =>
        simp only [cells, List.mem_map]
        rintro k ⟨k', hk', rfl⟩
        exact fixed_cons_some hf.1 (ih hf.2 k' hk')

/-- `next` leads from each element of `l` to the following one and from the last to `e`. -/
def Walk (next : Nat → Nat) : List Nat → Nat → Prop
  | [], _ => True
  | [a], e => next a = e
  | a :: b :: l, e => next a = b ∧ Walk next (b :: l) e

theorem Walk.append {next : Nat → Nat} {l : List Nat} {b : Nat} {l' : List Nat} {e : Nat} (h1 : Walk next l b)
    (h2 : Walk next (b :: l') e) : Walk next (l ++ b :: l') e := by
  induction l with
  | nil => exact h2
  | cons a l ih =>
    cases l with
    | nil => exact ⟨h1, h2⟩
    | cons c l => exact ⟨h1.1, ih h1.2⟩

theorem walk_range (next : Nat → Nat) (s : Nat) (base e : Nat) (hs : 0 < s)
    (h1 : ∀ c, c + 1 < s → next (c + base) = c + 1 + base) (h2 : next (s - 1 + base) = e) :
    Walk next ((List.range s).map fun c => c + base) e := by
  obtain ⟨n, rfl⟩ : ∃ n, s = n + 1 := ⟨s - 1, by omega⟩
  have key : ∀ m j, m + j = n → Walk next ((List.range' j (m + 1)).map fun c => c + base) e := by
    intro m
    induction m with
    | zero =>
      intro j hj
      simp only [Nat.zero_add] at hj
      subst hj
      simpa [Walk, List.range'] using h2
    | succ m ih =>
      intro j hj
      rw [List.range'_succ]
      have := ih (j + 1) (by omega)
      rw [List.range'_succ] at this ⊢
      exact ⟨by rw [h1 j (by omega)], by simpa using this⟩
  have := key n 0 (by omega)
  rwa [← List.range_eq_range'] at this

theorem fwd_succ_none_lt {s : Nat} {ss : List Nat} {fs : List (Option Nat)} {c k : Nat} (hc : c + 1 < s)
    (h : Fixed ss fs k) : fwd (s :: ss) (none :: fs) (c + s * k + 1) = c + 1 + s * k := by
  have : c + s * k + 1 = (c + 1) + s * k := by omega
  rw [this, fwd_of_fixed _ _ _ (fixed_cons_none hc h)]

theorem fwd_succ_none_last {s : Nat} {ss : List Nat} {fs : List (Option Nat)} {k : Nat} (hs : 0 < s) :
    fwd (s :: ss) (none :: fs) (s - 1 + s * k + 1) = s * fwd ss fs (k + 1) := by
  have : s - 1 + s * k + 1 = s * (k + 1) := by rw [Nat.mul_add]; omega
  rw [this, fwd, Nat.mul_mod_right, Nat.mul_div_cancel_left _ hs, Nat.zero_add]

theorem fwd_some {s i : Nat} {ss : List Nat} {fs : List (Option Nat)} {k : Nat} (hi : i < s) :
    fwd (s :: ss) (some i :: fs) (i + s * k + 1) = i + s * fwd ss fs (k + 1) := by
  rw [fwd]
  have key : (i + s * k + 1) + (if i = (i + s * k + 1) % s then 0 else if i > (i + s * k + 1) % s then
      i - (i + s * k + 1) % s else s + i - (i + s * k + 1) % s) = i + s * (k + 1) := by
    have e : i + s * k + 1 = (i + 1) + s * k := by omega
    rw [e, Nat.add_mul_mod_self_left]
    by_cases h : i + 1 < s
    · rw [Nat.mod_eq_of_lt h, if_neg (by omega), if_neg (by omega), Nat.mul_add]; omega
    · have : i + 1 = s := by omega
      rw [this, Nat.mod_self]
      by_cases h0 : i = 0
      · rw [if_pos h0, Nat.mul_add]; omega
      · rw [if_neg h0, if_pos (by omega), Nat.mul_add]; omega
  simp only [key]
  rw [Nat.add_mul_mod_self_left, Nat.mod_eq_of_lt hi, Nat.add_mul_div_left _ _ (by omega), Nat.div_eq_of_lt hi,
    Nat.zero_add]

/-- The first element of `cells`. -/
def first : List Nat → List (Option Nat) → Nat
  | s :: ss, none :: fs => s * first ss fs
  | s :: ss, some i :: fs => i + s * first ss fs
  | _, _ => 0

theorem cells_head {ss : List Nat} {fs : List (Option Nat)} (hp : ∀ s ∈ ss, 0 < s) :
    ∃ l, cells ss fs = first ss fs :: l := by
  induction ss generalizing fs with
  | nil => cases fs <;> simp [cells, first]
  | cons s ss ih =>
    cases fs with
    | nil => simp [cells, first]
    | cons f fs =>
      obtain ⟨l, hl⟩ := @ih fs (fun x hx => hp x (by simp [hx]))
      cases f with
      | none =>
        obtain ⟨n, hn⟩ : ∃ n, s = n + 1 := ⟨s - 1, by have := hp s (by simp); omega⟩
        subst hn
        simp only [cells, hl, List.flatMap_cons, first]
        rw [List.range_succ_eq_map]
        simp
      | some i => simp [cells, hl, first]

theorem fwd_zero {ss : List Nat} {fs : List (Option Nat)} (hf : FixedOk ss fs) : fwd ss fs 0 = first ss fs := by
  induction ss generalizing fs with
  | nil => cases fs <;> simp [fwd, first]
  | cons s ss ih =>
    cases fs with
    | nil => simp [FixedOk] at hf
    | cons f fs =>
      cases f with
      | none => simp [fwd, first, ih hf]
      | some i =>
        have h1 := hf.1
        rw [fwd]
        have key : 0 + (if i = 0 % s then 0 else if i > 0 % s then i - 0 % s else s + i - 0 % s) = i := by
          rw [Nat.zero_mod]
          by_cases h0 : i = 0
          · simp [h0]
          · rw [if_neg h0, if_pos (by omega)]; omega
        simp only [key]
        rw [Nat.mod_eq_of_lt h1, Nat.div_eq_of_lt h1, ih hf.2, first]

theorem walk_flatMap_none {s : Nat} {ss : List Nat} {fs : List (Option Nat)} (hs : 0 < s) (l : List Nat) (e : Nat)
    (hl : ∀ k ∈ l, Fixed ss fs k) (hw : Walk (fun k => fwd ss fs (k + 1)) l e) (hne : l ≠ []) :
    Walk (fun k => fwd (s :: ss) (none :: fs) (k + 1)) (l.flatMap fun k => (List.range s).map fun c => c + s * k)
      (s * e) := by
  induction l with
  | nil => simp at hne
  | cons a l ih =>
    cases l with
    | nil =>
      simp only [List.flatMap_cons, List.flatMap_nil, List.append_nil]
      refine walk_range _ s (s * a) _ hs (fun c hc => fwd_succ_none_lt hc (hl a (by simp))) ?_
      show fwd _ _ (s - 1 + s * a + 1) = _
      rw [fwd_succ_none_last hs]
      have : fwd ss fs (a + 1) = e := hw
      rw [this]
    | cons b l =>
      have hi := ih (fun k hk => hl k (by simp [hk])) hw.2 (by simp)
      rw [List.flatMap_cons]
      have hb : ∃ l', ((b :: l).flatMap fun k => (List.range s).map fun c => c + s * k) = s * b :: l' := by
        obtain ⟨n, rfl⟩ : ∃ n, s = n + 1 := ⟨s - 1, by omega⟩
        rw [List.flatMap_cons, List.range_succ_eq_map]
        simp
      obtain ⟨l', hl'⟩ := hb
      rw [hl'] at hi ⊢
      refine Walk.append ?_ hi
      refine walk_range _ s (s * a) _ hs (fun c hc => fwd_succ_none_lt hc (hl a (by simp))) ?_
      show fwd _ _ (s - 1 + s * a + 1) = _
      rw [fwd_succ_none_last hs]
      have : fwd ss fs (a + 1) = b := hw.1
      rw [this]

theorem walk_map_some {s i : Nat} {ss : List Nat} {fs : List (Option Nat)} (hi : i < s) (l : List Nat) (e : Nat)
    (hw : Walk (fun k => fwd ss fs (k + 1)) l e) :
    Walk (fun k => fwd (s :: ss) (some i :: fs) (k + 1)) (l.map fun k => i + s * k) (i + s * e) := by
  induction l with
  | nil => simp [Walk]
  | cons a l ih =>
    cases l with
    | nil =>
      simp only [List.map_cons, List.map_nil, Walk]
      rw [fwd_some hi]
      have : fwd ss fs (a + 1) = e := hw
      rw [this]
    | cons b l =>
      refine ⟨?_, ih hw.2⟩
      show fwd _ _ (i + s * a + 1) = i + s * b
      rw [fwd_some hi]
      have : fwd ss fs (a + 1) = b := hw.1
      rw [this]

theorem cells_walk {ss : List Nat} {fs : List (Option Nat)} (hp : ∀ s ∈ ss, 0 < s) (hf : FixedOk ss fs) :
    Walk (fun k => fwd ss fs (k + 1)) (cells ss fs) (total ss + first ss fs) := by
  induction ss generalizing fs with
  | nil => cases fs <;> simp [cells, Walk, fwd, total, first]
  | cons s ss ih =>
    have hs := hp s (by simp)
    cases fs with
    | nil => simp [FixedOk] at hf
    | cons f fs =>
      have hp' : ∀ x ∈ ss, 0 < x := fun x hx => hp x (by simp [hx])
      cases f with
      | none =>
        have := walk_flatMap_none hs (cells ss fs) _ (cells_fixed hf) (ih hp' hf) (cells_ne_nil hp')
        simp only [cells, total, first]
        rwa [Nat.mul_add] at this
      | some i =>
        have := walk_map_some hf.1 (cells ss fs) _ (ih hp' hf.2)
        simp only [cells, total, first]
        have e : i + s * (total ss + first ss fs) = s * total ss + (i + s * first ss fs) := by ring
        rwa [e] at this

theorem cells_lt {ss : List Nat} {fs : List (Option Nat)} (hf : FixedOk ss fs) : ∀ k ∈ cells ss fs, k < total ss := by
  induction ss generalizing fs with
  | nil => cases fs <;> simp [cells, total]
  | cons s ss ih =>
    have aux : ∀ c k, c < s → k < total ss → c + s * k < s * total ss := by
      intro c k hc hk
      calc c + s * k < s + s * k := by omega
        _ = s * (k + 1) := by ring
        _ ≤ _ := Nat.mul_le_mul_left _ hk
    cases fs with
    | nil => simp [FixedOk] at hf
    | cons f fs =>
      cases f with
      | none =>
        simp only [cells, List.mem_flatMap, List.mem_map, List.mem_range, total]
        rintro k ⟨k', hk', c, hc, rfl⟩
        exact aux _ _ hc (ih hf _ hk')
      | some i =>
        simp only [cells, List.mem_map, total]
        rintro k ⟨k', hk', rfl⟩
        exact aux _ _ hf.1 (ih hf.2 _ hk')

/-- `cells` is strictly increasing. -/
theorem cells_sorted {ss : List Nat} {fs : List (Option Nat)} (hf : FixedOk ss fs) :
    (cells ss fs).Pairwise (· < ·) := by
  induction ss generalizing fs with
  | nil => cases fs <;> simp [cells]
  | cons s ss ih =>
    cases fs with
    | nil => simp [FixedOk] at hf
    | cons f fs =>
      cases f with
      | none =>
        simp only [cells]
        rw [List.pairwise_flatMap]
        refine ⟨fun k _ => ?_, ?_⟩
        · rw [List.pairwise_map]
          exact List.pairwise_lt_range.imp (fun h => by omega)
        · refine (ih hf).imp ?_
          intro a b hab x hx y hy
          simp only [List.mem_map, List.mem_range] at hx hy
          obtain ⟨c, hc, rfl⟩ := hx
          obtain ⟨d, hd, rfl⟩ := hy
          calc c + s * a < s + s * a := by omega
            _ = s * (a + 1) := by ring
            _ ≤ s * b := Nat.mul_le_mul_left _ hab
            _ ≤ d + s * b := by omega
      | some i =>
        simp only [cells]
        rw [List.pairwise_map]
        refine (ih hf.2).imp ?_
        intro a b hab
        have hs : 0 < s := by have := hf.1; omega
        have := Nat.mul_lt_mul_of_pos_left hab hs
        omega

theorem fwd_none (ss : List Nat) (fs : List (Option Nat)) (k : Nat) (h : fs.all Option.isNone = true) :
    fwd ss fs k = k := by
  induction ss generalizing fs k with
  | nil => cases fs <;> simp [fwd]
  | cons s ss ih =>
    cases fs with
    | nil => simp [fwd]
    | cons f fs =>
      simp only [List.all_cons, Bool.and_eq_true] at h
      cases f with
      | none => rw [fwd, ih _ _ h.2, Nat.mod_add_div]
      | some i => simp at h

theorem next_eq {ss : List Nat} {fs : List (Option Nat)} (hp : ∀ s ∈ ss, 0 < s) (hl : fs.length = ss.length) (k count : Nat)
    (hk : k < count) :
    (Iter.next ss count ⟨k, fs⟩) = .ok ⟨min (fwd ss fs (k + 1)) count, fs⟩ := by
  unfold Iter.next
  by_cases h : fs.all Option.isNone = true
  · rw [if_pos h, fwd_none _ _ _ h]
    congr 2
    simp only; omega
  · rw [if_neg h, forwardAll_eq _ _ _ hp hl, Outcome.bind_ok, Outcome.pure_eq]
    congr 2
    simp only
    split <;> omega

theorem loop_of_walk {ss : List Nat} {fs : List (Option Nat)} (hp : ∀ s ∈ ss, 0 < s) (hl : fs.length = ss.length)
    (count e : Nat) (he : count ≤ e) (l : List Nat) (k : Nat) (hw : Walk (fun k => fwd ss fs (k + 1)) (k :: l) e)
    (hlt : ∀ x ∈ k :: l, x < count) : Loop ss count ⟨k, fs⟩ (k :: l) := by
  induction l generalizing k with
  | nil =>
    have hk := hlt k (by simp)
    refine Loop.step _ _ _ (by simp; omega) (by simpa using hk) (next_eq hp hl k count hk) (Loop.stop _ ?_)
    have : fwd ss fs (k + 1) = e := hw
    simp only [this]; omega
  | cons b l ih =>
    have hk := hlt k (by simp)
    have hb := hlt b (by simp)
    refine Loop.step _ _ _ (by simp; omega) (by simpa using hk) (next_eq hp hl k count hk) ?_
    have : fwd ss fs (k + 1) = b := hw.1
    rw [this, Nat.min_eq_left (by omega)]
    exact ih b hw.2 (fun x hx => hlt x (by simp [hx]))

/-! ## begin -/

theorem fixIteratorAxes_pre (pre ss : List Nat) (preF fs : List (Option Nat)) (k : Nat) (hp : ∀ s ∈ pre ++ ss, 0 < s)
    (hpl : preF.length = pre.length) (hf : FixedOk ss fs) :
    fixIteratorAxes (pre ++ ss) fs pre.length ⟨k, preF ++ ss.map fun _ => none⟩ =
      (do let p ← forwardAll (pre ++ ss) fs pre.length k; .ok ⟨p, preF ++ fs⟩) := by
  induction fs generalizing pre ss preF k with
  | nil =>
    cases ss with
    | nil => simp [fixIteratorAxes, forwardAll]
    | cons => simp [FixedOk] at hf
  | cons f fs ih =>
    cases ss with
    | nil => simp [FixedOk] at hf
    | cons s ss =>
      have hs : 0 < s := hp s (by simp)
      have hpp : 0 < total pre := total_pos.2 fun x hx => hp x (by simp [hx])
      have hi := fun preF' k => ih (pre ++ [s]) ss preF' k (by simpa using hp)
      simp only [List.append_assoc, List.singleton_append, List.length_append, List.length_singleton] at hi
      cases f with
      | none =>
        rw [fixIteratorAxes, forwardAll]
        have := hi (preF ++ [none]) k (by simp [hpl]) hf
        simpa using this
      | some i =>
        rw [fixIteratorAxes, forwardAll]
        have e1 : (preF ++ List.map (fun _ => (none : Option Nat)) (s :: ss)).getD pre.length none = none := by
          simp [List.getD, ← hpl]
        have e2 : (pre ++ s :: ss).getD pre.length 0 = s := by simp [List.getD]
        have hfi : Iter.fixAxisByIndex (pre ++ s :: ss) ⟨k, preF ++ List.map (fun _ => none) (s :: ss)⟩ pre.length i =
            (do let p ← forwardToIndex (pre ++ s :: ss) k pre.length i
                .ok ⟨p, preF ++ [some i] ++ List.map (fun _ => none) ss⟩) := by
          unfold Iter.fixAxisByIndex
          simp only [e1]
          rw [Iter.fixAxisByIndex.go, e2, if_neg (by have := hf.1; omega)]
          congr 1
          funext p
          simp [List.set_append, ← hpl]
        rw [hfi, forwardToIndex_pre _ _ _ _ _ hpp hs]
        simp only [Outcome.bind_ok]
        rw [hi (preF ++ [some i]) _ (by simp [hpl]) hf.2]
        simp

theorem begin_eq {axes : List (Axis V)} {fs : List (Option Nat)} (hp : ∀ s ∈ sizes axes, 0 < s)
    (hf : FixedOk (sizes axes) fs) (af : List (Axis V)) :
    (GridC.begin' ⟨axes, af, fs⟩) = .ok ⟨first (sizes axes) fs, fs⟩ := by
  have := fixIteratorAxes_pre [] (sizes axes) [] fs 0 hp rfl hf
  unfold GridC.begin'
  simp only [List.nil_append, List.length_nil] at this
  have e : (List.map (fun (_ : Axis V) => (none : Option Nat)) axes) = (sizes axes).map fun _ => none := by
    simp [sizes, Function.comp_def]
  rw [e, this, forwardAll_eq _ _ _ hp hf.length, Outcome.bind_ok, fwd_zero hf]

end Alexandria.Grid
