import Verif.Grid.Props

/-!
# Properties C19, C20: what chained slices report, and slices of grids with an empty axis

`Props.lean` has single witnesses for the two cases in which the code is wrong; here they are described exactly.
-/

namespace Alexandria.Grid

open Spec

variable {V T : Type}

/-! ## C20 -/

theorem sliceCoords_length_cons_none (s : Nat) (ss : List Nat) (fs : List (Option Nat)) :
    (sliceCoords (s :: ss) (none :: fs)).length = s * (sliceCoords ss fs).length := by
  simp only [sliceCoords, List.length_flatMap, List.length_map, List.length_range]
  rw [List.map_const', List.sum_replicate_nat, Nat.mul_comm]

theorem sliceCoords_le_total {ss : List Nat} {fs : List (Option Nat)} (hp : ∀ s ∈ ss, 0 < s)
    (hl : fs.length = ss.length) : (sliceCoords ss fs).length ≤ total ss ∧
      ((sliceCoords ss fs).length = total ss ↔ ∀ b i, fs[b]? = some (some i) → ss.getD b 0 = 1) := by
  induction ss generalizing fs with
  | nil => cases fs <;> simp_all [sliceCoords, total]
  | cons s ss ih =>
    cases fs with
    | nil => simp at hl
    | cons f fs =>
      obtain ⟨h1, h2⟩ := ih (fun x hx => hp x (by simp [hx])) (by simpa using hl) (fs := fs)
      have hs := hp s (by simp)
      have htp : 0 < total ss := total_pos.2 (fun x hx => hp x (by simp [hx]))
      cases f with
      | none =>
        rw [sliceCoords_length_cons_none, total]
        refine ⟨Nat.mul_le_mul_left _ h1, ?_⟩
        rw [Nat.mul_left_cancel_iff hs, h2]
        constructor
        · intro h b i hb
          cases b with
          | zero => simp at hb
          | succ b => exact h b i (by simpa using hb)
        · intro h b i hb
          simpa using h (b + 1) i (by simpa using hb)
      | some j =>
        simp only [sliceCoords, List.length_map, total]
        have hle : total ss ≤ s * total ss := Nat.le_mul_of_pos_left _ hs
        refine ⟨by omega, ?_⟩
        constructor
        · intro h
          have h3 : (sliceCoords ss fs).length = total ss := by omega
          have h4 : s = 1 := by
            have : s * total ss = 1 * total ss := by omega
            exact Nat.eq_of_mul_eq_mul_right htp this
          intro b i hb
          cases b with
          | zero => simpa using h4
          | succ b => simpa using h2.1 h3 b i (by simpa using hb)
        · intro h
          have h4 : s = 1 := by simpa using h 0 j (by simp)
          rw [h2.2 (fun b i hb => by simpa using h (b + 1) i (by simpa using hb)), h4, Nat.one_mul]

theorem sliceCoords_le_set {ss : List Nat} {fs : List (Option Nat)} {axis index : Nat} (hp : ∀ s ∈ ss, 0 < s)
    (hl : fs.length = ss.length) (hf : fs[axis]? = some (some index)) :
    (sliceCoords ss fs).length ≤ total (ss.set axis 1) ∧
      ((sliceCoords ss fs).length = total (ss.set axis 1) ↔
        ∀ b i, b ≠ axis → fs[b]? = some (some i) → ss.getD b 0 = 1) := by
  induction ss generalizing fs axis with
  | nil => cases fs <;> simp_all
  | cons s ss ih =>
    cases fs with
    | nil => simp at hl
    | cons f fs =>
      have hp' : ∀ s ∈ ss, 0 < s := fun x hx => hp x (by simp [hx])
      have hs := hp s (by simp)
      cases axis with
      | zero =>
        simp only [List.getElem?_cons_zero, Option.some.injEq] at hf
        subst hf
        obtain ⟨h1, h2⟩ := sliceCoords_le_total hp' (by simpa using hl) (fs := fs)
        simp only [sliceCoords, List.length_map, List.set_cons_zero, total, Nat.one_mul]
        refine ⟨h1, ?_⟩
        rw [h2]
        constructor
        · intro h b i hne hb
          cases b with
          | zero => exact absurd rfl hne
          | succ b => simpa using h b i (by simpa using hb)
        · intro h b i hb
          simpa using h (b + 1) i (by omega) (by simpa using hb)
      | succ axis =>
        obtain ⟨h1, h2⟩ := ih hp' (by simpa using hl) (by simpa using hf) (fs := fs) (axis := axis)
        have htp : 0 < total (ss.set axis 1) := total_pos.2 (fun x hx => by
          rcases List.mem_or_eq_of_mem_set hx with h | h
          · exact hp' x h
          · omega)
        simp only [List.set_cons_succ, total]
        cases f with
        | none =>
          rw [sliceCoords_length_cons_none]
          refine ⟨Nat.mul_le_mul_left _ h1, ?_⟩
          rw [Nat.mul_left_cancel_iff hs, h2]
          constructor
          · intro h b i hne hb
            cases b with
            | zero => simp at hb
            | succ b => simpa using h b i (by omega) (by simpa using hb)
          · intro h b i hne hb
            simpa using h (b + 1) i (by omega) (by simpa using hb)
        | some j =>
          simp only [sliceCoords, List.length_map]
          have hle : total (ss.set axis 1) ≤ s * total (ss.set axis 1) := Nat.le_mul_of_pos_left _ hs
          refine ⟨by omega, ?_⟩
          constructor
          · intro h
            have h3 : (sliceCoords ss fs).length = total (ss.set axis 1) := by omega
            have h4 : s = 1 := by
              have : s * total (ss.set axis 1) = 1 * total (ss.set axis 1) := by omega
              exact Nat.eq_of_mul_eq_mul_right htp this
            intro b i hne hb
            cases b with
            | zero => simpa using h4
            | succ b => simpa using h2.1 h3 b i (by omega) (by simpa using hb)
          · intro h
            have h4 : s = 1 := by simpa using h 0 j (by omega) (by simp)
            rw [h2.2 (fun b i hne hb => by simpa using h (b + 1) i (by omega) (by simpa using hb)), h4, Nat.one_mul]

theorem total_set_one {ss : List Nat} {axis n : Nat} (h : ss[axis]? = some n) : total (ss.set axis 1) * n = total ss := by
  induction ss generalizing axis with
  | nil => simp at h
  | cons s ss ih =>
    cases axis with
    | zero =>
      simp only [List.getElem?_cons_zero, Option.some.injEq] at h
      subst h
      simp only [List.set_cons_zero, total, Nat.one_mul, Nat.mul_comm]
    | succ a =>
      simp only [List.set_cons_succ, total]
      rw [Nat.mul_assoc, ih (by simpa using h)]

/-- **C20 (any chain of slices).** A slice of a slice reports the axes as if only the last axis had been fixed: that one has the one
knot, all others have all their knots again; and `size()` is the number of all cells divided by the number of knots of the axis
fixed last. For a grid without empty axes this is the number of cells of the slice exactly if every axis fixed before has one
knot. -/
theorem C20_chained_slices (axes : List (Axis V)) (g g' : GridC V) (axis index : Nat) (hg : Reach axes g)
    (h : g.fixAxisByIndex axis index = .ok g') :
    ∃ ax v, axes[axis]? = some ax ∧ ax.values[index]? = some v ∧ g'.axesFixed[axis]? = some ⟨ax.name, [v]⟩ ∧
      (∀ b, b ≠ axis → g'.axesFixed[b]? = axes[b]?) ∧ g'.size * ax.size = total (sizes axes) ∧
      ((∀ a ∈ axes, a.values ≠ []) →
        (sliceCoords (sizes axes) g'.fixed).length ≤ g'.size ∧
        (g'.size = (sliceCoords (sizes axes) g'.fixed).length ↔
          ∀ b i, b ≠ axis → g'.fixed[b]? = some (some i) → (sizes axes).getD b 0 = 1)) := by
  obtain ⟨hga, hgf⟩ := hg.inv
  unfold GridC.fixAxisByIndex at h
  cases hx : g.axes[axis]? with
  | none => simp [hx] at h
  | some x =>
    simp only [hx] at h
    split at h
    · simp at h
    · rename_i hlt
      split at h
      · simp at h
      · simp only [Outcome.ok.injEq] at h
        rw [hga] at hx h
        have hal : axis < axes.length := (List.getElem?_eq_some_iff.1 hx).1
        have hi : index < x.values.length := by simp only [Axis.size] at hlt; omega
        have hfa : fixAxis axes axis index = axes.set axis ⟨x.name, [x.values[index]]⟩ := by
          simp [fixAxis, hx, List.getElem?_eq_getElem hi]
        subst h
        have hsz : GridC.size ⟨axes, fixAxis axes axis index, g.fixed.set axis (some index)⟩ =
            total ((sizes axes).set axis 1) := by
          rw [size_eq]
          simp only [hfa]
          congr 1
          simp [sizes, List.map_set, Axis.size]
        refine ⟨x, x.values[index], hx, List.getElem?_eq_getElem hi, ?_, ?_, ?_, ?_⟩
        · simp only [hfa]; rw [List.getElem?_set_self hal]
        · intro b hb
          simp only [hfa]; rw [List.getElem?_set_ne (Ne.symm hb)]
        · rw [hsz]; exact total_set_one (by simp [sizes, hx])
        · intro hne
          have hp : ∀ s ∈ sizes axes, 0 < s := by
            intro s hs
            simp only [sizes, List.mem_map] at hs
            obtain ⟨a, ha, rfl⟩ := hs
            exact List.length_pos_iff.2 (hne a ha)
          have hfl := hgf.length
          obtain ⟨h1, h2⟩ := sliceCoords_le_set (fs := g.fixed.set axis (some index)) (axis := axis) (index := index) hp
            (by simp [hfl]) (by rw [List.getElem?_set_self (by rw [hfl, sizes_length]; exact hal)])
          rw [hsz]
          exact ⟨h1, by rw [eq_comm]; exact h2⟩

/-- Test: a 2x3x2 grid, of which first the first and then the second axis is fixed, reports 4 cells and has 2. -/
example : ∃ g g' : GridC Nat, Reach [⟨"x", [1, 2]⟩, ⟨"y", [1, 2, 3]⟩, ⟨"z", [1, 2]⟩] g ∧ g.fixAxisByIndex 1 2 = .ok g' ∧
    g'.size = 4 ∧ (sliceCoords [2, 3, 2] g'.fixed).length = 2 ∧ g'.axesFixed = [⟨"x", [1, 2]⟩, ⟨"y", [3]⟩, ⟨"z", [1, 2]⟩] :=
  ⟨_, _, Reach.byIndex (mk _) _ 0 1 Reach.new rfl, rfl, by decide, by decide, by decide⟩

/-! ## C19: empty axes -/

theorem factors_getElem (szs : List Nat) (k : Nat) (h : k ≤ szs.length) : (factors szs)[k]? = some (axisIndexFactor szs k) := by
  simp [factors, List.getElem?_range (show k < szs.length + 1 by omega)]

theorem fixIteratorAxes_empty (szs : List Nat) : ∀ (fs : List (Option Nat)) (n : Nat) (it : Iter),
    n + fs.length = szs.length → (∀ k, n ≤ k → it.fixed.getD k none = none) →
    (0 < axisIndexFactor szs n → it.pos < axisIndexFactor szs n) →
    (∀ k i, fs[k]? = some (some i) → i < szs.getD (n + k) 0) →
    ((∃ k i, fs[k]? = some (some i) ∧ axisIndexFactor szs (n + k) = 0) → fixIteratorAxes szs fs n it = .ub) ∧
    ((∀ k i, fs[k]? = some (some i) → 0 < axisIndexFactor szs (n + k)) →
      ∃ it', fixIteratorAxes szs fs n it = .ok it' ∧ it.pos ≤ it'.pos ∧
        (it'.pos = it.pos ↔ ∀ k i : Nat, fs[k]? = some (some i) → i = 0)) := by
  intro fs
  induction fs with
  | nil => intro n it _ _ _ _; exact ⟨by simp, fun _ => ⟨it, rfl, Nat.le_refl _, by simp⟩⟩
  | cons f fs ih =>
    intro n it hl hfix hpos hin
    have hstep : axisIndexFactor szs (n + 1) = szs.getD n 0 * axisIndexFactor szs n := rfl
    simp only [List.length_cons] at hl
    have hin' : ∀ k i, fs[k]? = some (some i) → i < szs.getD (n + 1 + k) 0 := by
      intro k i hk
      have := hin (k + 1) i (by simpa using hk)
      rwa [show n + 1 + k = n + (k + 1) by omega]
    cases f with
    | none =>
      have hpos' : 0 < axisIndexFactor szs (n + 1) → it.pos < axisIndexFactor szs (n + 1) := by
        intro h0
        rw [hstep] at h0 ⊢
        have h1 : 0 < axisIndexFactor szs n := Nat.pos_of_mul_pos_left h0
        have h2 : 0 < szs.getD n 0 := Nat.pos_of_mul_pos_right h0
        have := hpos h1
        have : axisIndexFactor szs n ≤ szs.getD n 0 * axisIndexFactor szs n := Nat.le_mul_of_pos_left _ h2
        omega
      obtain ⟨h1, h2⟩ := ih (n + 1) it (by omega) (fun k hk => hfix k (by omega)) hpos' hin'
      simp only [fixIteratorAxes]
      constructor
      · rintro ⟨k, i, hk, h0⟩
        cases k with
        | zero => simp at hk
        | succ k => exact h1 ⟨k, i, by simpa using hk, by rwa [show n + 1 + k = n + (k + 1) by omega]⟩
      · intro hall
        obtain ⟨it', e1, e2, e3⟩ := h2 (fun k i hk => by
          rw [show n + 1 + k = n + (k + 1) by omega]; exact hall (k + 1) i (by simpa using hk))
        refine ⟨it', e1, e2, e3.trans ?_⟩
        constructor
        · intro h k i hk
          cases k with
          | zero => simp at hk
          | succ k => exact h k i (by simpa using hk)
        · intro h k i hk
          exact h (k + 1) i (by simpa using hk)
    | some index =>
      have hix := hin 0 index (by simp)
      rw [Nat.add_zero] at hix
      have hgo : it.fixAxisByIndex szs n index = (do
          let pos' ← forwardToIndex szs it.pos n index
          return { pos := pos', fixed := it.fixed.set n (some index) }) := by
        unfold Iter.fixAxisByIndex
        rw [hfix n (Nat.le_refl _)]
        simp only [Iter.fixAxisByIndex.go]
        rw [if_neg (by omega)]
      have hax : axisIndex szs n it.pos = if axisIndexFactor szs (n + 1) = 0 ∨ axisIndexFactor szs n = 0 then .ub
          else .ok (it.pos % axisIndexFactor szs (n + 1) / axisIndexFactor szs n) := by
        rw [axisIndex, factors_getElem _ _ (by omega), factors_getElem _ _ (by omega)]
      rcases Nat.eq_zero_or_pos (axisIndexFactor szs n) with h0 | h0
      · have hub : fixIteratorAxes szs (some index :: fs) n it = .ub := by
          rw [fixIteratorAxes, hgo, forwardToIndex, hax, if_pos (Or.inr h0)]; rfl
        refine ⟨fun _ => hub, fun hall => ?_⟩
        have := hall 0 index (by simp)
        rw [Nat.add_zero] at this; omega
      · have hlt := hpos h0
        have hmul : (index + 1) * axisIndexFactor szs n ≤ szs.getD n 0 * axisIndexFactor szs n :=
          Nat.mul_le_mul_right _ (by omega)
        have hmul' : (index + 1) * axisIndexFactor szs n = index * axisIndexFactor szs n + axisIndexFactor szs n := by
          rw [Nat.add_mul, Nat.one_mul]
        have hF1 : 0 < axisIndexFactor szs (n + 1) := by rw [hstep]; omega
        have hcur : axisIndex szs n it.pos = .ok 0 := by
          rw [hax, if_neg (by omega), Nat.mod_eq_of_lt (by rw [hstep]; omega), Nat.div_eq_of_lt hlt]
        have hfg : (factors szs).getD n 0 = axisIndexFactor szs n := by
          rw [List.getD, factors_getElem _ _ (by omega)]; rfl
        have hfw : forwardToIndex szs it.pos n index = .ok (it.pos + index * axisIndexFactor szs n) := by
          rw [forwardToIndex, hcur, Outcome.bind_ok]
          by_cases hz : index = 0
          · rw [if_neg (by simpa using hz)]; simp [hz]
          · rw [if_pos hz, hfg]; simp only [if_pos (show index > 0 by omega), Nat.sub_zero]; rfl
        have hfi : fixIteratorAxes szs (some index :: fs) n it =
            fixIteratorAxes szs fs (n + 1) ⟨it.pos + index * axisIndexFactor szs n, it.fixed.set n (some index)⟩ := by
          rw [fixIteratorAxes, hgo, hfw]; rfl
        obtain ⟨h1, h2⟩ := ih (n + 1) ⟨it.pos + index * axisIndexFactor szs n, it.fixed.set n (some index)⟩ (by omega)
          (by
            intro k hk
            have := hfix k (by omega)
            simp only [List.getD] at this ⊢
            rw [List.getElem?_set_ne (by omega)]; exact this)
          (by intro _; simp only; rw [hstep]; omega) hin'
        rw [hfi]
        constructor
        · rintro ⟨k, i, hk, hk0⟩
          cases k with
          | zero => rw [Nat.add_zero] at hk0; omega
          | succ k => exact h1 ⟨k, i, by simpa using hk, by rwa [show n + 1 + k = n + (k + 1) by omega]⟩
        · intro hall
          obtain ⟨it', e1, e2, e3⟩ := h2 (fun k i hk => by
            rw [show n + 1 + k = n + (k + 1) by omega]; exact hall (k + 1) i (by simpa using hk))
          simp only at e2 e3
          refine ⟨it', e1, by omega, ?_⟩
          have hmz : index * axisIndexFactor szs n = 0 ↔ index = 0 := by
            rw [Nat.mul_eq_zero]; omega
          constructor
          · intro he k i hk
            cases k with
            | zero =>
              simp only [List.getElem?_cons_zero, Option.some.injEq] at hk
              subst hk
              exact hmz.1 (by omega)
            | succ k => exact e3.1 (by omega) k i (by simpa using hk)
          · intro h
            have := hmz.2 (h 0 index (by simp))
            have := e3.2 (fun k i hk => h (k + 1) i (by simpa using hk))
            omega

theorem axisIndexFactor_eq_zero (szs : List Nat) (n : Nat) :
    axisIndexFactor szs n = 0 ↔ ∃ k, k < n ∧ szs.getD k 0 = 0 := by
  induction n with
  | zero => simp [axisIndexFactor]
  | succ n ih =>
    rw [axisIndexFactor, Nat.mul_eq_zero, ih]
    constructor
    · rintro (h | ⟨k, hk, h⟩)
      · exact ⟨n, by omega, h⟩
      · exact ⟨k, by omega, h⟩
    · rintro ⟨k, hk, h⟩
      rcases Nat.lt_or_ge k n with h1 | h1
      · exact .inr ⟨k, h1, h⟩
      · exact .inl (by rwa [show k = n by omega] at h)

theorem fixedOk_getElem {ss : List Nat} {fs : List (Option Nat)} (h : FixedOk ss fs) (k i : Nat)
    (hk : fs[k]? = some (some i)) : i < ss.getD k 0 := by
  induction ss generalizing fs k with
  | nil => cases fs <;> simp_all [FixedOk]
  | cons s ss ih =>
    cases fs with
    | nil => simp at hk
    | cons f fs =>
      cases k with
      | zero =>
        simp only [List.getElem?_cons_zero, Option.some.injEq] at hk
        subst hk
        exact h.1
      | succ k =>
        have h' : FixedOk ss fs := by
          cases f with
          | none => exact h
          | some j => exact h.2
        exact ih h' k (by simpa using hk)

/-- **C19 (slices of grids with an empty axis).** Such a slice has no cells. If an axis behind an empty one is fixed, `begin()` divides
by zero: undefined. Otherwise the loop from `begin()` to `end()` is the empty loop exactly if all axes are fixed at the index 0; if
not, it starts behind its end and does not stop properly. -/
theorem C19_empty_axis (axes : List (Axis V)) (hemp : ∃ a ∈ axes, a.values = []) (g : GridC V) (hg : Reach axes g) :
    cellCount axes = 0 ∧
    ((∃ e b i, e < b ∧ (sizes axes).getD e 0 = 0 ∧ g.fixed[b]? = some (some i)) → g.begin' = .ub) ∧
    (¬ (∃ e b i, e < b ∧ (sizes axes).getD e 0 = 0 ∧ g.fixed[b]? = some (some i)) → ∃ it, g.begin' = .ok it ∧
      ((∀ b i : Nat, g.fixed[b]? = some (some i) → i = 0) → Loop (sizes g.axes) (cellCount axes) it []) ∧
      ((∃ b i : Nat, g.fixed[b]? = some (some i) ∧ i ≠ 0) → ∀ l, ¬ Loop (sizes g.axes) (cellCount axes) it l)) := by
  obtain ⟨hga, hgf⟩ := hg.inv
  have hcount : cellCount axes = 0 := by
    obtain ⟨a, ha, hv⟩ := hemp
    rw [cellCount_eq]
    rcases Nat.eq_zero_or_pos (total (sizes axes)) with h0 | h0
    · exact h0
    · have := total_pos.1 h0 a.size (by simp only [sizes, List.mem_map]; exact ⟨a, ha, rfl⟩)
      simp [Axis.size, hv] at this
  have hmain := fixIteratorAxes_empty (sizes axes) g.fixed 0 ⟨0, axes.map fun _ => none⟩
    (by rw [Nat.zero_add]; exact hgf.length)
    (by
      intro k _
      simp only [List.getD, List.getElem?_map]
      cases axes[k]? <;> rfl)
    (by intro h; exact h)
    (by intro k i hk; rw [Nat.zero_add]; exact fixedOk_getElem hgf k i hk)
  have hb : g.begin' = fixIteratorAxes (sizes axes) g.fixed 0 ⟨0, axes.map fun _ => none⟩ := by
    unfold GridC.begin'; rw [hga]
  simp only [Nat.zero_add] at hmain
  refine ⟨hcount, ?_, ?_⟩
  · rintro ⟨e, b, i, heb, he, hbi⟩
    rw [hb]
    exact hmain.1 ⟨b, i, hbi, (axisIndexFactor_eq_zero _ _).2 ⟨e, heb, he⟩⟩
  · intro hno
    obtain ⟨it, h1, _, h3⟩ := hmain.2 (by
      intro k i hk
      rcases Nat.eq_zero_or_pos (axisIndexFactor (sizes axes) k) with h0 | h0
      · obtain ⟨e, he, hz⟩ := (axisIndexFactor_eq_zero _ _).1 h0
        exact absurd ⟨e, k, i, he, hz, hk⟩ hno
      · exact h0)
    refine ⟨it, by rw [hb]; exact h1, ?_, ?_⟩
    · intro hz
      exact Loop.stop _ (by rw [hcount]; exact h3.2 hz)
    · rintro ⟨b, i, hbi, hi⟩ l hloop
      rw [hcount] at hloop
      have hne : it.pos ≠ 0 := fun h0 => hi (h3.1 h0 b i hbi)
      cases hloop with
      | stop _ h => exact hne h
      | step _ _ _ _ h => omega

/-- Test: an empty axis in front of the fixed one; and behind it, fixed at 0 and at 1. -/
example : ∃ g₁ g₂ g₃ : GridC Nat, Reach [⟨"x", []⟩, ⟨"y", [5, 6]⟩] g₁ ∧ g₁.fixed = [none, some 0] ∧ g₁.begin' = .ub ∧
    Reach [⟨"x", [5, 6]⟩, ⟨"y", []⟩] g₂ ∧ g₂.fixed = [some 0, none] ∧ (∃ it, g₂.begin' = .ok it ∧ it.pos = 0) ∧
    Reach [⟨"x", [5, 6]⟩, ⟨"y", []⟩] g₃ ∧ g₃.fixed = [some 1, none] ∧ (∃ it, g₃.begin' = .ok it ∧ it.pos = 1) :=
  ⟨_, _, _, Reach.byIndex (mk _) _ 1 0 Reach.new rfl, rfl, by decide, Reach.byIndex (mk _) _ 0 0 Reach.new rfl, rfl,
    ⟨_, rfl, rfl⟩, Reach.byIndex (mk _) _ 0 1 Reach.new rfl, rfl, ⟨_, rfl, rfl⟩⟩

end Alexandria.Grid
