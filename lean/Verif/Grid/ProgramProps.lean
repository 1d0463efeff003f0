import Verif.Grid.ProgramLemmas

/-! # Programs over grids (C140) -/

namespace Alexandria.Grid

open Spec (InRange ZeroAtFixed Agrees place cellNo total sliceCoords)

variable {V T : Type}

/-- A cell store holds a grid. -/
structure GRel (cells : List T) (G : Spec.Whole V T) : Prop where
  len : cells.length = cellCount G.axes
  cell : ∀ cs, InRange cs G.lens → cells[cellNo G.lens cs]? = some (G.cell cs)

/-- A variable. -/
structure VRel (axes : List (Axis V)) (x : Nat × GridC V) (p : Spec.Part) : Prop where
  id : x.1 = p.grid
  fixed : x.2.fixed = p.fixed
  reach : Reach axes x.2
  shown : Shown axes x.2

/-- The states of the model and of the specification. -/
structure Rel (s : State V T) (t : Spec.State V T) : Prop where
  leng : s.stores.length = t.grids.length
  grids : ∀ (i : Nat) (G : Spec.Whole V T), t.grids[i]? = some G → ∃ cells, s.stores[i]? = some cells ∧ GRel cells G
  lenv : s.vars.length = t.vars.length
  vars : ∀ (v : Nat) (p : Spec.Part), t.vars[v]? = some (some p) → ∃ x G, s.vars[v]? = some (some x) ∧ t.grids[p.grid]? = some G ∧ VRel G.axes x p

theorem Rel.push {s : State V T} {t : Spec.State V T} (h : Rel s t) {x : Nat × GridC V} {p : Spec.Part} {G : Spec.Whole V T}
    (hG : t.grids[p.grid]? = some G) (hx : VRel G.axes x p) : Rel ⟨s.stores, s.vars ++ [some x]⟩ ⟨t.grids, t.vars ++ [some p]⟩ := by
  refine ⟨h.leng, h.grids, by simp [h.lenv], fun v q hq => ?_⟩
  simp only at hq ⊢
  by_cases hv : v < t.vars.length
  · rw [List.getElem?_append_left hv] at hq
    rw [List.getElem?_append_left (by rw [h.lenv]; exact hv)]
    exact h.vars v q hq
  · rw [List.getElem?_append_right (by omega)] at hq
    rw [List.getElem?_append_right (by rw [h.lenv]; omega), h.lenv]
    have hz : v - t.vars.length = 0 := by
      by_contra hc
      rw [List.getElem?_eq_none (by simp; omega)] at hq; cases hq
    rw [hz] at hq ⊢
    simp only [List.getElem?_cons_zero, Option.some.injEq] at hq
    subst hq
    exact ⟨x, G, rfl, hG, hx⟩

theorem Rel.drop {s : State V T} {t : Spec.State V T} (h : Rel s t) (w : Nat) : Rel ⟨s.stores, s.vars.set w none⟩ ⟨t.grids, t.vars.set w none⟩ := by
  refine ⟨h.leng, h.grids, by simp [h.lenv], fun v q hq => ?_⟩
  simp only at hq ⊢
  by_cases hv : w = v
  · subst hv
    rw [List.getElem?_set] at hq
    simp only [if_true] at hq
    split at hq <;> cases hq
  · rw [List.getElem?_set_ne hv] at hq ⊢
    exact h.vars v q hq

theorem Rel.put {s : State V T} {t : Spec.State V T} (h : Rel s t) (w : Nat) {x : Nat × GridC V} {p : Spec.Part} {G : Spec.Whole V T}
    (hG : t.grids[p.grid]? = some G) (hx : VRel G.axes x p) : Rel ⟨s.stores, s.vars.set w (some x)⟩ ⟨t.grids, t.vars.set w (some p)⟩ := by
  refine ⟨h.leng, h.grids, by simp [h.lenv], fun v q hq => ?_⟩
  simp only at hq ⊢
  by_cases hv : w = v
  · subst hv
    rw [List.getElem?_set] at hq
    simp only [if_true] at hq
    by_cases hl : w < t.vars.length
    · rw [if_pos hl] at hq
      cases hq
      exact ⟨x, G, by rw [List.getElem?_set_self (by rw [h.lenv]; exact hl)], hG, hx⟩
    · rw [if_neg hl] at hq; cases hq
  · rw [List.getElem?_set_ne hv] at hq ⊢
    exact h.vars v q hq

theorem Rel.setGrid {s : State V T} {t : Spec.State V T} (h : Rel s t) {i : Nat} {G G' : Spec.Whole V T} (hG : t.grids[i]? = some G)
    (he : G'.axes = G.axes) {cells' : List T} (hc : GRel cells' G') : Rel ⟨s.stores.set i cells', s.vars⟩ ⟨t.grids.set i G', t.vars⟩ := by
  have hi : i < t.grids.length := (List.getElem?_eq_some_iff.1 hG).1
  refine ⟨by simp [h.leng], fun j H hj => ?_, h.lenv, fun v p hp => ?_⟩
  · simp only at hj ⊢
    by_cases hij : i = j
    · subst hij
      rw [List.getElem?_set_self hi] at hj
      cases hj
      exact ⟨cells', by rw [List.getElem?_set_self (by rw [h.leng]; exact hi)], hc⟩
    · rw [List.getElem?_set_ne hij] at hj ⊢
      exact h.grids j H hj
  · obtain ⟨x, H, h1, h2, h3⟩ := h.vars v p hp
    by_cases hij : i = p.grid
    · subst hij
      rw [hG] at h2
      cases h2
      exact ⟨x, G', h1, by simp only; rw [List.getElem?_set_self hi], by rw [he]; exact h3⟩
    · exact ⟨x, H, h1, by simp only; rw [List.getElem?_set_ne hij]; exact h2, h3⟩

/-- What there is to know of a variable. -/
theorem Rel.part {s : State V T} {t : Spec.State V T} (h : Rel s t) {v : Nat} {p : Spec.Part} {G : Spec.Whole V T} (hp : t.part v = some (p, G)) :
    ∃ (g : GridC V) (cells : List T), s.var v = .ok (p.grid, g) ∧ s.cells p.grid = .ok cells ∧ t.grids[p.grid]? = some G ∧ VRel G.axes (p.grid, g) p ∧ GRel cells G := by
  unfold Spec.State.part at hp
  split at hp
  · rename_i q hq
    obtain ⟨⟨id, g⟩, H, h1, h2, h3⟩ := h.vars v q hq
    rw [h2] at hp
    simp only [Option.map_some, Option.some.injEq, Prod.mk.injEq] at hp
    obtain ⟨rfl, rfl⟩ := hp
    obtain ⟨cells, h4, h5⟩ := h.grids _ _ h2
    have := h3.id
    simp only at this
    subst this
    exact ⟨g, cells, by unfold State.var; rw [h1], by unfold State.cells; rw [h4], h2, h3, h5⟩
  · cases hp

theorem lens_eq (G : Spec.Whole V T) : G.lens = sizes G.axes := rfl

theorem GRel.write {cells : List T} {G : Spec.Whole V T} (h : GRel cells G) {cs : List Nat} (hr : InRange cs G.lens) (x : T) :
    GRel (cells.set (cellNo G.lens cs) x) (G.write cs x) := by
  refine ⟨by rw [List.length_set]; exact h.len, fun cs' hr0 => ?_⟩
  have hr' : InRange cs' G.lens := hr0
  have hl : cellNo G.lens cs < cells.length := by rw [h.len, cellCount_eq]; exact cellNo_lt hr
  change (cells.set (cellNo G.lens cs) x)[cellNo G.lens cs']? = some (if cs' = cs then x else G.cell cs')
  by_cases he : cs' = cs
  · subst he
    rw [if_pos rfl, List.getElem?_set_self hl]
  · rw [if_neg he, List.getElem?_set_ne (fun e => he (cellNo_inj hr' hr e.symm))]
    exact h.cell cs' hr'

theorem cellAt_eq {cells : List T} {G : Spec.Whole V T} (h : GRel cells G) {cs : List Nat} (hr : InRange cs G.lens) :
    cellAt cells (cellNo G.lens cs) = .ok (G.cell cs) := by
  unfold cellAt; rw [h.cell cs hr]

theorem legal_index {p : Spec.Part} {g : GridC V} {G : Spec.Whole V T} (hv : VRel G.axes (p.grid, g) p) {cs : List Nat} (hc : Spec.Legal p G cs) :
    g.callIndex cs = cellNo G.lens (place p.fixed cs) ∧ g.atIndex cs = .ok (cellNo G.lens (place p.fixed cs)) ∧ InRange (place p.fixed cs) G.lens ∧
      arity g cs = .ok () := by
  have hf : g.fixed = p.fixed := hv.fixed
  obtain ⟨hax, hfo⟩ := hv.reach.inv
  simp only at hax hfo
  have hl : cs.length = G.axes.length := by rw [inRange_length hc.1, lens_eq, sizes_length]
  have hz := C18_at_exact G.axes g hv.reach (List.range (cellCount G.axes)) (by simp) cs hl
  obtain ⟨x, _, hx⟩ := hz.1 ⟨hc.1, by rw [hf]; exact hc.2⟩
  cases hi : g.atIndex cs with
  | throw e => rw [GridC.at', hi] at hx; cases hx
  | ub => rw [GridC.at', hi] at hx; cases hx
  | ok k =>
    obtain ⟨_, _, h3, _⟩ := atIndex_ok hv.reach hl hi
    have hk : k = g.callIndex cs := by
      unfold GridC.atIndex at hi
      cases h1 : checkAllFixedAreZero g.axes.length g.fixed cs with
      | ok _ =>
        cases h2 : checkBounds (sizes g.axes) cs with
        | ok _ => rw [h1, h2] at hi; simpa using hi.symm
        | throw _ => rw [h1, h2] at hi; simp at hi
        | ub => rw [h1, h2] at hi; simp at hi
      | throw _ => rw [h1] at hi; simp at hi
      | ub => rw [h1] at hi; simp at hi
    rw [hf] at h3
    refine ⟨by rw [← hk]; exact h3, by rw [h3]; rfl, ?_, by unfold arity; rw [hax, if_pos hl]⟩
    rw [← hf]
    exact place_inRange hfo hc.1

theorem illegal_index {p : Spec.Part} {g : GridC V} {G : Spec.Whole V T} (hv : VRel G.axes (p.grid, g) p) {cs : List Nat}
    (hl : cs.length = G.axes.length) (hc : ¬ Spec.Legal p G cs) : ∃ e, g.atIndex cs = .throw e := by
  have hf : g.fixed = p.fixed := hv.fixed
  have hz := C18_at_exact G.axes g hv.reach (List.range (cellCount G.axes)) (by simp) cs hl
  obtain ⟨e, he⟩ := hz.2 (by rw [hf]; exact hc)
  cases hi : g.atIndex cs with
  | throw e => exact ⟨e, rfl⟩
  | ub => rw [GridC.at', hi] at he; cases he
  | ok k =>
    rw [GridC.at', hi, Outcome.bind_ok, cellAt] at he
    split at he <;> cases he

theorem positions_rel {p : Spec.Part} {g : GridC V} {G : Spec.Whole V T} (hv : VRel G.axes (p.grid, g) p)
    (hc : (false || Spec.depth p == 0 || G.lens.all (0 < ·)) = true) : g.positions = .ok ((Spec.coordsOf p G).map (cellNo G.lens)) := by
  have hf : g.fixed = p.fixed := hv.fixed
  rw [Bool.false_or, Bool.or_eq_true] at hc
  rcases hc with hc | hc
  · have h0 : (g.fixed.filter Option.isSome).length = 0 := by rw [hf]; simpa [Spec.depth] using hc
    have := hv.shown.1 h0
    simp only at this
    subst this
    rw [positions_mk]
    unfold Spec.coordsOf
    rw [← hf]
    rfl
  · rw [positions_eq hv.reach.inv (by simpa [lens_eq] using hc)]
    unfold Spec.coordsOf
    rw [← hf]
    rfl

theorem coordsOf_inRange {p : Spec.Part} {g : GridC V} {G : Spec.Whole V T} (hv : VRel G.axes (p.grid, g) p) {cs : List Nat}
    (h : cs ∈ Spec.coordsOf p G) : InRange cs G.lens := by
  have hf : g.fixed = p.fixed := hv.fixed
  unfold Spec.coordsOf at h
  rw [← hf] at h
  exact ((mem_sliceCoords hv.reach.inv.2 cs).1 h).1

theorem update_rel {p : Spec.Part} {g : GridC V} {G : Spec.Whole V T} {cells : List T} (hv : VRel G.axes (p.grid, g) p) (hg : GRel cells G) (f : T → T) :
    ∃ cells', updateAll f ((Spec.coordsOf p G).map (cellNo G.lens)) cells = .ok cells' ∧
      GRel cells' { G with cell := fun cs => if cs ∈ Spec.coordsOf p G then f (G.cell cs) else G.cell cs } := by
  have hf : g.fixed = p.fixed := hv.fixed
  have hnd : ((Spec.coordsOf p G).map (cellNo G.lens)).Nodup := by
    have := cells_sorted hv.reach.inv.2
    rw [cells_eq] at this
    unfold Spec.coordsOf
    rw [← hf]
    exact this.imp (fun h => Nat.ne_of_lt h)
  obtain ⟨c', h1, h2, h3⟩ := updateAll_eq f _ hnd cells (by
    intro k hk
    obtain ⟨cs, hcs, rfl⟩ := List.mem_map.1 hk
    rw [hg.len, cellCount_eq]
    exact cellNo_lt (coordsOf_inRange hv hcs))
  refine ⟨c', h1, by rw [h2]; exact hg.len, fun cs hr => ?_⟩
  have hr' : InRange cs G.lens := hr
  change c'[cellNo G.lens cs]? = some (if cs ∈ Spec.coordsOf p G then f (G.cell cs) else G.cell cs)
  rw [h3, hg.cell cs hr']
  by_cases hc : cs ∈ Spec.coordsOf p G
  · rw [if_pos hc, if_pos (List.mem_map.2 ⟨cs, hc, rfl⟩)]; rfl
  · rw [if_neg hc, if_neg]
    intro hk
    obtain ⟨cs', hcs', he⟩ := List.mem_map.1 hk
    exact hc (cellNo_inj hr' (coordsOf_inRange hv hcs') he.symm ▸ hcs')

theorem size_rel {p : Spec.Part} {g : GridC V} {G : Spec.Whole V T} (hv : VRel G.axes (p.grid, g) p) (hd : Spec.depth p ≤ 1) :
    g.size = (Spec.coordsOf p G).length := by
  have hf : g.fixed = p.fixed := hv.fixed
  unfold Spec.depth at hd
  rw [← hf] at hd
  unfold Spec.coordsOf
  rw [← hf]
  rcases hv.shown.2 hd with h | ⟨a, i, h⟩
  · simp only at h; subst h
    exact (C20_single_slice_partial G.axes).1
  · exact ((C20_single_slice_partial G.axes).2 a i g h).1

theorem axis_rel {p : Spec.Part} {g : GridC V} {G : Spec.Whole V T} (hv : VRel G.axes (p.grid, g) p) (hd : Spec.depth p ≤ 1) (a : Nat) :
    g.axesFixed[a]? = Spec.seenAxis p G a := by
  have hf : g.fixed = p.fixed := hv.fixed
  unfold Spec.depth at hd
  rw [← hf] at hd
  unfold Spec.seenAxis
  rw [← hf]
  rcases hv.shown.2 hd with h | ⟨b, i, h⟩
  · simp only at h; subst h
    simp only [mk]
    cases hx : G.axes[a]? with
    | none => rfl
    | some x => simp only [Option.map_some, List.getElem?_map, hx]
  · obtain ⟨_, ax, v, h1, h2, h3, h4, h5⟩ := (C20_single_slice_partial G.axes).2 b i g h
    by_cases hab : a = b
    · subst hab
      rw [h4, h1, h3]
      simp [h2]
    · rw [h5 a hab]
      have hfe : g.fixed[a]? = (G.axes.map fun _ => none)[a]? := by
        have hx : (mk G.axes).axes[b]? = some ax := h1
        have hc := fixAxisByIndex_cases (mk G.axes) hx (by simp [mk]) i
        by_cases hcc : i < ax.values.length ∧ (mk G.axes).fixed[b]? = some none
        · rw [hc.1 hcc] at h
          cases h
          simp only
          rw [List.getElem?_set_ne (Ne.symm hab)]
          rfl
        · obtain ⟨e, he⟩ := hc.2 hcc
          rw [he] at h; cases h
      rw [hfe]
      cases hx : G.axes[a]? with
      | none => rfl
      | some x => simp only [Option.map_some, List.getElem?_map, hx]

theorem fix_rel {s : State V T} {t : Spec.State V T} (h : Rel s t) {p : Spec.Part} {g : GridC V} {G : Spec.Whole V T} (hG : t.grids[p.grid]? = some G)
    (hv : VRel G.axes (p.grid, g) p) {a : Nat} {x : Axis V} (hx : G.axes[a]? = some x) (i : Nat) :
    (i < x.values.length ∧ p.fixed[a]? = some none → ∃ g', g.fixAxisByIndex a i = .ok g' ∧
      Rel ⟨s.stores, s.vars ++ [some (p.grid, g')]⟩ ⟨t.grids, t.vars ++ [some { p with fixed := p.fixed.set a (some i) }]⟩) ∧
    (¬ (i < x.values.length ∧ p.fixed[a]? = some none) → ∃ e, g.fixAxisByIndex a i = .throw e) := by
  have hf : g.fixed = p.fixed := hv.fixed
  have hax : g.axes = G.axes := hv.reach.inv.1
  have hl : g.fixed.length = g.axes.length := by rw [hv.reach.inv.2.length, sizes_length, hax]
  have hc := fixAxisByIndex_cases g (by rw [hax]; exact hx) hl i
  rw [hf] at hc
  refine ⟨fun hcc => ⟨_, hc.1 hcc, h.push hG (p := { p with fixed := p.fixed.set a (some i) }) ⟨rfl, rfl, ?_, ?_⟩⟩, hc.2⟩
  · exact Reach.byIndex g _ a i hv.reach (hc.1 hcc)
  · exact hv.shown.fix hv.reach.inv (hc.1 hcc)

/-- Each call of the model does what the specification says. -/
theorem step_rel [DecidableEq V] [Inhabited T] {s : State V T} {t t' : Spec.State V T} (h : Rel s t) {o : Op V T} {r : Out V T}
    (hs : Spec.step false t o = some (t', r)) : ∃ s', step s o = .ok (s', r) ∧ Rel s' t' := by
  cases o with
  | make axes =>
    simp only [Spec.step] at hs
    by_cases h1 : axes = []
    · rw [if_pos h1] at hs; cases hs
    rw [if_neg h1] at hs
    cases hs
    refine ⟨_, by rw [step, if_neg h1], ?_⟩
    have h2 : Rel ⟨s.stores ++ [List.replicate (cellCount axes) default], s.vars⟩ ⟨t.grids ++ [⟨axes, fun _ => default⟩], t.vars⟩ := by
      refine ⟨by simp [h.leng], fun i G hG => ?_, h.lenv, fun v p hp => ?_⟩
      · simp only at hG ⊢
        by_cases hi : i < t.grids.length
        · rw [List.getElem?_append_left hi] at hG
          rw [List.getElem?_append_left (by rw [h.leng]; exact hi)]
          exact h.grids i G hG
        · rw [List.getElem?_append_right (by omega)] at hG
          rw [List.getElem?_append_right (by rw [h.leng]; omega), h.leng]
          have hz : i - t.grids.length = 0 := by
            by_contra hc
            rw [List.getElem?_eq_none (by simp; omega)] at hG; cases hG
          rw [hz] at hG ⊢
          simp only [List.getElem?_cons_zero, Option.some.injEq] at hG
          subst hG
          refine ⟨_, rfl, by simp, fun cs hr => ?_⟩
          rw [List.getElem?_replicate, if_pos (by rw [cellCount_eq]; exact cellNo_lt hr)]
      · obtain ⟨x, G, h3, h4, h5⟩ := h.vars v p hp
        refine ⟨x, G, h3, ?_, h5⟩
        simp only
        rw [List.getElem?_append_left (List.getElem?_eq_some_iff.1 h4).1]
        exact h4
    have h3 := h2.push (x := (s.stores.length, mk axes)) (p := ⟨t.grids.length, axes.map fun _ => none⟩) (G := ⟨axes, fun _ => default⟩) (by simp)
      ⟨h.leng, rfl, Reach.new, Shown.new axes⟩
    exact h3
  | fixIndex v a i =>
    simp only [Spec.step, Option.bind_eq_some_iff] at hs
    obtain ⟨⟨p, G⟩, hp, x, hx, hs⟩ := hs
    obtain ⟨g, cells, h1, h2, hG, hv, hg⟩ := h.part hp
    have hfx := fix_rel h hG hv hx i
    by_cases hc : i < x.values.length ∧ p.fixed[a]? = some none
    · rw [if_pos hc] at hs
      cases hs
      obtain ⟨g', h3, h4⟩ := hfx.1 hc
      refine ⟨_, ?_, h4⟩
      rw [step, h1, Outcome.bind_ok]; simp only; rw [h3]; rfl
    · rw [if_neg hc] at hs
      cases hs
      obtain ⟨e, h3⟩ := hfx.2 hc
      refine ⟨s, ?_, h⟩
      rw [step, h1, Outcome.bind_ok]; simp only; rw [h3]; rfl
  | fixValue v a y =>
    simp only [Spec.step, Option.bind_eq_some_iff] at hs
    obtain ⟨⟨p, G⟩, hp, x, hx, hs⟩ := hs
    obtain ⟨g, cells, h1, h2, hG, hv, hg⟩ := h.part hp
    have hfx := fix_rel h hG hv hx (x.values.idxOf y)
    have hax : g.axes = G.axes := hv.reach.inv.1
    have hval := fixAxisByValue_eq g (by rw [hax]; exact hx) y
    have hmem := List.idxOf_lt_length_iff (a := y) (l := x.values)
    by_cases hc : y ∈ x.values ∧ p.fixed[a]? = some none
    · rw [if_pos hc] at hs
      cases hs
      rw [if_pos hc.1] at hval
      obtain ⟨g', h3, h4⟩ := hfx.1 ⟨hmem.2 hc.1, hc.2⟩
      refine ⟨_, ?_, h4⟩
      rw [step, h1, Outcome.bind_ok]; simp only; rw [hval, h3]; rfl
    · rw [if_neg hc] at hs
      cases hs
      refine ⟨s, ?_, h⟩
      rw [step, h1, Outcome.bind_ok]; simp only
      by_cases hy : y ∈ x.values
      · obtain ⟨e, h3⟩ := hfx.2 (fun hh => hc ⟨hy, hh.2⟩)
        rw [hval, if_pos hy, h3]; rfl
      · rw [hval, if_neg hy]; rfl
  | take w =>
    simp only [Spec.step, Option.bind_eq_some_iff] at hs
    obtain ⟨⟨p, G⟩, hp, hs⟩ := hs
    cases hs
    obtain ⟨g, cells, h1, h2, hG, hv, hg⟩ := h.part hp
    refine ⟨_, ?_, (h.drop w).push hG hv⟩
    rw [step, h1, Outcome.bind_ok]; rfl
  | assign v w =>
    simp only [Spec.step] at hs
    by_cases hc : v = w ∨ t.vars.length ≤ v
    · rw [if_pos hc] at hs; cases hs
    rw [if_neg hc] at hs
    simp only [Option.bind_eq_some_iff] at hs
    obtain ⟨⟨p, G⟩, hp, hs⟩ := hs
    cases hs
    obtain ⟨g, cells, h1, h2, hG, hv, hg⟩ := h.part hp
    refine ⟨_, ?_, (h.drop w).put v hG hv⟩
    rw [step, if_neg (by rw [h.lenv]; exact hc), h1, Outcome.bind_ok]; rfl
  | get v cs =>
    simp only [Spec.step, Option.bind_eq_some_iff] at hs
    obtain ⟨⟨p, G⟩, hp, hs⟩ := hs
    obtain ⟨g, cells, h1, h2, hG, hv, hg⟩ := h.part hp
    simp only at hs
    by_cases hl : cs.length ≠ G.axes.length
    · rw [if_pos hl] at hs; cases hs
    rw [if_neg hl] at hs
    have har : arity g cs = .ok () := by
      have hax : g.axes = G.axes := hv.reach.inv.1
      unfold arity; rw [hax, if_pos (not_not.1 hl)]
    refine ⟨s, ?_, ?_⟩
    · rw [step, h1, Outcome.bind_ok]; simp only; rw [h2, Outcome.bind_ok, har, Outcome.bind_ok]
      by_cases hc : Spec.Legal p G cs
      · rw [if_pos hc] at hs
        cases hs
        obtain ⟨h3, h4, h5, _⟩ := legal_index hv hc
        rw [GridC.at', h4, Outcome.bind_ok, cellAt_eq hg h5]; rfl
      · rw [if_neg hc] at hs
        cases hs
        obtain ⟨e, h3⟩ := illegal_index hv (not_not.1 hl) hc
        rw [GridC.at', h3]; rfl
    · by_cases hc : Spec.Legal p G cs
      · rw [if_pos hc] at hs; cases hs; exact h
      · rw [if_neg hc] at hs; cases hs; exact h
  | set v cs x =>
    simp only [Spec.step, Option.bind_eq_some_iff] at hs
    obtain ⟨⟨p, G⟩, hp, hs⟩ := hs
    obtain ⟨g, cells, h1, h2, hG, hv, hg⟩ := h.part hp
    simp only at hs
    by_cases hl : cs.length ≠ G.axes.length
    · rw [if_pos hl] at hs; cases hs
    rw [if_neg hl] at hs
    have har : arity g cs = .ok () := by
      have hax : g.axes = G.axes := hv.reach.inv.1
      unfold arity; rw [hax, if_pos (not_not.1 hl)]
    by_cases hc : Spec.Legal p G cs
    · rw [if_pos hc] at hs
      cases hs
      obtain ⟨h3, h4, h5, _⟩ := legal_index hv hc
      refine ⟨_, ?_, h.setGrid (G' := G.write (place p.fixed cs) x) hG rfl (hg.write h5 x)⟩
      rw [step, h1, Outcome.bind_ok]; simp only; rw [h2, Outcome.bind_ok, har, Outcome.bind_ok, GridC.set', h4, Outcome.bind_ok,
        if_pos (by rw [hg.len, cellCount_eq]; exact cellNo_lt h5)]
      rfl
    · rw [if_neg hc] at hs
      cases hs
      obtain ⟨e, h3⟩ := illegal_index hv (not_not.1 hl) hc
      refine ⟨s, ?_, h⟩
      rw [step, h1, Outcome.bind_ok]; simp only; rw [h2, Outcome.bind_ok, har, Outcome.bind_ok, GridC.set', h3]; rfl
  | call v cs =>
    simp only [Spec.step, Option.bind_eq_some_iff] at hs
    obtain ⟨⟨p, G⟩, hp, hs⟩ := hs
    obtain ⟨g, cells, h1, h2, hG, hv, hg⟩ := h.part hp
    simp only at hs
    by_cases hc : Spec.Legal p G cs
    · rw [if_pos hc] at hs
      cases hs
      obtain ⟨h3, _, h5, har⟩ := legal_index hv hc
      refine ⟨s, ?_, h⟩
      rw [step, h1, Outcome.bind_ok]; simp only; rw [h2, Outcome.bind_ok, har, Outcome.bind_ok, GridC.call, h3, cellAt_eq hg h5]; rfl
    · rw [if_neg hc] at hs; cases hs
  | put v cs x =>
    simp only [Spec.step, Option.bind_eq_some_iff] at hs
    obtain ⟨⟨p, G⟩, hp, hs⟩ := hs
    obtain ⟨g, cells, h1, h2, hG, hv, hg⟩ := h.part hp
    simp only at hs
    by_cases hc : Spec.Legal p G cs
    · rw [if_pos hc] at hs
      cases hs
      obtain ⟨h3, _, h5, har⟩ := legal_index hv hc
      refine ⟨_, ?_, h.setGrid (G' := G.write (place p.fixed cs) x) hG rfl (hg.write h5 x)⟩
      rw [step, h1, Outcome.bind_ok]; simp only; rw [h2, Outcome.bind_ok, har, Outcome.bind_ok, h3,
        if_pos (by rw [hg.len, cellCount_eq]; exact cellNo_lt h5)]
      rfl
    · rw [if_neg hc] at hs; cases hs
  | iter v =>
    simp only [Spec.step, Option.bind_eq_some_iff] at hs
    obtain ⟨⟨p, G⟩, hp, hs⟩ := hs
    obtain ⟨g, cells, h1, h2, hG, hv, hg⟩ := h.part hp
    simp only at hs
    by_cases hc : (false || Spec.depth p == 0 || G.lens.all (0 < ·)) = true
    · rw [if_pos hc] at hs
      cases hs
      refine ⟨s, ?_, h⟩
      rw [step, h1, Outcome.bind_ok]; simp only; rw [h2, Outcome.bind_ok, positions_rel hv hc, Outcome.bind_ok]
      have : each (cellAt cells) ((Spec.coordsOf p G).map (cellNo G.lens)) = .ok ((Spec.coordsOf p G).map G.cell) := by
        have hall : ∀ cs ∈ Spec.coordsOf p G, InRange cs G.lens := fun cs hcs => coordsOf_inRange hv hcs
        generalize Spec.coordsOf p G = l at hall
        induction l with
        | nil => rfl
        | cons cs l ih =>
          rw [List.map_cons, each, cellAt_eq hg (hall cs (by simp)), Outcome.bind_ok, ih (fun c hc => hall c (by simp [hc]))]
          rfl
      rw [this]; rfl
    · rw [if_neg hc] at hs; cases hs
  | update v f =>
    simp only [Spec.step, Option.bind_eq_some_iff] at hs
    obtain ⟨⟨p, G⟩, hp, hs⟩ := hs
    obtain ⟨g, cells, h1, h2, hG, hv, hg⟩ := h.part hp
    simp only at hs
    by_cases hc : (false || Spec.depth p == 0 || G.lens.all (0 < ·)) = true
    · rw [if_pos hc] at hs
      cases hs
      obtain ⟨cells', h3, h4⟩ := update_rel hv hg f
      refine ⟨_, ?_, h.setGrid (G' := { G with cell := fun cs => if cs ∈ Spec.coordsOf p G then f (G.cell cs) else G.cell cs }) hG rfl h4⟩
      rw [step, h1, Outcome.bind_ok]; simp only; rw [h2, Outcome.bind_ok, positions_rel hv hc, Outcome.bind_ok, h3]; rfl
    · rw [if_neg hc] at hs; cases hs
  | knots v =>
    simp only [Spec.step, Option.bind_eq_some_iff] at hs
    obtain ⟨⟨p, G⟩, hp, hs⟩ := hs
    obtain ⟨g, cells, h1, h2, hG, hv, hg⟩ := h.part hp
    simp only at hs
    by_cases hc : (false || Spec.depth p == 0 || G.lens.all (0 < ·)) = true
    · rw [if_pos hc] at hs
      cases hs
      refine ⟨s, ?_, h⟩
      rw [step, h1, Outcome.bind_ok]; simp only; rw [positions_rel hv hc, Outcome.bind_ok]
      have : each (fun k => each (fun a => g.iterAxisValue ⟨k, g.fixed⟩ a) (List.range g.axes.length)) ((Spec.coordsOf p G).map (cellNo G.lens)) =
          .ok ((Spec.coordsOf p G).map (Spec.knotsAt G)) := by
        have hall : ∀ cs ∈ Spec.coordsOf p G, InRange cs G.lens := fun cs hcs => coordsOf_inRange hv hcs
        generalize Spec.coordsOf p G = l at hall
        induction l with
        | nil => rfl
        | cons cs l ih =>
          rw [List.map_cons, each, lens_eq, knots_eq hv.reach.inv.1 (hall cs (by simp)), Outcome.bind_ok]
          rw [lens_eq] at ih
          rw [ih (fun c hc => hall c (by simp [hc]))]
          rfl
      rw [this]; rfl
    · rw [if_neg hc] at hs; cases hs
  | size v =>
    simp only [Spec.step, Option.bind_eq_some_iff] at hs
    obtain ⟨⟨p, G⟩, hp, hs⟩ := hs
    obtain ⟨g, cells, h1, h2, hG, hv, hg⟩ := h.part hp
    simp only [Bool.false_or, decide_eq_true_eq] at hs
    by_cases hd : Spec.depth p ≤ 1
    · rw [if_pos hd] at hs
      cases hs
      refine ⟨s, ?_, h⟩
      rw [step, h1, Outcome.bind_ok]; simp only; rw [size_rel hv hd]; rfl
    · rw [if_neg hd] at hs; cases hs
  | axis v a =>
    simp only [Spec.step, Option.bind_eq_some_iff] at hs
    obtain ⟨⟨p, G⟩, hp, hs⟩ := hs
    obtain ⟨g, cells, h1, h2, hG, hv, hg⟩ := h.part hp
    simp only [Bool.false_or, decide_eq_true_eq] at hs
    by_cases hd : Spec.depth p ≤ 1
    · rw [if_pos hd] at hs
      simp only [Option.bind_eq_some_iff] at hs
      obtain ⟨x, hx, hs⟩ := hs
      cases hs
      refine ⟨s, ?_, h⟩
      rw [step, h1, Outcome.bind_ok]; simp only; rw [axis_rel hv hd, hx]; rfl
    · rw [if_neg hd] at hs; cases hs
  | original v a =>
    simp only [Spec.step, Option.bind_eq_some_iff] at hs
    obtain ⟨⟨p, G⟩, hp, x, hx, hs⟩ := hs
    cases hs
    obtain ⟨g, cells, h1, h2, hG, hv, hg⟩ := h.part hp
    refine ⟨s, ?_, h⟩
    have hax : g.axes = G.axes := hv.reach.inv.1
    rw [step, h1, Outcome.bind_ok]; simp only; rw [hax, hx]; rfl

theorem run_rel [DecidableEq V] [Inhabited T] (os : List (Op V T)) : ∀ {s : State V T} {t : Spec.State V T} {rs : List (Out V T)}, Rel s t →
    Spec.run false t os = some rs → run s os = .ok rs := by
  induction os with
  | nil => intro s t rs _ hs; cases hs; rfl
  | cons o os ih =>
    intro s t rs h hs
    simp only [Spec.run, Option.bind_eq_some_iff] at hs
    obtain ⟨⟨t', r⟩, h1, rs', h2, h3⟩ := hs
    cases h3
    obtain ⟨s', h4, h5⟩ := step_rel h h1
    rw [run, h4, Outcome.bind_ok]
    simp only
    rw [ih h5 h2]
    rfl

/-- **C140**, as it should be: a program over grids and their slices sees what the specification says, whatever variables share their cells. -/
def C140_full : Prop := ∀ (os : List (Op Nat Nat)) (rs : List (Out Nat Nat)), Spec.run true (⟨[], []⟩ : Spec.State Nat Nat) os = some rs →
  run (⟨[], []⟩ : State Nat Nat) os = .ok rs

/-- **C140** (partial: no question for the size or an axis of a variable with two or more fixed axes, and no iteration of slices of grids that have an empty axis,
where the code errs). -/
theorem C140_programs_partial [DecidableEq V] [Inhabited T] (os : List (Op V T)) (rs : List (Out V T))
    (h : Spec.run false (⟨[], []⟩ : Spec.State V T) os = some rs) : run (⟨[], []⟩ : State V T) os = .ok rs :=
  run_rel os ⟨rfl, by simp, rfl, by simp⟩ h

/-- The size of a slice of a slice is wrong. -/
theorem C140_violated : ¬ C140_full := fun h => by
  have := h [.make [⟨"x", [1, 2]⟩, ⟨"y", [5, 6]⟩], .fixIndex 0 0 0, .fixValue 1 1 6, .iter 2, .size 2]
    [.done, .done, .done, .values [0], .number 1] (by decide)
  exact absurd this (by decide)

/-- The iteration of a slice of a grid with an empty axis runs out of the cells. -/
theorem C140_iteration_violated : ∃ (os : List (Op Nat Nat)) (rs : List (Out Nat Nat)), (∀ v a, Op.size v ∉ os ∧ Op.axis v a ∉ os) ∧
    Spec.run true (⟨[], []⟩ : Spec.State Nat Nat) os = some rs ∧ run (⟨[], []⟩ : State Nat Nat) os ≠ .ok rs :=
  ⟨[.make [⟨"x", [1, 2]⟩, ⟨"y", []⟩], .fixIndex 0 0 1, .iter 1], [.done, .done, .values []], by simp, by decide, by decide⟩

/-- Test: a write through a slice of a slice is seen through the grid and through another slice; the slice of a moved grid still has its cells; illegal calls throw. -/
example : Spec.run false (⟨[], []⟩ : Spec.State Nat Nat)
    [.make [⟨"x", [1, 2]⟩, ⟨"y", [5, 6, 7]⟩], .fixIndex 0 0 1, .fixValue 1 1 6, .set 2 [0, 0] 9, .fixValue 0 1 6, .take 0, .iter 3, .iter 4, .get 3 [1, 1],
      .knots 3, .size 3, .axis 3 1, .fixIndex 3 1 0, .update 1 (· + 1), .iter 4] =
    some [.done, .done, .done, .done, .done, .done, .values [0, 9], .values [0, 0, 0, 9, 0, 0], .thrown, .rows [[1, 6], [2, 6]], .number 2, .axis ⟨"y", [6]⟩, .thrown,
      .done, .values [0, 1, 0, 10, 0, 1]] := by decide

end Alexandria.Grid
