import Verif.Grid.Props
import Verif.Grid.ProgramSpec
import Mathlib.Data.List.Perm.Subperm

/-! # Lemmas for programs over grids -/

namespace Alexandria.Grid

open Spec (InRange ZeroAtFixed Agrees place cellNo total sliceCoords)

variable {V T : Type}

/-- The axes that `getAxis` and `size` look at. -/
def Shown (axes : List (Axis V)) (g : GridC V) : Prop :=
  ((g.fixed.filter Option.isSome).length = 0 → g = mk axes) ∧
    ((g.fixed.filter Option.isSome).length ≤ 1 → g = mk axes ∨ ∃ a i, (mk axes).fixAxisByIndex a i = .ok g)

theorem filter_nil {fs : List (Option Nat)} (h : (fs.filter Option.isSome).length = 0) : fs = fs.map fun _ => none := by
  induction fs with
  | nil => rfl
  | cons f fs ih =>
    cases f with
    | none => simp only [List.map_cons, List.cons.injEq, true_and]; exact ih (by simpa using h)
    | some i => simp at h

theorem filter_set {fs : List (Option Nat)} {a i : Nat} (h0 : fs[a]? = some none) :
    ((fs.set a (some i)).filter Option.isSome).length = (fs.filter Option.isSome).length + 1 := by
  induction fs generalizing a with
  | nil => simp at h0
  | cons f fs ih =>
    cases a with
    | zero =>
      simp only [List.getElem?_cons_zero, Option.some.injEq] at h0
      subst h0
      simp
    | succ a =>
      have := ih (a := a) (by simpa using h0)
      cases f <;> simp [this]

theorem fixAxisByIndex_cases (g : GridC V) {a : Nat} {x : Axis V} (hx : g.axes[a]? = some x) (hl : g.fixed.length = g.axes.length) (i : Nat) :
    (i < x.values.length ∧ g.fixed[a]? = some none →
      g.fixAxisByIndex a i = .ok ⟨g.axes, fixAxis g.axes a i, g.fixed.set a (some i)⟩) ∧
    (¬ (i < x.values.length ∧ g.fixed[a]? = some none) → ∃ e, g.fixAxisByIndex a i = .throw e) := by
  have ha : a < g.fixed.length := by rw [hl]; exact (List.getElem?_eq_some_iff.1 hx).1
  obtain ⟨f, hf⟩ : ∃ f, g.fixed[a]? = some f := ⟨_, List.getElem?_eq_getElem ha⟩
  have hgd : g.fixed.getD a none = f := by simp [List.getD, hf]
  unfold GridC.fixAxisByIndex
  rw [hx]
  simp only [hgd, hf, Axis.size, Option.some.injEq]
  constructor
  · rintro ⟨h1, rfl⟩
    rw [if_neg (by omega)]; simp
  · intro h
    by_cases h1 : i < x.values.length
    · rw [if_neg (by omega)]
      cases f with
      | none => exact absurd ⟨h1, rfl⟩ h
      | some j => exact ⟨.elements "already fixed", by simp⟩
    · exact ⟨_, by rw [if_pos (by omega)]⟩

theorem findIdx?_idxOf [DecidableEq V] (l : List V) (y : V) :
    l.findIdx? (· == y) = if y ∈ l then some (l.idxOf y) else none := by
  by_cases h : y ∈ l
  · rw [if_pos h, List.findIdx?_eq_some_iff_findIdx_eq]
    exact ⟨List.idxOf_lt_length_iff.mpr h, rfl⟩
  · rw [if_neg h, List.findIdx?_eq_none_iff]
    intro x hx
    simp only [beq_eq_false_iff_ne, ne_eq]
    rintro rfl
    exact h hx

theorem fixAxisByValue_eq [DecidableEq V] (g : GridC V) {a : Nat} {x : Axis V} (hx : g.axes[a]? = some x) (y : V) :
    g.fixAxisByValue a y = if y ∈ x.values then g.fixAxisByIndex a (x.values.idxOf y) else .throw (.elements "given value not found") := by
  unfold GridC.fixAxisByValue GridC.fixAxisByIndex
  rw [hx]
  simp only [findIdx?_idxOf]
  by_cases h : y ∈ x.values
  · rw [if_pos h, if_pos h]
    have := List.idxOf_lt_length_iff.mpr h
    have h2 : ¬ x.values.idxOf y ≥ x.size := by unfold Axis.size; omega
    rw [if_neg h2]
  · rw [if_neg h, if_neg h]

theorem Shown.new (axes : List (Axis V)) : Shown axes (mk axes) := ⟨fun _ => rfl, fun _ => Or.inl rfl⟩

theorem Shown.fix {axes : List (Axis V)} {g g' : GridC V} (h : Shown axes g) (hi : g.axes = axes ∧ FixedOk (sizes axes) g.fixed) {a i : Nat}
    (hf : g.fixAxisByIndex a i = .ok g') : Shown axes g' := by
  have hl : g.fixed.length = g.axes.length := by rw [hi.2.length, sizes_length, hi.1]
  cases hx : g.axes[a]? with
  | none => simp [GridC.fixAxisByIndex, hx] at hf
  | some x =>
    have hc := fixAxisByIndex_cases g hx hl i
    by_cases hcc : i < x.values.length ∧ g.fixed[a]? = some none
    · have := hc.1 hcc
      have e := this.symm.trans hf
      simp only [Outcome.ok.injEq] at e
      have hn := filter_set (i := i) hcc.2
      subst e
      refine ⟨fun hz => ?_, fun hz => ?_⟩
      · simp only at hz; omega
      · simp only at hz
        have := h.1 (by omega)
        subst this
        exact Or.inr ⟨a, i, hf⟩
    · obtain ⟨e, he⟩ := hc.2 hcc
      rw [he] at hf; cases hf

/-- A loop of the model visits what the relation `Loop` says. -/
theorem visit_of_loop {szs : List Nat} {count : Nat} {it : Iter} {l : List Nat} (h : Loop szs count it l) :
    ∀ n, l.length < n → visit szs count n it = .ok l := by
  induction h with
  | stop it h =>
    intro n hn
    obtain ⟨m, rfl⟩ : ∃ m, n = m + 1 := ⟨n - 1, by simp at hn; omega⟩
    rw [visit, if_pos h]
  | step it it' l h1 h2 h3 _ ih =>
    intro n hn
    obtain ⟨m, rfl⟩ : ∃ m, n = m + 1 := ⟨n - 1, by simp at hn; omega⟩
    rw [visit, if_neg h1, if_pos h2, h3, Outcome.bind_ok, ih m (by simp at hn; omega)]
    rfl

theorem sorted_length {l : List Nat} {n : Nat} (hs : l.Pairwise (· < ·)) (hl : ∀ k ∈ l, k < n) : l.length ≤ n := by
  have h1 : l.Nodup := hs.imp (fun h => Nat.ne_of_lt h)
  have h2 : l ⊆ List.range n := fun k hk => List.mem_range.2 (hl k hk)
  have := (List.subperm_of_subset h1 h2).length_le
  simpa using this

theorem lens_pos {axes : List (Axis V)} : (∀ s ∈ sizes axes, 0 < s) ↔ ∀ a ∈ axes, a.values ≠ [] := by
  simp [sizes, Axis.size, List.length_pos_iff]

/-- The positions of a loop are the cells of the slice, in the order of the specification. -/
theorem positions_eq {axes : List (Axis V)} {g : GridC V} (hi : g.axes = axes ∧ FixedOk (sizes axes) g.fixed)
    (hp : ∀ s ∈ sizes axes, 0 < s) : g.positions = .ok ((sliceCoords (sizes axes) g.fixed).map (cellNo (sizes axes))) := by
  obtain ⟨h1, h2⟩ := hi
  obtain ⟨l, hl⟩ := @cells_head (sizes axes) g.fixed hp
  have hb : g.begin' = .ok ⟨first (sizes axes) g.fixed, g.fixed⟩ := by
    obtain ⟨ax, af, fs⟩ := g
    simp only at h1
    subst h1
    exact begin_eq hp h2 af
  have hlen := sorted_length (cells_sorted h2) (cells_lt h2)
  have hL : Loop (sizes axes) (cellCount axes) ⟨first (sizes axes) g.fixed, g.fixed⟩ (cells (sizes axes) g.fixed) := by
    have hw := cells_walk hp h2
    have hlt := cells_lt h2
    rw [hl] at hw hlt ⊢
    rw [cellCount_eq]
    exact loop_of_walk hp h2.length _ _ (by omega) _ _ hw hlt
  unfold GridC.positions
  rw [hb, Outcome.bind_ok, h1, visit_of_loop hL _ (by rw [cellCount_eq]; omega), cells_eq]

theorem sliceCoords_empty {ss : List Nat} (h : total ss = 0) : sliceCoords ss (ss.map fun _ => none) = [] := by
  have := sliceCoords_length_none ss
  rw [h] at this
  exact List.length_eq_zero_iff.1 this

theorem positions_mk (axes : List (Axis V)) :
    (mk axes).positions = .ok ((sliceCoords (sizes axes) (axes.map fun _ => none)).map (cellNo (sizes axes))) := by
  by_cases hp : ∀ s ∈ sizes axes, 0 < s
  · exact positions_eq (Reach.new (axes := axes)).inv hp
  · have ht : total (sizes axes) = 0 := by
      rcases Nat.eq_zero_or_pos (total (sizes axes)) with h | h
      · exact h
      · exact absurd (total_pos.1 h) hp
    have e0 : (axes.map fun _ => (none : Option Nat)) = (sizes axes).map fun _ => none := by
      simp [sizes, Function.comp_def]
    rw [e0, sliceCoords_empty ht]
    obtain ⟨it, h1, h2⟩ := C19_empty_grid axes (by
      rw [lens_pos] at hp
      simpa using hp)
    unfold GridC.positions
    rw [h1, Outcome.bind_ok]
    exact visit_of_loop h2 _ (by simp)

theorem each_eq {α β : Type} (f : α → Res β) (h : α → β) (l : List α) (hf : ∀ a ∈ l, f a = .ok (h a)) : each f l = .ok (l.map h) := by
  induction l with
  | nil => rfl
  | cons a l ih =>
    rw [each, hf a (by simp), Outcome.bind_ok, ih (fun b hb => hf b (by simp [hb]))]
    rfl

theorem cellNo_inj {ss cs cs' : List Nat} (h : InRange cs ss) (h' : InRange cs' ss) (e : cellNo ss cs = cellNo ss cs') : cs = cs' := by
  have := congrArg (digits ss) e
  rwa [digits_cellNo _ _ h, digits_cellNo _ _ h'] at this

theorem updateAll_eq (f : T → T) (ks : List Nat) (hs : ks.Nodup) : ∀ (cells : List T), (∀ k ∈ ks, k < cells.length) →
    ∃ cells', updateAll f ks cells = .ok cells' ∧ cells'.length = cells.length ∧
      ∀ k, cells'[k]? = if k ∈ ks then cells[k]?.map f else cells[k]? := by
  induction ks with
  | nil => intro cells _; exact ⟨cells, rfl, rfl, fun k => by simp⟩
  | cons k ks ih =>
    intro cells hk
    rw [List.nodup_cons] at hs
    have hkl := hk k (by simp)
    obtain ⟨c', h1, h2, h3⟩ := ih hs.2 (cells.set k (f cells[k])) (fun j hj => by simpa using hk j (by simp [hj]))
    refine ⟨c', ?_, by simpa using h2, fun j => ?_⟩
    · rw [updateAll, List.getElem?_eq_getElem hkl]; exact h1
    · rw [h3]
      by_cases hjk : j = k
      · subst hjk
        rw [if_neg hs.1, if_pos (by simp), List.getElem?_set_self hkl, List.getElem?_eq_getElem hkl]; rfl
      · rw [List.getElem?_set_ne (Ne.symm hjk)]
        simp [hjk]

/-- The knots read through an iterator. -/
theorem knots_eq {axes : List (Axis V)} {g : GridC V} (h1 : g.axes = axes) {cs : List Nat} (h : InRange cs (sizes axes)) :
    each (fun a => g.iterAxisValue ⟨cellNo (sizes axes) cs, g.fixed⟩ a) (List.range g.axes.length) =
      .ok ((axes.zip cs).filterMap fun q => q.1.values[q.2]?) := by
  subst h1
  have hl : cs.length = g.axes.length := by rw [inRange_length h, sizes_length]
  have hc := C17_cell_of_coords g.axes cs h
  have hin : ∀ (ax : List (Axis V)) (cs : List Nat), InRange cs (sizes ax) → ∀ a, a < ax.length →
      ∃ x c v, ax[a]? = some x ∧ cs[a]? = some c ∧ x.values[c]? = some v ∧
        ((ax.zip cs).filterMap fun q => q.1.values[q.2]?)[a]? = some v ∧
        ((ax.zip cs).filterMap fun q => q.1.values[q.2]?).length = ax.length := by
    intro ax
    induction ax with
    | nil => intro cs _ a ha; simp at ha
    | cons x ax ih =>
      intro cs h a ha
      cases cs with
      | nil => simp [InRange, sizes] at h
      | cons c cs =>
        have hx : c < x.values.length := h.1
        have hr : InRange cs (sizes ax) := h.2
        have hlen : ((ax.zip cs).filterMap fun q => q.1.values[q.2]?).length = ax.length := by
          cases ax with
          | nil => simp
          | cons y ax => obtain ⟨_, _, _, _, _, _, _, h6⟩ := ih cs hr 0 (by simp); exact h6
        simp only [List.zip_cons_cons, List.filterMap_cons, List.getElem?_eq_getElem hx]
        cases a with
        | zero => exact ⟨x, c, x.values[c], rfl, rfl, List.getElem?_eq_getElem hx, rfl, by simp [hlen]⟩
        | succ a =>
          obtain ⟨y, d, v, h1, h2, h3, h4, h5⟩ := ih cs hr a (by simpa using ha)
          exact ⟨y, d, v, by simpa using h1, by simpa using h2, h3, by simpa using h4, by simp [hlen]⟩
  by_cases h0 : g.axes.length = 0
  · have : g.axes = [] := List.length_eq_zero_iff.1 h0
    simp [this, each]
  obtain ⟨_, _, v0, _, _, _, _, hlen⟩ := hin g.axes cs h 0 (by omega)
  rw [each_eq _ (fun a => (((g.axes.zip cs).filterMap fun q => q.1.values[q.2]?)[a]?).getD v0)]
  · congr 1
    apply List.ext_getElem?
    intro a
    by_cases ha : a < g.axes.length
    · obtain ⟨x, c, v, _, _, _, h4, _⟩ := hin g.axes cs h a ha
      rw [h4]; simp [ha, h4]
    · rw [List.getElem?_eq_none (by simp; omega), List.getElem?_eq_none (by omega)]
  · intro a ha
    have ha := List.mem_range.1 ha
    obtain ⟨x, c, v, h1, h2, h3, h4, _⟩ := hin g.axes cs h a ha
    obtain ⟨c', hc1, hc2⟩ := hc.2.2 a ha
    rw [hc.1] at hc2
    rw [h2] at hc1
    cases hc1
    unfold GridC.iterAxisValue GridC.iterAxisIndex
    simp only [hc2, Outcome.bind_ok, h1, h3, h4, Option.getD_some]

end Alexandria.Grid
