import Verif.Table.GridTableProps
import Verif.Grid.ExactProps
import Verif.Grid.ProgramLemmas

/-!
# The table of any slice (C21)
-/

namespace Alexandria.Table

open Alexandria.Str Alexandria.Grid Alexandria.Grid.Spec

variable {F D V T : Type}

/-- Every grid is a new one or a slice made by an index. -/
theorem reach_cases {axes : List (Axis V)} {g : GridC V} (h : Reach axes g) :
    g = mk axes ∨ ∃ g0 axis index, Reach axes g0 ∧ g0.fixAxisByIndex axis index = .ok g := by
  cases h with
  | new => exact Or.inl rfl
  | byIndex g0 _ axis index h0 h1 => exact Or.inr ⟨g0, axis, index, h0, h1⟩
  | byValue g0 _ axis value h0 h1 =>
    refine Or.inr ⟨g0, axis, ?_⟩
    cases hx : g0.axes[axis]? with
    | none => simp [GridC.fixAxisByValue, hx] at h1
    | some x =>
      rw [fixAxisByValue_eq g0 hx value] at h1
      by_cases hm : value ∈ x.values
      · rw [if_pos hm] at h1; exact ⟨_, h0, h1⟩
      · rw [if_neg hm] at h1; cases h1

theorem fixedOk_get {ss : List Nat} {fs : List (Option Nat)} (h : FixedOk ss fs) {b i : Nat} (hb : fs[b]? = some (some i)) : i < ss.getD b 0 := by
  induction ss generalizing fs b with
  | nil => cases fs <;> simp_all [FixedOk]
  | cons s ss ih =>
    cases fs with
    | nil => simp at hb
    | cons f fs =>
      cases b with
      | zero =>
        simp only [List.getElem?_cons_zero, Option.some.injEq] at hb
        subst hb
        exact h.1
      | succ b =>
        simp only [List.getElem?_cons_succ] at hb
        cases f with
        | none => simpa using ih h hb
        | some j => simpa using ih h.2 hb

/-- The axes of a slice of any grid are those of the slice exactly if every axis fixed before the last one has one knot. -/
theorem C21_faithful_iff (axes : List (Axis V)) (g g' : GridC V) (axis index : Nat) (hg : Reach axes g) (h : g.fixAxisByIndex axis index = .ok g') :
    Faithful axes g' ↔ ∀ b i a, b ≠ axis → g'.fixed[b]? = some (some i) → axes[b]? = some a → a.values.length = 1 := by
  have hr := Reach.byIndex _ _ _ _ hg h
  obtain ⟨hax, hok⟩ := hr.inv
  obtain ⟨ax, v, h1, h2, h3, h4, _⟩ := C20_chained_slices axes g g' axis index hg h
  have hfl : g'.fixed.length = axes.length := by rw [hok.length, sizes_length]
  have hfix : g'.fixed[axis]? = some (some index) := by
    unfold GridC.fixAxisByIndex at h
    obtain ⟨hga, hgf⟩ := hg.inv
    rw [hga, h1] at h
    simp only at h
    split at h
    · cases h
    · split at h
      · cases h
      · cases h
        exact List.getElem?_set_self (by rw [hgf.length, sizes_length]; exact (List.getElem?_eq_some_iff.mp h1).1)
  constructor
  · rintro ⟨_, hf⟩ b i a hb hbi ha
    have := h4 b hb
    rw [hf, List.getElem?_zipWith, ha, hbi] at this
    simp only [slicedAxis, Option.some.injEq] at this
    have hi := fixedOk_get hok hbi
    have hlt : i < a.values.length := by simpa [sizes, ha, List.getD_eq_getElem?_getD, Axis.size] using hi
    have := congrArg (fun x : Axis V => x.values.length) this
    simp only [List.getElem?_eq_getElem hlt, Option.toList_some, List.length_singleton] at this
    exact this.symm
  · intro hall
    refine ⟨hr, ?_⟩
    apply List.ext_getElem?
    intro b
    rw [List.getElem?_zipWith]
    by_cases hb : b = axis
    · subst hb
      rw [h3, h1, hfix]
      simp [slicedAxis, h2]
    · rw [h4 b hb]
      cases ha : axes[b]? with
      | none => simp
      | some a =>
        have hlt : b < g'.fixed.length := by rw [hfl]; exact (List.getElem?_eq_some_iff.mp ha).1
        rw [List.getElem?_eq_getElem hlt]
        cases hf : g'.fixed[b] with
        | none => rfl
        | some i =>
          have hbi : g'.fixed[b]? = some (some i) := by rw [List.getElem?_eq_getElem hlt, hf]
          have hi := fixedOk_get hok hbi
          have hlt : i < a.values.length := by simpa [sizes, ha, List.getD_eq_getElem?_getD, Axis.size] using hi
          obtain ⟨w, hw⟩ := List.length_eq_one_iff.mp (hall b i a hb hbi ha)
          have hi0 : i = 0 := by rw [hw] at hlt; simpa using hlt
          obtain ⟨nm, vs⟩ := a
          simp only at hw
          subst hw
          subst hi0
          rfl

theorem tuples_with {α : Type} (ls : List (List α)) (hne : ∀ l ∈ ls, l ≠ []) (b : Nat) (l : List α) (hl : ls[b]? = some l) (p : α) (hp : p ∈ l) :
    ∃ t ∈ tuples ls, t[b]? = some p := by
  induction ls generalizing b with
  | nil => simp at hl
  | cons x ls ih =>
    have hsome : ∀ ls : List (List α), (∀ l ∈ ls, l ≠ []) → ∃ t, t ∈ tuples ls := by
      intro ls
      induction ls with
      | nil => intro _; exact ⟨[], by simp [tuples]⟩
      | cons x ls ih =>
        intro hne
        obtain ⟨t, ht⟩ := ih fun l hl => hne l (List.mem_cons_of_mem _ hl)
        obtain ⟨y, ys, rfl⟩ := List.exists_cons_of_ne_nil (hne x (List.mem_cons_self ..))
        exact ⟨y :: t, by rw [tuples, List.mem_flatMap]; exact ⟨t, ht, List.mem_map_of_mem (List.mem_cons_self ..)⟩⟩
    cases b with
    | zero =>
      simp only [List.getElem?_cons_zero, Option.some.injEq] at hl
      subst hl
      obtain ⟨t, ht⟩ := hsome ls fun l hl => hne l (List.mem_cons_of_mem _ hl)
      exact ⟨p :: t, by rw [tuples, List.mem_flatMap]; exact ⟨t, ht, List.mem_map_of_mem hp⟩, rfl⟩
    | succ b =>
      obtain ⟨t, ht, htb⟩ := ih (fun l hl => hne l (List.mem_cons_of_mem _ hl)) b (by simpa using hl)
      obtain ⟨y, ys, rfl⟩ := List.exists_cons_of_ne_nil (hne x (List.mem_cons_self ..))
      exact ⟨y :: t, by rw [tuples, List.mem_flatMap]; exact ⟨t, ht, List.mem_map_of_mem (List.mem_cons_self ..)⟩, by simpa using htb⟩

theorem tuples_length {α : Type} (ls : List (List α)) : ∀ t ∈ tuples ls, t.length = ls.length := by
  induction ls with
  | nil => simp [tuples]
  | cons x ls ih =>
    intro t ht
    rw [tuples, List.mem_flatMap] at ht
    obtain ⟨u, hu, ht⟩ := ht
    obtain ⟨y, _, rfl⟩ := List.mem_map.mp ht
    simp [ih u hu]

theorem zeroAtFixed_get {fs : List (Option Nat)} {cs : List Nat} (h : ZeroAtFixed fs cs) {b i c : Nat} (hb : fs[b]? = some (some i)) (hc : cs[b]? = some c) : c = 0 := by
  induction fs generalizing cs b with
  | nil => simp at hb
  | cons f fs ih =>
    cases cs with
    | nil => simp at hc
    | cons d cs =>
      cases b with
      | zero =>
        simp only [List.getElem?_cons_zero, Option.some.injEq] at hb hc
        subst hb; subst hc
        exact h.1
      | succ b =>
        simp only [List.getElem?_cons_succ] at hb hc
        cases f with
        | none => exact ih h hb hc
        | some j => exact ih h.2 hb hc

theorem concatRows_throw {R α : Type} (f : α → Res (List R)) (l : List α) (h : ∀ x ∈ l, (∃ r, f x = .ok r) ∨ f x = .throw .elements)
    (hx : ∃ x ∈ l, f x = .throw .elements) : concatRows (l.map f) = .throw .elements := by
  induction l with
  | nil => simp at hx
  | cons a l ih =>
    rw [List.map_cons, concatRows]
    rcases h a (List.mem_cons_self ..) with ⟨r, hr⟩ | hr
    · obtain ⟨x, hx, hxe⟩ := hx
      rcases List.mem_cons.mp hx with rfl | hx
      · rw [hr] at hxe; cases hxe
      · rw [hr, Outcome.bind_ok, ih (fun y hy => h y (List.mem_cons_of_mem _ hy)) ⟨x, hx, hxe⟩]
        rfl
    · rw [hr]; rfl

/-- A slice whose axes are not those of the slice (an axis with several knots was fixed before the last one, `C21_faithful_iff`) cannot be converted:
the traversal asks for a cell beyond the knot that is fixed. -/
theorem C21_throws (tr : Traits F D V T) (types : List CType) (axes : List (Axis V)) (g : GridC V) (hg : Reach axes g) (hf : ¬ Faithful axes g)
    (hne : ∀ a ∈ axes, a.values ≠ []) (cells : List T) (hc : cells.length = cellCount axes) (ht : types.length = axes.length)
    (hname : ∀ a ∈ axes, a.name.toList ≠ [] ∧ OneLine a.name.toList)
    (more : List Desc) (hmore : ∀ cs c, (sliceCoords (sizes axes) g.fixed).head? = some cs → cells[cellNo (sizes axes) cs]? = some c → tr.columns c = .ok more) :
    gridToTable tr types g cells = .throw .elements := by
  obtain rfl | ⟨g0, axis, index, h0, h⟩ := reach_cases hg
  · exact absurd (faithful_new axes) hf
  rw [C21_faithful_iff axes g0 g axis index h0 h] at hf
  push_neg at hf
  obtain ⟨b, i, a, hb, hbi, ha, ha1⟩ := hf
  obtain ⟨h1, h2⟩ := hg.inv
  obtain ⟨ax, v, e1, e2, e3, e4, _⟩ := C20_chained_slices axes g0 g axis index h0 h
  have hp : ∀ s ∈ sizes axes, 0 < s := by
    intro s hs
    simp only [sizes, List.mem_map] at hs
    obtain ⟨a, ha, rfl⟩ := hs
    exact List.length_pos_iff.2 (hne a ha)
  have hget : ∀ (k : Nat) x, g.axesFixed[k]? = some x → ∃ y ∈ axes, x.name = y.name ∧ x.values ≠ [] := by
    intro k x hx
    by_cases hk : k = axis
    · subst hk
      rw [e3, Option.some.injEq] at hx
      subst hx
      exact ⟨ax, List.mem_of_getElem? e1, rfl, by simp⟩
    · rw [e4 k hk] at hx
      exact ⟨x, List.mem_of_getElem? hx, rfl, hne x (List.mem_of_getElem? hx)⟩
  have hlen : g.axesFixed.length = axes.length := by
    have hal : axis < axes.length := (List.getElem?_eq_some_iff.mp e1).1
    have hal' : axis < g.axesFixed.length := (List.getElem?_eq_some_iff.mp e3).1
    apply Nat.le_antisymm
    · by_contra hlt
      have hcon := e4 axes.length (by omega)
      rw [List.getElem?_eq_getElem (by omega), List.getElem?_eq_none (Nat.le_refl _)] at hcon
      cases hcon
    · by_contra hlt
      have hcon := e4 g.axesFixed.length (by omega)
      rw [List.getElem?_eq_none (Nat.le_refl _), List.getElem?_eq_getElem (by omega)] at hcon
      cases hcon
  -- the columns
  have hcols := axisColumns_ok g.axesFixed types (by omega) (fun x hx => by
    obtain ⟨k, hk⟩ := List.mem_iff_getElem?.mp hx
    obtain ⟨y, hy, hxy, _⟩ := hget k x hk
    rw [hxy]; exact hname y hy) _ (Nat.le_refl _)
  have hb' : g.begin' = .ok ⟨first (sizes axes) g.fixed, g.fixed⟩ := by
    have := begin_eq hp h2 g.axesFixed
    rw [← h1] at this
    rw [h1] at this
    rw [← this, ← h1]
  obtain ⟨l, hl⟩ := @cells_head (sizes axes) g.fixed hp
  have hfirst : first (sizes axes) g.fixed < cells.length := by
    rw [hc, cellCount_eq]
    exact cells_lt h2 _ (by rw [hl]; simp)
  have hcols2 : tr.columns cells[first (sizes axes) g.fixed] = .ok more := by
    rw [cells_eq] at hl
    cases hsc : sliceCoords (sizes axes) g.fixed with
    | nil => rw [hsc] at hl; simp at hl
    | cons cs rest =>
      rw [hsc, List.map_cons, List.cons.injEq] at hl
      refine hmore cs _ (by rw [hsc]; rfl) ?_
      rw [hl.1]; exact List.getElem?_eq_getElem hfirst
  rw [gridToTable, hcols, Outcome.bind_ok, hb']
  show (ofGrid (cellAt cells (first (sizes axes) g.fixed)) >>= _) = _
  rw [cellAt, List.getElem?_eq_getElem hfirst]
  show (tr.columns _ >>= _) = _
  rw [hcols2, Outcome.bind_ok]
  generalize ((List.zipWith axisDesc (g.axesFixed.take g.axesFixed.length) (types.take g.axesFixed.length)).reverse ++ more) = info
  by_cases hinfo : GoodInfo info
  · rw [(mkInfo_iff _).2 hinfo, Outcome.bind_ok, unfold_eq tr g cells info _ _ (Nat.le_refl _), List.take_length]
    have hcs : ∀ t ∈ tuples (g.axesFixed.map indexed), (t.map Prod.fst).length = axes.length := by
      intro t ht'
      rw [List.length_map, tuples_length _ t ht', List.length_map, hlen]
    rw [concatRows_throw]
    · rfl
    · intro t ht'
      rw [addRow, List.append_nil]
      by_cases hin : InRange (t.map Prod.fst) (sizes axes) ∧ ZeroAtFixed g.fixed (t.map Prod.fst)
      · obtain ⟨x, _, hat⟩ := (C18_at_exact axes g hg cells hc (t.map Prod.fst) (hcs t ht')).1 hin
        rw [hat]
        show (∃ r, (mkRow _ (some info) >>= fun r => pure [r]) = .ok r) ∨ (mkRow _ (some info) >>= fun r => pure [r]) = _
        by_cases hgood : GoodCells info ((t.map fun p => tr.serialize p.2).reverse ++ tr.fields x)
        · rw [(C45_row _ _).1 hgood]; exact Or.inl ⟨_, rfl⟩
        · rw [(C45_row _ _).2.1 hgood]; exact Or.inr rfl
      · obtain ⟨e, hat⟩ := (C18_at_exact axes g hg cells hc (t.map Prod.fst) (hcs t ht')).2 hin
        rw [hat]; exact Or.inr rfl
    · have hlen1 : 1 < a.values.length := by
        have := List.length_pos_iff.2 (hne a (List.mem_of_getElem? ha))
        omega
      obtain ⟨t, ht', htb⟩ := tuples_with (g.axesFixed.map indexed) (by
        intro l hl
        obtain ⟨x, hx, rfl⟩ := List.mem_map.mp hl
        obtain ⟨k, hk⟩ := List.mem_iff_getElem?.mp hx
        obtain ⟨_, _, _, hv⟩ := hget k x hk
        intro hnil
        have := congrArg (fun l => (l.map Prod.fst).length) hnil
        simp only [indexed_map_fst, List.length_range, List.map_nil, List.length_nil, Axis.size] at this
        exact hv (List.length_eq_zero_iff.mp this)) b (indexed a) (by rw [List.getElem?_map, e4 b hb, ha]; rfl) (1, a.values[1]) (by
          rw [indexed, List.mem_map]
          exact ⟨(a.values[1], 1), List.mem_zipIdx_iff_getElem?.2 (List.getElem?_eq_getElem hlen1), rfl⟩)
      refine ⟨t, ht', ?_⟩
      obtain ⟨e, hat⟩ := (C18_at_exact axes g hg cells hc (t.map Prod.fst) (hcs t ht')).2 fun hin => by
        have := zeroAtFixed_get hin.2 hbi (by rw [List.getElem?_map, htb]; rfl)
        exact absurd (this : (1 : Nat) = 0) Nat.one_ne_zero
      rw [addRow, List.append_nil, hat]
      rfl
  · rw [(C45_info info).2 hinfo]; rfl

/-- The slice of `C21_violated`: the first axis was fixed before the second. -/
example : ∃ g g' : GridC Nat, Reach [⟨"x", [1, 2]⟩, ⟨"y", [1, 2]⟩] g ∧ g.fixAxisByIndex 1 0 = .ok g' ∧ ¬ Faithful [⟨"x", [1, 2]⟩, ⟨"y", [1, 2]⟩] g' :=
  ⟨_, _, Reach.byIndex (mk _) _ 0 0 Reach.new rfl, rfl, fun h => absurd h.2 (by decide)⟩

/-- If the first axis has one knot the slice is converted. -/
example : ∃ g g' : GridC Nat, Reach [⟨"x", [1]⟩, ⟨"y", [1, 2]⟩] g ∧ g.fixAxisByIndex 1 0 = .ok g' ∧ Faithful [⟨"x", [1]⟩, ⟨"y", [1, 2]⟩] g' :=
  ⟨_, _, Reach.byIndex (mk _) _ 0 0 Reach.new rfl, rfl, Reach.byIndex _ _ 1 0 (Reach.byIndex (mk _) _ 0 0 Reach.new rfl) rfl, rfl⟩

end Alexandria.Table
