import Verif.Table.GridTableModel
import Verif.Table.Props
import Verif.Grid.Props
import Mathlib.Data.List.Forall2

/-!
# The table of a grid (C21)
-/

namespace Alexandria.Table

open Alexandria.Str Alexandria.Grid Alexandria.Grid.Spec

variable {F D V T : Type}

/-! ## Specification -/

/-- The knots at some coordinates. -/
def knotsAt (axes : List (Axis V)) (cs : List Nat) : List (Option V) := List.zipWith (fun a c => a.values[c]?) axes cs

/-- The row for the cell at some coordinates: the knots, the last axis first, and the fields of the cell. -/
def RowFor (serialize : V → Cell F D) (fields : T → List (Cell F D)) (axes : List (Axis V)) (cells : List T) (cs : List Nat) (row : List (Cell F D)) : Prop :=
  ∃ (vs : List V) (c : T), knotsAt axes cs = vs.map some ∧ cells[cellNo (sizes axes) cs]? = some c ∧ row = vs.reverse.map serialize ++ fields c

/-- The column of an axis. -/
def axisDesc (a : Axis V) (t : CType) : Desc := ⟨a.name.toList.map fun c => if c = ' ' then '_' else c, t, [], []⟩

/-- The axis of a slice. -/
def slicedAxis (a : Axis V) : Option Nat → Axis V
  | none => a
  | some i => ⟨a.name, (a.values[i]?).toList⟩

/-- A grid or a slice whose axes are those of the slice. -/
def Faithful (axes : List (Axis V)) (g : GridC V) : Prop := Reach axes g ∧ g.axesFixed = List.zipWith slicedAxis axes g.fixed

/-! ## Lemmas -/

/-- All the combinations, the first component fastest. -/
def tuples {α : Type} : List (List α) → List (List α)
  | [] => [[]]
  | l :: ls => (tuples ls).flatMap fun t => l.map fun x => x :: t

theorem tuples_snoc {α : Type} (ls : List (List α)) (l : List α) : tuples (ls ++ [l]) = l.flatMap fun x => (tuples ls).map fun t => t ++ [x] := by
  induction ls with
  | nil => simp [tuples, List.flatMap_singleton']
           induction l with
           | nil => rfl
           | cons a l ih => simp [ih]
  | cons k ls ih =>
    rw [List.cons_append, tuples, ih, tuples, List.flatMap_assoc]
    congr 1
    funext x
    rw [List.map_flatMap, List.flatMap_map]
    simp [Function.comp_def]

theorem concatRows_append {R : Type} (a b : List (Res (List R))) : concatRows (a ++ b) = (do let x ← concatRows a; let y ← concatRows b; return x ++ y) := by
  induction a with
  | nil =>
    rw [List.nil_append, concatRows, Outcome.bind_ok]
    cases concatRows b <;> simp
  | cons x a ih =>
    rw [List.cons_append, concatRows, concatRows]
    cases x with
    | ok x =>
      rw [Outcome.bind_ok, Outcome.bind_ok, ih]
      cases concatRows a with
      | ok y =>
        simp only [Outcome.bind_ok, Outcome.pure_eq]
        cases concatRows b <;> simp
      | throw e => rfl
      | ub => rfl
    | throw e => rfl
    | ub => rfl

theorem concatRows_flatMap {R α : Type} (l : List α) (f : α → List (Res (List R))) : concatRows (l.flatMap f) = concatRows (l.map fun x => concatRows (f x)) := by
  induction l with
  | nil => rfl
  | cons x l ih => rw [List.flatMap_cons, concatRows_append, List.map_cons, concatRows, ih]

theorem unfold_eq (tr : Traits F D V T) (g : GridC V) (cells : List T) (info : Info) : ∀ (I : Nat) (knots : List (Nat × V)), I ≤ g.axesFixed.length →
    unfoldRows tr g cells info I knots = concatRows ((tuples ((g.axesFixed.take I).map indexed)).map fun t => addRow tr g cells info (t ++ knots)) := by
  intro I
  induction I with
  | zero =>
    intro knots _
    rw [unfoldRows]
    simp only [List.take_zero, List.map_nil, tuples, List.map_cons, List.nil_append, concatRows]
    cases addRow tr g cells info knots <;> simp
  | succ I ih =>
    intro knots h
    rw [unfoldRows, List.getElem?_eq_getElem (by omega : I < g.axesFixed.length)]
    simp only
    rw [List.take_succ_eq_append_getElem (by omega), List.map_append, List.map_cons, List.map_nil, tuples_snoc, List.map_flatMap, concatRows_flatMap]
    congr 1
    refine List.map_congr_left fun p _ => ?_
    rw [ih (p :: knots) (by omega), List.map_map]
    congr 1
    refine List.map_congr_left fun t _ => ?_
    simp

theorem concatRows_ok {R α : Type} (f : α → Res (List R)) (r : α → R) : ∀ l : List α, (∀ x ∈ l, f x = .ok [r x]) → concatRows (l.map f) = .ok (l.map r) := by
  intro l
  induction l with
  | nil => intro _; rfl
  | cons x l ih =>
    intro h
    rw [List.map_cons, concatRows, h x (by simp), Outcome.bind_ok, ih fun y hy => h y (List.mem_cons_of_mem _ hy)]
    rfl

theorem indexed_map_fst (a : Axis V) : (indexed a).map Prod.fst = List.range a.size := by
  rw [indexed, List.map_map]
  apply List.ext_getElem?
  intro i
  simp only [List.getElem?_map, List.getElem?_zipIdx, Axis.size]
  by_cases h : i < a.values.length
  · rw [List.getElem?_eq_getElem h, List.getElem?_range h]; simp
  · rw [List.getElem?_eq_none (by omega), List.getElem?_eq_none (by simpa using h)]; rfl

theorem mem_indexed {a : Axis V} {p : Nat × V} (h : p ∈ indexed a) : a.values[p.1]? = some p.2 := by
  rw [indexed, List.mem_map] at h
  obtain ⟨q, hq, rfl⟩ := h
  exact List.mem_zipIdx_iff_getElem?.1 hq

theorem tuples_slice : ∀ (axes : List (Axis V)) (fs : List (Option Nat)), FixedOk (sizes axes) fs →
    ((tuples ((List.zipWith slicedAxis axes fs).map indexed)).map fun t => place fs (t.map Prod.fst)) = sliceCoords (sizes axes) fs ∧
    ∀ t ∈ tuples ((List.zipWith slicedAxis axes fs).map indexed), InRange (t.map Prod.fst) (sizes axes) ∧ ZeroAtFixed fs (t.map Prod.fst) ∧
      knotsAt axes (place fs (t.map Prod.fst)) = (t.map Prod.snd).map some := by
  intro axes
  induction axes with
  | nil =>
    intro fs hf
    cases fs with
    | nil => simp [tuples, sliceCoords, place, InRange, ZeroAtFixed, knotsAt, sizes]
    | cons f fs => simp [FixedOk, sizes] at hf
  | cons a axes ih =>
    intro fs hf
    have hs : sizes (a :: axes) = a.size :: sizes axes := rfl
    rw [hs] at hf ⊢
    cases fs with
    | nil => simp [FixedOk] at hf
    | cons f fs =>
      cases f with
      | none =>
        obtain ⟨h1, h2⟩ := ih fs hf
        simp only [List.zipWith_cons_cons, slicedAxis, List.map_cons, tuples, sliceCoords]
        constructor
        · rw [← h1, List.map_flatMap, List.flatMap_map]
          congr 1
          funext t
          rw [List.map_map, ← indexed_map_fst, List.map_map]
          refine List.map_congr_left fun p _ => ?_
          simp [place]
        · intro t ht
          rw [List.mem_flatMap] at ht
          obtain ⟨u, hu, ht⟩ := ht
          obtain ⟨p, hp, rfl⟩ := List.mem_map.1 ht
          obtain ⟨g1, g2, g3⟩ := h2 u hu
          have hpv := mem_indexed hp
          have hlt : p.1 < a.size := by
            rw [Axis.size]
            by_contra hc
            rw [List.getElem?_eq_none (by omega)] at hpv
            cases hpv
          refine ⟨⟨hlt, g1⟩, g2, ?_⟩
          simp only [List.map_cons, place, knotsAt, List.zipWith_cons_cons, hpv]
          rw [← g3]
          rfl
      | some i =>
        obtain ⟨h1, h2⟩ := ih fs hf.2
        have hi : i < a.values.length := hf.1
        have hax : indexed (slicedAxis a (some i)) = [(0, a.values[i])] := by
          simp [slicedAxis, indexed, List.getElem?_eq_getElem hi]
        simp only [List.zipWith_cons_cons, List.map_cons, hax, tuples, sliceCoords]
        constructor
        · rw [← h1, List.map_flatMap, List.map_map]
          simp only [List.map_cons, List.map_nil, place]
          generalize tuples (List.map indexed (List.zipWith slicedAxis axes fs)) = L
          exact (List.map_eq_flatMap (f := (fun cs => i :: cs) ∘ fun t => place fs (List.map Prod.fst t)) (l := L)).symm
        · intro t ht
          rw [List.mem_flatMap] at ht
          obtain ⟨u, hu, ht⟩ := ht
          simp only [List.map_cons, List.map_nil, List.mem_singleton] at ht
          subst ht
          obtain ⟨g1, g2, g3⟩ := h2 u hu
          refine ⟨⟨by rw [Axis.size]; simp only; omega, g1⟩, ⟨rfl, g2⟩, ?_⟩
          simp only [List.map_cons, place, knotsAt, List.zipWith_cons_cons, List.getElem?_eq_getElem hi]
          rw [← g3]
          rfl

theorem concatRows_rel {R α : Type} (f : α → Res (List R)) (P : α → R → Prop) : ∀ l : List α, (∀ x ∈ l, ∃ r, f x = .ok [r] ∧ P x r) →
    ∃ rs, concatRows (l.map f) = .ok rs ∧ List.Forall₂ P l rs := by
  intro l
  induction l with
  | nil => intro _; exact ⟨[], rfl, .nil⟩
  | cons x l ih =>
    intro h
    obtain ⟨r, h1, h2⟩ := h x (by simp)
    obtain ⟨rs, h3, h4⟩ := ih fun y hy => h y (List.mem_cons_of_mem _ hy)
    exact ⟨r :: rs, by rw [List.map_cons, concatRows, h1, Outcome.bind_ok, h3]; rfl, .cons h2 h4⟩

theorem oneLine_underscores {n : Bytes} (h : n ≠ [] ∧ OneLine n) : underscores n ≠ [] ∧ OneLine (underscores n) := by
  refine ⟨by simpa [underscores] using h.1, ?_⟩
  intro c hc
  obtain ⟨d, hd, rfl⟩ := List.mem_map.1 hc
  split
  · decide
  · exact h.2 d hd

theorem axisColumns_ok (axes : List (Axis V)) (types : List CType) (ht : types.length = axes.length) (hn : ∀ a ∈ axes, a.name.toList ≠ [] ∧ OneLine a.name.toList) :
    ∀ I, I ≤ axes.length → axisColumns axes types I = .ok (List.zipWith axisDesc (axes.take I) (types.take I)).reverse := by
  intro I
  induction I with
  | zero => intro _; rfl
  | succ I ih =>
    intro h
    rw [axisColumns, List.getElem?_eq_getElem (by omega : I < axes.length), List.getElem?_eq_getElem (by omega : I < types.length)]
    simp only
    have hg := oneLine_underscores (hn axes[I] (List.getElem_mem _))
    rw [(mkDesc_iff _ _ _ _).2 hg, Outcome.bind_ok, ih (by omega), List.take_succ_eq_append_getElem (by omega), List.take_succ_eq_append_getElem (by omega),
      List.zipWith_append (by simp; omega)]
    simp [axisDesc, underscores]

theorem sliced_descs : ∀ (axes : List (Axis V)) (fs : List (Option Nat)) (types : List CType), fs.length = axes.length →
    List.zipWith axisDesc (List.zipWith slicedAxis axes fs) types = List.zipWith axisDesc axes types := by
  intro axes
  induction axes with
  | nil => intro fs types _; simp
  | cons a axes ih =>
    intro fs types hf
    cases fs with
    | nil => simp at hf
    | cons f fs =>
      cases types with
      | nil => simp
      | cons t types =>
        simp only [List.zipWith_cons_cons]
        rw [ih fs types (by simpa using hf)]
        cases f <;> rfl

theorem sliced_names {axes : List (Axis V)} {fs : List (Option Nat)} {a : Axis V} (h : a ∈ List.zipWith slicedAxis axes fs) : ∃ b ∈ axes, a.name = b.name := by
  obtain ⟨i, hi⟩ := List.mem_iff_getElem?.1 h
  rw [List.getElem?_zipWith] at hi
  cases hb : axes[i]? with
  | none => rw [hb] at hi; simp at hi
  | some b =>
    cases hf : fs[i]? with
    | none => rw [hb, hf] at hi; simp at hi
    | some f =>
      rw [hb, hf] at hi
      simp at hi
      refine ⟨b, List.mem_of_getElem? hb, ?_⟩
      rw [← hi]
      cases f <;> rfl

/-- Knots have the types of the columns of their axes. -/
theorem knots_typed (serialize : V → Cell F D) : ∀ (axes : List (Axis V)) (types : List CType) (cs : List Nat) (vs : List V), types.length = axes.length →
    (∀ (i : Nat) (a : Axis V) (t : CType), axes[i]? = some a → types[i]? = some t → ∀ v ∈ a.values, (serialize v).type = t) →
    cs.length = axes.length → knotsAt axes cs = vs.map some →
    List.Forall₂ (fun v d => (serialize v).type = d.type) vs (List.zipWith axisDesc axes types) := by
  intro axes
  induction axes with
  | nil =>
    intro types cs vs _ _ _ hk
    cases vs with
    | nil => simp
    | cons v vs => simp [knotsAt] at hk
  | cons a axes ih =>
    intro types cs vs ht hs hl hk
    cases types with
    | nil => simp at ht
    | cons t types =>
      cases cs with
      | nil => simp at hl
      | cons c cs =>
        cases vs with
        | nil => simp [knotsAt] at hk
        | cons v vs =>
          simp only [knotsAt, List.zipWith_cons_cons, List.map_cons, List.cons.injEq] at hk
          rw [List.zipWith_cons_cons]
          refine .cons (hs 0 a t rfl rfl v (List.mem_of_getElem? hk.1)) (ih types cs vs (by simpa using ht) (fun i a' t' ha ht' => ?_) (by simpa using hl) hk.2)
          exact hs (i + 1) a' t' (by simpa using ha) (by simpa using ht')

theorem knots_mem (axes : List (Axis V)) (cs : List Nat) (vs : List V) (hk : knotsAt axes cs = vs.map some) : ∀ v ∈ vs, ∃ a ∈ axes, v ∈ a.values := by
  intro v hv
  have : some v ∈ knotsAt axes cs := by rw [hk]; exact List.mem_map_of_mem hv
  obtain ⟨i, hi⟩ := List.mem_iff_getElem?.1 this
  rw [knotsAt, List.getElem?_zipWith] at hi
  cases ha : axes[i]? with
  | none => rw [ha] at hi; simp at hi
  | some a =>
    cases hc : cs[i]? with
    | none => rw [ha, hc] at hi; simp at hi
    | some c =>
      rw [ha, hc] at hi
      simp at hi
      exact ⟨a, List.mem_of_getElem? ha, List.mem_of_getElem? hi⟩

/-! ## Property -/

/-- A new grid and a grid with one fixed axis are faithful. -/
theorem faithful_new (axes : List (Axis V)) : Faithful axes (mk axes) := by
  refine ⟨Reach.new, ?_⟩
  simp only [mk]
  induction axes with
  | nil => rfl
  | cons a axes ih => rw [List.map_cons, List.zipWith_cons_cons, ← ih]; rfl

theorem faithful_slice (axes : List (Axis V)) (axis index : Nat) (g : GridC V) (h : (mk axes).fixAxisByIndex axis index = .ok g) : Faithful axes g := by
  refine ⟨Reach.byIndex _ _ _ _ Reach.new h, ?_⟩
  obtain ⟨_, ax, v, h1, h2, h3, h4, h5⟩ := (C20_single_slice_partial axes).2 axis index g h
  have hfix : g.fixed = (mk axes).fixed.set axis (some index) ∧ g.axesFixed.length = axes.length := by
    unfold GridC.fixAxisByIndex at h
    have hx : (mk axes).axes[axis]? = some ax := h1
    simp only [hx] at h
    split at h
    · cases h
    · split at h
      · cases h
      · cases h
        refine ⟨rfl, ?_⟩
        simp [fixAxis, mk, h1]
  apply List.ext_getElem?
  intro i
  rw [List.getElem?_zipWith, hfix.1]
  by_cases hi : i = axis
  · subst hi
    have hlt : i < axes.length := by
      by_contra hc
      rw [List.getElem?_eq_none (by omega)] at h1
      cases h1
    rw [h4, h1, List.getElem?_set_self (by simpa [mk] using hlt)]
    simp [slicedAxis, h2]
  · rw [h5 i hi, List.getElem?_set_ne (Ne.symm hi)]
    simp only [mk, List.getElem?_map]
    cases axes[i]? <;> rfl

/-- The table of a grid, or of a grid with one fixed axis, has one row for each cell, in the order of the iteration, with the knots of the cell and its fields. -/
theorem C21_rows_partial (tr : Traits F D V T) (types : List CType) (axes : List (Axis V)) (g : GridC V) (hg : Faithful axes g) (hne : ∀ a ∈ axes, a.values ≠ [])
    (cells : List T) (hc : cells.length = cellCount axes) (ht : types.length = axes.length)
    (hname : ∀ a ∈ axes, a.name.toList ≠ [] ∧ OneLine a.name.toList)
    (hser : ∀ (i : Nat) (a : Axis V) (t : CType), axes[i]? = some a → types[i]? = some t → ∀ v ∈ a.values, (tr.serialize v).type = t)
    (hstr : ∀ a ∈ axes, ∀ v ∈ a.values, ∀ s, tr.serialize v = .str s → s ≠ [] ∧ OneLine s)
    (more : List Desc) (hmore : ∀ cs c, (sliceCoords (sizes axes) g.fixed).head? = some cs → cells[cellNo (sizes axes) cs]? = some c → tr.columns c = .ok more)
    (hcell : ∀ c ∈ cells, GoodCells more (tr.fields c)) (hinfo : GoodInfo ((List.zipWith axisDesc axes types).reverse ++ more)) :
    ∃ t, gridToTable tr types g cells = .ok t ∧ t.info = (List.zipWith axisDesc axes types).reverse ++ more ∧
      List.Forall₂ (fun cs r => RowFor tr.serialize tr.fields axes cells cs r.values ∧ r.info = t.info) (sliceCoords (sizes axes) g.fixed) t.rows := by
  obtain ⟨hr, hf⟩ := hg
  obtain ⟨h1, h2⟩ := hr.inv
  have hp : ∀ s ∈ sizes axes, 0 < s := by
    intro s hs
    simp only [sizes, List.mem_map] at hs
    obtain ⟨a, ha, rfl⟩ := hs
    exact List.length_pos_iff.2 (hne a ha)
  have hflen : g.fixed.length = axes.length := by rw [h2.length, sizes_length]
  have hlen : g.axesFixed.length = axes.length := by rw [hf, List.length_zipWith]; omega
  generalize hI : (List.zipWith axisDesc axes types).reverse ++ more = info at *
  -- the columns
  have hcols : axisColumns g.axesFixed types g.axesFixed.length = .ok (List.zipWith axisDesc axes types).reverse := by
    rw [axisColumns_ok g.axesFixed types (by omega) (fun a ha => by
      rw [hf] at ha
      obtain ⟨b, hb, hab⟩ := sliced_names ha
      rw [hab]; exact hname b hb) _ (Nat.le_refl _), List.take_length, List.take_of_length_le (by omega), hf, sliced_descs axes g.fixed types hflen]
  have hb : g.begin' = .ok ⟨first (sizes axes) g.fixed, g.fixed⟩ := by
    have := begin_eq hp h2 g.axesFixed
    rw [← h1] at this
    rw [h1] at this
    rw [← this, ← h1]
  -- the first cell
  obtain ⟨l, hl⟩ := @cells_head (sizes axes) g.fixed hp
  have hfirst : first (sizes axes) g.fixed < cells.length := by
    rw [hc, cellCount_eq]
    exact cells_lt h2 _ (by rw [hl]; simp)
  have hcols2 : tr.columns cells[first (sizes axes) g.fixed] = .ok more := by
    rw [cells_eq] at hl
    cases hsc : sliceCoords (sizes axes) g.fixed with
    | nil => rw [hsc] at hl; simp at hl
    | cons cs rest =>
      rw [hsc, List.map_cons, List.cons.injEq] at hl
      refine hmore cs _ (by rw [hsc]; rfl) ?_
      rw [hl.1]; exact List.getElem?_eq_getElem hfirst
  -- the rows
  obtain ⟨t1, t2⟩ := tuples_slice axes g.fixed h2
  rw [← hf] at t1 t2
  obtain ⟨rs, e1, e2⟩ := concatRows_rel (fun t => addRow tr g cells info (t ++ [])) (fun t r =>
      RowFor tr.serialize tr.fields axes cells (place g.fixed (t.map Prod.fst)) r.values ∧ r.info = info)
      (tuples (g.axesFixed.map indexed)) (fun t ht' => by
    obtain ⟨g1, g2, g3⟩ := t2 t ht'
    have hcl := inRange_length g1
    obtain ⟨x, hx, hat⟩ := (C18_at_exact axes g hr cells hc (t.map Prod.fst) (by rw [hcl, sizes_length])).1 ⟨g1, g2⟩
    have hin := place_inRange h2 g1
    have hrow : RowFor tr.serialize tr.fields axes cells (place g.fixed (t.map Prod.fst)) ((t.map fun p => tr.serialize p.2).reverse ++ tr.fields x) := by
      refine ⟨t.map Prod.snd, x, g3, hx, ?_⟩
      rw [← List.map_reverse, ← List.map_reverse, List.map_map]
      rfl
    have hgood : GoodCells info ((t.map fun p => tr.serialize p.2).reverse ++ tr.fields x) := by
      have hcx := hcell x (List.mem_of_getElem? hx)
      have hk := knots_typed tr.serialize axes types _ _ ht hser (by rw [inRange_length hin, sizes_length]) g3
      constructor
      · rw [← hI]
        refine List.rel_append ?_ hcx.1
        rw [List.forall₂_reverse_iff]
        rw [List.forall₂_map_left_iff] at hk ⊢
        exact hk
      · intro s hs
        rcases List.mem_append.1 hs with hs | hs
        · rw [List.mem_reverse, List.mem_map] at hs
          obtain ⟨p, hp', hps⟩ := hs
          obtain ⟨a, ha, hv⟩ := knots_mem axes _ _ g3 p.2 (List.mem_map_of_mem hp')
          exact hstr a ha p.2 hv s hps
        · exact hcx.2 s hs
    refine ⟨⟨(t.map fun p => tr.serialize p.2).reverse ++ tr.fields x, info⟩, ?_, hrow, rfl⟩
    rw [List.append_nil, addRow, hat]
    show (mkRow _ (some info) >>= fun r => pure [r]) = _
    rw [(mkRow_iff _ _).2 hgood]
    rfl)
  have hne' : rs ≠ [] := by
    intro e
    have h3 := e2.length_eq
    rw [e] at h3
    have h4 := congrArg List.length t1
    rw [List.length_map, h3] at h4
    rw [cells_eq] at hl
    have h5 := congrArg List.length hl
    simp at h5 h4
    omega
  have hsame : mkTable rs = .ok ⟨rs, info⟩ := by
    obtain ⟨r, rs', rfl⟩ := List.exists_cons_of_ne_nil hne'
    have hall : ∀ x ∈ r :: rs', x.info = info := by
      intro x hx
      obtain ⟨i, hi⟩ := List.mem_iff_getElem?.1 hx
      have hlt : i < (r :: rs').length := by
        by_contra hcon
        rw [List.getElem?_eq_none (by omega)] at hi
        cases hi
      have := (List.forall₂_iff_get.1 e2).2 i (by rw [e2.length_eq]; exact hlt) hlt
      rw [List.getElem?_eq_getElem hlt, Option.some.injEq] at hi
      rw [← hi]; exact this.2
    have := (C45_table r rs').1 fun x hx => by rw [hall x (by simp [hx]), hall r (by simp)]; rfl
    rw [this, hall r (by simp)]
  refine ⟨⟨rs, info⟩, ?_, rfl, ?_⟩
  · rw [gridToTable, hcols, Outcome.bind_ok, hb]
    show (ofGrid (cellAt cells (first (sizes axes) g.fixed)) >>= _) = _
    rw [cellAt, List.getElem?_eq_getElem hfirst]
    show (tr.columns _ >>= _) = _
    rw [hcols2, Outcome.bind_ok, hI, (mkInfo_iff _).2 hinfo, Outcome.bind_ok, unfold_eq tr g cells info _ _ (Nat.le_refl _), List.take_length, e1, Outcome.bind_ok, hsame]
  · rw [← t1, List.forall₂_map_left_iff]
    exact e2

/-- The claim for all slices, here with numbers in the cells and on the axes. -/
def C21_full : Prop := ∀ (axes : List (Axis Int32)) (g : GridC Int32) (cells : List Int32), Reach axes g → cells.length = cellCount axes →
  (∀ a ∈ axes, a.name.toList ≠ [] ∧ OneLine a.name.toList) → (axes.map Axis.name).Nodup → (∀ a ∈ axes, a.name ≠ "value" ∧ ' ' ∉ a.name.toList) →
  ∃ t : TableT Unit Unit, gridToTable (arithmetic .i32 fun v : Int32 => .scalar .i32 v) (axes.map fun _ => .scalar .i32) g cells = .ok t ∧
    t.rows.length = (sliceCoords (sizes axes) g.fixed).length

/-- A grid with two fixed axes cannot be converted. -/
theorem C21_violated : ¬ C21_full := fun h => by
  obtain ⟨t, h1, _⟩ := h [⟨"x", [1, 2]⟩, ⟨"y", [1, 2]⟩]
    ⟨[⟨"x", [1, 2]⟩, ⟨"y", [1, 2]⟩], [⟨"x", [1, 2]⟩, ⟨"y", [1]⟩], [some 0, some 0]⟩ [1, 2, 3, 4]
    (Reach.byIndex ⟨[⟨"x", [1, 2]⟩, ⟨"y", [1, 2]⟩], [⟨"x", [1]⟩, ⟨"y", [1, 2]⟩], [some 0, none]⟩ _ 1 0
      (Reach.byIndex (mk _) _ 0 0 Reach.new (by rfl)) (by rfl)) (by decide) (by unfold OneLine; decide) (by decide) (by decide)
  have h2 : gridToTable (F := Unit) (D := Unit) (arithmetic .i32 fun v : Int32 => .scalar .i32 v) [.scalar .i32, .scalar .i32]
    ⟨[⟨"x", [1, 2]⟩, ⟨"y", [1, 2]⟩], [⟨"x", [1, 2]⟩, ⟨"y", [1]⟩], [some 0, some 0]⟩ [1, 2, 3, 4] = .throw .elements := by rfl
  exact absurd (h2.symm.trans h1) (by simp)

/-- A grid with an empty axis cannot be converted: the iterator to its first cell is dereferenced. -/
theorem C21_violated_empty : ¬ C21_full := fun h => by
  obtain ⟨t, h1, _⟩ := h [⟨"x", []⟩] (mk [⟨"x", []⟩]) [] Reach.new (by decide) (by unfold OneLine; decide) (by decide) (by decide)
  have h2 : gridToTable (F := Unit) (D := Unit) (arithmetic .i32 fun v : Int32 => .scalar .i32 v) [.scalar .i32] (mk [⟨"x", []⟩]) [] = .ub := by rfl
  exact absurd (h2.symm.trans h1) (by simp)

example : gridToTable (F := Unit) (D := Unit) (arithmetic .i32 fun v : Int32 => .scalar .i32 v) [.scalar .i32, .scalar .i32]
    (mk [⟨"a b", [1, 2]⟩, ⟨"y", [10, 20]⟩]) [5, 6, 7, 8] = .ok
    ⟨[⟨[.scalar .i32 10, .scalar .i32 1, .scalar .i32 5], [⟨['y'], .scalar .i32, [], []⟩, ⟨"a_b".toList, .scalar .i32, [], []⟩, ⟨"value".toList, .scalar .i32, [], []⟩]⟩,
      ⟨[.scalar .i32 10, .scalar .i32 2, .scalar .i32 6], [⟨['y'], .scalar .i32, [], []⟩, ⟨"a_b".toList, .scalar .i32, [], []⟩, ⟨"value".toList, .scalar .i32, [], []⟩]⟩,
      ⟨[.scalar .i32 20, .scalar .i32 1, .scalar .i32 7], [⟨['y'], .scalar .i32, [], []⟩, ⟨"a_b".toList, .scalar .i32, [], []⟩, ⟨"value".toList, .scalar .i32, [], []⟩]⟩,
      ⟨[.scalar .i32 20, .scalar .i32 2, .scalar .i32 8], [⟨['y'], .scalar .i32, [], []⟩, ⟨"a_b".toList, .scalar .i32, [], []⟩, ⟨"value".toList, .scalar .i32, [], []⟩]⟩],
      [⟨['y'], .scalar .i32, [], []⟩, ⟨"a_b".toList, .scalar .i32, [], []⟩, ⟨"value".toList, .scalar .i32, [], []⟩]⟩ := by rfl

end Alexandria.Table
