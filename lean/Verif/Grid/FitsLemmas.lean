import Verif.Grid.FitsModel
import Verif.Grid.Props
import Verif.Table.FitsFileSteps
import Verif.XYDataset.Props
import Mathlib.Data.List.Perm.Subperm
import Mathlib.Data.List.Nodup

/-!
# Lemmas about grids in FITS files (C107)
-/

namespace Alexandria.Grid.FitsIO

open Alexandria.Str Alexandria.Table Alexandria.Table.Fits Alexandria.XYDataset Alexandria.Grid Alexandria.Grid.Spec

variable {F D T V : Type}

namespace Spec

/-- A knot that comes back: of the type of the axis; texts are not empty, in one line and without a blank at the end; names were made by the constructor. -/
def GoodKnot (kind : Kind) (v : Knot F D) : Prop :=
  v.kind = kind ∧ match v with
    | .scalar _ _ => True
    | .str s => s ≠ [] ∧ OneLine s ∧ s.getLast? ≠ some ' '
    | .qname q => (∃ gs n, mkName gs n = .ok q) ∧ OneLine q.qname ∧ q.qname.getLast? ≠ some ' '

/-- The axes have knots that come back. -/
def GoodAxes (kinds : List Kind) (axes : List (Axis (Knot F D))) : Prop :=
  List.Forall₂ (fun k (a : Axis (Knot F D)) => a.values ≠ [] ∧ ∀ v ∈ a.values, GoodKnot k v) kinds axes

/-- Every fixed axis is shown with one knot. -/
def Shows (g : GridC V) : Prop := ∀ (a i : Nat), g.fixed[a]? = some (some i) → ∃ ax v, g.axesFixed[a]? = some ⟨ax, [v]⟩

end Spec

open FitsIO.Spec

/-! ## Iteration -/

/-- The sizes of the axes of a slice: one for the fixed axes. -/
def shown (ss : List Nat) (fs : List (Option Nat)) : List Nat := List.zipWith (fun s f => if f.isSome then 1 else s) ss fs

theorem flatMap_range_getElem? (g : Nat → Nat → Nat) (s c : Nat) (hc : c < s) : ∀ (l : List Nat) (j : Nat),
    (l.flatMap fun k => (List.range s).map fun c => g k c)[c + s * j]? = l[j]?.map fun k => g k c := by
  intro l
  induction l with
  | nil => intro j; simp
  | cons k l ih =>
    intro j
    rw [List.flatMap_cons]
    cases j with
    | zero =>
      rw [Nat.mul_zero, Nat.add_zero, List.getElem?_append_left (by simpa using hc)]
      simp [List.getElem?_range hc]
    | succ j =>
      rw [List.getElem?_append_right (by simp only [List.length_map, List.length_range, Nat.mul_succ]; omega)]
      simp only [List.length_map, List.length_range, List.getElem?_cons_succ]
      rw [← ih j]
      congr 1
      rw [Nat.mul_succ]; omega

theorem cells_at {ss : List Nat} {fs : List (Option Nat)} (hf : FixedOk ss fs) (cs : List Nat) (h : InRange cs (shown ss fs)) :
    (cells ss fs)[cellNo (shown ss fs) cs]? = some (cellNo ss (place fs cs)) ∧ InRange cs ss ∧ ZeroAtFixed fs cs := by
  induction ss generalizing fs cs with
  | nil =>
    cases fs with
    | nil => cases cs <;> simp_all [shown, cells, cellNo, InRange, ZeroAtFixed]
    | cons => simp [FixedOk] at hf
  | cons s ss ih =>
    cases fs with
    | nil => simp [FixedOk] at hf
    | cons f fs =>
      cases cs with
      | nil => simp [shown, InRange] at h
      | cons c cs =>
        cases f with
        | none =>
          simp only [shown, List.zipWith_cons_cons, Option.isSome_none, Bool.false_eq_true, if_false, InRange] at h
          obtain ⟨h1, h2, h3⟩ := ih (fs := fs) hf cs h.2
          refine ⟨?_, ⟨h.1, h2⟩, h3⟩
          simp only [shown, List.zipWith_cons_cons, Option.isSome_none, Bool.false_eq_true, if_false, cellNo, place, cells]
          rw [flatMap_range_getElem? (fun k c => c + s * k) s c h.1]
          rw [shown] at h1
          rw [h1]
          rfl
        | some i =>
          simp only [shown, List.zipWith_cons_cons, Option.isSome_some, if_true, InRange] at h
          obtain ⟨h1, h2, h3⟩ := ih (fs := fs) hf.2 cs h.2
          have hc : c = 0 := by omega
          refine ⟨?_, ⟨by have := hf.1; omega, h2⟩, hc, h3⟩
          simp only [shown, List.zipWith_cons_cons, Option.isSome_some, if_true, cellNo, place, cells]
          rw [shown] at h1
          rw [hc, Nat.zero_add, Nat.one_mul, List.getElem?_map, h1]
          rfl

theorem cells_length {ss : List Nat} {fs : List (Option Nat)} (hf : FixedOk ss fs) : (cells ss fs).length = total (shown ss fs) := by
  induction ss generalizing fs with
  | nil => cases fs <;> simp [shown, cells, total]
  | cons s ss ih =>
    cases fs with
    | nil => simp [FixedOk] at hf
    | cons f fs =>
      cases f with
      | none =>
        simp only [shown, List.zipWith_cons_cons, Option.isSome_none, Bool.false_eq_true, if_false, total, cells, List.length_flatMap, List.length_map, List.length_range]
        rw [List.map_const', List.sum_replicate_nat, ih (fs := fs) hf, Nat.mul_comm]
        rfl
      | some i =>
        simp only [shown, List.zipWith_cons_cons, Option.isSome_some, if_true, total, cells, List.length_map, Nat.one_mul]
        exact ih hf.2

theorem shown_none (ss : List Nat) : shown ss (ss.map fun _ => none) = ss := by
  induction ss with
  | nil => rfl
  | cons s ss ih =>
    rw [shown] at ih
    simp only [shown, List.map_cons, List.zipWith_cons_cons, Option.isSome_none, Bool.false_eq_true, if_false, ih]

theorem place_none (ss cs : List Nat) (h : cs.length = ss.length) : place (ss.map fun _ => none) cs = cs := by
  induction ss generalizing cs with
  | nil => cases cs <;> simp_all [place]
  | cons s ss ih =>
    cases cs with
    | nil => simp at h
    | cons c cs => simp only [List.map_cons, place, ih cs (by simpa using h)]

theorem cells_new (ss : List Nat) (hp : ∀ s ∈ ss, 0 < s) : cells ss (ss.map fun _ => none) = List.range (total ss) := by
  apply List.ext_getElem?
  intro k
  by_cases hk : k < total ss
  · have hr := digits_inRange ss k hp
    have := (cells_at (fixedOk_none ss) (digits ss k) (by rw [shown_none]; exact hr)).1
    rw [shown_none, cellNo_digits ss k hk, place_none ss _ (by rw [digits_length]), cellNo_digits ss k hk] at this
    rw [this, List.getElem?_range hk]
  · rw [List.getElem?_eq_none (by rw [cells_length (fixedOk_none ss), shown_none]; omega), List.getElem?_eq_none (by simp; omega)]

theorem walk_ok {ss : List Nat} {fs : List (Option Nat)} (hp : ∀ s ∈ ss, 0 < s) (hl : fs.length = ss.length) (count e : Nat) (he : count ≤ e) (l : List Nat) (k fuel : Nat)
    (hw : Walk (fun k => fwd ss fs (k + 1)) (k :: l) e) (hlt : ∀ x ∈ k :: l, x < count) (hf : l.length + 2 ≤ fuel) :
    walk ss count fuel ⟨k, fs⟩ = .ok (k :: l) := by
  induction l generalizing k fuel with
  | nil =>
    have hk := hlt k (by simp)
    obtain ⟨fuel, rfl⟩ : ∃ n, fuel = n + 2 := ⟨fuel - 2, by simp at hf; omega⟩
    have hn : fwd ss fs (k + 1) = e := hw
    rw [walk, if_neg (by simp; omega), if_neg (by simp; omega), next_eq hp hl k count hk, Outcome.bind_ok, hn, walk, if_pos (by simp; omega)]
    rfl
  | cons b l ih =>
    have hk := hlt k (by simp)
    have hb := hlt b (by simp)
    obtain ⟨fuel, rfl⟩ : ∃ n, fuel = n + 1 := ⟨fuel - 1, by omega⟩
    have hn : fwd ss fs (k + 1) = b := hw.1
    rw [walk, if_neg (by simp; omega), if_neg (by simp; omega), next_eq hp hl k count hk, Outcome.bind_ok, hn, Nat.min_eq_left (by omega),
      ih b fuel hw.2 (fun x hx => hlt x (by simp [hx])) (by simp at hf; omega)]
    rfl

/-- The iteration over a grid. -/
theorem positions_ok (axes : List (Axis V)) (hne : ∀ a ∈ axes, a.values ≠ []) (g : GridC V) (hg : Reach axes g) : positions g = .ok (cells (sizes axes) g.fixed) := by
  obtain ⟨h1, h2⟩ := hg.inv
  have hp : ∀ s ∈ sizes axes, 0 < s := by
    intro s hs
    simp only [sizes, List.mem_map] at hs
    obtain ⟨a, ha, rfl⟩ := hs
    exact List.length_pos_iff.2 (hne a ha)
  obtain ⟨l, hl⟩ := @cells_head (sizes axes) g.fixed hp
  have hb : g.begin' = .ok ⟨first (sizes axes) g.fixed, g.fixed⟩ := by
    have := begin_eq hp h2 g.axesFixed
    rw [← this, ← h1]
  have hw := cells_walk hp h2
  have hlt := cells_lt h2
  have hnd : (cells (sizes axes) g.fixed).length ≤ total (sizes axes) := by
    have hs := cells_sorted h2
    have hnd : (cells (sizes axes) g.fixed).Nodup := hs.imp fun h => Nat.ne_of_lt h
    have hsub : cells (sizes axes) g.fixed ⊆ List.range (total (sizes axes)) := fun x hx => List.mem_range.2 (hlt x hx)
    have := (List.subperm_of_subset hnd hsub).length_le
    simpa using this
  rw [hl] at hw hlt hnd ⊢
  rw [positions, hb, Outcome.bind_ok, h1, cellCount_eq]
  exact walk_ok hp h2.length _ _ (by omega) _ _ _ hw hlt (by simp at hnd; omega)

/-- The axes that a slice shows. -/
theorem reach_shows {axes : List (Axis V)} {g : GridC V} (h : Reach axes g) :
    g.axesFixed.length = axes.length ∧ ∀ a : Nat, g.axesFixed[a]? = axes[a]? ∨ ∃ i : Nat, g.fixed[a]? = some (some i) := by
  have key : ∀ (g0 : GridC V) (axis index : Nat) (x : Axis V), g0.axes = axes → g0.fixed.length = axes.length → g0.axes[axis]? = some x →
      (fixAxis g0.axes axis index).length = axes.length ∧ ∀ a : Nat, (fixAxis g0.axes axis index)[a]? = axes[a]? ∨ ∃ i : Nat, (g0.fixed.set axis (some index))[a]? = some (some i) := by
    intro g0 axis index x h1 h2 hx
    have hlt : axis < axes.length := by rw [← h1]; exact (List.getElem?_eq_some_iff.1 hx).1
    rw [h1] at hx ⊢
    have e : fixAxis axes axis index = axes.set axis ⟨x.name, (x.values[index]?).toList⟩ := by rw [fixAxis, hx]
    rw [e]
    refine ⟨by simp, fun a => ?_⟩
    by_cases ha : axis = a
    · subst ha
      exact Or.inr ⟨index, by rw [List.getElem?_set_self (by omega)]⟩
    · exact Or.inl (by rw [List.getElem?_set_ne ha])
  cases h with
  | new => exact ⟨rfl, fun a => Or.inl rfl⟩
  | byIndex g0 _ axis index hg0 hf =>
    obtain ⟨i1, i2⟩ := hg0.inv
    have i3 : g0.fixed.length = axes.length := by rw [i2.length, sizes_length]
    unfold GridC.fixAxisByIndex at hf
    cases hx : g0.axes[axis]? with
    | none => simp [hx] at hf
    | some x =>
      simp only [hx] at hf
      split at hf
      · simp at hf
      · split at hf
        · simp at hf
        · simp only [Outcome.ok.injEq] at hf
          subst hf
          exact key g0 axis index x i1 i3 hx
  | byValue g0 _ axis value hg0 hf =>
    obtain ⟨i1, i2⟩ := hg0.inv
    have i3 : g0.fixed.length = axes.length := by rw [i2.length, sizes_length]
    unfold GridC.fixAxisByValue at hf
    cases hx : g0.axes[axis]? with
    | none => simp [hx] at hf
    | some x =>
      simp only [hx] at hf
      split at hf
      · simp at hf
      · split at hf
        · simp at hf
        · simp only [Outcome.ok.injEq] at hf
          subst hf
          exact key g0 axis _ x i1 i3 hx

theorem sizes_shown {axes : List (Axis V)} {g : GridC V} (h : Reach axes g) (hs : Shows g) : sizes g.axesFixed = shown (sizes axes) g.fixed := by
  obtain ⟨h1, h2⟩ := h.inv
  obtain ⟨h3, h4⟩ := reach_shows h
  have hl : g.fixed.length = axes.length := by rw [h2.length, sizes_length]
  apply List.ext_getElem?
  intro a
  by_cases ha : a < axes.length
  · have hf : g.fixed[a]? = some g.fixed[a] := List.getElem?_eq_getElem (by omega)
    have hx : axes[a]? = some axes[a] := List.getElem?_eq_getElem ha
    rw [shown, List.getElem?_zipWith]
    simp only [sizes, List.getElem?_map, hf, hx, Option.map_some]
    cases hfa : g.fixed[a] with
    | none =>
      rcases h4 a with e | ⟨i, e⟩
      · rw [e, hx]; rfl
      · rw [hf, hfa] at e; cases e
    | some i =>
      obtain ⟨n, v, e⟩ := hs a i (by rw [hf, hfa])
      rw [e]; rfl
  · rw [List.getElem?_eq_none (by rw [sizes_length]; omega), List.getElem?_eq_none (by simp [shown, sizes_length]; omega)]

theorem zero_none (ss cs : List Nat) (h : cs.length = ss.length) : ZeroAtFixed (ss.map fun _ => none) cs := by
  induction ss generalizing cs with
  | nil => cases cs <;> simp_all [ZeroAtFixed]
  | cons s ss ih =>
    cases cs with
    | nil => simp at h
    | cons c cs => exact ih cs (by simpa using h)

theorem forall₂_right {α β : Type} {R : α → β → Prop} {as : List α} {bs : List β} (h : List.Forall₂ R as bs) : ∀ b ∈ bs, ∃ a ∈ as, R a b := by
  induction h with
  | nil => intro b hb; cases hb
  | @cons a b as bs hab _ ih =>
    intro x hx
    rcases List.mem_cons.1 hx with rfl | hx
    · exact ⟨a, by simp, hab⟩
    · obtain ⟨y, hy, hr⟩ := ih x hx
      exact ⟨y, List.mem_cons_of_mem _ hy, hr⟩

/-! ## The image -/

theorem fillPixels_ok (cs : List T) (z : T) : ∀ (ps : List Nat) (done : List T) (n : Nat), (∀ p ∈ ps, p < cs.length) → ps.length ≤ n →
    ∃ px, fillPixels cs ps done.length (done ++ List.replicate n z) = .ok (done ++ px ++ List.replicate (n - ps.length) z) ∧ px.length = ps.length ∧
      ∀ (j p : Nat), ps[j]? = some p → px[j]? = cs[p]? := by
  intro ps
  induction ps with
  | nil => intro done n _ _; exact ⟨[], by simp [fillPixels], rfl, fun j p h => by simp at h⟩
  | cons p ps ih =>
    intro done n hp hn
    obtain ⟨n, rfl⟩ : ∃ m, n = m + 1 := ⟨n - 1, by simp at hn; omega⟩
    have hlt := hp p (by simp)
    obtain ⟨px, h1, h2, h3⟩ := ih (done ++ [cs[p]]) n (fun q hq => hp q (List.mem_cons_of_mem _ hq)) (by simp at hn; omega)
    refine ⟨cs[p] :: px, ?_, by simp [h2], ?_⟩
    · rw [fillPixels, List.getElem?_eq_getElem hlt]
      simp only
      rw [if_pos (by simp), List.set_append_right _ _ (by omega), Nat.sub_self, List.replicate_succ, List.set_cons_zero]
      rw [List.append_assoc, List.singleton_append, List.length_append, List.length_singleton] at h1
      rw [h1]
      simp
    · intro j q hj
      cases j with
      | zero => simp only [List.getElem?_cons_zero, Option.some.injEq] at hj; subst hj; simp [List.getElem?_eq_getElem hlt]
      | succ j => simpa using h3 j q (by simpa using hj)

theorem fillCells_ok (data : List T) : ∀ (n i : Nat) (done rest : List T), done.length = i → rest.length = n → i + n ≤ data.length →
    fillCells data (List.range' i n) i (done ++ rest) = .ok (done ++ (data.drop i).take n) := by
  intro n
  induction n with
  | zero => intro i done rest h1 h2 _; rw [List.length_eq_zero_iff.1 h2]; simp [fillCells]
  | succ n ih =>
    intro i done rest h1 h2 h3
    obtain ⟨r, rest, rfl⟩ : ∃ r rs, rest = r :: rs := List.exists_cons_of_length_eq_add_one h2
    have hlt : i < data.length := by omega
    rw [List.range'_succ, fillCells, List.getElem?_eq_getElem hlt]
    simp only
    rw [if_pos (by simp [h1]), List.set_append_right _ _ (by omega), h1, Nat.sub_self, List.set_cons_zero]
    have := ih (i + 1) (done ++ [data[i]]) rest (by simp [h1]) (by simpa using h2) (by omega)
    rw [List.append_assoc, List.singleton_append] at this
    rw [this, List.append_assoc, List.singleton_append]
    congr 2
    rw [List.drop_eq_getElem_cons hlt, List.take_succ_cons]

/-! ## One axis -/

/-- The cells of the table of an axis. -/
def axisCells : List (Knot F D) → Nat → List (List (Cell F D))
  | [], _ => []
  | v :: vs, i => [.scalar .i32 (Int32.ofNat i), v.toCell] :: axisCells vs (i + 1)

theorem toCell_type (kind : Kind) (v : Knot F D) (h : v.kind = kind) : v.toCell.type = kind.fitsType := by
  subst h
  cases v <;> rfl

theorem goodKnot_text (kind : Kind) (v : Knot F D) (h : GoodKnot kind v) (s : Bytes) (hs : v.toCell = .str s) : s ≠ [] ∧ OneLine s ∧ s.getLast? ≠ some ' ' := by
  obtain ⟨h1, h2⟩ := h
  cases v with
  | scalar s' x => cases hs
  | str s' => cases hs; exact h2
  | qname q =>
    cases hs
    obtain ⟨⟨gs, n, h3⟩, h4, h5⟩ := h2
    refine ⟨?_, h4, h5⟩
    rw [mkName] at h3
    cases hj : joinGroups gs [] with
    | ok q0 =>
      rw [hj, Outcome.bind_ok] at h3
      split at h3
      · cases h3
      · rename_i hn
        cases h3
        simp only [not_or] at hn
        simp [hn.1]
    | throw e => rw [hj] at h3; cases h3
    | ub => rw [hj] at h3; cases h3

theorem axisRows_ok (kind : Kind) (vs : List (Knot F D)) (h : ∀ v ∈ vs, GoodKnot kind v) (i : Nat) :
    axisRows kind vs i = .ok ((axisCells vs i).map fun r => ⟨r, axisInfo kind⟩) := by
  induction vs generalizing i with
  | nil => rfl
  | cons v vs ih =>
    have hv := h v (by simp)
    have ht : typesLoop [.scalar .i32 (Int32.ofNat i), v.toCell] (axisInfo kind) = .ok () := by
      have h2 := toCell_type kind v hv.1
      simp only [typesLoop, axisInfo]
      rw [if_neg (by simp [Cell.type]), if_neg (by simp [h2])]
    have hs : stringsLoop [.scalar .i32 (Int32.ofNat i), v.toCell] = .ok () := by
      cases e : v.toCell with
      | str s =>
        obtain ⟨h1, h2, _⟩ := goodKnot_text kind v hv s e
        simp only [stringsLoop]
        rw [if_neg h1, if_neg (by rw [(hasVertical_iff s).2 h2]; decide)]
      | _ => rfl
    rw [axisRows, mkRow, if_neg (by simp [axisInfo]), ht, Outcome.bind_ok, hs, Outcome.bind_ok, Outcome.pure_eq, Outcome.bind_ok,
      ih (fun v hv => h v (List.mem_cons_of_mem _ hv)), Outcome.bind_ok]
    rfl

theorem axisCells_length (vs : List (Knot F D)) (i : Nat) : ∀ r ∈ axisCells vs i, r.length = 2 := by
  induction vs generalizing i with
  | nil => intro r hr; cases hr
  | cons v vs ih =>
    intro r hr
    rcases List.mem_cons.1 hr with rfl | hr
    · rfl
    · exact ih _ r hr

theorem colOf_values (vs : List (Knot F D)) (i : Nat) : colOf (axisCells vs i) 1 = vs.map Knot.toCell := by
  induction vs generalizing i with
  | nil => rfl
  | cons v vs ih =>
    rw [axisCells, colOf_cons _ _ _ (by simp), ih]
    rfl

theorem colOf_index (vs : List (Knot F D)) (i : Nat) : ∀ c ∈ colOf (axisCells vs i) 0, ∃ n, c = .scalar .i32 n := by
  induction vs generalizing i with
  | nil => intro c hc; cases hc
  | cons v vs ih =>
    intro c hc
    rw [axisCells, colOf_cons _ _ _ (by simp)] at hc
    rcases List.mem_cons.1 hc with rfl | hc
    · exact ⟨_, rfl⟩
    · exact ih _ c hc

theorem columnsLoop_self (info : Info) (rows : List (List (Cell F D))) : columnsLoop info (rows.map fun r => (⟨r, info⟩ : RowT F D)) = .ok () := by
  induction rows with
  | nil => rfl
  | cons r rows ih =>
    rw [List.map_cons, columnsLoop, if_pos ((C45_equal _ _).2 rfl), ih]

theorem axisTable_ok (kind : Kind) (vs : List (Knot F D)) (hne : vs ≠ []) :
    mkTable ((axisCells vs 0).map fun r => (⟨r, axisInfo kind⟩ : RowT F D)) = .ok ⟨(axisCells vs 0).map fun r => ⟨r, axisInfo kind⟩, axisInfo kind⟩ := by
  obtain ⟨v, vs, rfl⟩ := List.exists_cons_of_ne_nil hne
  rw [axisCells, List.map_cons, mkTable]
  simp only
  have := columnsLoop_self (axisInfo kind) (axisCells (v :: vs) 0)
  rw [axisCells, List.map_cons] at this
  rw [this]
  rfl

/-- The format of the column of the knots. -/
theorem valueFormat (fmt : Fmt F D) (kind : Kind) (vs : List (Knot F D)) (h : ∀ v ∈ vs, GoodKnot kind v) :
    ∃ format, binaryFormat fmt kind.fitsType (vs.map Knot.toCell) = .ok format ∧
      ∀ hd : Head, hd.format = format → ∀ c ∈ vs.map Knot.toCell, Takes hd c ∧ c.type = kind.fitsType := by
  have hty : ∀ c ∈ vs.map Knot.toCell, c.type = kind.fitsType := by
    intro c hc
    obtain ⟨v, hv, rfl⟩ := List.mem_map.1 hc
    exact toCell_type kind v (h v hv).1
  cases hk : kind.fitsType with
  | scalar s =>
    refine ⟨[letter s], rfl, fun hd he c hc => ⟨?_, by rw [← hk]; exact hty c hc⟩⟩
    have := hty c hc
    rw [hk] at this
    obtain ⟨v, rfl⟩ := type_scalar this
    rw [Takes, he]
    exact fieldOf_letter _
  | str =>
    rw [hk] at hty
    obtain ⟨n, h1, h2⟩ := maxWidth_widest fmt (vs.map Knot.toCell) hty
    refine ⟨showNat n ++ ['A'], by rw [binaryFormat, h1]; rfl, fun hd he c hc => ⟨?_, hty c hc⟩⟩
    obtain ⟨s, rfl⟩ := type_str (hty c hc)
    obtain ⟨v, hv, e⟩ := List.mem_map.1 hc
    exact ⟨n, by rw [he, fieldOf_sized], h2.1 s hc, (goodKnot_text kind v (h v hv) s e).2.2⟩
  | vec s => cases kind <;> cases hk
  | nd s => cases kind <;> cases hk
  | other n => cases kind <;> cases hk

theorem toKnots_ok (kind : Kind) (vs : List (Knot F D)) (h : ∀ v ∈ vs, GoodKnot kind v) : toKnots kind (vs.map Knot.toCell) = .ok vs := by
  induction vs with
  | nil => rfl
  | cons v vs ih =>
    have hv := h v (by simp)
    have h1 : toKnot kind v.toCell = .ok v := by
      obtain ⟨e, h2⟩ := hv
      subst e
      cases v with
      | scalar s x => simp [Knot.kind, Knot.toCell, toKnot]
      | str s => rfl
      | qname q =>
        obtain ⟨⟨gs, n, h3⟩, _⟩ := h2
        simp only [Knot.kind, Knot.toCell, toKnot]
        rw [C28_parse_text gs n q h3]
    rw [List.map_cons, toKnots, h1, Outcome.bind_ok, ih (fun v hv => h v (List.mem_cons_of_mem _ hv)), Outcome.bind_ok]
    rfl

theorem axisName_tableName (name : String) (hdu : Bytes) : axisName (tableName name hdu) hdu = name.toList := by
  rw [axisName, if_pos (by simp [tableName]), tableName, List.take_left' (by simp only [List.length_append, List.length_cons]; omega)]

theorem exportAxis_ok (lib : ImgLib F D T) (fmt : Fmt F D) (hdu : Bytes) (kind : Kind) (a : Axis (Knot F D)) (hne : a.values ≠ []) (hg : ∀ v ∈ a.values, GoodKnot kind v)
    (hk : lib.text "Index".toList = "Index".toList ∧ lib.text "Value".toList = "Value".toList ∧ lib.text (tableName a.name hdu) = tableName a.name hdu)
    (f : File F D T) (hnew : ∀ e ∈ f, e.name ≠ tableName a.name hdu) :
    ∃ e : Ext F D T, exportAxis lib fmt hdu kind a f = (f ++ [e], .ok ()) ∧ e.name = tableName a.name hdu ∧ readAxis lib.toLib hdu kind e = .ok a := by
  obtain ⟨format, h1, h2⟩ := valueFormat fmt kind a.values hg
  let t : TableT F D := ⟨(axisCells a.values 0).map fun r => ⟨r, axisInfo kind⟩, axisInfo kind⟩
  have hvals : t.rows.map (fun r => r.values) = axisCells a.values 0 := by
    simp only [t, List.map_map]
    exact List.map_id _
  have hcne : axisCells a.values 0 ≠ [] := by
    obtain ⟨v, vs, e⟩ := List.exists_cons_of_ne_nil hne
    rw [e]; simp [axisCells]
  have hc1 : column t 1 = a.values.map Knot.toCell := by rw [column_eq, hvals, colOf_values]
  have hc0 : column t 0 = colOf (axisCells a.values 0) 0 := by rw [column_eq, hvals]
  let h0 : Head := ⟨"Index".toList, ['J'], lib.text [], lib.text [], []⟩
  let hv : Head := ⟨"Value".toList, format, lib.text [], lib.text [], []⟩
  have hheads : heads lib.toLib fmt t t.info 0 = .ok [h0, hv] := by
    have hn1 : ∃ c cs, column t 1 = c :: cs := by
      rw [hc1]
      obtain ⟨v, vs, e⟩ := List.exists_cons_of_ne_nil hne
      exact ⟨v.toCell, vs.map Knot.toCell, by rw [e]; rfl⟩
    have hn0 : ∃ c cs, column t 0 = c :: cs := by
      rw [hc0]
      obtain ⟨v, vs, e⟩ := List.exists_cons_of_ne_nil hne
      exact ⟨_, _, by rw [e, axisCells, colOf_cons _ _ _ (by simp)]⟩
    obtain ⟨c1, cs1, e1⟩ := hn1
    obtain ⟨c0, cs0, e0⟩ := hn0
    have hd1 : getTDIM kind.fitsType c1 = .ok [] := by cases kind <;> rfl
    have hb1 : binaryFormat fmt kind.fitsType (c1 :: cs1) = .ok format := by rw [← e1, hc1]; exact h1
    show heads lib.toLib fmt t (axisInfo kind) 0 = _
    have hb0 : binaryFormat fmt (.scalar .i32) (c0 :: cs0) = .ok ['J'] := rfl
    have hd0 : getTDIM (.scalar .i32) c0 = .ok [] := rfl
    simp only [axisInfo, heads, Nat.zero_add, e0, e1, hb1, hd1, hb0, hd0, Outcome.bind_ok, Outcome.pure_eq, hk.1, hk.2.1]
    rfl
  have hpop := populateAll_ok lib.toLib t [] (axisCells a.values 0) hvals.symm 2 (by simp) (axisCells_length _ _) hcne (tableName a.name hdu) 1 [] [h0, hv] 0 [] rfl (by simp) (by
    intro j h hj
    match j, hj with
    | 0, hj =>
      cases hj
      refine ⟨_, rfl, fun c hc => ?_⟩
      obtain ⟨n, rfl⟩ := colOf_index a.values 0 c hc
      exact ⟨rfl, rfl⟩
    | 1, hj =>
      cases hj
      refine ⟨_, rfl, fun c hc => ?_⟩
      rw [show 0 + 1 = 1 from rfl, colOf_values] at hc
      exact h2 hv rfl c hc
    | j + 2, hj => simp at hj)
  simp only [List.nil_append, List.length_cons, List.length_nil, Nat.zero_add] at hpop
  let w : Fits.Writer := { override := false, hduName := tableName a.name hdu }
  let tab : Tab F D := tabOf (tableName a.name hdu) [] [h0, hv] (axisCells a.values 0)
  let w1 : Fits.Writer := Fits.Writer.started (w.withInfo t.info) (f.length + 1) 1
  have hinit : Fits.Writer.init lib.toLib fmt (w.withInfo t.info) f t = (w1, f ++ [.table (tabOf (tableName a.name hdu) [] [h0, hv] [])], .ok ()) := by
    have hb : (if (w.withInfo t.info).override = true then ([] : File F D T) else f) = f := rfl
    have hn : findExt f (w.withInfo t.info).hduName = none := findExt_none _ _ hnew
    rw [Fits.Writer.init, hheads, hb]
    simp only [hn]
    rw [show (w.withInfo t.info).hduName = tableName a.name hdu from rfl, hk.2.2, tabOf, colsFrom_nil]
    rfl
  have happ : (w1.append lib.toLib (f ++ [.table (tabOf (tableName a.name hdu) [] [h0, hv] [])]) t).2 = (f ++ [.table tab], .ok ()) := by
    have hget : (f ++ [Ext.table (tabOf (tableName a.name hdu) [] [h0, hv] [])])[f.length + 1 - 1]? = some (Ext.table (tabOf (tableName a.name hdu) [] [h0, hv] [])) := by simp
    have hset : ∀ x : Ext F D T, (f ++ [Ext.table (tabOf (tableName a.name hdu) [] [h0, hv] [])]).set (f.length + 1 - 1) x = f ++ [x] := by
      intro x; simp
    rw [Fits.Writer.append, show w1.hduIndex = some (f.length + 1) from rfl]
    simp only
    rw [hget]
    simp only
    rw [show w1.currentLine = 1 from rfl, show t.info.length = 2 from rfl, show tabOf (tableName a.name hdu) [] [h0, hv] ([] : List (List (Cell F D))) =
      ⟨tableName a.name hdu, 1, colsFrom [] [h0, hv] 0, []⟩ from rfl, hpop]
    exact Prod.ext (hset _) rfl
  refine ⟨.table tab, ?_, rfl, ?_⟩
  · rw [exportAxis, axisRows_ok kind a.values hg 0]
    simp only
    rw [axisTable_ok kind a.values hne]
    simp only
    show (Fits.Writer.addData lib.toLib fmt w f t).2 = _
    rw [Fits.Writer.addData, show w.columnInfo = none from rfl]
    simp only [hinit]
    exact happ
  · have hfind : tab.cols.find? (fun c => c.head.name == "Value".toList) = some ⟨hv, (a.values.map Knot.toCell).map raw⟩ := by
      show List.find? _ [(⟨h0, (colOf (axisCells a.values 0) 0).map raw⟩ : Col F D), ⟨hv, (colOf (axisCells a.values 0) 1).map raw⟩] = _
      rw [colOf_values, List.find?_cons_of_neg (by simp [h0]), List.find?_cons_of_pos (by simp [hv])]
    have hrows : tab.rows = a.values.length := by
      have h3 := colOf_length (axisCells a.values 0) 0 2 (axisCells_length _ _) (by omega)
      have h4 := colOf_length (axisCells a.values 0) 1 2 (axisCells_length _ _) (by omega)
      have h5 : (colOf (axisCells a.values 0) 1).length = a.values.length := by rw [colOf_values]; simp
      show max ((colOf (axisCells a.values 0) 0).map raw).length (max ((colOf (axisCells a.values 0) 1).map raw).length 0) = _
      simp only [List.length_map]
      omega
    have hdec : decodeAll lib.toLib hv kind.fitsType ((a.values.map Knot.toCell).map raw ++ List.replicate (tab.rows - ((a.values.map Knot.toCell).map raw).length) (lib.blank hv)) =
        .ok (a.values.map Knot.toCell) := by
      rw [hrows]
      simp only [List.length_map, Nat.sub_self, List.replicate_zero, List.append_nil]
      exact decodeAll_takes lib.toLib hv kind.fitsType _ (h2 hv rfl)
    have hname : axisName (tabOf (tableName a.name hdu) [] [h0, hv] (axisCells a.values 0)).name hdu = a.name.toList := axisName_tableName a.name hdu
    rw [readAxis]
    simp only [hfind]
    rw [hdec]
    simp only [caught, Outcome.bind_ok]
    rw [toKnots_ok kind a.values hg, Outcome.bind_ok]
    show Outcome.ok _ = _
    congr 1
    show (⟨String.ofList (axisName (tableName a.name hdu) hdu), a.values⟩ : Axis (Knot F D)) = a
    rw [axisName_tableName, String.ofList_toList]

/-! ## All the axes -/

theorem exportAxes_ok (lib : ImgLib F D T) (fmt : Fmt F D) (hdu : Bytes)
    (hkt : lib.text "Index".toList = "Index".toList ∧ lib.text "Value".toList = "Value".toList) (kinds : List Kind) (axes : List (Axis (Knot F D))) (hg : GoodAxes kinds axes)
    (f : File F D T) (hk : ∀ a ∈ axes, lib.text (tableName a.name hdu) = tableName a.name hdu) (hnew : ∀ a ∈ axes, ∀ e ∈ f, e.name ≠ tableName a.name hdu)
    (hd : (axes.map Axis.name).Nodup) :
    ∃ es : File F D T, exportAxes lib fmt hdu kinds axes f = (f ++ es, .ok ()) ∧ es.map Ext.name = axes.map (fun a => tableName a.name hdu) ∧
      ∀ (j : Nat) (k : Kind) (a : Axis (Knot F D)), kinds[j]? = some k → axes[j]? = some a → ∃ e, es[j]? = some e ∧ readAxis lib.toLib hdu k e = .ok a := by
  induction hg generalizing f with
  | nil => exact ⟨[], by simp [exportAxes], rfl, fun j k a h => by simp at h⟩
  | @cons k a ks as ha _ ih =>
    obtain ⟨e, h1, h2, h3⟩ := exportAxis_ok lib fmt hdu k a ha.1 ha.2 ⟨hkt.1, hkt.2, hk a (by simp)⟩ f (hnew a (by simp))
    rw [List.map_cons, List.nodup_cons] at hd
    obtain ⟨es, h4, h5, h6⟩ := ih (f ++ [e]) (fun x hx => hk x (List.mem_cons_of_mem _ hx)) (by
      intro x hx y hy
      rcases List.mem_append.1 hy with hy | hy
      · exact hnew x (List.mem_cons_of_mem _ hx) y hy
      · rw [List.mem_singleton.1 hy, h2]
        intro e'
        have : a.name.toList = x.name.toList := by
          have := congrArg (fun l => axisName l hdu) e'
          simpa [axisName_tableName] using this
        exact hd.1 (List.mem_map.2 ⟨x, hx, (String.toList_inj.1 this).symm⟩)) hd.2
    refine ⟨e :: es, ?_, by simp [h2, h5], ?_⟩
    · rw [exportAxes, h1]
      simp only
      rw [h4]
      simp
    · intro j k' a' hj hj'
      cases j with
      | zero =>
        simp only [List.getElem?_cons_zero, Option.some.injEq] at hj hj'
        subst hj; subst hj'
        exact ⟨e, rfl, h3⟩
      | succ j => simpa using h6 j k' a' (by simpa using hj) (by simpa using hj')

theorem readAxes_ok (lib : Lib F D) (f : File F D T) (grid : Bytes) (index : Nat) : ∀ (n : Nat) (kinds : List Kind) (axes : List (Axis (Knot F D))), kinds.length = n → axes.length = n →
    (∀ (j : Nat) (k : Kind) (a : Axis (Knot F D)), kinds[j]? = some k → axes[j]? = some a → ∃ e, f[index + j]? = some e ∧ readAxis lib grid k e = .ok a) →
    readAxes lib f grid kinds.reverse (index + n) = .ok axes := by
  intro n
  induction n with
  | zero =>
    intro kinds axes h1 h2 _
    rw [List.length_eq_zero_iff.1 h1, List.length_eq_zero_iff.1 h2]
    rfl
  | succ n ih =>
    intro kinds axes h1 h2 h
    obtain ⟨ks, k, rfl⟩ : ∃ ks k, kinds = ks ++ [k] := ⟨kinds.dropLast, kinds.getLast (by intro e; simp [e] at h1), (List.dropLast_append_getLast _).symm⟩
    obtain ⟨as, a, rfl⟩ : ∃ as a, axes = as ++ [a] := ⟨axes.dropLast, axes.getLast (by intro e; simp [e] at h2), (List.dropLast_append_getLast _).symm⟩
    simp only [List.length_append, List.length_singleton, Nat.add_right_cancel_iff] at h1 h2
    obtain ⟨e, e1, e2⟩ := h n k a (by rw [List.getElem?_append_right (by omega)]; simp [h1]) (by rw [List.getElem?_append_right (by omega)]; simp [h2])
    rw [List.reverse_append, List.reverse_singleton, List.singleton_append, readAxes, extension, if_neg (by omega), show index + (n + 1) - 1 = index + n by omega, e1]
    simp only
    rw [Outcome.bind_ok, e2, Outcome.bind_ok, ih ks as h1 h2 ?_]
    · rfl
    · intro j k' a' hj hj'
      have hlt1 := (List.getElem?_eq_some_iff.1 hj).1
      have hlt2 := (List.getElem?_eq_some_iff.1 hj').1
      exact h j k' a' (by rw [List.getElem?_append_left hlt1]; exact hj) (by rw [List.getElem?_append_left hlt2]; exact hj')

end Alexandria.Grid.FitsIO
