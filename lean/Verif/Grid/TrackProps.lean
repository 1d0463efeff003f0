import Verif.Grid.TrackModel
import Verif.Grid.ArchiveLemmas

/-!
# C171: several grids in one archive
-/

namespace Alexandria.Grid.Archive

open Archive.Spec

variable {A V T : Type}

namespace Spec

/-- The statements that store a grid: the first ones with their address. -/
def storing : List Nat → List (Write V T) → List (Write V T)
  | _, [] => []
  | seen, w :: ws => if w.address ∈ seen then storing seen ws else w :: storing (w.address :: seen) ws

/-- The addresses of all axes that are stored are different. -/
def NoReuse (ws : List (Write V T)) : Prop := ((storing [] ws).flatMap Write.places).Nodup

/-- Grids of a type with `n` axes, with values that can be stored and loaded; equal addresses are addresses of one grid. -/
structure Sound (c : Codec A V) (cc : Codec A T) (n : Nat) (ws : List (Write V T)) : Prop where
  axes : ∀ w ∈ ws, w.axes.length = n
  places : ∀ w ∈ ws, w.places.length = n
  cells : ∀ w ∈ ws, w.cells.length = cellCount w.axes
  knots : ∀ w ∈ ws, ∀ a ∈ w.axes, ∀ v ∈ a.values, Comes c v
  values : ∀ w ∈ ws, ∀ x ∈ w.cells, Comes cc x
  same : ∀ w ∈ ws, ∀ w' ∈ ws, w.address = w'.address → w.axes = w'.axes ∧ w.cells = w'.cells

end Spec

theorem idxOf?_none {l : List Key} {k : Key} (h : k ∉ l) : l.idxOf? k = none := by
  rw [List.idxOf?_eq_none_iff]; exact h

theorem idxOf?_some {l : List Key} {k : Key} (h : k ∈ l) : ∃ i, l.idxOf? k = some i ∧ l[i]? = some k := by
  cases e : l.idxOf? k with
  | none => exact absurd h (List.idxOf?_eq_none_iff.1 e)
  | some i =>
    refine ⟨i, rfl, ?_⟩
    rw [List.idxOf?, List.findIdx?_eq_some_iff_getElem] at e
    obtain ⟨h1, h2, _⟩ := e
    rw [List.getElem?_eq_getElem h1]
    simpa using h2

theorem loadAxis_new (c : Codec A V) (known : List Key) (objs : List (Obj V T)) (hl : objs.length = known.length) (p : Nat) (a : Axis V) (hc : ∀ v ∈ a.values, Comes c v) (hp : .axis p ∉ known) (rest : List (Tok A)) :
    (saveAxis c known p a).1 = known ++ [.axis p] ∧ loadAxis c objs ((saveAxis c known p a).2 ++ rest) = .ok (a, objs ++ [.deleted], rest) := by
  rw [saveAxis, idxOf?_none hp]
  refine ⟨rfl, ?_⟩
  simp only [List.cons_append]
  rw [loadAxis, getMark_ptr, Outcome.bind_ok, getNum, Outcome.bind_ok]
  simp only
  rw [if_neg (by omega), getAxis_ok c a hc, Outcome.bind_ok]
  rfl

theorem loadAxis_known (c : Codec A V) (known : List Key) (objs : List (Obj V T)) (hl : objs.length = known.length) (p : Nat) (a : Axis V) (hp : .axis p ∈ known) (rest : List (Tok A)) :
    loadAxis c objs ((saveAxis c known p a).2 ++ rest) = .ub := by
  obtain ⟨i, e, hi⟩ := idxOf?_some hp
  rw [saveAxis, e]
  simp only [List.cons_append, List.nil_append]
  rw [loadAxis, getMark_ptr, Outcome.bind_ok, getNum, Outcome.bind_ok]
  simp only
  have := (List.getElem?_eq_some_iff.1 hi).1
  rw [if_pos (by omega)]

/-- A tuple at new addresses. -/
theorem loadTuple_new (c : Codec A V) : ∀ (l : List (Nat × Axis V)) (known : List Key) (objs : List (Obj V T)), objs.length = known.length → (∀ x ∈ l, ∀ v ∈ x.2.values, Comes c v) →
    (l.map Prod.fst).Nodup → (∀ x ∈ l, .axis x.1 ∉ known) → ∀ rest,
    (saveTuple c known l).1 = known ++ l.map (fun x => .axis x.1) ∧
    loadTuple c l.length objs ((saveTuple c known l).2 ++ rest) = .ok ((l.map Prod.snd).reverse, objs ++ l.map (fun _ => .deleted), rest) := by
  intro l
  induction l with
  | nil =>
    intro known objs _ _ _ _ rest
    exact ⟨by simp [saveTuple], by simp [saveTuple, loadTuple]⟩
  | cons x l ih =>
    obtain ⟨p, a⟩ := x
    intro known objs hl hc hn hk rest
    rw [List.map_cons, List.nodup_cons] at hn
    obtain ⟨h1, h2⟩ := loadAxis_new (T := T) c known objs hl p a (hc _ List.mem_cons_self) (hk _ List.mem_cons_self) ((saveTuple c (known ++ [.axis p]) l).2 ++ rest)
    obtain ⟨h3, h4⟩ := ih (known ++ [.axis p]) (objs ++ [.deleted]) (by simp [hl]) (fun y hy => hc y (List.mem_cons_of_mem _ hy)) hn.2 (fun y hy hm => by
      rw [List.mem_append, List.mem_singleton] at hm
      rcases hm with hm | hm
      · exact hk y (List.mem_cons_of_mem _ hy) hm
      · exact hn.1 (List.mem_map.2 ⟨y, hy, (Key.axis.injEq _ _ ▸ hm : y.1 = p)⟩)) rest
    rw [saveTuple]
    simp only
    rw [h1]
    refine ⟨by rw [h3]; simp, ?_⟩
    rw [List.append_assoc, List.length_cons, loadTuple, h2, Outcome.bind_ok]
    simp only
    rw [h4, Outcome.bind_ok]
    simp

/-- A tuple with an address that the archive knows, or with one address twice. -/
theorem loadTuple_known (c : Codec A V) : ∀ (l : List (Nat × Axis V)) (known : List Key) (objs : List (Obj V T)), objs.length = known.length → (∀ x ∈ l, ∀ v ∈ x.2.values, Comes c v) →
    ¬ ((l.map Prod.fst).Nodup ∧ ∀ x ∈ l, .axis x.1 ∉ known) → ∀ rest, loadTuple c l.length objs ((saveTuple c known l).2 ++ rest) = .ub := by
  intro l
  induction l with
  | nil => intro known objs _ _ h; exact absurd ⟨by simp, by simp⟩ h
  | cons x l ih =>
    obtain ⟨p, a⟩ := x
    intro known objs hl hc h rest
    rw [saveTuple]
    simp only
    rw [List.append_assoc, List.length_cons, loadTuple]
    by_cases hp : Key.axis p ∈ known
    · rw [loadAxis_known c known objs hl p a hp]
      rfl
    · obtain ⟨h1, h2⟩ := loadAxis_new (T := T) c known objs hl p a (hc _ List.mem_cons_self) hp ((saveTuple c (known ++ [.axis p]) l).2 ++ rest)
      rw [h1, h2, Outcome.bind_ok]
      simp only
      have hbad : ¬ ((l.map Prod.fst).Nodup ∧ ∀ x ∈ l, Key.axis x.1 ∉ known ++ [Key.axis p]) := by
        rintro ⟨h3, h4⟩
        apply h
        rw [List.map_cons, List.nodup_cons]
        refine ⟨⟨fun hm => ?_, h3⟩, fun y hy => ?_⟩
        · obtain ⟨y, hy, e⟩ := List.mem_map.1 hm
          exact h4 y hy (by simp [e])
        · rcases List.mem_cons.1 hy with rfl | hy
          · exact hp
          · exact fun hm => h4 y hy (List.mem_append_left _ hm)
      have := ih (known ++ [Key.axis p]) (objs ++ [Obj.deleted]) (by simp [hl]) (fun y hy => hc y (List.mem_cons_of_mem _ hy)) hbad rest
      rw [this]
      rfl

/-- What the storing archive knows and what the loading archive has: the same numbers, with the grids where grids were stored. -/
structure Agree (ws : List (Write V T)) (known : List Key) (objs : List (Obj V T)) : Prop where
  length : objs.length = known.length
  grids : ∀ (i : Nat) (p : Nat), known[i]? = some (.grid p) → ∃ w ∈ ws, w.address = p ∧ objs[i]? = some (.grid w.axes w.cells)

theorem zip_facts {w : Write V T} {n : Nat} (h1 : w.axes.length = n) (h2 : w.places.length = n) :
    (w.places.zip w.axes).reverse.length = n ∧ ((w.places.zip w.axes).reverse.map Prod.snd).reverse = w.axes ∧ (w.places.zip w.axes).reverse.map Prod.fst = w.places.reverse := by
  refine ⟨by simp [h1, h2], ?_, ?_⟩
  · rw [List.map_reverse, List.reverse_reverse, List.map_snd_zip (by omega)]
  · rw [List.map_reverse, List.map_fst_zip (by omega)]

theorem mem_zip_places {w : Write V T} {n : Nat} (h1 : w.axes.length = n) (h2 : w.places.length = n) (known : List Key) :
    (∀ x ∈ (w.places.zip w.axes).reverse, .axis x.1 ∉ known) ↔ ∀ p ∈ w.places, .axis p ∉ known := by
  have e := (zip_facts h1 h2).2.2
  constructor
  · intro h p hp
    rw [← List.mem_reverse, ← e] at hp
    obtain ⟨x, hx, rfl⟩ := List.mem_map.1 hp
    exact h x hx
  · intro h x hx
    apply h
    rw [← List.mem_reverse, ← e]
    exact List.mem_map_of_mem hx

/-- All statements, from any state. -/
theorem loadAll_exact (c : Codec A V) (cc : Codec A T) (n : Nat) (all : List (Write V T)) (hs : Sound c cc n all) : ∀ (ws : List (Write V T)), (∀ w ∈ ws, w ∈ all) → ∀ (known : List Key) (objs : List (Obj V T)) (seen : List Nat),
    Agree all known objs → (∀ p, p ∈ seen ↔ .grid p ∈ known) → ∀ rest,
    ((((storing seen ws).flatMap Write.places).Nodup ∧ ∀ p ∈ (storing seen ws).flatMap Write.places, .axis p ∉ known) →
      loadAll c cc n ws.length objs (saveAll c cc known ws ++ rest) = .ok (ws.map fun w => (w.axes, w.cells), rest)) ∧
    (¬ (((storing seen ws).flatMap Write.places).Nodup ∧ ∀ p ∈ (storing seen ws).flatMap Write.places, .axis p ∉ known) →
      loadAll c cc n ws.length objs (saveAll c cc known ws ++ rest) = .ub) := by
  intro ws
  induction ws with
  | nil =>
    intro _ known objs seen _ _ rest
    refine ⟨fun _ => by simp [loadAll, saveAll], fun h => absurd ⟨by simp [storing], by simp [storing]⟩ h⟩
  | cons w ws ih =>
    intro hw known objs seen ha hseen rest
    have hmem := hw w List.mem_cons_self
    rw [List.length_cons, loadAll, saveAll, List.append_assoc]
    simp only
    by_cases hk : Key.grid w.address ∈ known
    · obtain ⟨i, e, hi⟩ := idxOf?_some hk
      obtain ⟨w', hw', e1, e2⟩ := ha.grids i _ hi
      obtain ⟨s1, s2⟩ := hs.same w' hw' w hmem e1
      have hsave : saveGrid c cc known w = (known, [.ptr, .num i]) := by rw [saveGrid, e]
      have hload : ∀ r, loadGrid c cc n objs ([Tok.ptr, .num i] ++ r) = .ok ((w.axes, w.cells), objs, r) := by
        intro r
        simp only [List.cons_append, List.nil_append]
        rw [loadGrid, getMark_ptr, Outcome.bind_ok, getNum, Outcome.bind_ok]
        simp only
        rw [e2, s1, s2]
      have hst : storing seen (w :: ws) = storing seen ws := by rw [storing, if_pos ((hseen _).2 hk)]
      rw [hsave, hload, Outcome.bind_ok, hst]
      simp only
      obtain ⟨i1, i2⟩ := ih (fun x hx => hw x (List.mem_cons_of_mem _ hx)) known objs seen ha hseen rest
      exact ⟨fun h => by rw [i1 h]; rfl, fun h => by rw [i2 h]; rfl⟩
    · have hst : storing seen (w :: ws) = w :: storing (w.address :: seen) ws := by rw [storing, if_neg (fun h => hk ((hseen _).1 h))]
      have hax := hs.axes w hmem
      have hpl := hs.places w hmem
      obtain ⟨z1, z2, z3⟩ := zip_facts hax hpl
      have hkn : ∀ x ∈ (w.places.zip w.axes).reverse, ∀ v ∈ x.2.values, Comes c v := by
        intro x hx
        exact hs.knots w hmem _ (List.of_mem_zip (List.mem_reverse.1 hx)).2
      have hlen : (objs ++ [Obj.deleted]).length = (known ++ [Key.grid w.address]).length := by simp [ha.length]
      have hax' : ∀ p, Key.axis p ∉ known ++ [Key.grid w.address] ↔ Key.axis p ∉ known := by intro p; simp
      have hgood : (((w.places.zip w.axes).reverse.map Prod.fst).Nodup ∧ ∀ x ∈ (w.places.zip w.axes).reverse, Key.axis x.1 ∉ known ++ [Key.grid w.address]) ↔ w.places.Nodup ∧ ∀ p ∈ w.places, Key.axis p ∉ known := by
        rw [mem_zip_places hax hpl, z3, List.nodup_reverse]
        simp only [hax']
      have hsave : saveGrid c cc known w = ((saveTuple c (known ++ [.grid w.address]) (w.places.zip w.axes).reverse).1,
          .ptr :: .num known.length :: (saveTuple c (known ++ [.grid w.address]) (w.places.zip w.axes).reverse).2 ++ w.cells.flatMap cc.put) := by
        rw [saveGrid, idxOf?_none hk]
      have hload : ∀ r, loadGrid c cc n objs ((saveGrid c cc known w).2 ++ r) = (do
          let (axes, objs', ts) ← loadTuple c n (objs ++ [.deleted]) ((saveTuple c (known ++ [.grid w.address]) (w.places.zip w.axes).reverse).2 ++ (w.cells.flatMap cc.put ++ r))
          let (cells, ts) ← getMany cc (cellCount axes) ts
          return ((axes, cells), objs'.set objs.length (.grid axes cells), ts)) := by
        intro r
        rw [hsave]
        simp only [List.cons_append, List.append_assoc]
        rw [loadGrid, getMark_ptr, Outcome.bind_ok, getNum, Outcome.bind_ok]
        simp only
        rw [List.getElem?_eq_none (by rw [ha.length])]
      rw [hst, List.flatMap_cons, List.nodup_append]
      by_cases hg : w.places.Nodup ∧ ∀ p ∈ w.places, Key.axis p ∉ known
      · obtain ⟨g1, g2⟩ := hgood.2 hg
        obtain ⟨t1, t2⟩ := loadTuple_new (T := T) c _ _ _ hlen hkn g1 g2 (w.cells.flatMap cc.put ++ (saveAll c cc (saveGrid c cc known w).1 ws ++ rest))
        rw [z1, z2] at t2
        rw [hload, t2, Outcome.bind_ok]
        simp only
        rw [← hs.cells w hmem, getMany_ok cc w.cells (hs.values w hmem), Outcome.bind_ok]
        simp only [Outcome.pure_eq, Outcome.bind_ok]
        have hknown : (saveGrid c cc known w).1 = known ++ [.grid w.address] ++ (w.places.zip w.axes).reverse.map (fun x => .axis x.1) := by rw [hsave]; exact t1
        have hin : ∀ p, Key.axis p ∈ (saveGrid c cc known w).1 ↔ Key.axis p ∈ known ∨ p ∈ w.places := by
          intro p
          have e : p ∈ w.places ↔ ∃ x ∈ (w.places.zip w.axes).reverse, x.1 = p := by
            rw [← List.mem_reverse, ← z3, List.mem_map]
          rw [hknown, e]
          simp only [List.mem_append, List.mem_map, Key.axis.injEq, List.mem_singleton, reduceCtorEq, or_false]
        have hgr : ∀ p, Key.grid p ∈ (saveGrid c cc known w).1 ↔ Key.grid p ∈ known ∨ p = w.address := by
          intro p
          rw [hknown]
          simp
        have hagree : Agree all (saveGrid c cc known w).1 ((objs ++ [Obj.deleted] ++ (w.places.zip w.axes).reverse.map (fun _ => Obj.deleted)).set objs.length (.grid w.axes w.cells)) := by
          constructor
          · rw [hknown]
            simp only [List.length_set, List.length_append, List.length_map, ha.length, List.length_singleton]
          · intro i p hi
            rw [hknown] at hi
            by_cases h1 : i < known.length
            · rw [List.append_assoc, List.getElem?_append_left h1] at hi
              obtain ⟨w', a1, a2, a3⟩ := ha.grids i p hi
              refine ⟨w', a1, a2, ?_⟩
              rw [List.getElem?_set_ne (by rw [ha.length]; omega), List.append_assoc, List.getElem?_append_left (by rw [ha.length]; omega), a3]
            · by_cases h2 : i = known.length
              · subst h2
                rw [List.append_assoc, List.getElem?_append_right (le_refl _)] at hi
                simp only [Nat.sub_self, List.singleton_append, List.getElem?_cons_zero, Option.some.injEq, Key.grid.injEq] at hi
                refine ⟨w, hmem, hi, ?_⟩
                rw [← ha.length, List.getElem?_set_self (by simp)]
              · rw [List.getElem?_append_right (by simp; omega), List.getElem?_map] at hi
                cases hz : (w.places.zip w.axes).reverse[i - (known ++ [Key.grid w.address]).length]? with
                | none => rw [hz] at hi; cases hi
                | some y => rw [hz] at hi; cases hi
        obtain ⟨i1, i2⟩ := ih (fun x hx => hw x (List.mem_cons_of_mem _ hx)) _ _ (w.address :: seen) hagree (fun p => by
          rw [hgr, List.mem_cons, hseen, or_comm]) rest
        have hiff : ((w.places.Nodup ∧ ((storing (w.address :: seen) ws).flatMap Write.places).Nodup ∧ ∀ a ∈ w.places, ∀ b ∈ (storing (w.address :: seen) ws).flatMap Write.places, a ≠ b) ∧
              ∀ p ∈ w.places ++ (storing (w.address :: seen) ws).flatMap Write.places, Key.axis p ∉ known) ↔
            (((storing (w.address :: seen) ws).flatMap Write.places).Nodup ∧ ∀ p ∈ (storing (w.address :: seen) ws).flatMap Write.places, Key.axis p ∉ (saveGrid c cc known w).1) := by
          constructor
          · rintro ⟨⟨b1, b2, b3⟩, b4⟩
            refine ⟨b2, fun p hp hm => ?_⟩
            rcases (hin p).1 hm with hm | hm
            · exact b4 p (List.mem_append_right _ hp) hm
            · exact b3 p hm p hp rfl
          · rintro ⟨b1, b2⟩
            refine ⟨⟨hg.1, b1, fun a ha' b hb e => b2 b hb ((hin b).2 (.inr (e ▸ ha')))⟩, fun p hp => ?_⟩
            rcases List.mem_append.1 hp with hp | hp
            · exact hg.2 p hp
            · exact fun hm => b2 p hp ((hin p).2 (.inl hm))
        rw [hiff]
        exact ⟨fun h => by rw [i1 h]; rfl, fun h => by rw [i2 h]; rfl⟩
      · constructor
        · rintro ⟨⟨b1, _, _⟩, b4⟩
          exact absurd ⟨b1, fun p hp => b4 p (List.mem_append_left _ hp)⟩ hg
        · intro _
          have := loadTuple_known (T := T) c _ _ _ hlen hkn (fun h => hg (hgood.1 h)) (w.cells.flatMap cc.put ++ (saveAll c cc (saveGrid c cc known w).1 ws ++ rest))
          rw [z1] at this
          rw [hload, this]
          rfl

/-- **C171 (several grids).** The grids that were stored in one archive come back if the axes of different grids were at different addresses when they were stored; a grid that was stored twice comes back
twice. Otherwise the loading reads a deleted axis. -/
theorem C171_exact (c : Codec A V) (cc : Codec A T) (n : Nat) (ws : List (Write V T)) (hs : Sound c cc n ws) (rest : List (Tok A)) :
    (NoReuse ws → loadAll c cc n ws.length [] (saveAll c cc [] ws ++ rest) = .ok (ws.map fun w => (w.axes, w.cells), rest)) ∧
    (¬ NoReuse ws → loadAll c cc n ws.length [] (saveAll c cc [] ws ++ rest) = .ub) := by
  obtain ⟨h1, h2⟩ := loadAll_exact c cc n ws hs ws (fun _ h => h) [] [] [] ⟨rfl, by simp⟩ (by simp) rest
  exact ⟨fun h => h1 ⟨h, by simp⟩, fun h => h2 fun h' => h h'.1⟩

/-- **C171 (one grid).** One grid in an archive, as `gridExport` stores it, always comes back: the elements of one tuple are at different addresses. Missing are several grids in one archive:
`C171_reuse_violated`. -/
theorem C171_single_partial (c : Codec A V) (cc : Codec A T) (w : Write V T) (hp : w.places.Nodup) (hl : w.places.length = w.axes.length) (hc : w.cells.length = cellCount w.axes)
    (hk : ∀ a ∈ w.axes, ∀ v ∈ a.values, Comes c v) (hv : ∀ x ∈ w.cells, Comes cc x) (rest : List (Tok A)) :
    loadAll c cc w.axes.length 1 [] (saveAll c cc [] [w] ++ rest) = .ok ([(w.axes, w.cells)], rest) := by
  have hs : Sound c cc w.axes.length [w] := by
    constructor
    all_goals simp only [List.mem_singleton]
    · rintro _ rfl; rfl
    · rintro _ rfl; exact hl
    · rintro _ rfl; exact hc
    · rintro _ rfl; exact hk
    · rintro _ rfl; exact hv
    · rintro _ rfl _ rfl _; exact ⟨rfl, rfl⟩
  exact (C171_exact c cc _ [w] hs rest).1 (by simpa [NoReuse, storing] using hp)

/-- The full statement: grids stored in one archive come back, wherever the local tuples are. -/
def C171_full : Prop :=
  ∀ (n : Nat) (ws : List (Write Int Int)), Sound (A := Int) plain plain n ws → (∀ w ∈ ws, w.places.Nodup) →
    loadAll (A := Int) plain plain n ws.length [] (saveAll plain plain [] ws) = .ok (ws.map fun w => (w.axes, w.cells), [])

/-- Two grids with one axis each. -/
def trackTwo (place : Nat) : List (Write Int Int) := [⟨100, [⟨"x", [1, 2]⟩], [5, 6], [7]⟩, ⟨200, [⟨"y", [3]⟩], [8], [place]⟩]

theorem trackTwo_sound (place : Nat) : Sound (A := Int) plain plain 1 (trackTwo place) := by
  constructor
  · simp [trackTwo]
  · simp [trackTwo]
  · simp only [trackTwo, List.forall_mem_cons]; exact ⟨by decide, by decide, by simp⟩
  · intro w _ a _ v _ rest; rfl
  · intro w _ x _ rest; rfl
  · simp [trackTwo]

/-- **C171 is violated**: `archive << p1 << p2` calls the same function twice from one place, and the local tuple is on the stack at one address both times. -/
theorem C171_reuse_violated : ¬ C171_full := by
  intro h
  have h1 := h 1 (trackTwo 7) (trackTwo_sound 7) (by simp [trackTwo])
  have h2 := (C171_exact (A := Int) plain plain 1 (trackTwo 7) (trackTwo_sound 7) []).2 (by simp [NoReuse, storing, trackTwo])
  rw [List.append_nil, h1] at h2
  cases h2

example : NoReuse (trackTwo 9) ∧ ¬ NoReuse (trackTwo 7) := by simp [NoReuse, storing, trackTwo]
example : saveAll (A := Int) plain plain [] (trackTwo 7) =
    [.ptr, .num 0, .ptr, .num 1, .text ['x'], .num 2, .atom 1, .atom 2, .atom 5, .atom 6, .ptr, .num 2, .ptr, .num 1, .atom 8] := by decide +kernel
/-- One grid stored twice. -/
example : saveAll (A := Int) plain plain [] [⟨100, [⟨"x", [1, 2]⟩], [5, 6], [7]⟩, ⟨100, [⟨"x", [1, 2]⟩], [5, 6], [7]⟩] =
    [.ptr, .num 0, .ptr, .num 1, .text ['x'], .num 2, .atom 1, .atom 2, .atom 5, .atom 6, .ptr, .num 0] := by decide +kernel

end Alexandria.Grid.Archive
