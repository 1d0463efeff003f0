import Verif.Catalog.RowModel
import Verif.Catalog.CatProps

/-!
# C172: the rows of the sources of a catalogue
-/

namespace Alexandria.Catalog

open Alexandria.Str Alexandria.Table

variable {F D A : Type}

theorem keepRow_ok {r : RowT F D} {a : Option (RowAttr F D A)} (h : keepRow r = .ok a) : a = some (.row r) := by
  cases h; rfl

theorem otherMaker_ok {m : RowT F D → Res (Option A)} {r : RowT F D} {a : Option (RowAttr F D A)} (h : otherMaker m r = .ok a) : a.bind asRow = none := by
  unfold otherMaker at h
  cases hm : m r with
  | ok x =>
    rw [hm] at h
    cases h
    cases x <;> rfl
  | throw e => rw [hm] at h; cases h
  | ub => rw [hm] at h; cases h

/-- The handlers: those of other types before, the one of the row, and any after it. -/
def withRow (before : List (RowT F D → Res (Option A))) (after : List (RowT F D → Res (Option (RowAttr F D A)))) : List (RowT F D → Res (Option (RowAttr F D A))) :=
  before.map otherMaker ++ keepRow :: after

theorem row_of (r : RowT F D) : ∀ (before : List (RowT F D → Res (Option A))) (after : List (RowT F D → Res (Option (RowAttr F D A)))) (l : List (Option (RowAttr F D A))),
    List.Forall₂ (fun m a => m r = .ok a) (withRow before after) l → getAttribute asRow l = some r
  | [], after, _, h => by
    cases h with
    | cons h _ => rw [getAttribute, keepRow_ok h]; rfl
  | m :: before, after, _, h => by
    cases h with
    | cons h t => rw [getAttribute, otherMaker_ok h]; exact row_of r before after _ t

/-- **C172 (the sources in order).** The rows of the sources of a catalogue are the rows of the table, in their order. -/
theorem C172_rows (info : Info) (idColumn : Bytes) (before : List (RowT F D → Res (Option A))) (after : List (RowT F D → Res (Option (RowAttr F D A)))) (f : FromTable F D (RowAttr F D A))
    (hf : mkFromTable info idColumn (withRow before after) = .ok f) (t : TableT F D) (c : Cat (RowAttr F D A)) (hc : f.create t = .ok c) :
    c.sources.map Source.row = t.rows.map some := by
  obtain ⟨i, _, h, _⟩ := (C99_create info idColumn _ f hf t c.sources).1 ⟨c, hc, rfl⟩
  generalize c.sources = l at h
  generalize t.rows = rows at h
  induction h with
  | nil => rfl
  | cons h _ ih => rw [List.map_cons, List.map_cons, ih, Source.row, row_of _ _ _ _ h.2]

/-- **C172 (finding a row).** The source with an id has the only row of the table with this id, and an id of a row is found. -/
theorem C172_find (info : Info) (idColumn : Bytes) (before : List (RowT F D → Res (Option A))) (after : List (RowT F D → Res (Option (RowAttr F D A)))) (f : FromTable F D (RowAttr F D A))
    (hf : mkFromTable info idColumn (withRow before after) = .ok f) (t : TableT F D) (c : Cat (RowAttr F D A)) (hc : f.create t = .ok c) (id : Id) (r : RowT F D) :
    (∃ s, c.find id = .ok (some s) ∧ s.row = some r) ↔ r ∈ t.rows ∧ ∃ i x, findColumn info idColumn = some i ∧ r.values[i]? = some x ∧ IdOf x id := by
  obtain ⟨i, hi, h, hn⟩ := (C99_create info idColumn _ f hf t c.sources).1 ⟨c, hc, rfl⟩
  have hcat : ∃ ss, mkCat ss = .ok c := by
    unfold FromTable.create at hc
    cases hs : sourcesLoop f t.rows with
    | ok ss => rw [hs] at hc; exact ⟨ss, hc⟩
    | throw e => rw [hs] at hc; cases hc
    | ub => rw [hs] at hc; cases hc
  obtain ⟨ss, hss⟩ := hcat
  have hnd : (ss.map Source.id).Nodup := by
    by_contra hno
    rw [C50_throws ss hno] at hss
    cases hss
  obtain ⟨c', e1, e2, _, e4, e5⟩ := C50_find ss hnd
  rw [hss] at e1
  cases e1
  subst e2
  constructor
  · rintro ⟨s, h1, h2⟩
    have hs : s ∈ c.sources ∧ s.id = id := by
      by_cases hex : ∃ s' ∈ c.sources, s'.id = id
      · obtain ⟨s', hs', rfl⟩ := hex
        rw [e4 s' hs'] at h1
        cases h1
        exact ⟨hs', rfl⟩
      · push Not at hex
        rw [e5 id hex] at h1
        cases h1
    obtain ⟨hs, rfl⟩ := hs
    obtain ⟨k, hk, rfl⟩ := List.getElem_of_mem hs
    have hk' : k < t.rows.length := by rw [h.length_eq]; exact hk
    have hso := h.get hk' hk
    obtain ⟨⟨x, hx, hid⟩, ha⟩ := hso
    have hr : t.rows[k] = r := by
      rw [Source.row] at h2
      have := row_of _ _ _ _ ha
      simp only [List.get_eq_getElem] at this
      rw [this] at h2
      exact Option.some.inj h2
    refine ⟨hr ▸ List.getElem_mem hk', i, x, hi, ?_, hid⟩
    rw [← hr]; exact hx
  · rintro ⟨hr, j, x, hj, hx, hid⟩
    rw [hi] at hj
    cases hj
    obtain ⟨k, hk, rfl⟩ := List.getElem_of_mem hr
    have hk' : k < c.sources.length := by rw [← h.length_eq]; exact hk
    obtain ⟨⟨y, hy, hid'⟩, ha⟩ := h.get hk hk'
    simp only [List.get_eq_getElem] at hy hid' ha
    rw [hx] at hy
    cases hy
    have e : c.sources[k].id = id := by
      have h1 := (castId_iff _ _).2 hid
      rw [(castId_iff _ _).2 hid'] at h1
      exact Outcome.ok.inj h1
    exact ⟨c.sources[k], e ▸ e4 _ (List.getElem_mem hk'), row_of _ _ _ _ ha⟩

/-- **C172 (other attributes).** The handlers of other attributes make theirs as without the row: the attribute at the place of a handler is what it makes of the row. -/
theorem C172_others (info : Info) (idColumn : Bytes) (before : List (RowT F D → Res (Option A))) (after : List (RowT F D → Res (Option (RowAttr F D A)))) (f : FromTable F D (RowAttr F D A))
    (hf : mkFromTable info idColumn (withRow before after) = .ok f) (t : TableT F D) (c : Cat (RowAttr F D A)) (hc : f.create t = .ok c) (k : Nat) (r : RowT F D)
    (s : Source (RowAttr F D A)) (hr : t.rows[k]? = some r) (hs : c.sources[k]? = some s) (j : Nat) (m : RowT F D → Res (Option A)) (hm : before[j]? = some m) :
    ∃ a, m r = .ok a ∧ s.attributes[j]? = some (a.map .other) := by
  obtain ⟨i, _, h, _⟩ := (C99_create info idColumn _ f hf t c.sources).1 ⟨c, hc, rfl⟩
  obtain ⟨hk, rfl⟩ := List.getElem?_eq_some_iff.mp hr
  obtain ⟨hk', rfl⟩ := List.getElem?_eq_some_iff.mp hs
  obtain ⟨hj, rfl⟩ := List.getElem?_eq_some_iff.mp hm
  have ha := (h.get hk hk').2
  simp only [List.get_eq_getElem] at ha
  have hj1 : j < (withRow before after).length := by simp [withRow]; omega
  have hj2 : j < c.sources[k].attributes.length := by rw [← ha.length_eq]; exact hj1
  have e := ha.get hj1 hj2
  simp only [List.get_eq_getElem] at e
  have e1 : (withRow before after)[j] = otherMaker before[j] := by
    simp only [withRow]
    rw [List.getElem_append_left (by simpa using hj), List.getElem_map]
  rw [e1, otherMaker] at e
  cases hx : before[j] t.rows[k] with
  | ok x =>
    rw [hx] at e
    refine ⟨x, rfl, ?_⟩
    rw [List.getElem?_eq_getElem hj2, ← Outcome.ok.inj e]
  | throw e' => rw [hx] at e; cases e
  | ub => rw [hx] at e; cases e

/-- A handler of the lengths of rows, and the row. -/
def exRowCat : Res (Cat (RowAttr Unit Unit Nat)) := do
  let f ← mkFromTable (F := Unit) (D := Unit) [⟨"x".toList, .str, [], []⟩, ⟨"id".toList, .scalar .i64, [], []⟩] "id".toList (withRow [fun row => .ok (some row.values.length), fun _ => .ok none] [keepRow])
  f.create ⟨[⟨[.str "a".toList, .scalar .i64 7], []⟩, ⟨[.str "b".toList, .scalar .i64 8], []⟩], []⟩

example : (match exRowCat with
    | .ok c => (match c.find (.num 8) with
      | .ok (some s) => (match s.row with
        | some r => (match r.values.head? with | some (.str b) => b == "b".toList | _ => false)
        | none => false)
      | _ => false)
    | _ => false) = true := by decide +kernel

end Alexandria.Catalog
