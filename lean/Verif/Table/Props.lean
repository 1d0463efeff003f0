import Verif.Table.Model
import Mathlib.Data.List.Nodup
import Mathlib.Data.List.Forall2

/-!
# Columns, rows and tables are well formed (C45)
-/

namespace Alexandria.Table

open Alexandria.Str

variable {F D : Type}

/-! ## Specification -/

/-- A text without line breaks (line feed, vertical tab, form feed, carriage return). -/
def OneLine (s : Bytes) : Prop := ∀ c ∈ s, ¬ (10 ≤ c.toNat ∧ c.toNat ≤ 13)

/-- A well formed list of columns. -/
def GoodInfo (info : Info) : Prop := info ≠ [] ∧ (info.map Desc.name).Nodup

/-- A column that can be constructed. -/
def GoodDesc (d : Desc) : Prop := d.name ≠ [] ∧ OneLine d.name

/-- A well formed row for a list of columns. -/
def GoodCells (info : Info) (values : List (Cell F D)) : Prop :=
  List.Forall₂ (fun v d => v.type = d.type) values info ∧ ∀ s, Cell.str s ∈ values → s ≠ [] ∧ OneLine s

/-- The columns of two lists agree, whatever their descriptions. -/
def Agree (a b : Info) : Prop := a.map (fun d => (d.name, d.type, d.unit)) = b.map (fun d => (d.name, d.type, d.unit))

/-! ## Lemmas -/

theorem hasVertical_iff (s : Bytes) : hasVertical s = false ↔ OneLine s := by
  simp [hasVertical, OneLine, isVertical]

theorem uniqueLoop_iff (l : List Bytes) : ∀ set : List Bytes, uniqueLoop l set = .ok () ↔ l.Nodup ∧ ∀ n ∈ l, n ∉ set := by
  induction l with
  | nil => intro set; simp [uniqueLoop]
  | cons n l ih =>
    intro set
    rw [uniqueLoop]
    by_cases h : n ∈ set
    · rw [if_pos (by simpa using h)]; simp [h]
    · rw [if_neg (by simpa using h), ih]
      simp only [List.nodup_cons, List.mem_cons, not_or]
      constructor
      · rintro ⟨h1, h2⟩
        exact ⟨⟨fun h' => (h2 n h').1 rfl, h1⟩, fun m hm => by
          rcases hm with rfl | hm
          · exact h
          · exact (h2 m hm).2⟩
      · rintro ⟨⟨h1, h2⟩, h3⟩
        exact ⟨h2, fun m hm => ⟨fun e => h1 (e ▸ hm), h3 m (Or.inr hm)⟩⟩

theorem uniqueLoop_out (l : List Bytes) : ∀ set : List Bytes, uniqueLoop l set = .ok () ∨ uniqueLoop l set = .throw .elements := by
  induction l with
  | nil => intro set; exact Or.inl rfl
  | cons n l ih =>
    intro set
    rw [uniqueLoop]
    by_cases h : set.contains n = true
    · rw [if_pos h]; exact Or.inr rfl
    · rw [if_neg h]; exact ih _

theorem typesLoop_iff (vs : List (Cell F D)) : ∀ ds : List Desc, vs.length = ds.length →
    (typesLoop vs ds = .ok () ↔ List.Forall₂ (fun v d => v.type = d.type) vs ds) := by
  induction vs with
  | nil => intro ds h; cases ds <;> simp_all [typesLoop]
  | cons v vs ih =>
    intro ds h
    cases ds with
    | nil => simp at h
    | cons d ds =>
      rw [typesLoop, List.forall₂_cons]
      by_cases e : v.type = d.type
      · rw [if_neg (by simpa using e), ih ds (by simpa using h)]; simp [e]
      · rw [if_pos e]; simp [e]

theorem typesLoop_out (vs : List (Cell F D)) : ∀ ds : List Desc, typesLoop vs ds = .ok () ∨ typesLoop vs ds = .throw .elements := by
  induction vs with
  | nil => intro ds; left; cases ds <;> rfl
  | cons v vs ih =>
    intro ds
    cases ds with
    | nil => exact Or.inr rfl
    | cons d ds =>
      rw [typesLoop]
      by_cases e : v.type = d.type
      · rw [if_neg (by simpa using e)]; exact ih ds
      · rw [if_pos e]; exact Or.inr rfl

theorem stringsLoop_iff (vs : List (Cell F D)) : stringsLoop vs = .ok () ↔ ∀ s, Cell.str s ∈ vs → s ≠ [] ∧ OneLine s := by
  induction vs with
  | nil => simp [stringsLoop]
  | cons v vs ih =>
    cases v with
    | str s =>
      rw [stringsLoop]
      by_cases h1 : s = []
      · rw [if_pos h1]; simp [h1]
      · rw [if_neg h1]
        by_cases h2 : hasVertical s = true
        · rw [if_pos h2]
          have : ¬ OneLine s := fun h => by rw [(hasVertical_iff s).2 h] at h2; exact absurd h2 (by simp)
          simp [h1, this]
        · rw [if_neg h2, ih]
          have : OneLine s := (hasVertical_iff s).1 (by simpa using h2)
          constructor
          · intro h t ht
            rcases List.mem_cons.1 ht with e | ht
            · cases e; exact ⟨h1, this⟩
            · exact h t ht
          · intro h t ht; exact h t (List.mem_cons_of_mem _ ht)
    | scalar _ _ => rw [stringsLoop, ih]; simp; intro s; simp
    | vec _ _ => rw [stringsLoop, ih]; simp; intro s; simp
    | nd _ _ _ => rw [stringsLoop, ih]; simp; intro s; simp

theorem stringsLoop_out (vs : List (Cell F D)) : stringsLoop vs = .ok () ∨ stringsLoop vs = .throw .elements := by
  induction vs with
  | nil => exact Or.inl rfl
  | cons v vs ih =>
    cases v with
    | str s =>
      rw [stringsLoop]
      by_cases h1 : s = []
      · rw [if_pos h1]; exact Or.inr rfl
      · rw [if_neg h1]
        by_cases h2 : hasVertical s = true
        · rw [if_pos h2]; exact Or.inr rfl
        · rw [if_neg h2]; exact ih
    | scalar _ _ => exact ih
    | vec _ _ => exact ih
    | nd _ _ _ => exact ih

theorem sameInfo_iff (a b : Info) : sameInfo a b = true ↔ Agree a b := by
  induction a generalizing b with
  | nil => cases b <;> simp [sameInfo, Agree]
  | cons x a ih =>
    cases b with
    | nil => simp [sameInfo, Agree]
    | cons y b =>
      have := ih b
      simp only [sameInfo, Agree, Desc.same, List.length_cons, List.zip_cons_cons, List.all_cons, Bool.and_eq_true, beq_iff_eq, List.map_cons, List.cons.injEq, Prod.mk.injEq, Nat.add_right_cancel_iff] at this ⊢
      rw [← this]
      tauto

theorem columnsLoop_iff (info : Info) (rs : List (RowT F D)) : columnsLoop info rs = .ok () ↔ ∀ r ∈ rs, Agree r.info info := by
  induction rs with
  | nil => simp [columnsLoop]
  | cons r rs ih =>
    rw [columnsLoop]
    by_cases h : sameInfo r.info info = true
    · rw [if_pos h, ih]; simp [(sameInfo_iff _ _).1 h]
    · rw [if_neg h]; simp [mt (sameInfo_iff _ _).2 h]

theorem columnsLoop_out (info : Info) (rs : List (RowT F D)) : columnsLoop info rs = .ok () ∨ columnsLoop info rs = .throw .elements := by
  induction rs with
  | nil => exact Or.inl rfl
  | cons r rs ih =>
    rw [columnsLoop]
    by_cases h : sameInfo r.info info = true
    · rw [if_pos h]; exact ih
    · rw [if_neg h]; exact Or.inr rfl

theorem mkDesc_iff (n : Bytes) (t : CType) (u d : Bytes) : mkDesc n t u d = .ok ⟨n, t, u, d⟩ ↔ n ≠ [] ∧ OneLine n := by
  rw [mkDesc]
  by_cases h1 : n = []
  · rw [if_pos h1]; simp [h1]
  · rw [if_neg h1]
    by_cases h2 : hasVertical n = true
    · rw [if_pos h2]
      have : ¬ OneLine n := fun h => by rw [(hasVertical_iff n).2 h] at h2; exact absurd h2 (by simp)
      simp [this]
    · rw [if_neg h2]; simp [h1, (hasVertical_iff n).1 (by simpa using h2)]

theorem mkInfo_iff (l : List Desc) : mkInfo l = .ok l ↔ GoodInfo l := by
  rw [mkInfo, GoodInfo]
  by_cases h : l = []
  · rw [if_pos h]; simp [h]
  · rw [if_neg h]
    rcases uniqueLoop_out (l.map Desc.name) [] with e | e
    · have := (uniqueLoop_iff _ _).1 e
      rw [e]; simp [h, this.1]
    · have : ¬ (l.map Desc.name).Nodup := fun hn => by
        have := (uniqueLoop_iff (l.map Desc.name) []).2 ⟨hn, by simp⟩
        rw [e] at this; cases this
      rw [e]; simp [this]

theorem mkRow_iff (vs : List (Cell F D)) (info : Info) : mkRow vs (some info) = .ok ⟨vs, info⟩ ↔ GoodCells info vs := by
  rw [mkRow, GoodCells]
  by_cases h : vs.length = info.length
  · simp only [ne_eq, h, not_true_eq_false, if_false]
    rcases typesLoop_out vs info with e | e <;> rcases stringsLoop_out vs with e' | e'
    · rw [e, e']; simp [(typesLoop_iff vs info h).1 e]; exact (stringsLoop_iff vs).1 e'
    · rw [e, e']
      have : ¬ _ := mt (stringsLoop_iff vs).2 (by rw [e']; simp)
      simp only [Outcome.bind_ok, Outcome.bind_throw, reduceCtorEq, false_iff, not_and]
      exact fun _ => this
    · rw [e]
      have : ¬ _ := mt (typesLoop_iff vs info h).2 (by rw [e]; simp)
      simp [this]
    · rw [e]
      have : ¬ _ := mt (typesLoop_iff vs info h).2 (by rw [e]; simp)
      simp [this]
  · rw [if_pos h]
    have : ¬ List.Forall₂ (fun (v : Cell F D) (d : Desc) => v.type = d.type) vs info := fun hf => h hf.length_eq
    simp [this]

/-! ## C45 -/

/-- A column is constructed exactly if its name is a non-empty line. -/
theorem C45_description (n : Bytes) (t : CType) (u d : Bytes) :
    (n ≠ [] ∧ OneLine n → mkDesc n t u d = .ok ⟨n, t, u, d⟩) ∧ (¬ (n ≠ [] ∧ OneLine n) → mkDesc n t u d = .throw .elements) := by
  refine ⟨(mkDesc_iff n t u d).2, fun h => ?_⟩
  rw [mkDesc]
  by_cases h1 : n = []
  · rw [if_pos h1]
  · rw [if_neg h1]
    by_cases h2 : hasVertical n = true
    · rw [if_pos h2]
    · exact absurd ⟨h1, (hasVertical_iff n).1 (by simpa using h2)⟩ h

example : mkDesc "z spec".toList (.scalar .f64) [] [] = .ok ⟨"z spec".toList, .scalar .f64, [], []⟩ :=
  (C45_description _ _ _ _).1 ⟨by decide, (hasVertical_iff _).1 (by decide)⟩
example : mkDesc "a\nb".toList .str [] [] = .throw .elements := by decide

/-- A list of columns is accepted exactly if it is not empty and no name occurs twice. -/
theorem C45_info (l : List Desc) : (GoodInfo l → mkInfo l = .ok l) ∧ (¬ GoodInfo l → mkInfo l = .throw .elements) := by
  refine ⟨(mkInfo_iff l).2, fun h => ?_⟩
  rw [mkInfo]
  by_cases h1 : l = []
  · rw [if_pos h1]
  · rw [if_neg h1]
    rcases uniqueLoop_out (l.map Desc.name) [] with e | e
    · exact absurd ⟨h1, ((uniqueLoop_iff _ _).1 e).1⟩ h
    · rw [e]; rfl

example : GoodInfo [⟨['a'], .str, [], []⟩, ⟨['b'], .str, [], []⟩] := ⟨by decide, by decide⟩
example : mkInfo [⟨['a'], .str, [], []⟩, ⟨['a'], .scalar .i32, [], []⟩] = .throw .elements := by decide

/-- A row is constructed exactly if it has one cell of the declared type for each column and its strings are non-empty lines. -/
theorem C45_row (vs : List (Cell F D)) (info : Info) :
    (GoodCells info vs → mkRow vs (some info) = .ok ⟨vs, info⟩) ∧ (¬ GoodCells info vs → mkRow vs (some info) = .throw .elements) ∧
    mkRow vs none = .throw .elements := by
  refine ⟨(mkRow_iff vs info).2, fun h => ?_, rfl⟩
  rw [mkRow]
  by_cases h1 : vs.length = info.length
  · simp only [ne_eq, h1, not_true_eq_false, if_false]
    rcases typesLoop_out vs info with e | e
    · rcases stringsLoop_out vs with e' | e'
      · exact absurd ⟨(typesLoop_iff vs info h1).1 e, (stringsLoop_iff vs).1 e'⟩ h
      · rw [e, e']; rfl
    · rw [e]; rfl
  · rw [if_pos h1]

example : GoodCells (F := Empty) (D := Empty) [⟨['a'], .str, [], []⟩, ⟨['b'], .vec .i64, [], []⟩] [.str "x y".toList, .vec .i64 [1, -2]] :=
  ⟨.cons rfl (.cons rfl .nil), by
    intro s hs
    simp only [List.mem_cons, reduceCtorEq, List.not_mem_nil, or_self, or_false, Cell.str.injEq] at hs
    subst hs
    exact ⟨by decide, (hasVertical_iff _).1 (by decide)⟩⟩

/-- A table is constructed exactly if it has rows and all the rows have the columns of the first. -/
theorem C45_table (r : RowT F D) (rs : List (RowT F D)) :
    ((∀ x ∈ rs, Agree x.info r.info) → mkTable (r :: rs) = .ok ⟨r :: rs, r.info⟩) ∧
    (¬ (∀ x ∈ rs, Agree x.info r.info) → mkTable (r :: rs) = .throw .elements) ∧
    mkTable ([] : List (RowT F D)) = .throw .elements := by
  refine ⟨fun h => ?_, fun h => ?_, rfl⟩
  · rw [mkTable, (columnsLoop_iff r.info (r :: rs)).2 (by simpa [Agree] using h)]; rfl
  · rw [mkTable]
    rcases columnsLoop_out r.info (r :: rs) with e | e
    · exact absurd (fun x hx => (columnsLoop_iff _ _).1 e x (List.mem_cons_of_mem _ hx)) h
    · rw [e]; rfl

/-- The cells of a constructed table of constructed rows have the types of the columns of the table, for every row and column. -/
theorem C45_cells (rows : List (RowT F D)) (t : TableT F D) (hr : ∀ r ∈ rows, mkRow r.values (some r.info) = .ok r) (ht : mkTable rows = .ok t) :
    t.rows = rows ∧ 0 < t.rows.length ∧
    ∀ (i j : Nat) (r : RowT F D) (d : Desc), t.get i = .ok r → getDescription t.info j = .ok d →
      ∃ c, r.get j = .ok c ∧ c.type = d.type ∧ ∃ d', getDescription r.info j = .ok d' ∧ d'.name = d.name := by
  cases rows with
  | nil => cases ht
  | cons r0 rs =>
    rw [mkTable] at ht
    rcases columnsLoop_out r0.info (r0 :: rs) with e | e
    · rw [e] at ht
      cases ht
      refine ⟨rfl, by simp, fun i j r d hi hj => ?_⟩
      rw [TableT.get] at hi
      cases hr' : (r0 :: rs)[i]? with
      | none => simp only [hr'] at hi; cases hi
      | some r' =>
        simp only [hr'] at hi
        cases hi
        have hmem : r ∈ r0 :: rs := List.mem_of_getElem? hr'
        have hag := (columnsLoop_iff _ _).1 e r hmem
        have hg := (mkRow_iff r.values r.info).1 (hr r hmem)
        rw [getDescription] at hj
        cases hd : r0.info[j]? with
        | none => simp only [hd] at hj; cases hj
        | some d' =>
          simp only [hd] at hj
          cases hj
          have h1 : (r.info.map fun d => (d.name, d.type, d.unit))[j]? = (r0.info.map fun d => (d.name, d.type, d.unit))[j]? := by rw [hag]
          rw [List.getElem?_map, List.getElem?_map, hd] at h1
          cases h2 : r.info[j]? with
          | none => rw [h2] at h1; simp at h1
          | some e' =>
            rw [h2] at h1
            simp only [Option.map_some, Option.some.injEq, Prod.mk.injEq] at h1
            have hjl : j < r.values.length := by rw [hg.1.length_eq]; exact (List.getElem?_eq_some_iff.1 h2).1
            refine ⟨r.values[j], by rw [RowT.get, List.getElem?_eq_getElem hjl], ?_, e', by rw [getDescription, h2], h1.1⟩
            have := List.forall₂_iff_get.1 hg.1 |>.2 j hjl (List.getElem?_eq_some_iff.1 h2).1
            rw [← h1.2.1]
            simp only [List.get_eq_getElem] at this
            rw [this, (List.getElem?_eq_some_iff.1 h2).2]
    · rw [e] at ht; cases ht

/-- A column is found under its name, and only there. -/
theorem C45_find (info : Info) (h : GoodInfo info) (name : Bytes) :
    (∀ i d, getDescription info i = .ok d → d.name = name → findColumn info name = some i ∧ getDescriptionByName info name = .ok d) ∧
    ((∀ d ∈ info, d.name ≠ name) → findColumn info name = none ∧ getDescriptionByName info name = .throw .elements) := by
  constructor
  · intro i d hd hn
    rw [getDescription] at hd
    cases hi : info[i]? with
    | none => simp only [hi] at hd; cases hd
    | some d' =>
      simp only [hi] at hd
      cases hd
      obtain ⟨hil, hid⟩ := List.getElem?_eq_some_iff.1 hi
      have huniq : ∀ j (hj : j < info.length), info[j].name = name → j = i := fun j hj hjn => by
        have h1 := h.2
        have := (List.nodup_iff_injective_get.1 h1) (a₁ := ⟨j, by simpa using hj⟩) (a₂ := ⟨i, by simpa using hil⟩) (by simp [hjn, hid, hn])
        exact congrArg Fin.val this
      have hf : findColumn info name = some i := by
        rw [findColumn, List.findIdx?_eq_some_iff_getElem]
        exact ⟨hil, by simp [hid, hn], fun j hji => by
          have : info[j].name ≠ name := fun e => absurd (huniq j (by omega) e) (by omega)
          simpa using this⟩
      refine ⟨hf, ?_⟩
      have : info.find? (fun d => d.name == name) = some d := by
        rw [List.find?_eq_some_iff_getElem]
        exact ⟨by simp [hn], i, hil, hid, fun j hji => by
          have : info[j].name ≠ name := fun e => absurd (huniq j (by omega) e) (by omega)
          simpa using this⟩
      rw [getDescriptionByName, this]
  · intro hn
    have h1 : findColumn info name = none := by rw [findColumn, List.findIdx?_eq_none_iff]; simpa using hn
    have h2 : info.find? (fun d => d.name == name) = none := by rw [List.find?_eq_none]; simpa using hn
    exact ⟨h1, by rw [getDescriptionByName, h2]⟩

/-- Access to a cell by the name of a column gives the cell with the index of the column; an unknown name and an index past the end throw. -/
theorem C45_access (r : RowT F D) (hi : GoodInfo r.info) (hr : mkRow r.values (some r.info) = .ok r) :
    (∀ i d, getDescription r.info i = .ok d → ∃ c, r.get i = .ok c ∧ r.getByName d.name = .ok c) ∧
    (∀ name, (∀ d ∈ r.info, d.name ≠ name) → r.getByName name = .throw .elements) ∧ (∀ i, r.info.length ≤ i → r.get i = .throw .elements) := by
  have hg := (mkRow_iff r.values r.info).1 hr
  have hlen := hg.1.length_eq
  refine ⟨fun i d hd => ?_, fun name hn => ?_, fun i hil => ?_⟩
  · have hf := ((C45_find r.info hi d.name).1 i d hd rfl).1
    rw [getDescription] at hd
    have hil : i < r.values.length := by
      rw [hlen]
      by_contra hc
      rw [List.getElem?_eq_none (by omega)] at hd
      cases hd
    exact ⟨r.values[i], by rw [RowT.get, List.getElem?_eq_getElem hil], by rw [RowT.getByName, hf]; simp only; rw [List.getElem?_eq_getElem hil]⟩
  · rw [RowT.getByName, ((C45_find r.info hi name).2 hn).1]
  · rw [RowT.get, List.getElem?_eq_none (by omega)]

/-- Columns with the same names, types and units are equal, whatever their descriptions, and only these. -/
theorem C45_equal (a b : Info) : sameInfo a b = true ↔ Agree a b := sameInfo_iff a b

example : sameInfo [⟨['a'], .str, ['m'], "x".toList⟩] [⟨['a'], .str, ['m'], "y".toList⟩] = true := by decide
example : sameInfo [⟨['a'], .str, ['m'], "x".toList⟩] [⟨['a'], .str, ['s'], "x".toList⟩] = false := by decide

example : (RowT.mk (F := Empty) (D := Empty) [.str ['x'], .scalar .i32 7] [⟨['a'], .str, [], []⟩, ⟨['b'], .scalar .i32, [], []⟩]).getByName ['b'] =
    .ok (.scalar .i32 7) := rfl

end Alexandria.Table
