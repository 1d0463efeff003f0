import Verif.Table.SharedLemmas

/-!
# Several readers of one stream (C158)
-/

namespace Alexandria.Table

open Alexandria.Str

variable {F D : Type}

/-! ## Specification -/

/-- The calls that read. -/
def Op.call : Op → Call
  | .read n => .read n
  | .skip n => .skip n
  | .hasMoreRows => .hasMoreRows
  | .rowsLeft => .rowsLeft
  | .getInfo => .getInfo

def Out.answer : Out F D → Answer F D
  | .table t => .table t
  | .done u => .done u
  | .bool b => .bool b
  | .nat n => .nat n
  | .info i => .info i

/-- Calls of readers with the given columns that take the lines from one list. -/
def Spec.sharedRun (fmt : Fmt F D) (infos : Nat → Info) : List (Nat × Op) → List Bytes → List (Answer F D)
  | [], _ => []
  | c :: cs, ls => (specStep fmt (infos c.1) ls c.2).2.answer :: Spec.sharedRun fmt infos cs (specStep fmt (infos c.1) ls c.2).1

/-- The cells of a table without their columns. -/
def Spec.cells (t : Res (TableT F D)) : Res (List (List (Cell F D))) := do
  let t ← t
  return t.rows.map RowT.values

/-! ## Lemmas -/

theorem ask_op (fmt : Fmt F D) (text : Bytes) (r : Reader) (op : Op) : r.ask fmt text op.call = ((r.step fmt text op).1, (r.step fmt text op).2.answer) := by
  cases op <;> rfl

theorem parseRow_types (fmt : Fmt F D) (info info' : Info) (h : info.map Desc.type = info'.map Desc.type) (l : Bytes) :
    (do let r ← parseRow fmt info l; return RowT.values r : Res _) = (do let r ← parseRow fmt info' l; return RowT.values r : Res _) := by
  have hc : ∀ (ds ds' : List Desc) (token : Bytes) (st : Option Bytes), ds.map Desc.type = ds'.map Desc.type →
      cellsLoop fmt ds token st = cellsLoop fmt ds' token st := by
    intro ds
    induction ds with
    | nil =>
      intro ds' token st h
      cases ds' with
      | nil => rfl
      | cons d ds' => simp at h
    | cons d ds ih =>
      intro ds' token st h
      cases ds' with
      | nil => simp at h
      | cons d' ds' =>
        simp only [List.map_cons, List.cons.injEq] at h
        cases st with
        | none => rw [cellsLoop, cellsLoop]
        | some rest => rw [cellsLoop, cellsLoop, h.1, ih ds' _ _ h.2]
  have ht : ∀ (vs : List (Cell F D)) (ds ds' : List Desc), ds.map Desc.type = ds'.map Desc.type → typesLoop vs ds = typesLoop vs ds' := by
    intro vs
    induction vs with
    | nil => intro ds ds' _; cases ds <;> cases ds' <;> rfl
    | cons v vs ih =>
      intro ds ds' h
      cases ds with
      | nil =>
        cases ds' with
        | nil => rfl
        | cons d' ds' => simp at h
      | cons d ds =>
        cases ds' with
        | nil => simp at h
        | cons d' ds' =>
          simp only [List.map_cons, List.cons.injEq] at h
          rw [typesLoop, typesLoop, h.1, ih ds ds' h.2]
  have hl : info.length = info'.length := by
    have := congrArg List.length h
    simpa using this
  rw [parseRow, parseRow, hc info info' _ _ h]
  cases cellsLoop fmt info' (readWord l).1 (readWord l).2 with
  | throw e => rfl
  | ub => rfl
  | ok values =>
    simp only [Outcome.bind_ok, mkRow, hl, ht values info info' h]
    by_cases h1 : values.length ≠ info'.length
    · rw [if_pos h1, if_pos h1]
    rw [if_neg h1, if_neg h1]
    cases typesLoop values info' with
    | throw e => rfl
    | ub => rfl
    | ok u =>
      cases stringsLoop values with
      | throw e => rfl
      | ub => rfl
      | ok u' => rfl

theorem specRead_types (fmt : Fmt F D) (info info' : Info) (h : info.map Desc.type = info'.map Desc.type) : ∀ (k : Nat) (ls : List Bytes),
    (specRead fmt info k ls).1 = (specRead fmt info' k ls).1 ∧
    (do let rs ← (specRead fmt info k ls).2; return rs.map RowT.values : Res _) = (do let rs ← (specRead fmt info' k ls).2; return rs.map RowT.values : Res _) := by
  intro k
  induction k with
  | zero => intro ls; exact ⟨rfl, rfl⟩
  | succ k ih =>
    intro ls
    cases ls with
    | nil => exact ⟨rfl, rfl⟩
    | cons l ls =>
      have hp := parseRow_types fmt info info' h l
      have hk := ih ls
      rw [specRead, specRead]
      cases h1 : parseRow fmt info l with
      | ok r =>
        rw [h1] at hp
        cases h2 : parseRow fmt info' l with
        | ok r' =>
          rw [h2] at hp
          simp only [Outcome.bind_ok, Outcome.pure_eq, Outcome.ok.injEq] at hp
          refine ⟨hk.1, ?_⟩
          have hk2 := hk.2
          cases h3 : (specRead fmt info k ls).2 with
          | ok rs =>
            rw [h3] at hk2
            cases h4 : (specRead fmt info' k ls).2 with
            | ok rs' =>
              rw [h4] at hk2
              simp only [Outcome.bind_ok, Outcome.pure_eq, Outcome.ok.injEq] at hk2
              simp only [Outcome.bind_ok, Outcome.pure_eq, List.map_cons, hp, hk2]
            | throw e => rw [h4] at hk2; cases hk2
            | ub => rw [h4] at hk2; cases hk2
          | throw e =>
            rw [h3] at hk2
            cases h4 : (specRead fmt info' k ls).2 with
            | ok rs' => rw [h4] at hk2; cases hk2
            | throw e' => rw [h4] at hk2; cases hk2; rfl
            | ub => rw [h4] at hk2; cases hk2
          | ub =>
            rw [h3] at hk2
            cases h4 : (specRead fmt info' k ls).2 with
            | ok rs' => rw [h4] at hk2; cases hk2
            | throw e' => rw [h4] at hk2; cases hk2
            | ub => rfl
        | throw e => rw [h2] at hp; cases hp
        | ub => rw [h2] at hp; cases hp
      | throw e =>
        rw [h1] at hp
        cases h2 : parseRow fmt info' l with
        | ok r' => rw [h2] at hp; cases hp
        | throw e' => rw [h2] at hp; cases hp; exact ⟨rfl, rfl⟩
        | ub => rw [h2] at hp; cases hp
      | ub =>
        rw [h1] at hp
        cases h2 : parseRow fmt info' l with
        | ok r' => rw [h2] at hp; cases hp
        | throw e' => rw [h2] at hp; cases hp
        | ub => exact ⟨rfl, rfl⟩

/-- The cells that are read depend on the types of the columns only. -/
theorem specStep_types (fmt : Fmt F D) (info info' : Info) (h : info.map Desc.type = info'.map Desc.type) (n : Int) (ls : List Bytes) :
    Spec.cells (do let rows ← (specRead fmt info (count n ls) ls).2; if rows = [] then .throw .elements else .ok ⟨rows, info⟩) =
      Spec.cells (do let rows ← (specRead fmt info' (count n ls) ls).2; if rows = [] then .throw .elements else .ok ⟨rows, info'⟩) := by
  have hk := (specRead_types fmt info info' h (count n ls) ls).2
  rw [Spec.cells, Spec.cells]
  cases h3 : (specRead fmt info (count n ls) ls).2 with
  | ok rs =>
    rw [h3] at hk
    cases h4 : (specRead fmt info' (count n ls) ls).2 with
    | ok rs' =>
      rw [h4] at hk
      simp only [Outcome.bind_ok, Outcome.pure_eq, Outcome.ok.injEq] at hk
      simp only [Outcome.bind_ok]
      by_cases h0 : rs = []
      · have h0' : rs' = [] := by rw [h0] at hk; simpa using hk.symm
        rw [if_pos h0, if_pos h0']
      · have h0' : rs' ≠ [] := fun e => h0 (by rw [e] at hk; simpa using hk)
        rw [if_neg h0, if_neg h0']
        simp only [Outcome.bind_ok, Outcome.pure_eq, hk]
    | throw e => rw [h4] at hk; cases hk
    | ub => rw [h4] at hk; cases hk
  | throw e =>
    rw [h3] at hk
    cases h4 : (specRead fmt info' (count n ls) ls).2 with
    | ok rs' => rw [h4] at hk; cases hk
    | throw e' => rw [h4] at hk; cases hk; rfl
    | ub => rw [h4] at hk; cases hk
  | ub =>
    rw [h3] at hk
    cases h4 : (specRead fmt info' (count n ls) ls).2 with
    | ok rs' => rw [h4] at hk; cases hk
    | throw e' => rw [h4] at hk; cases hk
    | ub => rfl

/-! ## C158 -/

/-- Readers of one stream that know their columns take their rows from one list of lines: every sequence of calls, of whichever readers, gives what these calls give on that list. -/
theorem C158_shared (fmt : Fmt F D) (text comment : Bytes) (ht : text.length < 2 ^ 31) (infos : Nat → Info) (ops : List (Nat × Op)) : ∀ (sh : Shared),
    sh.stream.pos ≤ text.length → (∀ i ∈ ops.map Prod.fst, (sh.readers i).info = some (infos i) ∧ (sh.readers i).comment = comment) →
    sh.asks fmt text (ops.map fun o => (o.1, o.2.call)) = Spec.sharedRun fmt infos ops (left text comment sh.stream) := by
  induction ops with
  | nil => intro sh _ _; rfl
  | cons o ops ih =>
    intro sh hp hk
    have h0 := hk o.1 (by simp)
    have h := step_refines fmt text ht ({ sh.readers o.1 with stream := sh.stream } : Reader) (infos o.1) h0.1 hp o.2
    rw [List.map_cons, Shared.asks, Spec.sharedRun]
    simp only [Shared.ask, ask_op]
    generalize hst : ({ sh.readers o.1 with stream := sh.stream } : Reader) = rr at h ⊢
    have hcm : rr.comment = comment := by rw [← hst]; exact h0.2
    have hss : rr.stream = sh.stream := by rw [← hst]
    rw [hcm, hss] at h
    rw [← h.1, ← h.2.1]
    refine congrArg _ (ih ⟨_, _⟩ h.2.2.2.2 fun i hi => ?_)
    by_cases e : i = o.1
    · subst e
      simp only [if_true]
      exact ⟨h.2.2.1, h.2.2.2.1⟩
    · simp only [if_neg e]
      exact hk i (List.mem_cons_of_mem _ hi)

/-- Every line is a row of exactly one of the tables: whichever readers are asked for how many rows, one after the other, the rows of their tables are the rows of the lines, in order,
each with the columns of the reader that was asked. -/
theorem C158_rows (fmt : Fmt F D) (text comment : Bytes) (ht : text.length < 2 ^ 31) (infos : Nat → Info) (reads : List (Nat × Nat)) (sh : Shared)
    (hp : sh.stream.pos ≤ text.length) (hk : ∀ i ∈ reads.map Prod.fst, (sh.readers i).info = some (infos i) ∧ (sh.readers i).comment = comment)
    (hn : ∀ x ∈ reads, 0 < x.2) (hlen : (reads.map Prod.snd).sum ≤ (left text comment sh.stream).length)
    (hrows : ∀ l ∈ left text comment sh.stream, ∀ i ∈ reads.map Prod.fst, ∃ row, parseRow fmt (infos i) l = .ok row) :
    ∃ tables : List (TableT F D),
      sh.asks fmt text (reads.map fun x => (x.1, .read (x.2 : Int))) = tables.map (fun t => .table (.ok t)) ∧
      List.Forall₂ (fun x t => t.rows.length = x.2 ∧ t.info = infos x.1) reads tables ∧
      List.Forall₂ (fun (x : Bytes × Nat) row => parseRow fmt (infos x.2) x.1 = .ok row)
        ((left text comment sh.stream).zip (reads.flatMap fun x => List.replicate x.2 x.1)) (tables.flatMap TableT.rows) := by
  have h := C158_shared fmt text comment ht infos (reads.map fun x => (x.1, .read (x.2 : Int))) sh hp (by simpa using hk)
  simp only [List.map_map] at h
  have he : reads.map ((fun o : Nat × Op => (o.1, o.2.call)) ∘ fun x : Nat × Nat => (x.1, Op.read (x.2 : Int))) = reads.map fun x => (x.1, .read (x.2 : Int)) := rfl
  rw [he] at h
  rw [h]
  generalize left text comment sh.stream = ls at hlen hrows
  clear h he hk
  induction reads generalizing ls with
  | nil => exact ⟨[], rfl, .nil, by simp⟩
  | cons x reads ih =>
    obtain ⟨i, n⟩ := x
    have hn0 : 0 < n := hn (i, n) (by simp)
    simp only [List.map_cons, List.sum_cons] at hlen
    have hall : ∀ l ∈ ls, ∃ row, parseRow fmt (infos i) l = .ok row := fun l hl => hrows l hl i (by simp)
    obtain ⟨rows, hr⟩ : ∃ rows, List.Forall₂ (fun l r => parseRow fmt (infos i) l = .ok r) ls rows := by
      clear hlen hrows ih
      induction ls with
      | nil => exact ⟨[], .nil⟩
      | cons l ls ih =>
        obtain ⟨r, hr⟩ := hall l (by simp)
        obtain ⟨rs, hrs⟩ := ih fun l hl => hall l (List.mem_cons_of_mem _ hl)
        exact ⟨r :: rs, .cons hr hrs⟩
    have hs := specRead_ok fmt (infos i) n ls rows hr
    have hlr : rows.length = ls.length := hr.length_eq.symm
    obtain ⟨tables, t1, t2, t3⟩ := ih (fun x hx => hn x (List.mem_cons_of_mem _ hx)) (ls.drop n) (by rw [List.length_drop]; omega)
      (fun l hl j hj => hrows l (List.mem_of_mem_drop hl) j (List.mem_cons_of_mem _ hj))
    have hc : count (n : Int) ls = n := by rw [count, if_neg (by omega), Int.toNat_natCast]
    have hne : rows.take n ≠ [] := by
      intro h
      have := congrArg List.length h
      simp only [List.length_take, List.length_nil] at this
      omega
    refine ⟨⟨rows.take n, infos i⟩ :: tables, ?_, .cons ⟨?_, rfl⟩ t2, ?_⟩
    · simp only [List.map_cons, Spec.sharedRun, specStep]
      rw [hc, hs]
      simp only [Outcome.bind_ok]
      rw [if_neg hne, t1]
      rfl
    · simp only [List.length_take]; omega
    · simp only [List.flatMap_cons]
      have hz : ls.zip (List.replicate n i ++ reads.flatMap fun x => List.replicate x.2 x.1) =
          (ls.take n).map (fun l => (l, i)) ++ (ls.drop n).zip (reads.flatMap fun x => List.replicate x.2 x.1) := by
        conv_lhs => rw [← List.take_append_drop n ls]
        rw [List.zip_append (by rw [List.length_take, List.length_replicate]; omega)]
        congr 1
        have hk : (ls.take n).length = n := by rw [List.length_take]; omega
        generalize ls.take n = l0 at hk
        subst hk
        clear hlen hrows hall hr hs hlr t1 t3 hc hne hn0 hn
        induction l0 with
        | nil => rfl
        | cons a l0 ih => simp [List.replicate_succ, ih]
      rw [hz]
      refine List.rel_append ?_ t3
      have ht := List.forall₂_take n hr
      rw [List.forall₂_map_left_iff]
      exact ht

/-- A reader created for a stream of which a part was read answers every sequence of calls as a reader of the rest of the text does. -/
theorem C158_here (fmt : Fmt F D) (text : Bytes) (ht : text.length < 2 ^ 31) (p : Nat) (hp : p ≤ text.length) (calls : List Call) (r : Reader)
    (hr : p + r.stream.pos ≤ text.length) : ({ r with stream := { r.stream with pos := p + r.stream.pos } } : Reader).asks fmt text calls = r.asks fmt (text.drop p) calls := by
  have key : ∀ (calls : List Call) (r : Reader), p + r.stream.pos ≤ text.length → (r.shift p).asks fmt text calls = r.asks fmt (text.drop p) calls := by
    intro calls
    induction calls with
    | nil => intro r _; rfl
    | cons c calls ih =>
      intro r hr
      have h := ask_shift fmt text ht p hp r hr c
      rw [Reader.asks, Reader.asks, h.1]
      simp only
      rw [ih _ h.2]
  exact key calls r hr

/-- A reader that is alone with its stream behaves like one that owns it; other readers are not changed by its calls. -/
theorem C158_alone (fmt : Fmt F D) (text : Bytes) (i : Nat) (calls : List Call) (sh : Shared) :
    sh.asks fmt text (calls.map fun c => (i, c)) = ({ sh.readers i with stream := sh.stream } : Reader).asks fmt text calls ∧
    ∀ c j, j ≠ i → (sh.ask fmt text i c).1.readers j = sh.readers j := by
  refine ⟨?_, fun c j hj => by simp only [Shared.ask, if_neg hj]⟩
  induction calls generalizing sh with
  | nil => rfl
  | cons c calls ih =>
    rw [List.map_cons, Shared.asks, Reader.asks, ih]
    simp only [Shared.ask, if_true]

/-- The types of the cells. -/
def kinds (t : Res (List (List (Cell F D)))) : Res (List (List CType)) := do
  let t ← t
  return t.map fun row => row.map Cell.type

/-- A new reader for the stream of another one reads what that one would have read. -/
def C158_full (F D : Type) : Prop := ∀ (fmt : Fmt F D) (text : Bytes) (r : Reader) (info : Info) (n : Int), text.length < 2 ^ 31 → r.info = some info →
  r.stream.pos ≤ text.length → ∃ t, Reader.asks fmt text [.comment r.comment, .read n] { stream := r.stream } = [.done (.ok ()), .table t] ∧
    Spec.cells t = Spec.cells (r.read fmt text n).2

/-- The types of the columns are in the header, which was read before: the second reader reads texts. -/
theorem C158_violated : ¬ C158_full Unit Unit := fun h => by
  obtain ⟨t, h1, h2⟩ := h noFmt "# Column: a int\n1\n2\n".toList
    { stream := { pos := 18 }, info := some [⟨['a'], .scalar .i32, [], []⟩], started := true } [⟨['a'], .scalar .i32, [], []⟩] (-1) (by decide) rfl (by decide)
  have e1 : kinds (match Reader.asks noFmt "# Column: a int\n1\n2\n".toList [.comment ['#'], .read (-1)] { stream := { pos := 18 } } with
    | [_, .table t] => Spec.cells t
    | _ => .ub) = .ok [[.str]] := by decide +kernel
  rw [h1] at e1
  simp only at e1
  rw [h2] at e1
  revert e1
  decide +kernel

/-- With the names and types of the columns given, the second reader reads what the first one would have read, provided that the next line has as many words as there are columns and the comments
before it do not describe columns or name one twice. Missing: other comments (they may make the reader throw). -/
theorem C158_continue_partial (fmt : Fmt F D) (text : Bytes) (ht : text.length < 2 ^ 31) (r : Reader) (info : Info) (hi : r.info = some info) (hne : info ≠ [])
    (hn : Spec.Names (info.map Desc.name)) (hcm : r.comment ≠ []) (he : r.stream.eof = false) (hf : r.stream.fail = false) (hp : r.stream.pos ≤ text.length)
    (hc : ∀ c ∈ headerComments r.comment (text.drop r.stream.pos), ¬ "Column:".toList <+: c)
    (hd : (columnNames (headerComments r.comment (text.drop r.stream.pos)) info.length).Nodup)
    (line : Bytes) (rest : List Bytes) (hl : left text r.comment r.stream = line :: rest) (hw : (tokens line).length = info.length) (n : Int) :
    ∃ t, Reader.asks fmt text [.comment r.comment, .names (info.map Desc.name), .types (info.map Desc.type), .read n] { stream := r.stream } =
        [.done (.ok ()), .done (.ok ()), .done (.ok ()), .table t] ∧
      Spec.cells t = Spec.cells (r.read fmt text n).2 := by
  obtain ⟨st, cm, sd, nm, ty, inf⟩ := r
  obtain ⟨p, e, f⟩ := st
  simp only at hi he hf hp hl hc hd hcm
  subst hi he hf
  have hlen : (info.map Desc.name).length = (info.map Desc.type).length := by simp
  have hl' : dataLines cm (text.drop p) = line :: rest := by simpa [left] using hl
  -- the second reader
  let r0 : Reader := { comment := cm, names := info.map Desc.name, types := info.map Desc.type }
  have h0 := (C150_plain (text.drop p) r0 rfl rfl hn (fun h => hne (by simpa using (show info.map Desc.name = [] from h))) hlen hc
    (show (columnNames (headerComments cm (text.drop p)) (info.map Desc.name).length).Nodup by rw [List.length_map]; exact hd) line rest hl').1
    (show (tokens line).length = (info.map Desc.name).length by rw [List.length_map]; exact hw)
  let r2 : Reader := { r0 with stream := { pos := p } }
  have h2 := (readColumnInfo_shift text ht p hp r0 hp).1
  have h2s : r0.shift p = r2 := rfl
  rw [h2s] at h2
  have h2o : (r2.readColumnInfo text).2 = .ok (((info.map Desc.name).zip (info.map Desc.type)).map fun q => ⟨q.1, q.2, [], []⟩) := by
    rw [← h0, h2]
  have hzip : ((info.map Desc.name).zip (info.map Desc.type)).map (fun q => (⟨q.1, q.2, [], []⟩ : Desc)) = info.map fun d => ⟨d.name, d.type, [], []⟩ := by
    rw [List.zip_map', List.map_map]
    rfl
  rw [hzip] at h2o
  have hty : (info.map fun d : Desc => (⟨d.name, d.type, [], []⟩ : Desc)).map Desc.type = info.map Desc.type := by simp
  generalize (info.map fun d : Desc => (⟨d.name, d.type, [], []⟩ : Desc)) = info2 at h2o hty
  have hc2 := C42_columns_partial text ht r2 hp
  have hinf := hc2.2.2.2 info2 h2o
  -- both read from the same lines
  have hr2 : r2.read fmt text n = (r2.readColumnInfo text).1.read fmt text n := by
    have hpair : r2.readColumnInfo text = ((r2.readColumnInfo text).1, .ok info2) := by rw [← h2o]
    have hidem : (r2.readColumnInfo text).1.readColumnInfo text = ((r2.readColumnInfo text).1, .ok info2) := by rw [Reader.readColumnInfo, hinf]
    simp only [Reader.read]
    rw [hidem, hpair]
  have hs2 := (step_refines fmt text ht (r2.readColumnInfo text).1 info2 hinf hc2.2.1 (.read n)).1
  have hs1 := (step_refines fmt text ht (⟨{ pos := p }, cm, sd, nm, ty, some info⟩ : Reader) info rfl hp (.read n)).1
  simp only [Reader.step, specStep, Out.table.injEq] at hs1 hs2
  refine ⟨(r2.read fmt text n).2, ?_, ?_⟩
  · have a1 : ({ stream := { pos := p } } : Reader).setComment cm = .ok { stream := { pos := p }, comment := cm } := by
      rw [Reader.setComment, if_neg (by simp), if_neg hcm]
    have a2 : ({ stream := { pos := p }, comment := cm } : Reader).fixNames (info.map Desc.name) =
        ({ stream := { pos := p }, comment := cm, names := info.map Desc.name }, .ok ()) := by
      rw [Reader.fixNames, if_neg (by simp)]
      simp only [(fixLoop_names _).1 hn]
      rw [if_neg (by simp)]
    have a3 : ({ stream := { pos := p }, comment := cm, names := info.map Desc.name } : Reader).fixTypes (info.map Desc.type) = (r2, .ok ()) := by
      rw [Reader.fixTypes, if_neg (by simp)]
      simp only
      rw [if_neg (by simp)]
    simp only [Reader.asks, Reader.ask, a1, a2, a3]
  · rw [hr2, hs2, hs1, hc2.2.2.1, hc2.1]
    exact specStep_types fmt info2 info hty n _

/-! ## Examples -/

/-- An answer with the types and the texts of the cells. -/
def Answer.shown : Answer Unit Unit → List (List (CType × Res Bytes))
  | .table (.ok t) => t.rows.map fun r => r.values.map fun c => (c.type, printCell noFmt c)
  | .nat n => [[(.str, .ok (showNat n))]]
  | _ => []

/-- Two readers of one stream, one for texts, one for numbers. -/
example : (({ readers := fun i => if i = 0 then { info := some [⟨['a'], .str, [], []⟩] } else { info := some [⟨['b'], .scalar .i32, [], []⟩] } } : Shared).asks noFmt
      "1\n2\n3\n4".toList [(0, .read 1), (1, .read 2), (0, .rowsLeft), (0, .read 1)]).map Answer.shown =
    [[[(.str, .ok ['1'])]], [[(.scalar .i32, .ok ['2'])], [(.scalar .i32, .ok ['3'])]], [[(.str, .ok ['1'])]], [[(.str, .ok ['4'])]]] := by decide +kernel
example : (∀ l ∈ left "1\n2\n3\n4".toList ['#'] {}, ∃ row, parseRow noFmt [⟨['b'], .scalar .i32, [], []⟩] l = .ok row) ∧ (left "1\n2\n3\n4".toList ['#'] {}).length = 4 := by
  have e : left "1\n2\n3\n4".toList ['#'] {} = [['1'], ['2'], ['3'], ['4']] := by decide +kernel
  rw [e]
  refine ⟨fun l hl => ?_, rfl⟩
  simp only [List.mem_cons, List.not_mem_nil, or_false] at hl
  rcases hl with rfl | rfl | rfl | rfl
  · exact ⟨⟨[.scalar .i32 1], _⟩, by rfl⟩
  · exact ⟨⟨[.scalar .i32 2], _⟩, by rfl⟩
  · exact ⟨⟨[.scalar .i32 3], _⟩, by rfl⟩
  · exact ⟨⟨[.scalar .i32 4], _⟩, by rfl⟩
/-- The hypotheses of `C158_continue_partial` behind the first row of a text. -/
example : headerComments ['#'] ("# Column: a int\n1\n# x\n2\n".toList.drop 18) = [['x']] ∧ columnNames [['x']] 1 = [['x']] ∧
    left "# Column: a int\n1\n# x\n2\n".toList ['#'] { pos := 18 } = [['2']] ∧ (tokens ['2']).length = 1 := by decide +kernel

end Alexandria.Table
