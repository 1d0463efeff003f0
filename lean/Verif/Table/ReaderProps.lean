import Verif.Table.ReaderLemmas
import Verif.Table.Props

/-!
# Reading an ASCII table in chunks (C42)
-/

namespace Alexandria.Table

open Alexandria.Str

variable {F D : Type}

/-! ## Specification: a reader is the list of the data lines it has not read yet -/

/-- The data lines of a text: cut at the comment indicator, without surrounding whitespace, not empty. -/
def dataLines (comment text : Bytes) : List Bytes := ((splitChar '\n' text).map (dataLine comment)).filter fun l => l ≠ []

/-- The data lines that a stream has left. -/
def left (text comment : Bytes) (s : Stream) : List Bytes := if s.eof ∨ s.fail then [] else dataLines comment (text.drop s.pos)

/-- Reading at most `k` rows: stops behind the first line that is no row. -/
def specRead (fmt : Fmt F D) (info : Info) : Nat → List Bytes → List Bytes × Res (List (RowT F D))
  | 0, ls => (ls, .ok [])
  | _ + 1, [] => ([], .ok [])
  | k + 1, l :: ls =>
    match parseRow fmt info l with
    | .ok r => ((specRead fmt info k ls).1, do let rs ← (specRead fmt info k ls).2; return r :: rs)
    | .throw e => (ls, .throw e)
    | .ub => (ls, .ub)

/-- The number of rows meant by an argument: a negative one means all. -/
def count (n : Int) (ls : List Bytes) : Nat := if n < 0 then ls.length else n.toNat

/-- The calls. -/
inductive Op where
  | read (n : Int) | skip (n : Int) | hasMoreRows | rowsLeft | getInfo
  deriving DecidableEq, Repr

/-- Their results. -/
inductive Out (F D : Type) where
  | table (t : Res (TableT F D)) | done (u : Res Unit) | bool (b : Bool) | nat (n : Nat) | info (i : Res Info)

/-- The calls on the list of lines that are left. -/
def specStep (fmt : Fmt F D) (info : Info) (ls : List Bytes) : Op → List Bytes × Out F D
  | .read n =>
    ((specRead fmt info (count n ls) ls).1, .table (do
      let rows ← (specRead fmt info (count n ls) ls).2
      if rows = [] then .throw .elements else .ok ⟨rows, info⟩))
  | .skip n => (ls.drop (count n ls), .done (.ok ()))
  | .hasMoreRows => (ls, .bool (ls ≠ []))
  | .rowsLeft => (ls, .nat ls.length)
  | .getInfo => (ls, .info (.ok info))

def specRun (fmt : Fmt F D) (info : Info) : List Op → List Bytes → List (Out F D)
  | [], _ => []
  | op :: ops, ls => (specStep fmt info ls op).2 :: specRun fmt info ops (specStep fmt info ls op).1

/-- The calls on the model of the reader. -/
def Reader.step (fmt : Fmt F D) (text : Bytes) (r : Reader) : Op → Reader × Out F D
  | .read n => ((r.read fmt text n).1, .table (r.read fmt text n).2)
  | .skip n => ((r.skip text n).1, .done (r.skip text n).2)
  | .hasMoreRows => ((r.hasMoreRows text).1, .bool (r.hasMoreRows text).2)
  | .rowsLeft => ((r.rowsLeft text).1, .nat (r.rowsLeft text).2)
  | .getInfo => ((r.readColumnInfo text).1, .info (r.readColumnInfo text).2)

def Reader.run (fmt : Fmt F D) (text : Bytes) : List Op → Reader → List (Out F D)
  | [], _ => []
  | op :: ops, r => (r.step fmt text op).2 :: Reader.run fmt text ops (r.step fmt text op).1

/-! ## Lemmas -/

theorem left_eq (text comment : Bytes) (s : Stream) :
    left text comment s = ((linesLeft text s).map (dataLine comment)).filter fun l => l ≠ [] := by
  rw [left, linesLeft]
  by_cases h : s.eof = true ∨ s.fail = true
  · rw [if_pos h, if_pos h]; rfl
  · rw [if_neg h, if_neg h]; rfl

theorem whileData {σ : Type} (text comment : Bytes) (go : σ → Bool) (body : σ → Bytes → Res σ) (s : Stream) (a : σ) :
    let w := whileLines text go (fun a l => if dataLine comment l = [] then .ok a else body a (dataLine comment l)) (lineFuel text) s a
    w.2 = (loop go body (left text comment s) a).2 ∧ left text comment w.1 = (loop go body (left text comment s) a).1 ∧
      (s.pos ≤ text.length → w.1.pos ≤ text.length) := by
  have h1 := whileLines_eq text go (fun a l => if dataLine comment l = [] then .ok a else body a (dataLine comment l)) (by simp [dataLine_nil])
    (lineFuel text) s a (fuel_ok text s)
  have h2 := loop_filter go (dataLine comment) body (linesLeft text s) a
  simp only at h2 ⊢
  refine ⟨by rw [h1.1, h2.1, left_eq], ?_, h1.2.2⟩
  rw [left_eq, h1.2.1, h2.2, left_eq]

theorem parseRow_info (fmt : Fmt F D) (info : Info) (l : Bytes) (r : RowT F D) (h : parseRow fmt info l = .ok r) : r.info = info := by
  rw [parseRow] at h
  cases hc : cellsLoop fmt info (readWord l).1 (readWord l).2 with
  | ok v =>
    rw [hc, Outcome.bind_ok] at h
    rw [mkRow] at h
    by_cases h1 : v.length = info.length
    · simp only [ne_eq, h1, not_true_eq_false, if_false] at h
      rcases typesLoop_out v info with e | e
      · rcases stringsLoop_out v with e' | e'
        · rw [e, e'] at h; cases h; rfl
        · rw [e, e'] at h; cases h
      · rw [e] at h; cases h
    · rw [if_pos h1] at h; cases h
  | throw e => rw [hc] at h; cases h
  | ub => rw [hc] at h; cases h

theorem specRead_info (fmt : Fmt F D) (info : Info) : ∀ (k : Nat) (ls : List Bytes) (rows : List (RowT F D)),
    (specRead fmt info k ls).2 = .ok rows → ∀ r ∈ rows, r.info = info := by
  intro k
  induction k with
  | zero => intro ls rows h; rw [specRead] at h; cases h; simp
  | succ k ih =>
    intro ls rows h
    cases ls with
    | nil => rw [specRead] at h; cases h; simp
    | cons l ls =>
      rw [specRead] at h
      cases hp : parseRow fmt info l with
      | ok r =>
        rw [hp] at h
        simp only at h
        cases hr : (specRead fmt info k ls).2 with
        | ok rs =>
          rw [hr] at h
          cases h
          intro x hx
          rcases List.mem_cons.1 hx with rfl | hx
          · exact parseRow_info fmt info l _ hp
          · exact ih ls rs hr x hx
        | throw e => rw [hr] at h; cases h
        | ub => rw [hr] at h; cases h
      | throw e => rw [hp] at h; cases h
      | ub => rw [hp] at h; cases h

theorem mkTable_same (info : Info) (rows : List (RowT F D)) (h : ∀ r ∈ rows, r.info = info) :
    (if rows = [] then (.throw .elements : Res (TableT F D)) else mkTable rows) = if rows = [] then .throw .elements else .ok ⟨rows, info⟩ := by
  cases rows with
  | nil => simp
  | cons r rs =>
    rw [if_neg (by simp), if_neg (by simp)]
    have hr := h r (by simp)
    rw [(C45_table r rs).1 (fun x hx => by rw [h x (by simp [hx]), hr]; rfl), hr]

/-- The loop of `readImpl` over the data lines. -/
theorem loop_read (fmt : Fmt F D) (info : Info) (ls : List Bytes) : ∀ (n : Int) (acc : List (RowT F D)),
    loop (fun (a : Int × List (RowT F D)) => decide (a.1 ≠ 0)) (fun a l => do let row ← parseRow fmt info l; return (a.1 - 1, a.2 ++ [row])) ls (n, acc) =
      ((specRead fmt info (count n ls) ls).1, do let rs ← (specRead fmt info (count n ls) ls).2; return (n - rs.length, acc ++ rs)) := by
  induction ls with
  | nil =>
    intro n acc
    rw [loop]
    cases count n ([] : List Bytes) <;> simp [specRead]
  | cons l ls ih =>
    intro n acc
    rw [loop]
    by_cases hn : n = 0
    · subst hn
      simp [count, specRead]
    · rw [if_pos (by simpa using hn)]
      have hc : count n (l :: ls) = count (n - 1) ls + 1 := by
        simp only [count, List.length_cons]
        by_cases h0 : n < 0
        · rw [if_pos h0, if_pos (by omega)]
        · rw [if_neg h0, if_neg (by omega)]; omega
      rw [hc, specRead]
      cases hp : parseRow fmt info l with
      | ok r =>
        simp only [Outcome.bind_ok, Outcome.pure_eq]
        have := ih (n - 1) (acc ++ [r])
        simp only [Outcome.pure_eq] at this
        rw [this]
        cases hs : (specRead fmt info (count (n - 1) ls) ls).2 with
        | ok rs =>
          simp only [Outcome.bind_ok, List.length_cons, List.append_assoc, List.singleton_append, Outcome.pure_eq, Prod.mk.injEq, Outcome.ok.injEq, and_true, true_and]
          omega
        | throw e => rfl
        | ub => rfl
      | throw e => rfl
      | ub => rfl

theorem loop_skip (ls : List Bytes) : ∀ n : Int,
    (loop (fun (a : Int) => decide (a ≠ 0)) (fun a _ => .ok (a - 1)) ls n).1 = ls.drop (count n ls) := by
  induction ls with
  | nil => intro n; rw [loop]; simp
  | cons l ls ih =>
    intro n
    rw [loop]
    by_cases hn : n = 0
    · subst hn; simp [count]
    · rw [if_pos (by simpa using hn)]
      simp only
      rw [ih]
      have hc : count n (l :: ls) = count (n - 1) ls + 1 := by
        simp only [count, List.length_cons]
        by_cases h0 : n < 0
        · rw [if_pos h0, if_pos (by omega)]
        · rw [if_neg h0, if_neg (by omega)]; omega
      rw [hc, List.drop_succ_cons]

theorem loop_count (ls : List Bytes) : ∀ n : Nat, (loop (fun (_ : Nat) => true) (fun a _ => .ok (a + 1)) ls n).2 = .ok (n + ls.length) := by
  induction ls with
  | nil => intro n; rfl
  | cons l ls ih => intro n; rw [loop, if_pos rfl]; simp only; rw [ih, List.length_cons]; congr 1; omega

theorem loop_has (ls : List Bytes) : (loop (fun (a : Bool) => !a) (fun _ _ => .ok true) ls false).2 = .ok (decide (ls ≠ [])) := by
  cases ls with
  | nil => rfl
  | cons l ls =>
    rw [loop, if_pos (by rfl)]
    simp only
    cases ls <;> simp [loop]

/-- One call of a reader that knows its columns. -/
theorem step_refines (fmt : Fmt F D) (text : Bytes) (ht : text.length < 2 ^ 31) (r : Reader) (info : Info) (hi : r.info = some info)
    (hp : r.stream.pos ≤ text.length) (op : Op) :
    (r.step fmt text op).2 = (specStep fmt info (left text r.comment r.stream) op).2 ∧
    left text r.comment (r.step fmt text op).1.stream = (specStep fmt info (left text r.comment r.stream) op).1 ∧
    (r.step fmt text op).1.info = some info ∧ (r.step fmt text op).1.comment = r.comment ∧ (r.step fmt text op).1.stream.pos ≤ text.length := by
  have hci : r.readColumnInfo text = (r, .ok info) := by rw [Reader.readColumnInfo, hi]
  have hrw := rewind_lines text r.stream hp ht
  have hleft : left text r.comment (rewind r.stream) = left text r.comment r.stream := by rw [left_eq, left_eq, hrw.1]
  have hat : left text r.comment (afterTell r.stream) = left text r.comment r.stream := by rw [left_eq, left_eq, afterTell_lines]
  cases op with
  | read n =>
    have hw := whileData text r.comment (fun (a : Int × List (RowT F D)) => decide (a.1 ≠ 0))
      (fun a l => do let row ← parseRow fmt info l; return (a.1 - 1, a.2 ++ [row])) r.stream (n, [])
    simp only at hw
    rw [loop_read] at hw
    simp only [Reader.step, specStep, Reader.read, hci]
    have hbody : readBody fmt r.comment info = fun (a : Int × List (RowT F D)) l => if dataLine r.comment l = [] then .ok a
        else do let row ← parseRow fmt info (dataLine r.comment l); return (a.1 - 1, a.2 ++ [row]) := rfl
    rw [hbody]
    refine ⟨?_, hw.2.1, hi, trivial, hw.2.2 hp⟩
    rw [hw.1]
    cases hs : (specRead fmt info (count n (left text r.comment r.stream)) (left text r.comment r.stream)).2 with
    | ok rows =>
      simp only [Outcome.bind_ok, Outcome.pure_eq, List.nil_append]
      rw [mkTable_same info rows (specRead_info fmt info _ _ rows hs)]
    | throw e => rfl
    | ub => rfl
  | skip n =>
    have hw := whileData text r.comment (fun (a : Int) => decide (a ≠ 0)) (fun a _ => .ok (a - 1)) r.stream n
    simp only at hw
    simp only [Reader.step, specStep, Reader.skip, hci]
    refine ⟨trivial, ?_, hi, trivial, hw.2.2 hp⟩
    rw [hw.2.1, loop_skip]
  | hasMoreRows =>
    have hw := whileData text r.comment (fun (a : Bool) => !a) (fun _ _ => .ok true) (afterTell r.stream) false
    simp only at hw
    simp only [Reader.step, specStep, Reader.hasMoreRows]
    rw [hw.1, hat, loop_has]
    exact ⟨rfl, hleft, hi, trivial, by rw [hrw.2]; exact hp⟩
  | rowsLeft =>
    have hw := whileData text r.comment (fun (_ : Nat) => true) (fun a _ => .ok (a + 1)) (afterTell r.stream) 0
    simp only at hw
    simp only [Reader.step, specStep, Reader.rowsLeft]
    rw [hw.1, hat, loop_count]
    exact ⟨by simp, hleft, hi, trivial, by rw [hrw.2]; exact hp⟩
  | getInfo =>
    simp only [Reader.step, specStep, hci]
    exact ⟨trivial, trivial, hi, trivial, hp⟩

/-! ## C42 -/

/-- Every sequence of calls on a reader that knows its columns gives the results of the same calls on the list of its data lines. -/
theorem C42_refines_partial (fmt : Fmt F D) (text : Bytes) (ht : text.length < 2 ^ 31) (ops : List Op) : ∀ (r : Reader) (info : Info), r.info = some info →
    r.stream.pos ≤ text.length → r.run fmt text ops = specRun fmt info ops (left text r.comment r.stream) := by
  induction ops with
  | nil => intro r info _ _; rfl
  | cons op ops ih =>
    intro r info hi hp
    have h := step_refines fmt text ht r info hi hp op
    rw [Reader.run, specRun, h.1, ih _ info h.2.2.1 h.2.2.2.2, h.2.2.2.1, h.2.1]

/-- Reading the columns leaves the data lines as they were, whether it succeeds or not; the columns stay the same afterwards. -/
theorem C42_columns_partial (text : Bytes) (ht : text.length < 2 ^ 31) (r : Reader) (hp : r.stream.pos ≤ text.length) :
    left text r.comment (r.readColumnInfo text).1.stream = left text r.comment r.stream ∧
    (r.readColumnInfo text).1.stream.pos ≤ text.length ∧ (r.readColumnInfo text).1.comment = r.comment ∧
    ∀ info, (r.readColumnInfo text).2 = .ok info → (r.readColumnInfo text).1.info = some info := by
  have key : ∀ s : Stream, s.pos ≤ text.length → left text r.comment (rewind s) = left text r.comment s ∧ (rewind s).pos ≤ text.length := fun s hs => by
    have := rewind_lines text s hs ht
    rw [left_eq, left_eq, this.1, this.2]
    exact ⟨rfl, hs⟩
  have k1 := key r.stream hp
  have k2 := key _ k1.2
  have k3 := key _ k2.2
  rw [Reader.readColumnInfo]
  cases hi : r.info with
  | some info => simp only; exact ⟨trivial, hp, trivial, fun info' h => by cases h; exact hi⟩
  | none =>
    simp only
    cases countColumns text r.comment r.stream with
    | throw e => exact ⟨k1.1, k1.2, rfl, fun _ h => by cases h⟩
    | ub => exact ⟨k1.1, k1.2, rfl, fun _ h => by cases h⟩
    | ok n =>
      simp only
      by_cases h1 : r.names ≠ [] ∧ r.names.length ≠ n
      · rw [if_pos h1]; exact ⟨k1.1, k1.2, rfl, fun _ h => by cases h⟩
      · rw [if_neg h1]
        by_cases h2 : r.types ≠ [] ∧ r.types.length ≠ n
        · rw [if_pos h2]; exact ⟨k1.1, k1.2, rfl, fun _ h => by cases h⟩
        · rw [if_neg h2]
          cases detectNames text r.comment n (rewind r.stream) with
          | throw e => exact ⟨k2.1.trans k1.1, k2.2, rfl, fun _ h => by cases h⟩
          | ub => exact ⟨k2.1.trans k1.1, k2.2, rfl, fun _ h => by cases h⟩
          | ok autoNames =>
            simp only
            cases (do let descs ← detectDescriptions text r.comment (rewind (rewind r.stream))
                      let l ← infoLoop r.names autoNames r.types descs n 0
                      mkInfo l) with
            | throw e => exact ⟨k3.1.trans (k2.1.trans k1.1), k3.2, rfl, fun _ h => by cases h⟩
            | ub => exact ⟨k3.1.trans (k2.1.trans k1.1), k3.2, rfl, fun _ h => by cases h⟩
            | ok info => exact ⟨k3.1.trans (k2.1.trans k1.1), k3.2, rfl, fun _ h => by cases h; rfl⟩

/-- The same from the beginning of a text whose columns can be found. -/
theorem C42_text_partial (fmt : Fmt F D) (text : Bytes) (ht : text.length < 2 ^ 31) (r : Reader) (hr : r.stream = {}) (info : Info)
    (hi : (r.readColumnInfo text).2 = .ok info) (ops : List Op) : r.run fmt text ops = specRun fmt info ops (dataLines r.comment text) := by
  have hp : r.stream.pos ≤ text.length := by rw [hr]; exact Nat.zero_le _
  have hl : left text r.comment r.stream = dataLines r.comment text := by rw [hr]; simp [left]
  have hrw : rewind r.stream = r.stream := by rw [hr]; decide
  have hc := C42_columns_partial text ht r hp
  induction ops with
  | nil => rfl
  | cons op ops ih =>
    have hfirst : ∀ op : Op, (∀ r', r' = r → r'.info = none → op ≠ .hasMoreRows ∧ op ≠ .rowsLeft) →
        r.run fmt text (op :: ops) = (r.readColumnInfo text).1.run fmt text (op :: ops) := by
      intro op hop
      cases hin : r.info with
      | some i => rw [Reader.readColumnInfo, hin]
      | none =>
        have hidem : (r.readColumnInfo text).1.readColumnInfo text = ((r.readColumnInfo text).1, .ok info) := by
          rw [Reader.readColumnInfo, hc.2.2.2 info hi]
        have hpair : r.readColumnInfo text = ((r.readColumnInfo text).1, .ok info) := by rw [← hi]
        have hstep : r.step fmt text op = (r.readColumnInfo text).1.step fmt text op := by
          cases op with
          | read n => simp only [Reader.step, Reader.read]; rw [hidem, hpair]
          | skip n => simp only [Reader.step, Reader.skip]; rw [hidem, hpair]
          | getInfo => simp only [Reader.step]; rw [hidem, hpair]
          | hasMoreRows => exact absurd rfl (hop r rfl hin).1
          | rowsLeft => exact absurd rfl (hop r rfl hin).2
        rw [Reader.run, Reader.run, hstep]
    have hdone : ∀ op : Op, (∀ r', r' = r → r'.info = none → op ≠ .hasMoreRows ∧ op ≠ .rowsLeft) →
        r.run fmt text (op :: ops) = specRun fmt info (op :: ops) (dataLines r.comment text) := fun op hop => by
      rw [hfirst op hop, C42_refines_partial fmt text ht (op :: ops) _ info (hc.2.2.2 info hi) hc.2.1, hc.2.2.1, hc.1, hl]
    have hat : left text r.comment (afterTell r.stream) = left text r.comment r.stream := by rw [left_eq, left_eq, afterTell_lines]
    cases op with
    | read n => exact hdone _ fun _ _ _ => ⟨by simp, by simp⟩
    | skip n => exact hdone _ fun _ _ _ => ⟨by simp, by simp⟩
    | getInfo => exact hdone _ fun _ _ _ => ⟨by simp, by simp⟩
    | hasMoreRows =>
      have hw := whileData text r.comment (fun (a : Bool) => !a) (fun _ _ => .ok true) (afterTell r.stream) false
      simp only at hw
      have hs : ({ r with stream := rewind r.stream } : Reader) = r := by rw [hrw]
      rw [Reader.run, specRun]
      simp only [Reader.step, specStep, Reader.hasMoreRows]
      rw [hs, ih, hw.1, hat, hl, loop_has]
    | rowsLeft =>
      have hw := whileData text r.comment (fun (_ : Nat) => true) (fun a _ => .ok (a + 1)) (afterTell r.stream) 0
      simp only at hw
      have hs : ({ r with stream := rewind r.stream } : Reader) = r := by rw [hrw]
      rw [Reader.run, specRun]
      simp only [Reader.step, specStep, Reader.rowsLeft]
      rw [hs, ih, hw.1, hat, hl, loop_count]
      simp

/-- Lines that are rows are returned as these rows, as many as asked for. -/
theorem specRead_ok (fmt : Fmt F D) (info : Info) (k : Nat) : ∀ (ls : List Bytes) (rows : List (RowT F D)),
    List.Forall₂ (fun l r => parseRow fmt info l = .ok r) ls rows → specRead fmt info k ls = (ls.drop k, .ok (rows.take k)) := by
  induction k with
  | zero => intro ls rows _; simp [specRead]
  | succ k ih =>
    intro ls rows h
    cases h with
    | nil => simp [specRead]
    | cons h1 h2 => rw [specRead, h1]; simp only; rw [ih _ _ h2]; simp

/-- If all the lines are rows, then reading them in chunks of any positive sizes, down to the last row, gives all of them in order,
and the calls after that throw. -/
theorem C42_chunks_partial (fmt : Fmt F D) (text : Bytes) (ht : text.length < 2 ^ 31) (r : Reader) (info : Info) (hi : r.info = some info)
    (hp : r.stream.pos ≤ text.length) (rows : List (RowT F D))
    (hrows : List.Forall₂ (fun l x => parseRow fmt info l = .ok x) (left text r.comment r.stream) rows)
    (sizes : List Nat) (hpos : ∀ n ∈ sizes, 0 < n) (hlen : sizes.sum = rows.length) :
    ∃ tables : List (TableT F D), r.run fmt text ((sizes.map fun n : Nat => Op.read (n : Int)) ++ [Op.hasMoreRows, Op.read (-1)]) =
        tables.map (fun t => Out.table (.ok t)) ++ [.bool false, .table (.throw .elements)] ∧
      (tables.map TableT.rows).flatten = rows ∧ tables.map (fun t => t.rows.length) = sizes ∧ ∀ t ∈ tables, t.info = info := by
  rw [C42_refines_partial fmt text ht _ r info hi hp]
  generalize left text r.comment r.stream = ls at hrows
  induction sizes generalizing ls rows with
  | nil =>
    have hr0 : rows = [] := by simpa using hlen.symm
    subst hr0
    cases hrows
    exact ⟨[], rfl, rfl, rfl, by simp⟩
  | cons n sizes ih =>
    have hn : 0 < n := hpos n (by simp)
    have hlen' : n + sizes.sum = rows.length := by simpa using hlen
    have hs := specRead_ok fmt info n ls rows hrows
    have hdrop : List.Forall₂ (fun l x => parseRow fmt info l = .ok x) (ls.drop n) (rows.drop n) := List.forall₂_drop n hrows
    obtain ⟨tables, h1, h2, h3, h4⟩ := ih (rows.drop n) (fun m hm => hpos m (List.mem_cons_of_mem _ hm)) (by rw [List.length_drop]; omega) _ hdrop
    have hc : count (n : Int) ls = n := by rw [count, if_neg (by omega), Int.toNat_natCast]
    have hne : rows.take n ≠ [] := by
      intro h
      have := congrArg List.length h
      simp only [List.length_take, List.length_nil] at this
      omega
    refine ⟨⟨rows.take n, info⟩ :: tables, ?_, ?_, ?_, ?_⟩
    · simp only [List.map_cons, List.cons_append, specRun, specStep]
      rw [hc, hs]
      simp only [Outcome.bind_ok]
      rw [if_neg hne, h1]
    · simp only [List.map_cons, List.flatten_cons]
      rw [h2, List.take_append_drop]
    · simp only [List.map_cons, List.length_take]
      rw [h3]
      congr 1
      omega
    · intro t ht
      rcases List.mem_cons.1 ht with rfl | ht
      · rfl
      · exact h4 t ht

/-- Skipping rows and reading the rest gives the rest. -/
theorem C42_skip_partial (fmt : Fmt F D) (text : Bytes) (ht : text.length < 2 ^ 31) (r : Reader) (info : Info) (hi : r.info = some info)
    (hp : r.stream.pos ≤ text.length) (rows : List (RowT F D))
    (hrows : List.Forall₂ (fun l x => parseRow fmt info l = .ok x) (left text r.comment r.stream) rows) (n : Nat) :
    r.run fmt text [.skip n, .rowsLeft, .read (-1)] =
      [.done (.ok ()), .nat (rows.length - n), .table (if n < rows.length then .ok ⟨rows.drop n, info⟩ else .throw .elements)] := by
  rw [C42_refines_partial fmt text ht _ r info hi hp]
  have hdrop : List.Forall₂ (fun l x => parseRow fmt info l = .ok x) ((left text r.comment r.stream).drop n) (rows.drop n) := List.forall₂_drop n hrows
  have hs := specRead_ok fmt info ((left text r.comment r.stream).drop n).length _ _ hdrop
  have hc : count (n : Int) (left text r.comment r.stream) = n := by rw [count, if_neg (by omega), Int.toNat_natCast]
  have hlen := hrows.length_eq
  have hc2 : count (-1) ((left text r.comment r.stream).drop n) = ((left text r.comment r.stream).drop n).length := by simp [count]
  simp only [specRun, specStep, hc]
  rw [hc2, hs]
  simp only [Outcome.bind_ok]
  rw [show (rows.drop n).take ((left text r.comment r.stream).drop n).length = rows.drop n from by
    rw [List.take_of_length_le]; rw [hdrop.length_eq]; exact Nat.le_refl _]
  simp only [List.length_drop, hlen]
  by_cases h : n < rows.length
  · rw [if_pos h, if_neg (by rw [List.drop_eq_nil_iff]; omega)]
  · rw [if_neg h, if_pos (by rw [List.drop_eq_nil_iff]; omega)]

/-- The property without a bound on the length of the text. -/
def C42_full (fmt : Fmt F D) : Prop := ∀ (text : Bytes) (ops : List Op) (r : Reader) (info : Info), r.info = some info → r.stream.pos ≤ text.length →
  r.run fmt text ops = specRun fmt info ops (left text r.comment r.stream)

theorem splitChar_replicate (n : Nat) (t : Bytes) : splitChar '\n' (List.replicate n '\n' ++ t) = List.replicate n [] ++ splitChar '\n' t := by
  induction n with
  | zero => rfl
  | succ n ih => rw [List.replicate_succ, List.cons_append, splitChar, if_pos rfl, ih]; rfl

theorem drop_of_lines (text : Bytes) (s : Stream) (ls : List Bytes) (hl : linesLeft text s = ls) (hne : ls ≠ []) :
    s.eof = false ∧ s.fail = false ∧ text.drop s.pos = ['\n'].intercalate ls := by
  rw [linesLeft] at hl
  by_cases h : s.eof = true ∨ s.fail = true
  · rw [if_pos h] at hl; exact absurd hl.symm hne
  · rw [if_neg h] at hl
    have : s.eof = false ∧ s.fail = false := by simpa [not_or] using h
    exact ⟨this.1, this.2, by rw [← hl, splitChar_join]⟩

/-- A row at a position from 2^31 on is lost when `rowsLeft` looks for it: the position is kept as an `int`. -/
theorem C42_violated (fmt : Fmt F D) : ¬ C42_full fmt := by
  intro h
  obtain ⟨N, hN⟩ : ∃ N : Nat, N = 2 ^ 31 := ⟨_, rfl⟩
  let info : Info := [⟨['a'], .scalar .bool, [], []⟩]
  let text : Bytes := List.replicate N '\n' ++ "1\n0\n".toList
  let r : Reader := { info := some info }
  have hp1 : parseRow fmt info ['1'] = .ok ⟨[.scalar .bool true], info⟩ := rfl
  have hlines : linesLeft text {} = List.replicate N [] ++ [['1'], ['0'], []] := by
    have : linesLeft text {} = splitChar '\n' text := by simp [linesLeft]
    rw [this, splitChar_replicate]; rfl
  have hleft : left text ['#'] {} = [['1'], ['0']] := by
    rw [left_eq, hlines, List.map_append, List.filter_append, List.map_replicate, dataLine_nil]
    rw [List.filter_replicate, if_neg (by simp)]
    rfl
  -- the loop over the lines stops behind the first row
  have hloop : ∀ n, loop (fun (a : Int × List (RowT F D)) => decide (a.1 ≠ 0)) (readBody fmt ['#'] info) (List.replicate n [] ++ [['1'], ['0'], []]) (1, []) =
      ([['0'], []], .ok (0, [⟨[.scalar .bool true], info⟩])) := by
    intro n
    induction n with
    | zero => rfl
    | succ n ih =>
      rw [List.replicate_succ, List.cons_append, loop, if_pos (by rfl)]
      have : readBody fmt ['#'] info (1, []) [] = .ok (1, []) := by rw [readBody, dataLine_nil, if_pos rfl]
      rw [this]
      exact ih
  have hw := whileLines_eq text (fun (a : Int × List (RowT F D)) => decide (a.1 ≠ 0)) (readBody fmt ['#'] info)
    (by intro a; rw [readBody, dataLine_nil, if_pos rfl]) (lineFuel text) {} (1, []) (fuel_ok text {})
  rw [hlines, hloop] at hw
  generalize hW : whileLines text (fun (a : Int × List (RowT F D)) => decide (a.1 ≠ 0)) (readBody fmt ['#'] info) (lineFuel text) {} (1, []) = W at hw
  obtain ⟨he, hf, hd⟩ := drop_of_lines text W.1 _ hw.2.1 (by simp)
  have hlen : text.length = 2 ^ 31 + 4 := by
    show (List.replicate N '\n' ++ "1\n0\n".toList).length = _
    rw [List.length_append, List.length_replicate, hN]; rfl
  have hpos : W.1.pos = 2 ^ 31 + 2 := by
    have := congrArg List.length hd
    rw [List.length_drop, hlen] at this
    have h2 : (['\n'].intercalate [['0'], ([] : Bytes)]).length = 2 := rfl
    rw [h2] at this
    omega
  have hread : r.read fmt text 1 = ({ r with stream := W.1 }, .ok ⟨[⟨[.scalar .bool true], info⟩], info⟩) := by
    simp only [Reader.read, Reader.readColumnInfo, r]
    rw [hW, hw.1]
    rfl
  have hrew : rewind W.1 = { pos := W.1.pos, eof := false, fail := true } := by
    have h2 : toInt32 W.1.pos < 0 := by rw [hpos]; decide
    rw [rewind]
    simp only [he, hf, Bool.false_eq_true, or_self, if_false]
    rw [if_pos h2]
  have hfinal : ({ r with stream := rewind W.1 } : Reader).read fmt text 1 = ({ r with stream := rewind W.1 }, .throw .elements) := by
    simp only [Reader.read, Reader.readColumnInfo, r]
    rw [hrew]
    simp [lineFuel, whileLines]
  have := h text [.read 1, .rowsLeft, .read 1] r info rfl (Nat.zero_le _)
  rw [Reader.run, Reader.run, Reader.run] at this
  simp only [Reader.step, hread, Reader.rowsLeft, hfinal] at this
  have hl : left text r.comment r.stream = [['1'], ['0']] := hleft
  rw [hl] at this
  have hs : specRun fmt info [.read 1, .rowsLeft, .read 1] [['1'], ['0']] =
    [.table (.ok ⟨[⟨[.scalar .bool true], info⟩], info⟩), .nat 1, .table (.ok ⟨[⟨[.scalar .bool false], info⟩], info⟩)] := rfl
  rw [hs] at this
  simp only [List.cons.injEq, Out.table.injEq] at this
  exact absurd this.2.2.1 (by simp)

/-! ## C96: the comment of a table -/

/-- The leading comment of a list of lines. -/
def leadingComment (comment : Bytes) (ls : List Bytes) : Bytes :=
  trim ((ls.takeWhile fun l => decide (comment <+: l)).flatMap fun l => trim (l.drop comment.length) ++ ['\n'])

theorem findAux_zero {p s : Bytes} (h : p <+: s) (i : Nat) : findAux p s i = some i := by
  cases s with
  | nil => rw [findAux, if_pos (by simpa using h)]
  | cons c t => rw [findAux, if_pos (by simpa using h)]

theorem dataLine_comment {comment l : Bytes} (h : comment <+: l) : dataLine comment l = [] := by
  have : find comment l = some 0 := by rw [find, if_pos (Nat.zero_le _), List.drop_zero, findAux_zero h]
  rw [dataLine, this]
  rfl

theorem take_eq_iff (comment l : Bytes) : l.take comment.length = comment ↔ comment <+: l := by
  rw [List.prefix_iff_eq_take]; exact eq_comm

theorem commentLoop_eq (text comment : Bytes) (hc : comment ≠ []) : ∀ (fuel : Nat) (s : Stream) (acc : Bytes), fuelOf text s ≤ fuel →
    (commentLoop text comment fuel s acc).2 =
      acc ++ ((linesLeft text s).takeWhile fun l => decide (comment <+: l)).flatMap (fun l => trim (l.drop comment.length) ++ ['\n']) ∧
    left text comment (commentLoop text comment fuel s acc).1 = left text comment s ∧
    (s.pos ≤ text.length → (commentLoop text comment fuel s acc).1.pos ≤ text.length) := by
  intro fuel
  induction fuel with
  | zero =>
    intro s acc hfu
    have hs : s.fail = true := by
      by_contra hc
      simp only [fuelOf, hc] at hfu
      by_cases he : s.eof = true <;> simp [he] at hfu
    rw [commentLoop]
    simp [linesLeft, hs]
  | succ n ih =>
    intro s acc hfu
    rw [commentLoop]
    by_cases hs : s.fail = true
    · rw [if_pos hs]; simp [linesLeft, hs]
    · have hs' : s.fail = false := by simpa using hs
      rw [if_neg hs]
      have hnil : ¬ ([] : Bytes).take comment.length = comment := by simpa using hc.symm
      by_cases he : s.eof = true
      · have hp : peekLine text s = ([], { s with fail := true }) := by rw [peekLine, if_pos (Or.inl he)]
        simp only [hp]
        rw [if_neg hnil]
        simp [linesLeft, left, he]
      · have he' : s.eof = false := by simpa using he
        obtain ⟨l, ls, h1, h2, h3, h4, h5⟩ := getline_good text s he' hs'
        have hp : peekLine text s = (l, if (getline text s).2.fail then (getline text s).2 else s) := by
          rw [peekLine, if_neg (by simp [hs', he']), ← h2]
        simp only [hp]
        by_cases hl : comment <+: l
        · rw [if_pos ((take_eq_iff _ _).2 hl)]
          have hnf : (getline text s).2.fail = false := by
            by_contra hx
            have hx : (getline text s).2.fail = true := by simpa using hx
            have h0 : ¬ (s.eof = true ∨ s.fail = true) := by simp [he', hs']
            simp only [getline] at hx
            rw [if_neg h0] at hx
            by_cases hr : text.drop s.pos = []
            · rw [linesLeft, if_neg h0, hr] at h1
              simp only [splitChar, List.cons.injEq] at h1
              rw [← h1.1] at hl
              exact hc (List.prefix_nil.1 hl)
            · rw [if_neg hr] at hx
              split at hx <;> simp [hs'] at hx
          simp only [hnf, Bool.false_eq_true, if_false]
          have hfu' : fuelOf text (getline text s).2 ≤ n := by
            simp only [fuelOf, hs', he', Bool.false_eq_true, if_false] at hfu
            rw [fuelOf]
            rcases h4 with h4 | h4 | h4
            · simp [h4]
            · simp only [hnf, h4, if_true]; simp; omega
            · split
              · omega
              · split <;> omega
          have := ih (getline text s).2 (acc ++ trim (l.drop comment.length) ++ ['\n']) hfu'
          rw [h2, this.1, this.2.1]
          refine ⟨?_, ?_, fun h => this.2.2 (h5 h)⟩
          · rw [h3, h1, List.takeWhile_cons, if_pos (by simpa using hl), List.flatMap_cons]
            simp
          · rw [left_eq, left_eq, h3, h1]
            simp [dataLine_comment hl]
        · rw [if_neg (mt (take_eq_iff _ _).1 hl)]
          refine ⟨?_, ?_, ?_⟩
          · simp only; rw [h1, List.takeWhile_cons_of_neg (by simpa using hl)]; simp
          · by_cases hx : (getline text s).2.fail = true
            · simp only [hx, if_true]
              have h0 : ¬ (s.eof = true ∨ s.fail = true) := by simp [he', hs']
              have hll : linesLeft text s = [[]] := by
                have hx' := hx
                simp only [getline] at hx'
                rw [if_neg h0] at hx'
                by_cases hr : text.drop s.pos = []
                · rw [linesLeft, if_neg h0, hr]; rfl
                · rw [if_neg hr] at hx'
                  split at hx' <;> simp [hs'] at hx'
              rw [left_eq, left_eq, hll, linesLeft, if_pos (Or.inr hx)]
              simp [dataLine_nil]
            · simp only [hx, if_false]
              simp
          · intro hpos
            simp only
            split
            · exact h5 hpos
            · exact hpos

/-- `getComment` gives the leading comment of what is left of the text and takes away no data line. -/
theorem C96_comment (text : Bytes) (r : Reader) (hc : r.comment ≠ []) :
    (r.getComment text).2 = leadingComment r.comment (linesLeft text r.stream) ∧
    left text r.comment (r.getComment text).1.stream = left text r.comment r.stream ∧ (r.getComment text).1.info = r.info := by
  have := commentLoop_eq text r.comment hc (lineFuel text) r.stream [] (fuel_ok text r.stream)
  refine ⟨?_, this.2.1, rfl⟩
  simp only [Reader.getComment]
  rw [this.1, List.nil_append, leadingComment]

/-- The comment of a whole text: the lines that start with the indicator, before any other. -/
theorem C96_start (text : Bytes) (r : Reader) (hc : r.comment ≠ []) (hr : r.stream = {}) :
    (r.getComment text).2 = leadingComment r.comment (splitChar '\n' text) := by
  rw [(C96_comment text r hc).1, hr]
  simp [linesLeft]

/-- A reader that knows its columns gives the same rows whether or not the comment was asked for. -/
theorem C96_rows_partial (fmt : Fmt F D) (text : Bytes) (ht : text.length < 2 ^ 31) (ops : List Op) (r : Reader) (hc : r.comment ≠ []) (info : Info)
    (hi : r.info = some info) (hp : r.stream.pos ≤ text.length) : (r.getComment text).1.run fmt text ops = r.run fmt text ops := by
  have h1 := C96_comment text r hc
  have h2 := commentLoop_eq text r.comment hc (lineFuel text) r.stream [] (fuel_ok text r.stream)
  rw [C42_refines_partial fmt text ht ops r info hi hp, C42_refines_partial fmt text ht ops _ info (h1.2.2.trans hi) (h2.2.2 hp)]
  have : (r.getComment text).1.comment = r.comment := rfl
  rw [this, h1.2.1]

/-- The property for readers that do not know their columns yet. -/
def C96_full : Prop := ∀ (text : Bytes) (r : Reader), r.stream = {} → ((r.getComment text).1.readColumnInfo text).2 = (r.readColumnInfo text).2

/-- Asking for the comment first takes the names, types, units and descriptions of the columns away. -/
theorem C96_violated : ¬ C96_full := by
  intro h
  have := h "# a\n1\n".toList {} rfl
  revert this
  decide +kernel

/-! ## Examples -/

/-- A text with comments and blank lines. -/
def sample : Bytes := "# Column: a bool\n\n# a\n 1\n\n0 # no\n  # x\n1".toList

example : (({} : Reader).readColumnInfo sample).2 = .ok [⟨['a'], .scalar .bool, [], []⟩] := by decide +kernel
example : dataLines ['#'] sample = [['1'], ['0'], ['1']] := by decide +kernel
example (fmt : Fmt F D) : parseRow fmt [⟨['a'], .scalar .bool, [], []⟩] ['0'] = .ok ⟨[.scalar .bool false], [⟨['a'], .scalar .bool, [], []⟩]⟩ := rfl
example : (({} : Reader).getComment sample).2 = "Column: a bool".toList := by decide +kernel
example : leadingComment ['#'] ["# a ".toList, "#b".toList, "1".toList, "# c".toList] = "a\nb".toList := by decide +kernel

end Alexandria.Table
