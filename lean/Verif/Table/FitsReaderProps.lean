import Verif.Table.FitsModel
import Verif.Table.Props
import Mathlib.Data.List.Forall2
import Mathlib.Tactic.ByContra

/-!
# Reading a FITS table in chunks (C47)
-/

namespace Alexandria.Table

open Alexandria.Str

variable {F D : Type}

/-! ## Specification: a reader is the list of the rows that are left -/

/-- The columns of the extension hold the rows. -/
structure Holds (h : Hdu F D) (rows : List (List (Cell F D))) : Prop where
  total : h.total = rows.length
  width : ∀ r ∈ rows, r.length = h.cols.length
  cell : ∀ i j : Nat, (h.cols[j]?.bind fun col => col[i]?) = rows[i]?.bind fun r => r[j]?

/-- The calls. -/
inductive FOp where
  | read (n : Int) | skip (n : Int) | hasMoreRows | rowsLeft
  deriving DecidableEq, Repr

/-- What the calls are to give: the rows for a table. -/
inductive FSpec (F D : Type) where
  | rows (l : List (List (Cell F D))) | done | bool (b : Bool) | nat (n : Nat)

/-- The number of rows meant by an argument: -1 means all. -/
def wanted (n : Int) (left : List (List (Cell F D))) : Nat := if n = -1 then left.length else n.toNat

def fspecStep (left : List (List (Cell F D))) : FOp → List (List (Cell F D)) × FSpec F D
  | .read n => (left.drop (wanted n left), .rows (left.take (wanted n left)))
  | .skip n => (left.drop n.toNat, .done)
  | .hasMoreRows => (left, .bool (left ≠ []))
  | .rowsLeft => (left, .nat left.length)

def fspecRun : List FOp → List (List (Cell F D)) → List (FSpec F D)
  | [], _ => []
  | op :: ops, left => (fspecStep left op).2 :: fspecRun ops (fspecStep left op).1

/-- The arguments make sense: rows are not skipped backwards, nor past the end. -/
def Fine : List FOp → List (List (Cell F D)) → Prop
  | [], _ => True
  | op :: ops, left => (match op with
      | .read n => -1 ≤ n
      | .skip n => 0 ≤ n ∧ n ≤ left.length
      | _ => True) ∧ Fine ops (fspecStep left op).1

/-- The results of the calls on the model. -/
inductive FOut (F D : Type) where
  | table (t : Res (TableT F D)) | done (u : Res Unit) | bool (b : Bool) | nat (n : Nat)

def FitsReader.step (h : Hdu F D) (throws : Int → Bool) (r : FitsReader) : FOp → FitsReader × FOut F D
  | .read n => ((r.read h throws n).1, .table (r.read h throws n).2)
  | .skip n => match r.skip n with
    | .ok r' => (r', .done (.ok ()))
    | .throw e => (r, .done (.throw e))
    | .ub => (r, .done .ub)
  | .hasMoreRows => (r, .bool (r.hasMoreRows h))
  | .rowsLeft => (r, .nat (r.rowsLeft h))

def FitsReader.run (h : Hdu F D) (throws : Int → Bool) : List FOp → FitsReader → List (FOut F D)
  | [], _ => []
  | op :: ops, r => (r.step h throws op).2 :: FitsReader.run h throws ops (r.step h throws op).1

/-- A table with exactly these rows, if there are any and they are rows for the columns; otherwise an exception. -/
def IsTable (info : Info) (l : List (List (Cell F D))) (t : Res (TableT F D)) : Prop :=
  ((l ≠ [] ∧ ∀ r ∈ l, GoodCells info r) → t = .ok ⟨l.map fun r => ⟨r, info⟩, info⟩) ∧
  (¬ (l ≠ [] ∧ ∀ r ∈ l, GoodCells info r) → ∃ e, t = .throw e)

def Matches (info : Info) : FOut F D → FSpec F D → Prop
  | .table t, .rows l => IsTable info l t
  | .done u, .done => u = .ok ()
  | .bool a, .bool b => a = b
  | .nat a, .nat b => a = b
  | _, _ => False

/-! ## Lemmas -/

theorem rowAt_ok (i : Nat) : ∀ (cols : List (List (Cell F D))) (r : List (Cell F D)), r.length = cols.length →
    (∀ j : Nat, (cols[j]?.bind fun col => col[i]?) = r[j]?) → rowAt i cols = .ok r := by
  intro cols
  induction cols with
  | nil =>
    intro r hl _
    have : r = [] := List.length_eq_zero_iff.1 hl
    rw [this]; rfl
  | cons col cols ih =>
    intro r hl h
    cases r with
    | nil => simp at hl
    | cons c r =>
      have h0 := h 0
      simp only [List.getElem?_cons_zero, Option.bind_some] at h0
      rw [rowAt, h0]
      simp only
      rw [ih r (by simpa using hl) fun j => by simpa using h (j + 1)]
      rfl

theorem rowsLoop_ok (info : Info) (data : List (List (Cell F D))) : ∀ (l : List (List (Cell F D))) (i : Nat),
    (∀ m r, l[m]? = some r → rowAt (i + m) data = .ok r) →
    ((∀ r ∈ l, GoodCells info r) → rowsLoop info data l.length i = .ok (l.map fun r => ⟨r, info⟩)) ∧
    (¬ (∀ r ∈ l, GoodCells info r) → ∃ e, rowsLoop info data l.length i = .throw e) := by
  intro l
  induction l with
  | nil => intro i _; exact ⟨fun _ => rfl, fun h => absurd (by simp) h⟩
  | cons r l ih =>
    intro i h
    have h0 := h 0 r rfl
    have ih' := ih (i + 1) fun m r' hm => by
      have := h (m + 1) r' (by simpa using hm)
      rwa [show i + (m + 1) = i + 1 + m by omega] at this
    rw [Nat.add_zero] at h0
    constructor
    · intro hg
      rw [List.length_cons, rowsLoop, h0, Outcome.bind_ok, (mkRow_iff r info).2 (hg r (by simp)), Outcome.bind_ok,
        ih'.1 fun r' hr' => hg r' (List.mem_cons_of_mem _ hr')]
      rfl
    · intro hg
      rw [List.length_cons, rowsLoop, h0, Outcome.bind_ok]
      by_cases hr : GoodCells info r
      · obtain ⟨e, he⟩ := ih'.2 fun hl => hg fun r' hr' => by
          rcases List.mem_cons.1 hr' with rfl | hr'
          · exact hr
          · exact hl r' hr'
        rw [(mkRow_iff r info).2 hr, Outcome.bind_ok, he]
        exact ⟨e, rfl⟩
      · rw [(C45_row r info).2.1 hr]
        exact ⟨_, rfl⟩

theorem mkTable_rows (info : Info) (l : List (List (Cell F D))) (hne : l ≠ []) :
    mkTable (l.map fun r => (⟨r, info⟩ : RowT F D)) = .ok ⟨l.map fun r => ⟨r, info⟩, info⟩ := by
  obtain ⟨r, rs, rfl⟩ := List.exists_cons_of_ne_nil hne
  rw [List.map_cons]
  refine (C45_table _ _).1 fun x hx => ?_
  obtain ⟨y, _, rfl⟩ := List.mem_map.1 hx
  rfl

/-- The reader at some row has these rows left. -/
def Left (rows : List (List (Cell F D))) (r : FitsReader) (left : List (List (Cell F D))) : Prop := 1 ≤ r.current ∧ left = rows.drop (r.current - 1).toNat

theorem left_length {rows left : List (List (Cell F D))} {r : FitsReader} (h : Left rows r left) : (left.length : Int) = max 0 (rows.length - r.current + 1) := by
  rw [h.2, List.length_drop]
  have := h.1
  omega

theorem data_row (h : Hdu F D) (rows : List (List (Cell F D))) (hh : Holds h rows) (p k : Nat) :
    ∀ m r, ((rows.drop p).take k)[m]? = some r → rowAt (0 + m) (h.cols.map fun col => (col.drop p).take k) = .ok r := by
  intro m r hm
  rw [List.getElem?_take] at hm
  split at hm
  · rename_i hmk
    rw [List.getElem?_drop] at hm
    have hr : r ∈ rows := List.mem_of_getElem? hm
    refine rowAt_ok _ _ _ (by simpa using hh.width r hr) fun j => ?_
    have hc := hh.cell (p + m) j
    rw [hm, Option.bind_some] at hc
    rw [List.getElem?_map, Nat.zero_add]
    rw [← hc]
    cases hcol : h.cols[j]? with
    | none => rfl
    | some col => simp [List.getElem?_take, hmk, List.getElem?_drop]
  · cases hm

/-- One chunk. -/
theorem read_ok (h : Hdu F D) (throws : Int → Bool) (rows : List (List (Cell F D))) (hh : Holds h rows) (r : FitsReader) (left : List (List (Cell F D)))
    (hl : Left rows r left) (n : Int) (hn : -1 ≤ n) :
    Left rows (r.read h throws n).1 (left.drop (wanted n left)) ∧ IsTable h.info (left.take (wanted n left)) (r.read h throws n).2 := by
  have hlen := left_length hl
  have h1 := hl.1
  rw [FitsReader.read, hh.total]
  by_cases hc : r.current > rows.length
  · have hnil : left = [] := List.length_eq_zero_iff.1 (by omega)
    rw [if_pos hc]
    subst hnil
    simp only [List.drop_nil, List.take_nil]
    exact ⟨hl, fun hx => absurd rfl hx.1, fun _ => ⟨_, rfl⟩⟩
  · rw [if_neg hc]
    simp only
    have hk : (min (if n = -1 then (rows.length : Int) - r.current + 1 else n) (rows.length - r.current + 1)) = ((min (wanted n left) left.length : Nat) : Int) := by
      rw [wanted]
      split <;> omega
    rw [hk]
    generalize hkd : min (wanted n left) left.length = k
    have htake : left.take (wanted n left) = left.take k := by
      rw [← hkd, List.take_eq_take_iff]; omega
    have hdrop : left.drop (wanted n left) = left.drop k := by
      by_cases hw : wanted n left ≤ left.length
      · rw [← hkd, Nat.min_eq_left hw]
      · rw [← hkd, Nat.min_eq_right (by omega), List.drop_eq_nil_of_le (by omega), List.drop_eq_nil_of_le (Nat.le_refl _)]
    rw [htake, hdrop]
    by_cases hk0 : k = 0
    · subst hk0
      simp only [List.drop_zero, List.take_zero]
      split
      · exact ⟨hl, fun hx => absurd rfl hx.1, fun _ => ⟨_, rfl⟩⟩
      · refine ⟨⟨by simpa using hl.1, by simpa using hl.2⟩, fun hx => absurd rfl hx.1, fun _ => ⟨.elements, rfl⟩⟩
    · rw [if_neg (by omega)]
      have hkl : (left.take k).length = k := by rw [List.length_take]; omega
      refine ⟨⟨by simp only; omega, ?_⟩, ?_⟩
      · simp only
        rw [hl.2, List.drop_drop]
        congr 1
        omega
      · have hloop := rowsLoop_ok h.info (h.cols.map fun col => (col.drop (r.current - 1).toNat).take k) (left.take k) 0 (by
          rw [hl.2]; exact data_row h rows hh _ _)
        rw [hkl] at hloop
        simp only [Int.toNat_natCast]
        have hne : left.take k ≠ [] := fun e => by rw [e] at hkl; simp at hkl; omega
        constructor
        · rintro ⟨_, hg⟩
          rw [hloop.1 hg, Outcome.bind_ok, mkTable_rows _ _ hne]
        · intro hx
          obtain ⟨e, he⟩ := hloop.2 fun hg => hx ⟨hne, hg⟩
          rw [he]
          exact ⟨e, rfl⟩

theorem skip_ok (rows : List (List (Cell F D))) (r : FitsReader) (left : List (List (Cell F D))) (hl : Left rows r left) (n : Int) (hn : 0 ≤ n)
    (hb : r.current + n < 2 ^ 63) : ∃ r', r.skip n = .ok r' ∧ r'.current = r.current + n ∧ Left rows r' (left.drop n.toNat) := by
  have := hl.1
  refine ⟨{ r with current := r.current + n }, ?_, rfl, by simp only; omega, ?_⟩
  · rw [FitsReader.skip, if_pos ⟨by omega, hb⟩]
  · simp only
    rw [hl.2, List.drop_drop]
    congr 1
    omega

theorem hasMoreRows_ok (h : Hdu F D) (rows : List (List (Cell F D))) (hh : Holds h rows) (r : FitsReader) (left : List (List (Cell F D)))
    (hl : Left rows r left) : r.hasMoreRows h = decide (left ≠ []) := by
  have hlen := left_length hl
  rw [FitsReader.hasMoreRows, hh.total]
  congr 1
  rw [ne_eq, ← List.length_eq_zero_iff, eq_iff_iff]
  omega

theorem run_ok (h : Hdu F D) (throws : Int → Bool) (rows : List (List (Cell F D))) (hh : Holds h rows) (hb : rows.length < 2 ^ 63 - 1) :
    ∀ (ops : List FOp) (r : FitsReader) (left : List (List (Cell F D))), Left rows r left → r.current ≤ rows.length + 1 → Fine ops left →
      List.Forall₂ (Matches h.info) (FitsReader.run h throws ops r) (fspecRun ops left) := by
  intro ops
  induction ops with
  | nil => intro r left _ _ _; exact .nil
  | cons op ops ih =>
    intro r left hl hc hf
    have hlen := left_length hl
    have h1 := hl.1
    rw [FitsReader.run, fspecRun]
    obtain ⟨hop, hf⟩ := hf
    cases op with
    | read n =>
      obtain ⟨g1, g2⟩ := read_ok h throws rows hh r left hl n hop
      refine .cons g2 (ih _ _ g1 ?_ hf)
      have hll : (left.drop (wanted n left)).length ≤ left.length := by rw [List.length_drop]; omega
      simp only [FitsReader.step]
      rw [FitsReader.read, hh.total]
      by_cases hc' : r.current > rows.length
      · rw [if_pos hc']; exact hc
      · rw [if_neg hc']
        simp only
        generalize (if n = -1 then (rows.length : Int) - r.current + 1 else n) = a
        split
        · exact hc
        · simp only; omega
    | skip n =>
      obtain ⟨r', e1, e2, e3⟩ := skip_ok rows r left hl n hop.1 (by omega)
      simp only [FitsReader.step, e1]
      refine .cons (by trivial) (ih _ _ e3 (by omega) hf)
    | hasMoreRows =>
      refine .cons (hasMoreRows_ok h rows hh r left hl) (ih _ _ hl hc hf)
    | rowsLeft =>
      refine .cons ?_ (ih _ _ hl hc hf)
      show FitsReader.rowsLeft h r = left.length
      rw [FitsReader.rowsLeft, hh.total]
      have : ((rows.length : Int) - r.current + 1) % 2 ^ 64 = (left.length : Int) := by
        rw [Int.emod_eq_of_lt (by omega) (by omega)]
        omega
      rw [this]
      rfl

/-! ## Property -/

/-- For any sequence of calls that does not skip past the end, the reader behaves as the list of the rows that are left. -/
theorem C47_refines_partial (h : Hdu F D) (throws : Int → Bool) (rows : List (List (Cell F D))) (hh : Holds h rows) (hb : rows.length < 2 ^ 63 - 1)
    (ops : List FOp) (hf : Fine ops rows) : List.Forall₂ (Matches h.info) (FitsReader.run h throws ops {}) (fspecRun ops rows) :=
  run_ok h throws rows hh hb ops {} rows ⟨by decide, by simp⟩ (by simp only; omega) hf

/-- Skipping past the end leaves no rows: `hasMoreRows()` is false and `read` throws. -/
theorem C47_past (h : Hdu F D) (throws : Int → Bool) (rows : List (List (Cell F D))) (hh : Holds h rows) (n : Int) (hn : rows.length ≤ n) (hb : n < 2 ^ 63 - 1) :
    ∃ r, ({} : FitsReader).skip n = .ok r ∧ r.hasMoreRows h = false ∧ ∀ m, -1 ≤ m → ∃ e, (r.read h throws m).2 = .throw e := by
  have h0 : Left rows ({} : FitsReader) rows := ⟨by decide, by simp⟩
  obtain ⟨r, e1, e2, e3⟩ := skip_ok rows {} rows h0 n (by omega) (by simp only; omega)
  have hnil : rows.drop n.toNat = [] := List.drop_eq_nil_of_le (by omega)
  rw [hnil] at e3
  refine ⟨r, e1, by rw [hasMoreRows_ok h rows hh r _ e3]; rfl, fun m hm => ?_⟩
  exact (read_ok h throws rows hh r [] e3 m hm).2.2 (by simp)

/-- Negative numbers other than -1 do not mean all the rows. -/
theorem C47_negative (h : Hdu F D) (throws : Int → Bool) (r : FitsReader) (n : Int) (hn : n < -1) : ∃ e, (r.read h throws n).2 = .throw e := by
  rw [FitsReader.read]
  by_cases h1 : r.current > h.total
  · rw [if_pos h1]; exact ⟨_, rfl⟩
  · rw [if_neg h1, if_neg (by omega : ¬ n = -1)]
    simp only
    have h3 : (min n (h.total - r.current + 1)).toNat = 0 := by omega
    rw [h3]
    split
    · exact ⟨_, rfl⟩
    · exact ⟨.elements, rfl⟩

/-- The claim for skipping any number of rows. -/
def C47_full : Prop := ∀ (h : Hdu Unit Unit) (throws : Int → Bool) (rows : List (List (Cell Unit Unit))), Holds h rows → rows.length < 2 ^ 32 →
  ∀ ops : List FOp, (∀ n, .read n ∈ ops → -1 ≤ n) → (∀ n, .skip n ∈ ops → 0 ≤ n ∧ n < 2 ^ 32) → ops.length < 2 ^ 16 →
    List.Forall₂ (Matches h.info) (FitsReader.run h throws ops {}) (fspecRun ops rows)

/-- One column of booleans and its rows. -/
def twoRows : Hdu Unit Unit := ⟨[⟨['a'], .scalar .bool, [], []⟩], [[.scalar .bool true, .scalar .bool false]], 2⟩

theorem twoRows_holds : Holds twoRows [[.scalar .bool true], [.scalar .bool false]] := by
  refine ⟨rfl, fun r hr => ?_, fun i j => ?_⟩
  · simp only [List.mem_cons, List.not_mem_nil, or_false] at hr
    rcases hr with rfl | rfl <;> rfl
  · match i, j with
    | 0, 0 => rfl
    | 1, 0 => rfl
    | i + 2, 0 => rfl
    | 0, j + 1 => simp [twoRows]
    | 1, j + 1 => simp [twoRows]
    | i + 2, j + 1 => simp [twoRows]

/-- After skipping past the end `rowsLeft()` is a large number. -/
theorem C47_violated : ¬ C47_full := fun h => by
  have h1 := h twoRows (fun _ => true) _ twoRows_holds (by decide) [.skip 4, .rowsLeft] (by simp) (by simp) (by decide)
  have h2 : FitsReader.run twoRows (fun _ => true) [.skip 4, .rowsLeft] {} = [.done (.ok ()), .nat (2 ^ 64 - 2)] := rfl
  have h3 : fspecRun [.skip 4, .rowsLeft] [[.scalar .bool true], [(.scalar .bool false : Cell Unit Unit)]] = [.done, .nat 0] := rfl
  rw [h2, h3] at h1
  cases h1 with
  | cons _ h4 =>
    cases h4 with
    | cons h5 _ => exact absurd (show (2 ^ 64 - 2 : Nat) = 0 from h5) (by decide)

example : Fine [.read 1, .hasMoreRows, .skip 1, .rowsLeft, .read (-1)] [[.scalar .bool true], [(.scalar .bool false : Cell Unit Unit)]] := by
  simp [Fine, fspecStep, wanted]

/-! ## Skipping past the end -/

/-- The arguments of `read` and `skip` make sense: no row is skipped backwards. -/
def Forwards (ops : List FOp) : Prop := (∀ n, .read n ∈ ops → -1 ≤ n) ∧ ∀ n, .skip n ∈ ops → 0 ≤ n

/-- The number of rows that are skipped. -/
def skipped : List FOp → Nat
  | [] => 0
  | .skip n :: ops => n.toNat + skipped ops
  | _ :: ops => skipped ops

/-- What is left after a call, and by how many rows the end has been passed. -/
def passStep (left : List (List (Cell F D))) (past : Nat) (op : FOp) : List (List (Cell F D)) × Nat :=
  ((fspecStep left op).1, match op with
    | .skip n => past + (n.toNat - left.length)
    | _ => past)

/-- What a call gives: the number of the rows left wraps around once the end has been passed. -/
def passOut (left : List (List (Cell F D))) (past : Nat) (op : FOp) : FSpec F D :=
  match op with
  | .rowsLeft => .nat (if past = 0 then left.length else 2 ^ 64 - past)
  | op => (fspecStep left op).2

def passRun : List FOp → List (List (Cell F D)) → Nat → List (FSpec F D)
  | [], _, _ => []
  | op :: ops, left, past => passOut left past op :: passRun ops (passStep left past op).1 (passStep left past op).2

/-- The number of the rows left is asked for after rows were skipped past the end. -/
def AsksPast : List FOp → List (List (Cell F D)) → Nat → Prop
  | [], _, _ => False
  | op :: ops, left, past => (op = .rowsLeft ∧ past ≠ 0) ∨ AsksPast ops (passStep left past op).1 (passStep left past op).2

theorem read_current (h : Hdu F D) (throws : Int → Bool) (rows : List (List (Cell F D))) (hh : Holds h rows) (r : FitsReader) (n : Int) :
    (r.read h throws n).1.current = r.current ∨ (r.current ≤ rows.length ∧ (r.read h throws n).1.current ≤ rows.length + 1) := by
  rw [FitsReader.read, hh.total]
  by_cases hc' : r.current > rows.length
  · rw [if_pos hc']; exact Or.inl rfl
  · rw [if_neg hc']
    simp only
    generalize (if n = -1 then (rows.length : Int) - r.current + 1 else n) = a
    split
    · exact Or.inl rfl
    · simp only; right; omega

theorem pass_ok (h : Hdu F D) (throws : Int → Bool) (rows : List (List (Cell F D))) (hh : Holds h rows) (hb : rows.length < 2 ^ 62) :
    ∀ (ops : List FOp) (r : FitsReader) (left : List (List (Cell F D))) (past : Nat), Left rows r left → (past : Int) = max 0 (r.current - 1 - rows.length) → Forwards ops →
      max r.current (rows.length + 1) + skipped ops < 2 ^ 63 → List.Forall₂ (Matches h.info) (FitsReader.run h throws ops r) (passRun ops left past) := by
  intro ops
  induction ops with
  | nil => intro r left past _ _ _ _; exact .nil
  | cons op ops ih =>
    intro r left past hl hp hf hs
    have hlen := left_length hl
    have h1 := hl.1
    have hf' : Forwards ops := ⟨fun n hn => hf.1 n (List.mem_cons_of_mem _ hn), fun n hn => hf.2 n (List.mem_cons_of_mem _ hn)⟩
    rw [FitsReader.run, passRun]
    cases op with
    | read n =>
      obtain ⟨g1, g2⟩ := read_ok h throws rows hh r left hl n (hf.1 n (by simp))
      simp only [skipped] at hs
      have hr := read_current h throws rows hh r n
      refine .cons g2 (ih _ _ _ g1 ?_ hf' ?_)
      · have g0 := g1.1
        simp only [passStep, FitsReader.step]
        omega
      · simp only [FitsReader.step]
        omega
    | skip n =>
      have hn := hf.2 n (by simp)
      simp only [skipped] at hs
      obtain ⟨r', e1, e2, e3⟩ := skip_ok rows r left hl n hn (by omega)
      simp only [FitsReader.step, e1]
      refine .cons (by trivial) (ih _ _ _ e3 ?_ hf' (by omega))
      simp only [passStep]
      omega
    | hasMoreRows =>
      refine .cons (hasMoreRows_ok h rows hh r left hl) (ih _ _ _ hl hp hf' hs)
    | rowsLeft =>
      refine .cons ?_ (ih _ _ _ hl hp hf' hs)
      show FitsReader.rowsLeft h r = if past = 0 then left.length else 2 ^ 64 - past
      rw [FitsReader.rowsLeft, hh.total]
      simp only [skipped] at hs
      by_cases h0 : past = 0
      · rw [if_pos h0]
        have : ((rows.length : Int) - r.current + 1) % 2 ^ 64 = (left.length : Int) := by
          rw [Int.emod_eq_of_lt (by omega) (by omega)]
          omega
        rw [this]
        rfl
      · rw [if_neg h0]
        have : ((rows.length : Int) - r.current + 1) % 2 ^ 64 = 2 ^ 64 - (past : Int) := by
          rw [← Int.add_emod_right, Int.emod_eq_of_lt (by omega) (by omega)]
          omega
        rw [this]
        omega

theorem matches_pass (info : Info) : ∀ (ops : List FOp) (left : List (List (Cell F D))) (past : Nat) (outs : List (FOut F D)), (past ≠ 0 → left = []) → past + skipped ops < 2 ^ 64 →
    List.Forall₂ (Matches info) outs (passRun ops left past) → (List.Forall₂ (Matches info) outs (fspecRun ops left) ↔ ¬ AsksPast ops left past)
  | [], left, past, outs, _, _, h => by
    simp only [AsksPast, not_false_eq_true, iff_true]
    exact h
  | op :: ops, left, past, outs, hz, hs, h => by
    rw [passRun] at h
    cases h with
    | cons h1 h2 =>
      rename_i out outs
      have hstep : (passStep left past op).2 ≠ 0 → (passStep left past op).1 = [] := by
        cases op with
        | read n => intro h0; simp only [passStep] at h0 ⊢; rw [hz h0]; simp [fspecStep]
        | skip n =>
          intro h0
          simp only [passStep] at h0
          simp only [passStep, fspecStep]
          by_cases h3 : past = 0
          · exact List.drop_eq_nil_of_le (by omega)
          · rw [hz h3]; simp
        | hasMoreRows => exact hz
        | rowsLeft => exact hz
      have hs' : (passStep left past op).2 + skipped ops < 2 ^ 64 := by
        cases op <;> simp only [passStep, skipped] at hs ⊢ <;> omega
      have ih := matches_pass info ops _ _ outs hstep hs' h2
      rw [fspecRun, AsksPast, List.forall₂_cons]
      have e1 : (passStep left past op).1 = (fspecStep left op).1 := rfl
      rw [e1] at ih ⊢
      rw [ih]
      cases op with
      | rowsLeft =>
        by_cases h0 : past = 0
        · subst h0
          have : Matches info out (fspecStep left .rowsLeft).2 := h1
          simp [this]
        · have hne : ¬ Matches info out (fspecStep left .rowsLeft).2 := by
            simp only [passOut, if_neg h0] at h1
            rw [hz h0]
            intro h3
            cases out with
            | nat a =>
              have a1 : a = 2 ^ 64 - past := h1
              have a2 : a = 0 := h3
              omega
            | table t => exact h1
            | done u => exact h1
            | bool b => exact h1
          simp [hne, h0]
      | read n => exact ⟨fun x => by simpa using x.2, fun x => ⟨h1, by simpa using x⟩⟩
      | skip n => exact ⟨fun x => by simpa using x.2, fun x => ⟨h1, by simpa using x⟩⟩
      | hasMoreRows => exact ⟨fun x => by simpa using x.2, fun x => ⟨h1, by simpa using x⟩⟩

/-- What every sequence of calls gives, however many rows are skipped: past the end everything is as at the end, but the number of the rows left is `2^64` less the number of the rows by
which the end has been passed. -/
theorem C47_any (h : Hdu F D) (throws : Int → Bool) (rows : List (List (Cell F D))) (hh : Holds h rows) (hb : rows.length < 2 ^ 62) (ops : List FOp) (hf : Forwards ops)
    (hs : skipped ops < 2 ^ 62) : List.Forall₂ (Matches h.info) (FitsReader.run h throws ops {}) (passRun ops rows 0) :=
  pass_ok h throws rows hh hb ops {} rows 0 ⟨by decide, by simp⟩ (by simp only; omega) hf (by simp only; omega)

/-- Exactly which sequences of calls behave as the list of the rows that are left: those that do not ask for the number of the rows left after having skipped past the end. -/
theorem C47_iff (h : Hdu F D) (throws : Int → Bool) (rows : List (List (Cell F D))) (hh : Holds h rows) (hb : rows.length < 2 ^ 62) (ops : List FOp) (hf : Forwards ops)
    (hs : skipped ops < 2 ^ 62) : List.Forall₂ (Matches h.info) (FitsReader.run h throws ops {}) (fspecRun ops rows) ↔ ¬ AsksPast ops rows 0 :=
  matches_pass h.info ops rows 0 _ (by simp) (by omega) (C47_any h throws rows hh hb ops hf hs)

/-- Two rows: four are skipped, in two calls, and then the calls give nothing but a wrong number. -/
example : Forwards [.skip 1, .skip 3, .hasMoreRows, .rowsLeft] ∧ AsksPast [.skip 1, .skip 3, .hasMoreRows, .rowsLeft] [[.scalar .bool true], [(.scalar .bool false : Cell Unit Unit)]] 0 ∧
    ¬ AsksPast [.skip 1, .rowsLeft, .skip 3, .hasMoreRows] [[.scalar .bool true], [(.scalar .bool false : Cell Unit Unit)]] 0 := by
  simp [Forwards, AsksPast, passStep, fspecStep]

end Alexandria.Table
