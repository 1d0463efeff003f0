import Verif.Table.ConfigModel
import Verif.Table.ReaderProps
import Verif.Table.RoundTripLemmas
import Verif.XYDataset.AsciiParserProps

/-!
# Names, types and comments that are set before a table is read or written (C150)
-/

namespace Alexandria.Table

open Alexandria.Str

variable {F D : Type}

/-! ## Specification -/

/-- The calls of an `AsciiReader`. -/
inductive Call where
  | comment (s : Bytes)
  | names (l : List Bytes)
  | types (l : List CType)
  | getInfo
  | read (n : Int)
  | skip (n : Int)
  | hasMoreRows
  | rowsLeft
  | getComment

/-- What can be set, and whether reading has begun. -/
structure Settings where
  comment : Bytes := ['#']
  names : List Bytes := []
  types : List CType := []
  reading : Bool := false
  deriving DecidableEq

namespace Spec

/-- Different names of columns in one line. -/
def Names (l : List Bytes) : Prop := (∀ n ∈ l, n ≠ [] ∧ OneLine n) ∧ l.Nodup

/-- As many names as types, if both are given. -/
def Fit (names : List Bytes) (types : List CType) : Prop := names = [] ∨ types = [] ∨ names.length = types.length

/-- A call that is not refused because of what was set. -/
def Allowed (s : Settings) : Call → Prop
  | .comment t => s.reading = false ∧ t ≠ []
  | .names l => s.reading = false ∧ Names l ∧ Fit l s.types
  | .types l => s.reading = false ∧ Fit s.names l
  | _ => True

/-- What a call sets, if `names` and `types` set something also when they are refused. -/
def changed (s : Settings) : Call → Settings
  | .comment t => if s.reading ∨ t = [] then s else { s with comment := t }
  | .names l => if s.reading then s else { s with names := l }
  | .types l => if s.reading then s else { s with types := l }
  | .getInfo | .read _ | .skip _ | .getComment => { s with reading := true }
  | .hasMoreRows | .rowsLeft => s

/-- The calls that are not refused, in order. -/
def Accepted : Settings → List Call → List Call → Prop
  | _, [], l => l = []
  | s, c :: cs, l => (Allowed s c ∧ ∃ l', l = c :: l' ∧ Accepted (changed s c) cs l') ∨ (¬ Allowed s c ∧ Accepted s cs l)

/-- Names and types are refused only after reading has begun. -/
def Careful : Settings → List Call → Prop
  | _, [] => True
  | s, c :: cs => ((∃ l, c = .names l) ∨ (∃ l, c = .types l) → s.reading = false → Allowed s c) ∧ Careful (changed s c) cs

end Spec

/-! ## The calls -/

/-- The outcome without the value. -/
def forget {α : Type} (r : Res α) : Res Unit := do
  let _ ← r
  return ()

/-- A call: the reader and whether it threw. -/
def Reader.call (fmt : Fmt F D) (text : Bytes) (r : Reader) : Call → Reader × Res Unit
  | .comment s =>
    match r.setComment s with
    | .ok r' => (r', .ok ())
    | .throw e => (r, .throw e)
    | .ub => (r, .ub)
  | .names l => r.fixNames l
  | .types l => r.fixTypes l
  | .getInfo => ((r.readColumnInfo text).1, forget (r.readColumnInfo text).2)
  | .read n => ((r.read fmt text n).1, forget (r.read fmt text n).2)
  | .skip n => r.skip text n
  | .hasMoreRows => ((r.hasMoreRows text).1, .ok ())
  | .rowsLeft => ((r.rowsLeft text).1, .ok ())
  | .getComment => ((r.getComment text).1, .ok ())

/-- The reader after a sequence of calls, whether they throw or not. -/
def Reader.calls (fmt : Fmt F D) (text : Bytes) (l : List Call) (r : Reader) : Reader := l.foldl (fun r c => (r.call fmt text c).1) r

def Reader.settings (r : Reader) : Settings := ⟨r.comment, r.names, r.types, r.started⟩

/-- No floating point numbers. -/
def noFmt : Fmt Unit Unit := ⟨⟨fun _ => [], fun _ => none⟩, ⟨fun _ => [], fun _ => none⟩⟩

/-! ## Lemmas -/

theorem bind_eq_ok {α β : Type} {x : Res α} {f : α → Res β} {b : β} (h : (x >>= f) = .ok b) : ∃ a, x = .ok a ∧ f a = .ok b := by
  cases x with
  | ok a => exact ⟨a, rfl, h⟩
  | throw e => cases h
  | ub => cases h

theorem fixLoop_spec (l : List Bytes) : ∀ set : List Bytes,
    (((∀ n ∈ l, n ≠ [] ∧ OneLine n) ∧ l.Nodup ∧ ∀ n ∈ l, n ∉ set) → fixLoop l set = .ok ()) ∧
    (¬ ((∀ n ∈ l, n ≠ [] ∧ OneLine n) ∧ l.Nodup ∧ ∀ n ∈ l, n ∉ set) → fixLoop l set = .throw .elements) := by
  induction l with
  | nil => intro set; exact ⟨fun _ => rfl, fun h => absurd (by simp) h⟩
  | cons n l ih =>
    intro set
    rw [fixLoop]
    by_cases h1 : n = []
    · rw [if_pos h1]
      exact ⟨fun h => absurd h1 (h.1 n (by simp)).1, fun _ => rfl⟩
    rw [if_neg h1]
    by_cases h2 : hasVertical n = true
    · rw [if_pos h2]
      refine ⟨fun h => ?_, fun _ => rfl⟩
      have := (hasVertical_iff n).2 (h.1 n (by simp)).2
      rw [this] at h2; cases h2
    rw [if_neg h2]
    by_cases h3 : n ∈ set
    · rw [if_pos (by simpa using h3)]
      exact ⟨fun h => absurd h3 (h.2.2 n (by simp)), fun _ => rfl⟩
    rw [if_neg (by simpa using h3)]
    have hone : OneLine n := (hasVertical_iff n).1 (by simpa using h2)
    have key : ((∀ m ∈ n :: l, m ≠ [] ∧ OneLine m) ∧ (n :: l).Nodup ∧ ∀ m ∈ n :: l, m ∉ set) ↔
        ((∀ m ∈ l, m ≠ [] ∧ OneLine m) ∧ l.Nodup ∧ ∀ m ∈ l, m ∉ n :: set) := by
      simp only [List.nodup_cons, List.mem_cons, not_or]
      constructor
      · rintro ⟨a, ⟨b1, b2⟩, c⟩
        exact ⟨fun m hm => a m (Or.inr hm), b2, fun m hm => ⟨fun e => b1 (e ▸ hm), c m (Or.inr hm)⟩⟩
      · rintro ⟨a, b, c⟩
        refine ⟨?_, ⟨fun hm => (c n hm).1 rfl, b⟩, ?_⟩
        · rintro m (rfl | hm)
          · exact ⟨h1, hone⟩
          · exact a m hm
        · rintro m (rfl | hm)
          · exact h3
          · exact (c m hm).2
    rw [key]
    exact ih _

/-- The names are accepted by the loop exactly if they are different names in one line. -/
theorem fixLoop_names (l : List Bytes) : (Spec.Names l → fixLoop l [] = .ok ()) ∧ (¬ Spec.Names l → fixLoop l [] = .throw .elements) := by
  have h := fixLoop_spec l []
  have e : Spec.Names l ↔ ((∀ n ∈ l, n ≠ [] ∧ OneLine n) ∧ l.Nodup ∧ ∀ n ∈ l, n ∉ ([] : List Bytes)) := by simp [Spec.Names]
  rw [e]
  exact h

theorem readColumnInfo_settings (text : Bytes) (r : Reader) (hi : r.info ≠ none → r.started = true) :
    (r.readColumnInfo text).1.settings = { r.settings with reading := true } ∧ (r.readColumnInfo text).1.started = true := by
  rw [Reader.readColumnInfo]
  cases h : r.info with
  | some info =>
    have := hi (by rw [h]; simp)
    simp only
    exact ⟨by simp [Reader.settings, this], this⟩
  | none =>
    simp only
    cases countColumns text r.comment r.stream with
    | throw e => exact ⟨rfl, rfl⟩
    | ub => exact ⟨rfl, rfl⟩
    | ok n =>
      simp only
      by_cases h1 : r.names ≠ [] ∧ r.names.length ≠ n
      · rw [if_pos h1]; exact ⟨rfl, rfl⟩
      rw [if_neg h1]
      by_cases h2 : r.types ≠ [] ∧ r.types.length ≠ n
      · rw [if_pos h2]; exact ⟨rfl, rfl⟩
      rw [if_neg h2]
      cases detectNames text r.comment n (rewind r.stream) with
      | throw e => exact ⟨rfl, rfl⟩
      | ub => exact ⟨rfl, rfl⟩
      | ok autoNames =>
        simp only
        cases (do let descs ← detectDescriptions text r.comment (rewind (rewind r.stream))
                  let l ← infoLoop r.names autoNames r.types descs n 0
                  mkInfo l) with
        | throw e => exact ⟨rfl, rfl⟩
        | ub => exact ⟨rfl, rfl⟩
        | ok info => exact ⟨rfl, rfl⟩

theorem call_settings (fmt : Fmt F D) (text : Bytes) (r : Reader) (hi : r.info ≠ none → r.started = true) (c : Call) :
    (r.call fmt text c).1.settings = Spec.changed r.settings c ∧ ((r.call fmt text c).1.info ≠ none → (r.call fmt text c).1.started = true) := by
  have hr := readColumnInfo_settings text r hi
  cases c with
  | comment s =>
    simp only [Reader.call, Reader.setComment, Spec.changed]
    by_cases h1 : r.started = true
    · rw [if_pos h1]; exact ⟨by rw [if_pos (Or.inl (show r.settings.reading = true from h1))], hi⟩
    rw [if_neg h1]
    by_cases h2 : s = []
    · rw [if_pos h2]; exact ⟨by rw [if_pos (Or.inr h2)], hi⟩
    rw [if_neg h2]
    exact ⟨by rw [if_neg (by rintro (h | h); exacts [h1 h, h2 h])]; rfl, hi⟩
  | names l =>
    simp only [Reader.call, Reader.fixNames, Spec.changed]
    by_cases h1 : r.started = true
    · rw [if_pos h1]; exact ⟨by rw [if_pos (show r.settings.reading = true from h1)], hi⟩
    rw [if_neg h1, if_neg (show ¬ r.settings.reading = true from h1)]
    cases fixLoop l [] with
    | ok _ =>
      simp only
      by_cases h2 : l ≠ [] ∧ r.types ≠ [] ∧ l.length ≠ r.types.length
      · rw [if_pos h2]; exact ⟨rfl, hi⟩
      · rw [if_neg h2]; exact ⟨rfl, hi⟩
    | throw e => exact ⟨rfl, hi⟩
    | ub => exact ⟨rfl, hi⟩
  | types l =>
    simp only [Reader.call, Reader.fixTypes, Spec.changed]
    by_cases h1 : r.started = true
    · rw [if_pos h1]; exact ⟨by rw [if_pos (show r.settings.reading = true from h1)], hi⟩
    rw [if_neg h1, if_neg (show ¬ r.settings.reading = true from h1)]
    by_cases h2 : r.names ≠ [] ∧ l ≠ [] ∧ r.names.length ≠ l.length
    · rw [if_pos h2]; exact ⟨rfl, hi⟩
    · rw [if_neg h2]; exact ⟨rfl, hi⟩
  | getInfo => exact ⟨hr.1, fun _ => hr.2⟩
  | read n =>
    simp only [Reader.call, Reader.read, Spec.changed]
    generalize r.readColumnInfo text = x at hr
    obtain ⟨r', o⟩ := x
    cases o with
    | ok info => exact ⟨hr.1, fun _ => hr.2⟩
    | throw e => exact ⟨hr.1, fun _ => hr.2⟩
    | ub => exact ⟨hr.1, fun _ => hr.2⟩
  | skip n =>
    simp only [Reader.call, Reader.skip, Spec.changed]
    generalize r.readColumnInfo text = x at hr
    obtain ⟨r', o⟩ := x
    cases o with
    | ok info => exact ⟨hr.1, fun _ => hr.2⟩
    | throw e => exact ⟨hr.1, fun _ => hr.2⟩
    | ub => exact ⟨hr.1, fun _ => hr.2⟩
  | hasMoreRows => exact ⟨rfl, hi⟩
  | rowsLeft => exact ⟨rfl, hi⟩
  | getComment => exact ⟨rfl, fun _ => rfl⟩

/-! ## Theorems about `AsciiReader` -/

/-- A call that sets something throws exactly if reading has begun, or the indicator is empty, a name is empty, of several lines or given twice, or there are not as many names as types. -/
theorem C150_refused (fmt : Fmt F D) (text : Bytes) (r : Reader) (c : Call) (hc : (∃ s, c = .comment s) ∨ (∃ l, c = .names l) ∨ ∃ l, c = .types l) :
    (Spec.Allowed r.settings c → (r.call fmt text c).2 = .ok ()) ∧ (¬ Spec.Allowed r.settings c → (r.call fmt text c).2 = .throw .elements) := by
  have hfit : ∀ (names : List Bytes) (types : List CType), ¬ (names ≠ [] ∧ types ≠ [] ∧ names.length ≠ types.length) ↔ Spec.Fit names types := by
    intro names types
    simp only [Spec.Fit]
    tauto
  rcases hc with ⟨s, rfl⟩ | ⟨l, rfl⟩ | ⟨l, rfl⟩
  · simp only [Reader.call, Reader.setComment, Spec.Allowed, Reader.settings]
    by_cases h1 : r.started = true
    · rw [if_pos h1]; exact ⟨fun h => absurd h.1 (by simp [h1]), fun _ => rfl⟩
    rw [if_neg h1]
    by_cases h2 : s = []
    · rw [if_pos h2]; exact ⟨fun h => absurd h2 h.2, fun _ => rfl⟩
    rw [if_neg h2]
    exact ⟨fun _ => rfl, fun h => absurd ⟨by simpa using h1, h2⟩ h⟩
  · simp only [Reader.call, Reader.fixNames, Spec.Allowed, Reader.settings]
    by_cases h1 : r.started = true
    · rw [if_pos h1]; exact ⟨fun h => absurd h.1 (by simp [h1]), fun _ => rfl⟩
    rw [if_neg h1]
    by_cases h2 : Spec.Names l
    · rw [(fixLoop_names l).1 h2]
      simp only
      by_cases h3 : l ≠ [] ∧ r.types ≠ [] ∧ l.length ≠ r.types.length
      · rw [if_pos h3]; exact ⟨fun h => absurd h3 ((hfit _ _).2 h.2.2), fun _ => rfl⟩
      · rw [if_neg h3]; exact ⟨fun _ => rfl, fun h => absurd ⟨by simpa using h1, h2, (hfit _ _).1 h3⟩ h⟩
    · rw [(fixLoop_names l).2 h2]
      exact ⟨fun h => absurd h.2.1 h2, fun _ => rfl⟩
  · simp only [Reader.call, Reader.fixTypes, Spec.Allowed, Reader.settings]
    by_cases h1 : r.started = true
    · rw [if_pos h1]; exact ⟨fun h => absurd h.1 (by simp [h1]), fun _ => rfl⟩
    rw [if_neg h1]
    by_cases h3 : r.names ≠ [] ∧ l ≠ [] ∧ r.names.length ≠ l.length
    · rw [if_pos h3]; exact ⟨fun h => absurd h3 ((hfit _ _).2 h.2), fun _ => rfl⟩
    · rw [if_neg h3]; exact ⟨fun _ => rfl, fun h => absurd ⟨by simpa using h1, (hfit _ _).1 h3⟩ h⟩

/-- After any calls the indicator is the last one accepted, names and types are the last ones given before reading began, and reading has begun with the first call that reads. -/
theorem C150_settings (fmt : Fmt F D) (text : Bytes) (l : List Call) :
    (({} : Reader).calls fmt text l).settings = l.foldl Spec.changed {} := by
  have key : ∀ (l : List Call) (r : Reader), (r.info ≠ none → r.started = true) → (r.calls fmt text l).settings = l.foldl Spec.changed r.settings := by
    intro l
    induction l with
    | nil => intro r _; rfl
    | cons c l ih =>
      intro r hi
      have h := call_settings fmt text r hi c
      rw [List.foldl_cons, ← h.1]
      exact ih _ h.2
  exact key l {} (fun h => absurd rfl h)

theorem infoLoop_spec (names autoNames : List Bytes) (types : List CType) (descs : List Desc) : ∀ (k i : Nat) (l : List Desc),
    infoLoop names autoNames types descs k i = .ok l → l.length = k ∧
      ∀ j, j < k → ∃ d auto, l[j]? = some d ∧ autoNames[i + j]? = some auto ∧ (if names = [] then autoNames else names)[i + j]? = some d.name ∧
        (types ≠ [] → types[i + j]? = some d.type) ∧
        (∀ e, descs.find? (fun e => e.name == auto) = some e → d.unit = e.unit ∧ d.description = e.description ∧ (types = [] → d.type = e.type)) ∧
        (descs.find? (fun e => e.name == auto) = none → d.unit = [] ∧ d.description = [] ∧ (types = [] → d.type = .str)) := by
  intro k
  induction k with
  | zero => intro i l h; rw [infoLoop] at h; cases h; exact ⟨rfl, fun j hj => absurd hj (Nat.not_lt_zero _)⟩
  | succ k ih =>
    intro i l h
    rw [infoLoop] at h
    cases ha : autoNames[i]? with
    | none => rw [ha] at h; simp at h
    | some auto =>
      cases hn : (if names = [] then autoNames else names)[i]? with
      | none => rw [ha, hn] at h; simp at h
      | some name =>
        rw [ha, hn] at h
        simp only at h
        have hmk : ∀ t u s d, mkDesc name t u s = .ok d → d.name = name ∧ d.type = t ∧ d.unit = u ∧ d.description = s := by
          intro t u s d he
          rw [mkDesc] at he
          by_cases h1 : name = []
          · rw [if_pos h1] at he; cases he
          rw [if_neg h1] at he
          by_cases h2 : hasVertical name = true
          · rw [if_pos h2] at he; cases he
          rw [if_neg h2] at he
          cases he
          exact ⟨rfl, rfl, rfl, rfl⟩
        have step : ∀ d : Desc, d.name = name → (types ≠ [] → types[i]? = some d.type) →
            (∀ e, descs.find? (fun e => e.name == auto) = some e → d.unit = e.unit ∧ d.description = e.description ∧ (types = [] → d.type = e.type)) →
            (descs.find? (fun e => e.name == auto) = none → d.unit = [] ∧ d.description = [] ∧ (types = [] → d.type = .str)) →
            (infoLoop names autoNames types descs k (i + 1) >>= fun rest => pure (d :: rest)) = .ok l →
            l.length = k + 1 ∧ ∀ j, j < k + 1 → ∃ d auto, l[j]? = some d ∧ autoNames[i + j]? = some auto ∧
              (if names = [] then autoNames else names)[i + j]? = some d.name ∧
              (types ≠ [] → types[i + j]? = some d.type) ∧
              (∀ e, descs.find? (fun e => e.name == auto) = some e → d.unit = e.unit ∧ d.description = e.description ∧ (types = [] → d.type = e.type)) ∧
              (descs.find? (fun e => e.name == auto) = none → d.unit = [] ∧ d.description = [] ∧ (types = [] → d.type = .str)) := by
          intro d d1 d2 d3 d4 h
          obtain ⟨rest, hrest, h⟩ := bind_eq_ok h
          cases h
          obtain ⟨hl, hj⟩ := ih (i + 1) rest hrest
          refine ⟨by simp [hl], fun j hjk => ?_⟩
          cases j with
          | succ j =>
            obtain ⟨d', auto', e⟩ := hj j (by omega)
            refine ⟨d', auto', ?_⟩
            rw [show i + (j + 1) = i + 1 + j by omega]
            simpa using e
          | zero => exact ⟨d, auto, rfl, ha, by rw [Nat.add_zero, hn, d1], d2, d3, d4⟩
        cases hf : descs.find? (fun d => d.name == auto) with
        | some e =>
          rw [hf] at h
          simp only at h
          cases ht : (if types = [] then some e.type else types[i]?) with
          | none => rw [ht] at h; cases h
          | some type =>
            rw [ht] at h
            obtain ⟨d, hd, h⟩ := bind_eq_ok h
            obtain ⟨m1, m2, m3, m4⟩ := hmk _ _ _ _ hd
            refine step d m1 (fun hne => ?_) (fun e' he' => ?_) (fun h => by rw [hf] at h; cases h) h
            · rw [if_neg hne] at ht; rw [ht, m2]
            · rw [hf] at he'
              cases he'
              refine ⟨m3, m4, fun h0 => ?_⟩
              rw [if_pos h0] at ht
              rw [m2]; cases ht; rfl
        | none =>
          rw [hf] at h
          simp only at h
          cases ht : (if types = [] then some CType.str else types[i]?) with
          | none => rw [ht] at h; cases h
          | some type =>
            rw [ht] at h
            obtain ⟨d, hd, h⟩ := bind_eq_ok h
            obtain ⟨m1, m2, m3, m4⟩ := hmk _ _ _ _ hd
            refine step d m1 (fun hne => ?_) (fun e' he' => by rw [hf] at he'; cases he') (fun _ => ⟨m3, m4, fun h0 => ?_⟩) h
            · rw [if_neg hne] at ht; rw [ht, m2]
            · rw [if_pos h0] at ht
              rw [m2]; cases ht; rfl

/-- If the columns are found, there are as many as cells in the first line; names and types that were set are theirs, other names are those of the header (C98), other types, the units
and the descriptions are those that the header gives for the names in it, at the same place. -/
theorem C150_columns (text : Bytes) (r : Reader) (hs : r.stream = {}) (hi : r.info = none) (info : Info) (h : (r.readColumnInfo text).2 = .ok info) :
    (∃ line rest, dataLines r.comment text = line :: rest ∧ info.length = (tokens line).length) ∧
    (r.names ≠ [] → info.map Desc.name = r.names) ∧
    (r.names = [] → info.map Desc.name = (columnNames (headerComments r.comment text) info.length).take info.length) ∧
    (r.types ≠ [] → info.map Desc.type = r.types) ∧
    ∃ descs, detectDescriptions text r.comment {} = .ok descs ∧
      ∀ (i : Nat) (d : Desc), info[i]? = some d → ∃ auto, (columnNames (headerComments r.comment text) info.length)[i]? = some auto ∧
        (∀ e, descs.find? (fun e => e.name == auto) = some e → d.unit = e.unit ∧ d.description = e.description ∧ (r.types = [] → d.type = e.type)) ∧
        (descs.find? (fun e => e.name == auto) = none → d.unit = [] ∧ d.description = [] ∧ (r.types = [] → d.type = .str)) := by
  have hrw : rewind ({} : Stream) = {} := by decide
  rw [Reader.readColumnInfo, hi] at h
  simp only [hs, hrw] at h
  have hcc := XYDataset.AsciiIO.countColumns_eq text r.comment
  cases hc : countColumns text r.comment {} with
  | throw e => rw [hc] at h; cases h
  | ub => rw [hc] at h; cases h
  | ok n =>
    rw [hc] at h hcc
    simp only at h
    by_cases h1 : r.names ≠ [] ∧ r.names.length ≠ n
    · rw [if_pos h1] at h; cases h
    rw [if_neg h1] at h
    by_cases h2 : r.types ≠ [] ∧ r.types.length ≠ n
    · rw [if_pos h2] at h; cases h
    rw [if_neg h2] at h
    have hnames := C98_names text r.comment n
    cases hd : detectNames text r.comment n {} with
    | throw e => rw [hd] at h; cases h
    | ub => rw [hd] at h; cases h
    | ok autoNames =>
      have hauto : autoNames = columnNames (headerComments r.comment text) n := by
        by_cases hnd : (columnNames (headerComments r.comment text) n).Nodup
        · have := hnames.1 hnd; rw [hd] at this; cases this; rfl
        · have := hnames.2 hnd; rw [hd] at this; cases this
      rw [hd] at h
      simp only at h
      have hk : (do let descs ← detectDescriptions text r.comment {}
                    let l ← infoLoop r.names autoNames r.types descs n 0
                    mkInfo l) = .ok info := by
        cases hk : (do let descs ← detectDescriptions text r.comment {}
                       let l ← infoLoop r.names autoNames r.types descs n 0
                       mkInfo l) with
        | ok info' => rw [hk] at h; exact h
        | throw e => rw [hk] at h; cases h
        | ub => rw [hk] at h; cases h
      obtain ⟨descs, hdesc, hk⟩ := bind_eq_ok hk
      obtain ⟨l, hl, hk⟩ := bind_eq_ok hk
      have hli : l = info := by
        by_cases hg : GoodInfo l
        · have := (C45_info l).1 hg; rw [this] at hk; cases hk; rfl
        · have := (C45_info l).2 hg; rw [this] at hk; cases hk
      subst hli
      obtain ⟨hlen, hall⟩ := infoLoop_spec _ _ _ _ _ _ _ hl
      rw [hlen, ← hauto]
      have hget : ∀ i d, l[i]? = some d → i < n := fun i d hd => by
        have := (List.getElem?_eq_some_iff.1 hd).1
        omega
      refine ⟨?_, fun hne => ?_, fun h0 => ?_, fun hne => ?_, descs, hdesc, fun i d hd => ?_⟩
      · cases hdl : dataLines r.comment text with
        | nil => rw [hdl] at hcc; cases hcc
        | cons line rest =>
          rw [hdl] at hcc
          simp only at hcc
          by_cases h0 : (tokens line).length = 0
          · rw [if_pos h0] at hcc; cases hcc
          · rw [if_neg h0] at hcc; cases hcc; exact ⟨line, rest, rfl, rfl⟩
      · have hn : r.names.length = n := by by_contra hx; exact h1 ⟨hne, hx⟩
        apply List.ext_getElem?
        intro i
        rw [List.getElem?_map]
        by_cases hin : i < n
        · obtain ⟨d, auto, e1, _, e3, _⟩ := hall i hin
          rw [Nat.zero_add, if_neg hne] at e3
          rw [e1, e3]; rfl
        · rw [List.getElem?_eq_none (by omega), List.getElem?_eq_none (by omega)]; rfl
      · apply List.ext_getElem?
        intro i
        rw [List.getElem?_map, List.getElem?_take]
        by_cases hin : i < n
        · obtain ⟨d, auto, e1, _, e3, _⟩ := hall i hin
          rw [Nat.zero_add, if_pos h0] at e3
          rw [e1, if_pos hin, e3]; rfl
        · rw [List.getElem?_eq_none (by omega), if_neg hin]; rfl
      · have hn : r.types.length = n := by by_contra hx; exact h2 ⟨hne, hx⟩
        apply List.ext_getElem?
        intro i
        rw [List.getElem?_map]
        by_cases hin : i < n
        · obtain ⟨d, auto, e1, _, _, e4, _⟩ := hall i hin
          have := e4 hne
          rw [Nat.zero_add] at this
          rw [e1, this]; rfl
        · rw [List.getElem?_eq_none (by omega), List.getElem?_eq_none (by omega)]; rfl
      · obtain ⟨d', auto, e1, e2, _, _, e5, e6⟩ := hall i (hget i d hd)
        rw [hd] at e1
        cases e1
        rw [Nat.zero_add] at e2
        exact ⟨auto, e2, e5, e6⟩

theorem infoLoop_fixed (autoNames : List Bytes) (k : Nat) : ∀ (i : Nat) (names : List Bytes) (types : List CType) (allNames : List Bytes) (allTypes : List CType),
    allNames.drop i = names → allTypes.drop i = types → names.length = k → types.length = k → i + k ≤ autoNames.length → allNames ≠ [] → allTypes ≠ [] →
    (∀ n ∈ names, n ≠ [] ∧ OneLine n) → infoLoop allNames autoNames allTypes [] k i = .ok ((names.zip types).map fun p => ⟨p.1, p.2, [], []⟩) := by
  induction k with
  | zero =>
    intro i names types allNames allTypes _ _ h3 _ _ _ _ _
    rw [infoLoop, List.length_eq_zero_iff.1 h3]; rfl
  | succ k ih =>
    intro i names types allNames allTypes h1 h2 h3 h4 h5 h6 h7 h8
    cases names with
    | nil => cases h3
    | cons n names =>
      cases types with
      | nil => cases h4
      | cons t types =>
        have e1 : allNames[i]? = some n := by rw [← List.head?_drop, h1]; rfl
        have e2 : allTypes[i]? = some t := by rw [← List.head?_drop, h2]; rfl
        have e3 : autoNames[i]? = some autoNames[i] := List.getElem?_eq_getElem (by omega)
        have e4 : mkDesc n t [] [] = .ok ⟨n, t, [], []⟩ := (mkDesc_iff _ _ _ _).2 (h8 n (by simp))
        have e5 : allNames.drop (i + 1) = names := by rw [← List.drop_drop, h1]; rfl
        have e6 : allTypes.drop (i + 1) = types := by rw [← List.drop_drop, h2]; rfl
        rw [infoLoop, e3, if_neg h6, e1]
        simp only [if_neg h7, e2, List.find?_nil, e4, Outcome.bind_ok]
        rw [ih (i + 1) names types allNames allTypes e5 e6 (by simpa using h3) (by simpa using h4) (by omega) h6 h7 (fun m hm => h8 m (List.mem_cons_of_mem _ hm))]
        rfl

/-- With names and types that were accepted, a text whose header neither describes columns nor gives a name twice is read exactly if its first line has as many cells as there are names. -/
theorem C150_plain (text : Bytes) (r : Reader) (hs : r.stream = {}) (hi : r.info = none) (hn : Spec.Names r.names) (hne : r.names ≠ [])
    (hf : r.names.length = r.types.length)
    (hc : ∀ c ∈ headerComments r.comment text, ¬ "Column:".toList <+: c) (hd : (columnNames (headerComments r.comment text) r.names.length).Nodup)
    (line : Bytes) (rest : List Bytes) (hl : dataLines r.comment text = line :: rest) :
    ((tokens line).length = r.names.length → (r.readColumnInfo text).2 = .ok ((r.names.zip r.types).map fun p => ⟨p.1, p.2, [], []⟩)) ∧
    ((tokens line).length ≠ r.names.length → (r.readColumnInfo text).2 = .throw .elements) := by
  have hrw : rewind ({} : Stream) = {} := by decide
  have hcc := XYDataset.AsciiIO.countColumns_eq text r.comment
  rw [hl] at hcc
  simp only at hcc
  have hpos : 0 < r.names.length := List.length_pos_iff.2 hne
  rw [Reader.readColumnInfo, hi]
  simp only [hs, hrw]
  by_cases h0 : (tokens line).length = 0
  · rw [if_pos h0] at hcc
    rw [hcc]
    exact ⟨fun h => by omega, fun _ => rfl⟩
  rw [if_neg h0] at hcc
  rw [hcc]
  simp only
  by_cases h1 : (tokens line).length = r.names.length
  · refine ⟨fun _ => ?_, fun h => absurd h1 h⟩
    rw [h1, if_neg (by simp), if_neg (by simp [hf]), (C98_names text r.comment r.names.length).1 hd]
    simp only
    have htne : r.types ≠ [] := fun h => by rw [h] at hf; simp at hf; exact hne hf
    have hlen : r.names.length ≤ (columnNames (headerComments r.comment text) r.names.length).length := by
      simp only [columnNames, List.length_append, List.length_map, List.length_drop, List.length_range]
      omega
    rw [XYDataset.AsciiIO.detectDescriptions_none text r.comment hc, Outcome.bind_ok,
      infoLoop_fixed _ r.names.length 0 r.names r.types r.names r.types rfl rfl rfl hf.symm (by omega) hne htne hn.1, Outcome.bind_ok]
    have hmap : ((r.names.zip r.types).map fun p => (⟨p.1, p.2, [], []⟩ : Desc)).map Desc.name = r.names := by
      rw [List.map_map]
      exact List.map_fst_zip (by omega)
    have hg : GoodInfo ((r.names.zip r.types).map fun p => (⟨p.1, p.2, [], []⟩ : Desc)) := by
      refine ⟨fun h => hne ?_, by rw [hmap]; exact hn.2⟩
      rw [h] at hmap
      exact hmap.symm
    rw [(C45_info _).1 hg]
  · refine ⟨fun h => absurd h h1, fun _ => ?_⟩
    rw [if_pos ⟨hne, fun h => h1 h.symm⟩]

/-- A refused call changes nothing: the columns are those of a reader to which only the other calls were made. -/
def C150_full : Prop := ∀ (fmt : Fmt Unit Unit) (text : Bytes) (calls accepted : List Call), Spec.Accepted {} calls accepted →
  ((({} : Reader).calls fmt text calls).readColumnInfo text).2 = ((({} : Reader).calls fmt text accepted).readColumnInfo text).2

theorem refused_same (fmt : Fmt F D) (text : Bytes) (r : Reader) (c : Call) (h : ¬ Spec.Allowed r.settings c)
    (hc : (∃ l, c = .names l) ∨ (∃ l, c = .types l) → r.started = true) : (r.call fmt text c).1 = r := by
  cases c with
  | comment s =>
    simp only [Reader.call, Reader.setComment]
    by_cases h1 : r.started = true
    · rw [if_pos h1]
    rw [if_neg h1]
    by_cases h2 : s = []
    · rw [if_pos h2]
    exact absurd ⟨by simpa [Reader.settings] using h1, h2⟩ h
  | names l => simp only [Reader.call, Reader.fixNames]; rw [if_pos (hc (Or.inl ⟨l, rfl⟩))]
  | types l => simp only [Reader.call, Reader.fixTypes]; rw [if_pos (hc (Or.inr ⟨l, rfl⟩))]
  | getInfo => exact absurd trivial h
  | read n => exact absurd trivial h
  | skip n => exact absurd trivial h
  | hasMoreRows => exact absurd trivial h
  | rowsLeft => exact absurd trivial h
  | getComment => exact absurd trivial h

/-- Refused calls change nothing, neither the columns nor anything else, if names and types are refused only after reading has begun. -/
theorem C150_accepted_partial (fmt : Fmt F D) (text : Bytes) (calls accepted : List Call) (hc : Spec.Careful {} calls) (ha : Spec.Accepted {} calls accepted) :
    ({} : Reader).calls fmt text calls = ({} : Reader).calls fmt text accepted := by
  have key : ∀ (calls accepted : List Call) (r : Reader), (r.info ≠ none → r.started = true) → Spec.Careful r.settings calls →
      Spec.Accepted r.settings calls accepted → r.calls fmt text calls = r.calls fmt text accepted := by
    intro calls
    induction calls with
    | nil => intro accepted r _ _ h; rw [Spec.Accepted] at h; rw [h]
    | cons c cs ih =>
      intro accepted r hi hc ha
      have hs := call_settings fmt text r hi c
      rw [Spec.Careful, ← hs.1] at hc
      rcases ha with ⟨_, l', rfl, ha⟩ | ⟨hno, ha⟩
      · rw [← hs.1] at ha
        exact ih l' _ hs.2 hc.2 ha
      · have hsame := refused_same fmt text r c hno fun hk => by
          by_contra hst
          exact hno (hc.1 hk (by simpa [Reader.settings] using hst))
        rw [Reader.calls, List.foldl_cons, hsame]
        rw [hsame] at hc
        exact ih accepted r hi hc.2 ha
  exact key calls accepted {} (fun h => absurd rfl h) hc ha

/-- Refused names are kept: two names are refused because one type was fixed; when the types are given up the columns have these names. -/
theorem C150_violated : ¬ C150_full := fun h => by
  have h := h noFmt "1 2".toList [.types [.str], .names [['a'], ['b']], .types []] [.types [.str], .types []] (by
    refine Or.inl ⟨⟨rfl, Or.inl rfl⟩, _, rfl, Or.inr ⟨fun hx => ?_, Or.inl ⟨⟨rfl, Or.inl rfl⟩, _, rfl, rfl⟩⟩⟩
    rcases hx.2.2 with h | h | h <;> simp [Spec.changed] at h)
  revert h
  decide +kernel

/-- With names fixed, the names in the header do not matter. -/
def C150_header_full : Prop := ∀ (text text' : Bytes) (r : Reader), r.stream = {} → r.info = none → Spec.Names r.names → r.names ≠ [] →
  (∀ c ∈ headerComments r.comment text, ¬ "Column:".toList <+: c) → (∀ c ∈ headerComments r.comment text', ¬ "Column:".toList <+: c) →
  dataLines r.comment text = dataLines r.comment text' → (r.readColumnInfo text).2 = (r.readColumnInfo text').2

/-- A header with a name that occurs twice makes the reader throw, although the names were fixed; the documentation tells that it throws "if column name auto-detection is enabled and there are
duplicate names". -/
theorem C150_header_violated : ¬ C150_header_full := fun h => by
  have h := h "# a a\n1 2".toList "1 2".toList { names := [['x'], ['y']] } rfl rfl (by
    refine ⟨?_, by decide⟩
    intro n hn
    simp only [List.mem_cons, List.not_mem_nil, or_false] at hn
    rcases hn with rfl | rfl <;> exact ⟨by simp, (hasVertical_iff _).1 (by decide)⟩) (by simp) (by decide +kernel) (by decide +kernel) (by decide +kernel)
  revert h
  decide +kernel

/-- Names with whitespace are refused, as the documentation tells. -/
def C150_blank_full : Prop := ∀ (r : Reader) (l : List Bytes), (r.fixNames l).2 = .ok () → ∀ n ∈ l, ∀ c ∈ n, isSpace c = false

/-- A blank is not refused. -/
theorem C150_blank_violated : ¬ C150_blank_full := fun h => by
  have h := h {} ["a b".toList] (by decide +kernel) _ (List.mem_singleton.2 rfl) ' ' (by decide +kernel)
  revert h
  decide +kernel

end Alexandria.Table

/-! ## `FitsReader` -/

namespace Alexandria.Table.Fits

open Alexandria.Str

namespace Spec

/-- Different names without whitespace. -/
def Names (l : List Bytes) : Prop := (∀ n ∈ l, n ≠ [] ∧ ∀ c ∈ n, isSpace c = false) ∧ l.Nodup

end Spec

theorem fixLoop_spec (l : List Bytes) : ∀ set : List Bytes,
    (((∀ n ∈ l, n ≠ [] ∧ ∀ c ∈ n, isSpace c = false) ∧ l.Nodup ∧ ∀ n ∈ l, n ∉ set) → fixLoop l set = .ok ()) ∧
    (¬ ((∀ n ∈ l, n ≠ [] ∧ ∀ c ∈ n, isSpace c = false) ∧ l.Nodup ∧ ∀ n ∈ l, n ∉ set) → fixLoop l set = .throw .elements) := by
  induction l with
  | nil => intro set; exact ⟨fun _ => rfl, fun h => absurd (by simp) h⟩
  | cons n l ih =>
    intro set
    rw [fixLoop]
    by_cases h1 : n = []
    · rw [if_pos h1]
      exact ⟨fun h => absurd h1 (h.1 n (by simp)).1, fun _ => rfl⟩
    rw [if_neg h1]
    by_cases h2 : hasSpace n = true
    · rw [if_pos h2]
      refine ⟨fun h => ?_, fun _ => rfl⟩
      obtain ⟨c, hc, hs⟩ := List.any_eq_true.1 h2
      rw [(h.1 n (by simp)).2 c hc] at hs; cases hs
    rw [if_neg h2]
    by_cases h3 : n ∈ set
    · rw [if_pos (by simpa using h3)]
      exact ⟨fun h => absurd h3 (h.2.2 n (by simp)), fun _ => rfl⟩
    rw [if_neg (by simpa using h3)]
    have hone : ∀ c ∈ n, isSpace c = false := by
      intro c hc
      by_contra hs
      exact h2 (List.any_eq_true.2 ⟨c, hc, by simpa using hs⟩)
    have key : ((∀ m ∈ n :: l, m ≠ [] ∧ ∀ c ∈ m, isSpace c = false) ∧ (n :: l).Nodup ∧ ∀ m ∈ n :: l, m ∉ set) ↔
        ((∀ m ∈ l, m ≠ [] ∧ ∀ c ∈ m, isSpace c = false) ∧ l.Nodup ∧ ∀ m ∈ l, m ∉ n :: set) := by
      simp only [List.nodup_cons, List.mem_cons, not_or]
      constructor
      · rintro ⟨a, ⟨b1, b2⟩, c⟩
        exact ⟨fun m hm => a m (Or.inr hm), b2, fun m hm => ⟨fun e => b1 (e ▸ hm), c m (Or.inr hm)⟩⟩
      · rintro ⟨a, b, c⟩
        refine ⟨?_, ⟨fun hm => (c n hm).1 rfl, b⟩, ?_⟩
        · rintro m (rfl | hm)
          · exact ⟨h1, hone⟩
          · exact a m hm
        · rintro m (rfl | hm)
          · exact h3
          · exact (c m hm).2
    rw [key]
    exact ih _

/-- Names are accepted exactly if nothing has been read, and they are different, not empty and without whitespace. -/
theorem C150_fits_refused (c : Config) (l : List Bytes) :
    (c.started = false ∧ Spec.Names l → c.fixNames l = ({ c with names := l }, .ok ())) ∧
    (¬ (c.started = false ∧ Spec.Names l) → (c.fixNames l).2 = .throw .elements) := by
  have h := fixLoop_spec l []
  have e : Spec.Names l ↔ ((∀ n ∈ l, n ≠ [] ∧ ∀ c ∈ n, isSpace c = false) ∧ l.Nodup ∧ ∀ n ∈ l, n ∉ ([] : List Bytes)) := by simp [Spec.Names]
  rw [← e] at h
  rw [Config.fixNames]
  by_cases h1 : c.started = true
  · rw [if_pos h1]; exact ⟨fun hx => absurd hx.1 (by simp [h1]), fun _ => rfl⟩
  rw [if_neg h1]
  have h1' : c.started = false := by simpa using h1
  refine ⟨fun hx => by rw [h.1 hx.2], fun hx => ?_⟩
  exact h.2 fun hn => hx ⟨h1', hn⟩

theorem headTypes_length : ∀ (hs : List Head) (ts : List CType), headTypes hs = .ok ts → ts.length = hs.length := by
  intro hs
  induction hs with
  | nil => intro ts h; cases h; rfl
  | cons hd hs ih =>
    intro ts h
    rw [headTypes] at h
    obtain ⟨_, _, h⟩ := bind_eq_ok h
    obtain ⟨_, _, h⟩ := bind_eq_ok h
    obtain ⟨rest, hr, h⟩ := bind_eq_ok h
    cases h
    simp [ih rest hr]

theorem describeLoop_ok : ∀ (hs : List Head) (ns : List Bytes) (ts : List CType), ns.length = hs.length → ts.length = hs.length → (∀ n ∈ ns, n ≠ [] ∧ OneLine n) →
    ∃ ds, describeLoop ns ts hs = .ok ds ∧ ds.map Desc.name = ns ∧ ds.map Desc.type = ts ∧ ds.map Desc.unit = hs.map Head.unit ∧ ds.map Desc.description = hs.map Head.desc := by
  intro hs
  induction hs with
  | nil =>
    intro ns ts h1 h2 _
    rw [List.length_eq_zero_iff.1 h1, List.length_eq_zero_iff.1 h2]
    exact ⟨[], rfl, rfl, rfl, rfl, rfl⟩
  | cons hd hs ih =>
    intro ns ts h1 h2 h3
    cases ns with
    | nil => cases h1
    | cons n ns =>
      cases ts with
      | nil => cases h2
      | cons t ts =>
        obtain ⟨ds, e1, e2, e3, e4, e5⟩ := ih ns ts (by simpa using h1) (by simpa using h2) fun m hm => h3 m (List.mem_cons_of_mem _ hm)
        refine ⟨⟨n, t, hd.unit, hd.desc⟩ :: ds, ?_, by simp [e2], by simp [e3], by simp [e4], by simp [e5]⟩
        rw [describeLoop, (mkDesc_iff _ _ _ _).2 (h3 n (by simp)), Outcome.bind_ok, e1]
        rfl

/-- With names that were accepted the columns are found exactly if there are as many and their formats are known; they have these names, and types, units and descriptions of the file. -/
theorem C150_fits_columns (hs : List Head) (c : Config) (hi : c.info = none) (hn : Spec.Names c.names) (hne : c.names ≠ []) :
    (c.names.length ≠ hs.length → (c.readColumnInfo (some hs)).2 = .throw .elements) ∧
    (c.names.length = hs.length → ∀ ts, headTypes hs = .ok ts → ∃ info, (c.readColumnInfo (some hs)).2 = .ok info ∧ info.map Desc.name = c.names ∧
      info.map Desc.type = ts ∧ info.map Desc.unit = hs.map Head.unit ∧ info.map Desc.description = hs.map Head.desc ∧
      (c.readColumnInfo (some hs)).1.readColumnInfo (some hs) = ((c.readColumnInfo (some hs)).1, .ok info)) ∧
    (c.names.length = hs.length → ∀ e, headTypes hs = .throw e → (c.readColumnInfo (some hs)).2 = .throw e) := by
  rw [Config.readColumnInfo, hi]
  simp only
  by_cases h1 : c.names.length = hs.length
  · rw [if_neg (fun h => h.2 h1), if_neg hne]
    refine ⟨fun h => absurd h1 h, fun _ ts ht => ?_, fun _ e he => ?_⟩
    · obtain ⟨ds, e1, e2, e3, e4, e5⟩ := describeLoop_ok hs c.names ts h1 (headTypes_length hs ts ht) (fun n hm => ⟨(hn.1 n hm).1, by
        rw [← hasVertical_iff, hasVertical, List.any_eq_false]
        intro ch hch hv
        have := (hn.1 n hm).2 ch hch
        simp only [isSpace, Bool.or_eq_false_iff, Bool.and_eq_false_iff, decide_eq_false_iff_not] at this
        simp only [isVertical, Bool.and_eq_true, decide_eq_true_eq] at hv
        omega⟩)
      have hg : GoodInfo ds := ⟨fun h => hne (by rw [← e2, h]; rfl), by rw [e2]; exact hn.2⟩
      have hk : (do let types ← headTypes hs
                    let ds ← describeLoop c.names types hs
                    mkInfo ds) = .ok ds := by
        rw [ht, Outcome.bind_ok, e1, Outcome.bind_ok, (C45_info ds).1 hg]
      rw [hk]
      exact ⟨ds, rfl, e2, e3, e4, e5, rfl⟩
    · rw [he]; rfl
  · rw [if_pos ⟨hne, h1⟩]
    exact ⟨fun _ => rfl, fun h => absurd h h1, fun h => absurd h h1⟩

theorem describeLoop_names : ∀ (hs : List Head) (ns : List Bytes) (ts : List CType) (ds : List Desc), ns.length = hs.length → ts.length = hs.length →
    describeLoop ns ts hs = .ok ds → ds.map Desc.name = ns ∧ ds.map Desc.type = ts ∧ ds.map Desc.unit = hs.map Head.unit ∧ ds.map Desc.description = hs.map Head.desc := by
  intro hs
  induction hs with
  | nil =>
    intro ns ts ds h1 h2 h
    rw [List.length_eq_zero_iff.1 h1, List.length_eq_zero_iff.1 h2] at *
    cases h
    exact ⟨rfl, rfl, rfl, rfl⟩
  | cons hd hs ih =>
    intro ns ts ds h1 h2 h
    cases ns with
    | nil => cases h1
    | cons n ns =>
      cases ts with
      | nil => cases h2
      | cons t ts =>
        rw [describeLoop] at h
        obtain ⟨d, hd', h⟩ := bind_eq_ok h
        obtain ⟨rest, hr, h⟩ := bind_eq_ok h
        cases h
        obtain ⟨e1, e2, e3, e4⟩ := ih ns ts rest (by simpa using h1) (by simpa using h2) hr
        have hd2 : d = ⟨n, t, hd.unit, hd.desc⟩ := by
          rw [mkDesc] at hd'
          by_cases g1 : n = []
          · rw [if_pos g1] at hd'; cases hd'
          rw [if_neg g1] at hd'
          by_cases g2 : hasVertical n = true
          · rw [if_pos g2] at hd'; cases hd'
          rw [if_neg g2] at hd'
          cases hd'
          rfl
        subst hd2
        simp [e1, e2, e3, e4]

theorem autoNames_get : ∀ (hs : List Head) (k : Nat), (autoNames hs k).length = hs.length ∧ ∀ (i : Nat) (h : Head), hs[i]? = some h →
    (autoNames hs k)[i]? = some (if h.name = [] then "Col".toList ++ showNat (k + i + 1) else h.name) := by
  intro hs
  induction hs with
  | nil => intro k; exact ⟨rfl, fun i h hi => by simp at hi⟩
  | cons hd hs ih =>
    intro k
    refine ⟨by simp [autoNames, (ih (k + 1)).1], fun i h hi => ?_⟩
    cases i with
    | zero => simp at hi; subst hi; simp [autoNames]
    | succ i =>
      simp only [List.getElem?_cons_succ] at hi
      rw [autoNames, List.getElem?_cons_succ, (ih (k + 1)).2 i h hi, show k + 1 + i + 1 = k + (i + 1) + 1 by omega]

/-- Without fixed names the columns have the names, units and descriptions of the file; the `i`-th column without a name is called `Col` and its number from one. -/
theorem C150_fits_auto (hs : List Head) (c : Config) (hi : c.info = none) (hn : c.names = []) (info : Info) (h : (c.readColumnInfo (some hs)).2 = .ok info) :
    info.length = hs.length ∧ headTypes hs = .ok (info.map Desc.type) ∧ info.map Desc.unit = hs.map Head.unit ∧ info.map Desc.description = hs.map Head.desc ∧
    ∀ i hd d, hs[i]? = some hd → info[i]? = some d → (hd.name ≠ [] → d.name = hd.name) ∧ (hd.name = [] → d.name = "Col".toList ++ showNat (i + 1)) := by
  rw [Config.readColumnInfo, hi] at h
  simp only [hn] at h
  rw [if_neg (by simp), if_pos trivial] at h
  have hk : (do let types ← headTypes hs
                let ds ← describeLoop (autoNames hs 0) types hs
                mkInfo ds) = .ok info := by
    cases hk : (do let types ← headTypes hs
                   let ds ← describeLoop (autoNames hs 0) types hs
                   mkInfo ds) with
    | ok info' => rw [hk] at h; exact h
    | throw e => rw [hk] at h; cases h
    | ub => rw [hk] at h; cases h
  obtain ⟨ts, ht, hk⟩ := bind_eq_ok hk
  obtain ⟨l, hl, hk⟩ := bind_eq_ok hk
  have hli : l = info := by
    by_cases hg : GoodInfo l
    · have := (C45_info l).1 hg; rw [this] at hk; cases hk; rfl
    · have := (C45_info l).2 hg; rw [this] at hk; cases hk
  subst hli
  obtain ⟨hlen, hget⟩ := autoNames_get hs 0
  obtain ⟨e1, e2, e3, e4⟩ := describeLoop_names hs _ ts l hlen (headTypes_length hs ts ht) hl
  refine ⟨by rw [← hlen, ← e1, List.length_map], by rw [e2, ht], e3, e4, fun i hd d h1 h2 => ?_⟩
  have h3 := hget i hd h1
  rw [← e1, List.getElem?_map, h2, Nat.zero_add] at h3
  simp only [Option.map_some, Option.some.injEq] at h3
  exact ⟨fun hne => by rw [h3, if_neg hne], fun h0 => by rw [h3, if_pos h0]⟩

/-- Once the columns have been asked for, found or not, names cannot be fixed any more. -/
theorem C150_fits_started (hs : Option (List Head)) (c : Config) (hc : c.info ≠ none → c.started = true) (l : List Bytes) :
    (c.readColumnInfo hs).1.fixNames l = ((c.readColumnInfo hs).1, .throw .elements) := by
  have h : (c.readColumnInfo hs).1.started = true := by
    rw [Config.readColumnInfo]
    cases hi : c.info with
    | some info => exact hc (by rw [hi]; simp)
    | none =>
      cases hs with
      | none => rfl
      | some hs =>
        simp only
        by_cases h1 : c.names ≠ [] ∧ c.names.length ≠ hs.length
        · rw [if_pos h1]
        rw [if_neg h1]
        cases (do let types ← headTypes hs
                  let ds ← describeLoop (if c.names = [] then autoNames hs 0 else c.names) types hs
                  mkInfo ds) <;> rfl
  rw [Config.fixNames, if_pos h]

/-- An extension that is not a table has no columns: whatever names are fixed in between, every question for the columns is refused with an exception. -/
theorem C150_fits_not_table (fixed : List (List Bytes)) :
    ((fixed.foldl (fun c l => (((c : Config).fixNames l).1.readColumnInfo none).1) ({} : Config)).readColumnInfo none).2 = .throw .elements := by
  have key : ∀ (fixed : List (List Bytes)) (c : Config), c.info = none → (fixed.foldl (fun c l => (((c : Config).fixNames l).1.readColumnInfo none).1) c).info = none := by
    intro fixed
    induction fixed with
    | nil => intro c h; exact h
    | cons l fixed ih =>
      intro c h
      refine ih _ ?_
      have h1 : (c.fixNames l).1.info = none := by
        rw [Config.fixNames]
        by_cases hs : c.started = true
        · rw [if_pos hs]; exact h
        · rw [if_neg hs]; exact h
      show ((c.fixNames l).1.readColumnInfo none).1.info = none
      rw [Config.readColumnInfo, h1]
  rw [Config.readColumnInfo, key fixed {} rfl]

example : ((({} : Config).fixNames [['a']]).1.readColumnInfo none).2 = .throw .elements ∧ (({} : Config).fixNames [['a']]).2 = .ok () := by decide +kernel

/-- Test: a table whose second column has no name. -/
example : (({} : Config).readColumnInfo (some [⟨['x'], ['D'], [], [], []⟩, ⟨[], ['D'], [], "m".toList, []⟩])).2
    = .ok [⟨['x'], .scalar .f64, [], []⟩, ⟨"Col2".toList, .scalar .f64, [], "m".toList⟩] := by decide +kernel

/-- Names that are refused are not used. -/
def C150_fits_full : Prop := ∀ (hs : List Head) (l : List Bytes) (info : Info), (({} : Config).fixNames l).2 ≠ .ok () →
  ((({} : Config).fixNames l).1.readColumnInfo (some hs)).2 = .ok info → (({} : Config).readColumnInfo (some hs)).2 = .ok info

/-- A name with a blank is refused, and then is the name of the column. -/
theorem C150_fits_violated : ¬ C150_fits_full := fun h => by
  have h := h [⟨['x'], ['D'], [], [], []⟩] ["a b".toList] [⟨"a b".toList, .scalar .f64, [], []⟩] (by decide +kernel) (by decide +kernel)
  revert h
  decide +kernel

end Alexandria.Table.Fits

/-! ## `AsciiWriter` -/

namespace Alexandria.Table

open Alexandria.Str

variable {F D : Type}

/-- The calls of an `AsciiWriter`. -/
inductive WCall (F D : Type) where
  | comment (s : Bytes)
  | showInfo (b : Bool)
  | message (m : Bytes)
  | data (t : TableT F D)

def Writer.call (fmt : Fmt F D) (w : Writer) : WCall F D → Res Writer
  | .comment s => w.setComment s
  | .showInfo b => w.showColumnInfo b
  | .message m => w.addComment m
  | .data t => w.addData fmt t

/-- Consecutive calls; the first that throws ends them. -/
def Writer.calls (fmt : Fmt F D) : List (WCall F D) → Writer → Res Writer
  | [], w => .ok w
  | c :: cs, w => do
    let w ← w.call fmt c
    Writer.calls fmt cs w

namespace Spec

/-- What is set before anything is written. -/
inductive Setting where
  | comment (s : Bytes)
  | showInfo (b : Bool)

def Setting.call : Setting → WCall F D
  | .comment s => .comment s
  | .showInfo b => .showInfo b

/-- The last of the indicators. -/
def lastComment (l : List Setting) : Bytes := l.foldl (fun a s => match s with | .comment c => c | .showInfo _ => a) ['#']

/-- The last choice about the descriptions of the columns. -/
def lastShow (l : List Setting) : Bool := l.foldl (fun a s => match s with | .showInfo b => b | .comment _ => a) true

end Spec

theorem init_flags (fmt : Fmt F D) (w w' : Writer) (t : TableT F D) (h : w.init fmt t = .ok w') : w'.initialized = true ∧ w'.started = true ∧ w'.info = w.info := by
  rw [Writer.init] at h
  by_cases hs : w.showInfo = true
  · rw [if_pos hs] at h
    obtain ⟨_, _, h⟩ := bind_eq_ok h
    obtain ⟨_, _, h⟩ := bind_eq_ok h
    obtain ⟨_, _, h⟩ := bind_eq_ok h
    cases h
    exact ⟨rfl, rfl, rfl⟩
  · rw [if_neg hs] at h
    obtain ⟨_, _, h⟩ := bind_eq_ok h
    obtain ⟨_, _, h⟩ := bind_eq_ok h
    cases h
    exact ⟨rfl, rfl, rfl⟩

theorem append_flags (fmt : Fmt F D) (w w' : Writer) (t : TableT F D) (h : w.append fmt t = .ok w') :
    w'.initialized = w.initialized ∧ w'.started = w.started ∧ w'.info = w.info := by
  rw [Writer.append] at h
  obtain ⟨ls, _, h⟩ := bind_eq_ok h
  cases ls with
  | nil => cases h
  | cons n ns =>
    obtain ⟨_, _, h⟩ := bind_eq_ok h
    cases h
    exact ⟨rfl, rfl, rfl⟩

theorem addData_flags (fmt : Fmt F D) (w w' : Writer) (t : TableT F D) (hi : w.info ≠ none → w.initialized = true ∧ w.started = true) (h : w.addData fmt t = .ok w') :
    w'.initialized = true ∧ w'.started = true := by
  rw [Writer.addData] at h
  cases hw : w.info with
  | none =>
    rw [hw] at h
    obtain ⟨w1, h1, h2⟩ := bind_eq_ok h
    have a := init_flags fmt _ _ _ h1
    have b := append_flags fmt _ _ _ h2
    exact ⟨b.1.trans a.1, b.2.1.trans a.2.1⟩
  | some info =>
    rw [hw] at h
    simp only at h
    by_cases hs : sameInfo info t.info = true
    · rw [if_pos hs] at h
      have b := append_flags fmt _ _ _ h
      have a := hi (by rw [hw]; simp)
      exact ⟨b.1.trans a.1, b.2.1.trans a.2⟩
    · rw [if_neg hs] at h; cases h

/-- After data only data is accepted. -/
theorem calls_data (fmt : Fmt F D) : ∀ (l : List (WCall F D)) (w w' : Writer), w.initialized = true → w.started = true →
    (w.calls fmt l = .ok w' ↔ ∃ ts, l = ts.map .data ∧ w.addAll fmt ts = .ok w') := by
  intro l
  induction l with
  | nil =>
    intro w w' _ _
    constructor
    · intro h; cases h; exact ⟨[], rfl, rfl⟩
    · rintro ⟨ts, h1, h2⟩
      cases ts with
      | nil => exact h2
      | cons t ts => cases h1
  | cons c l ih =>
    intro w w' hi hs
    cases c with
    | comment s =>
      simp only [Writer.calls, Writer.call, Writer.setComment, hs, if_true, Outcome.bind_throw]
      exact ⟨fun h => (by cases h), fun ⟨ts, h1, _⟩ => by cases ts <;> cases h1⟩
    | showInfo b =>
      simp only [Writer.calls, Writer.call, Writer.showColumnInfo, hs, if_true, Outcome.bind_throw]
      exact ⟨fun h => (by cases h), fun ⟨ts, h1, _⟩ => by cases ts <;> cases h1⟩
    | message m =>
      simp only [Writer.calls, Writer.call, Writer.addComment, hi, if_true, Outcome.bind_throw]
      exact ⟨fun h => (by cases h), fun ⟨ts, h1, _⟩ => by cases ts <;> cases h1⟩
    | data t =>
      rw [Writer.calls, Writer.call]
      constructor
      · intro h
        obtain ⟨w1, h1, h2⟩ := bind_eq_ok h
        have hf := addData_flags fmt w w1 t (fun _ => ⟨hi, hs⟩) h1
        obtain ⟨ts, e1, e2⟩ := (ih w1 w' hf.1 hf.2).1 h2
        exact ⟨t :: ts, by rw [e1]; rfl, by rw [Writer.addAll, h1, Outcome.bind_ok]; exact e2⟩
      · rintro ⟨ts, h1, h2⟩
        cases ts with
        | nil => cases h1
        | cons t' ts =>
          injection h1 with h1 h1'
          injection h1 with h1
          subst h1
          rw [Writer.addAll] at h2
          obtain ⟨w1, e1, e2⟩ := bind_eq_ok h2
          have hf := addData_flags fmt w w1 t (fun _ => ⟨hi, hs⟩) e1
          rw [e1, Outcome.bind_ok]
          exact (ih w1 w' hf.1 hf.2).2 ⟨ts, h1', e2⟩

/-- Before data and after comments, comments and data are accepted. -/
theorem calls_messages (fmt : Fmt F D) : ∀ (l : List (WCall F D)) (w w' : Writer), w.initialized = false → w.started = true → w.info = none →
    (w.calls fmt l = .ok w' ↔ ∃ ms ts, l = ms.map .message ++ ts.map .data ∧ (do let w ← w.addComments ms; w.addAll fmt ts) = .ok w') := by
  intro l
  induction l with
  | nil =>
    intro w w' _ _ _
    constructor
    · intro h; cases h; exact ⟨[], [], rfl, rfl⟩
    · rintro ⟨ms, ts, h1, h2⟩
      cases ms with
      | nil =>
        cases ts with
        | nil => exact h2
        | cons t ts => cases h1
      | cons m ms => cases h1
  | cons c l ih =>
    intro w w' hi hs hn
    cases c with
    | comment s =>
      simp only [Writer.calls, Writer.call, Writer.setComment, hs, if_true, Outcome.bind_throw]
      exact ⟨fun h => (by cases h), fun ⟨ms, ts, h1, _⟩ => by cases ms <;> cases ts <;> cases h1⟩
    | showInfo b =>
      simp only [Writer.calls, Writer.call, Writer.showColumnInfo, hs, if_true, Outcome.bind_throw]
      exact ⟨fun h => (by cases h), fun ⟨ms, ts, h1, _⟩ => by cases ms <;> cases ts <;> cases h1⟩
    | message m =>
      have hm : ∃ w1, w.addComment m = .ok w1 ∧ w1.initialized = false ∧ w1.started = true ∧ w1.info = none := by
        refine ⟨_, by rw [Writer.addComment, if_neg (by simp [hi])], ?_, rfl, ?_⟩
        · exact hi
        · exact hn
      obtain ⟨w1, e1, e2, e3, e4⟩ := hm
      rw [Writer.calls, Writer.call, e1, Outcome.bind_ok, ih w1 w' e2 e3 e4]
      constructor
      · rintro ⟨ms, ts, h1, h2⟩
        exact ⟨m :: ms, ts, by rw [h1]; rfl, by rw [Writer.addComments, e1, Outcome.bind_ok]; exact h2⟩
      · rintro ⟨ms, ts, h1, h2⟩
        cases ms with
        | nil => cases ts <;> cases h1
        | cons m' ms =>
          injection h1 with h1 h1'
          injection h1 with h1
          subst h1
          rw [Writer.addComments, e1, Outcome.bind_ok] at h2
          exact ⟨ms, ts, h1', h2⟩
    | data t =>
      rw [Writer.calls, Writer.call]
      constructor
      · intro h
        obtain ⟨w1, h1, h2⟩ := bind_eq_ok h
        have hf := addData_flags fmt w w1 t (fun h => absurd hn h) h1
        obtain ⟨ts, e1, e2⟩ := (calls_data fmt l w1 w' hf.1 hf.2).1 h2
        exact ⟨[], t :: ts, by rw [e1]; rfl, by rw [Writer.addComments, Outcome.bind_ok, Writer.addAll, h1, Outcome.bind_ok]; exact e2⟩
      · rintro ⟨ms, ts, h1, h2⟩
        cases ms with
        | cons m ms => cases h1
        | nil =>
          cases ts with
          | nil => cases h1
          | cons t' ts =>
            injection h1 with h1 h1'
            injection h1 with h1
            subst h1
            rw [Writer.addComments, Outcome.bind_ok, Writer.addAll] at h2
            obtain ⟨w1, e1, e2⟩ := bind_eq_ok h2
            have hf := addData_flags fmt w w1 t (fun h => absurd hn h) e1
            rw [e1, Outcome.bind_ok]
            exact (calls_data fmt l w1 w' hf.1 hf.2).2 ⟨ts, h1', e2⟩

/-- A sequence of calls is accepted as a whole exactly if it sets indicators (not empty) and the choice about the descriptions first, then adds comments, then tables, and the tables can be
written after these comments with the last indicator and the last choice; this gives the text. -/
theorem C150_writer (fmt : Fmt F D) (l : List (WCall F D)) (w' : Writer) :
    ({} : Writer).calls fmt l = .ok w' ↔ ∃ (ss : List Spec.Setting) (ms : List Bytes) (ts : List (TableT F D)),
      l = ss.map Spec.Setting.call ++ ms.map .message ++ ts.map .data ∧ (∀ c, .comment c ∈ ss → c ≠ []) ∧
      (do let w ← ({ comment := Spec.lastComment ss, showInfo := Spec.lastShow ss } : Writer).addComments ms; w.addAll fmt ts) = .ok w' := by
  have key : ∀ (l : List (WCall F D)) (cm : Bytes) (sh : Bool), ({ comment := cm, showInfo := sh } : Writer).calls fmt l = .ok w' ↔
      ∃ (ss : List Spec.Setting) (ms : List Bytes) (ts : List (TableT F D)),
        l = ss.map Spec.Setting.call ++ ms.map .message ++ ts.map .data ∧ (∀ c, .comment c ∈ ss → c ≠ []) ∧
        (do let w ← ({ comment := ss.foldl (fun a (s : Spec.Setting) => match s with | .comment c => c | .showInfo _ => a) cm,
                       showInfo := ss.foldl (fun a (s : Spec.Setting) => match s with | .showInfo b => b | .comment _ => a) sh } : Writer).addComments ms
            w.addAll fmt ts) = .ok w' := by
    intro l
    induction l with
    | nil =>
      intro cm sh
      constructor
      · intro h; exact ⟨[], [], [], rfl, by simp, h⟩
      · rintro ⟨ss, ms, ts, h1, _, h3⟩
        cases ss with
        | cons s ss => cases h1
        | nil =>
          cases ms with
          | cons m ms => cases h1
          | nil =>
            cases ts with
            | cons t ts => cases h1
            | nil => exact h3
    | cons c l ih =>
      intro cm sh
      cases c with
      | comment s =>
        rw [Writer.calls, Writer.call, Writer.setComment, if_neg (by simp)]
        by_cases h0 : s = []
        · rw [if_pos h0, Outcome.bind_throw]
          refine ⟨fun h => (by cases h), ?_⟩
          rintro ⟨ss, ms, ts, h1, h2, _⟩
          cases ss with
          | nil => cases ms <;> cases ts <;> cases h1
          | cons s' ss =>
            cases s' with
            | showInfo b => cases h1
            | comment c =>
              injection h1 with h1 h1'
              injection h1 with h1
              exact absurd (h1 ▸ h0) (h2 c (by simp))
        · rw [if_neg h0, Outcome.bind_ok, ih s sh]
          constructor
          · rintro ⟨ss, ms, ts, h1, h2, h3⟩
            refine ⟨.comment s :: ss, ms, ts, by rw [h1]; rfl, ?_, h3⟩
            intro c hc
            rcases List.mem_cons.1 hc with e | hc
            · injection e with e; rw [e]; exact h0
            · exact h2 c hc
          · rintro ⟨ss, ms, ts, h1, h2, h3⟩
            cases ss with
            | nil => cases ms <;> cases ts <;> cases h1
            | cons s' ss =>
              cases s' with
              | showInfo b => cases h1
              | comment c =>
                injection h1 with h1 h1'
                injection h1 with h1
                subst h1
                exact ⟨ss, ms, ts, h1', fun c hc => h2 c (List.mem_cons_of_mem _ hc), h3⟩
      | showInfo b =>
        rw [Writer.calls, Writer.call, Writer.showColumnInfo, if_neg (by simp), Outcome.bind_ok, ih cm b]
        constructor
        · rintro ⟨ss, ms, ts, h1, h2, h3⟩
          refine ⟨.showInfo b :: ss, ms, ts, by rw [h1]; rfl, ?_, h3⟩
          intro c hc
          rcases List.mem_cons.1 hc with e | hc
          · cases e
          · exact h2 c hc
        · rintro ⟨ss, ms, ts, h1, h2, h3⟩
          cases ss with
          | nil => cases ms <;> cases ts <;> cases h1
          | cons s' ss =>
            cases s' with
            | comment c => cases h1
            | showInfo b' =>
              injection h1 with h1 h1'
              injection h1 with h1
              subst h1
              exact ⟨ss, ms, ts, h1', fun c hc => h2 c (List.mem_cons_of_mem _ hc), h3⟩
      | message m =>
        have hm : ∃ w1, ({ comment := cm, showInfo := sh } : Writer).addComment m = .ok w1 ∧ w1.initialized = false ∧ w1.started = true ∧ w1.info = none :=
          ⟨_, by rw [Writer.addComment, if_neg (by simp)], rfl, rfl, rfl⟩
        obtain ⟨w1, e1, e2, e3, e4⟩ := hm
        rw [Writer.calls, Writer.call, e1, Outcome.bind_ok, calls_messages fmt l w1 w' e2 e3 e4]
        constructor
        · rintro ⟨ms, ts, h1, h2⟩
          exact ⟨[], m :: ms, ts, by rw [h1]; rfl, by simp, by rw [Writer.addComments]; exact (show _ = _ by simp only [List.foldl_nil, e1, Outcome.bind_ok]).trans h2⟩
        · rintro ⟨ss, ms, ts, h1, _, h3⟩
          cases ss with
          | cons s ss => cases s <;> cases h1
          | nil =>
            cases ms with
            | nil => cases ts <;> cases h1
            | cons m' ms =>
              injection h1 with h1 h1'
              injection h1 with h1
              subst h1
              rw [List.foldl_nil, List.foldl_nil, Writer.addComments, e1, Outcome.bind_ok] at h3
              exact ⟨ms, ts, h1', h3⟩
      | data t =>
        rw [Writer.calls, Writer.call]
        constructor
        · intro h
          obtain ⟨w1, h1, h2⟩ := bind_eq_ok h
          have hf := addData_flags fmt _ w1 t (fun h => absurd rfl h) h1
          obtain ⟨ts, e1, e2⟩ := (calls_data fmt l w1 w' hf.1 hf.2).1 h2
          exact ⟨[], [], t :: ts, by rw [e1]; rfl, by simp, by rw [Writer.addComments, Outcome.bind_ok, Writer.addAll]; exact (show _ = _ by simp only [List.foldl_nil, h1, Outcome.bind_ok]).trans e2⟩
        · rintro ⟨ss, ms, ts, h1, _, h3⟩
          cases ss with
          | cons s ss => cases s <;> cases h1
          | nil =>
            cases ms with
            | cons m ms => cases h1
            | nil =>
              cases ts with
              | nil => cases h1
              | cons t' ts =>
                injection h1 with h1 h1'
                injection h1 with h1
                subst h1
                rw [List.foldl_nil, List.foldl_nil, Writer.addComments, Outcome.bind_ok, Writer.addAll] at h3
                obtain ⟨w1, e1, e2⟩ := bind_eq_ok h3
                have hf := addData_flags fmt _ w1 t (fun h => absurd rfl h) e1
                rw [e1, Outcome.bind_ok]
                exact (calls_data fmt l w1 w' hf.1 hf.2).2 ⟨ts, h1', e2⟩
  exact key l ['#'] true

/-! ## Examples -/

example : ((({} : Reader).calls noFmt "# a b\n1 2".toList [.names [['x'], ['y']], .types [.scalar .i32, .str], .hasMoreRows]).readColumnInfo "# a b\n1 2".toList).2 =
    .ok [⟨['x'], .scalar .i32, [], []⟩, ⟨['y'], .str, [], []⟩] := by decide +kernel
example : (({} : Reader).call noFmt [] (.names [['x'], ['x']])).2 = .throw .elements := by decide +kernel
example : ((({} : Reader).calls noFmt "1".toList [.getInfo]).call noFmt "1".toList (.comment ['%'])).2 = .throw .elements := by decide +kernel
example : Spec.Careful {} [.names [['x']], .getInfo, .names []] := by
  refine ⟨fun _ _ => ⟨rfl, ⟨?_, by simp⟩, Or.inr (Or.inl rfl)⟩, ?_, ?_, trivial⟩
  · intro n hn
    rw [List.mem_singleton.1 hn]
    exact ⟨by simp, (hasVertical_iff _).1 (by decide)⟩
  · rintro (⟨_, h⟩ | ⟨_, h⟩) <;> cases h
  · intro _ h; cases h
example : (({} : Writer).calls noFmt [.comment ['%'], .showInfo false, .message ['h']]) = .ok { comment := ['%'], showInfo := false, started := true, out := "% h\n".toList } := by
  decide +kernel
example : (({} : Writer).calls noFmt [.message ['h'], .comment ['%']]) = .throw .elements := by decide +kernel
example : Fits.Spec.Names [['a'], ['b']] ∧ ((({ names := [['a'], ['b']] } : Fits.Config).readColumnInfo (some [⟨['x'], ['D'], [], [], []⟩, ⟨[], ['J'], ['m'], [], []⟩])).2 =
    .ok [⟨['a'], .scalar .f64, [], []⟩, ⟨['b'], .scalar .i32, ['m'], []⟩]) := by
  refine ⟨⟨?_, by decide⟩, by decide +kernel⟩
  intro n hn
  simp only [List.mem_cons, List.not_mem_nil, or_false] at hn
  rcases hn with rfl | rfl <;> exact ⟨by simp, by decide⟩

end Alexandria.Table
