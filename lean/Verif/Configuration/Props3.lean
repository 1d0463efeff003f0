import Verif.Configuration.Props
import Verif.Common.StringsLemmas
import Mathlib.Data.List.Basic
import Mathlib.Data.List.Nodup

/-! # Photometric band mapping, wildcard options, columns and formats (C26, C27, C89, C90) -/

namespace Alexandria.Configuration

open Str

/-! ## C26 -/

theorem mappingLoop_rest {F : Type} (bs : List (Band F)) (ex : List Bytes) :
    (mappingLoop bs ex).2 = ex.filter fun n => n ∉ bs.map Band.filter := by
  induction bs generalizing ex with
  | nil => simp [mappingLoop]
  | cons b bs ih =>
    rw [mappingLoop]
    by_cases h : b.filter ∈ ex
    · rw [if_pos h, ih, List.filter_filter]
      apply List.filter_congr
      intro n _
      by_cases h1 : n = b.filter <;> simp [h1]
    · rw [if_neg h]
      simp only [ih]
      apply List.filter_congr
      intro n hn
      have : n ≠ b.filter := fun e => h (e ▸ hn)
      simp [this]

theorem mappingLoop_kept {F : Type} (bs : List (Band F)) (ex : List Bytes) (hn : (bs.map Band.filter).Nodup) :
    (mappingLoop bs ex).1 = (bs.filter fun b => b.filter ∉ ex).map fun b => (b.filter, b.flux, b.error) := by
  induction bs generalizing ex with
  | nil => simp [mappingLoop]
  | cons b bs ih =>
    rw [List.map_cons, List.nodup_cons] at hn
    rw [mappingLoop]
    by_cases h : b.filter ∈ ex
    · rw [if_pos h, ih _ hn.2, List.filter_cons_of_neg (by simpa using h)]
      congr 1
      apply List.filter_congr
      intro c hc
      have : c.filter ≠ b.filter := fun e => hn.1 (e ▸ List.mem_map_of_mem hc)
      simp [this]
    · rw [if_neg h, List.filter_cons_of_pos (by simpa using h)]
      simp only [List.map_cons, ih _ hn.2]

/-- `initialize` throws exactly if an excluded filter is not in the file. -/
theorem C26_throws {F : Type} (bands : List (Band F)) (exclude : List Bytes) (m : Mapping F) :
    ((initMapping bands exclude m).2 = .throw .elements ↔ ∃ n ∈ exclude, ∀ b ∈ bands, b.filter ≠ n) ∧
      ((initMapping bands exclude m).2 = .ok () ↔ ∀ n ∈ exclude, ∃ b ∈ bands, b.filter = n) := by
  have hr := mappingLoop_rest bands exclude
  have he : (mappingLoop bands exclude).2 = [] ↔ ∀ n ∈ exclude, ∃ b ∈ bands, b.filter = n := by
    rw [hr]
    simp [List.filter_eq_nil_iff]
  have hb : (initMapping bands exclude m).2 = if (mappingLoop bands exclude).2 = [] then .ok () else .throw .elements := rfl
  rw [hb]
  by_cases h : (mappingLoop bands exclude).2 = []
  · rw [if_pos h]
    refine ⟨⟨by simp, ?_⟩, fun _ => he.mp h, fun _ => rfl⟩
    rintro ⟨n, hn, hall⟩
    obtain ⟨b, hb, hf⟩ := he.mp h n hn
    exact absurd hf (hall b hb)
  · rw [if_neg h]
    refine ⟨⟨fun _ => ?_, fun _ => rfl⟩, by simp, fun hh => absurd (he.mpr hh) h⟩
    have : ¬ ∀ n ∈ exclude, ∃ b ∈ bands, b.filter = n := fun hh => h (he.mpr hh)
    push Not at this
    exact this

/-- The thresholds and the conversions are those of the filters that are not excluded, in the order of the file. -/
theorem C26_thresholds {F : Type} (bands : List (Band F)) (exclude : List Bytes) :
    ∃ kept : List (Band F), kept.Sublist bands ∧ (∀ b ∈ bands, b ∈ kept ↔ b.filter ∉ exclude) ∧
      kept.length = bands.countP (fun b => b.filter ∉ exclude) ∧
      (initMapping bands exclude {}).1.thresholds = kept.map (fun b => (b.filter, b.threshold)) ∧
      (initMapping bands exclude {}).1.converts = kept.map fun b => (b.filter, b.convert) := by
  refine ⟨bands.filter fun b => b.filter ∉ exclude, List.filter_sublist, ?_, (List.countP_eq_length_filter).symm, ?_, ?_⟩
  · intro b hb
    simp [hb]
  · simp [initMapping]
  · simp [initMapping]

/-- If no filter occurs twice in the file, the three lists agree: they have the filters that are not excluded, in the order of the file. -/
theorem C26_mapping_partial {F : Type} (bands : List (Band F)) (exclude : List Bytes) (hn : (bands.map Band.filter).Nodup) :
    ∃ kept : List (Band F), kept.Sublist bands ∧ (∀ b ∈ bands, b ∈ kept ↔ b.filter ∉ exclude) ∧
      (initMapping bands exclude {}).1.mapping = kept.map (fun b => (b.filter, b.flux, b.error)) ∧
      (initMapping bands exclude {}).1.thresholds = kept.map (fun b => (b.filter, b.threshold)) ∧
      (initMapping bands exclude {}).1.converts = kept.map fun b => (b.filter, b.convert) := by
  refine ⟨bands.filter fun b => b.filter ∉ exclude, List.filter_sublist, ?_, ?_, ?_, ?_⟩
  · intro b hb
    simp [hb]
  · simp [initMapping, mappingLoop_kept bands exclude hn]
  · simp [initMapping]
  · simp [initMapping]

/-- The full claim: the three lists name the same filters. -/
def C26_full : Prop := ∀ (bands : List (Band Nat)) (exclude : List Bytes),
  (initMapping bands exclude {}).1.mapping.map (·.1) = (initMapping bands exclude {}).1.thresholds.map (·.1)

/-- A filter given twice in the file and excluded stays in the mapping once, and the lists no longer correspond. -/
theorem C26_violated : ¬ C26_full := by
  intro h
  have := h [⟨['g'], ['f'], ['e'], 3, false⟩, ⟨['g'], ['f'], ['e'], 3, false⟩, ⟨['r'], ['f'], ['e'], 3, false⟩] [['g']]
  revert this
  decide

example : ((initMapping [⟨['g'], ['f'], ['e'], 3, false⟩, ⟨['r'], ['f'], ['e'], 5, true⟩] [['g']] ({} : Mapping Nat)).1) =
    ⟨[(['r'], ['f'], ['e'])], [(['r'], 5)], [(['r'], true)]⟩ := by decide

/-- A file is read line by line: comments are skipped, every other line has a filter, two columns and possibly a threshold and a flag. -/
inductive Spec.Parsed {F : Type} (three : F) (stof : Bytes → Option F) (stoi : Bytes → Option Bool) : List Bytes → List (Band F) → Prop
  | nil : Parsed three stof stoi [] []
  | comment {l ls bs} : (trim l).head? = some '#' → Parsed three stof stoi ls bs → Parsed three stof stoi (l :: ls) bs
  | three {l ls bs a b c} : '#' ∉ trim l → words (trim l) = [a, b, c] → Parsed three stof stoi ls bs →
      Parsed three stof stoi (l :: ls) (⟨a, b, c, three, false⟩ :: bs)
  | four {l ls bs a b c d t} : '#' ∉ trim l → words (trim l) = [a, b, c, d] → stof d = some t → Parsed three stof stoi ls bs →
      Parsed three stof stoi (l :: ls) (⟨a, b, c, t, false⟩ :: bs)
  | five {l ls bs a b c d e t k} : '#' ∉ trim l → words (trim l) = [a, b, c, d, e] → stof d = some t → stoi e = some k →
      Parsed three stof stoi ls bs → Parsed three stof stoi (l :: ls) (⟨a, b, c, t, k⟩ :: bs)

theorem C26_parse {F : Type} (three : F) (stof : Bytes → Option F) (stoi : Bytes → Option Bool) (ls : List Bytes) (bs : List (Band F)) :
    parseLines three stof stoi ls = .ok bs ↔ Spec.Parsed three stof stoi ls bs := by
  induction ls generalizing bs with
  | nil =>
    constructor
    · intro h; cases h; exact .nil
    · intro h; cases h; rfl
  | cons l ls ih =>
    rw [parseLines]
    by_cases hc : (trim l).head? = some '#'
    · rw [if_pos hc]
      have hm : '#' ∈ trim l := by
        cases ht : trim l with
        | nil => rw [ht] at hc; cases hc
        | cons a as => rw [ht] at hc; simp at hc; simp [hc]
      rw [ih]
      constructor
      · exact .comment hc
      · intro h
        cases h with
        | comment _ h => exact h
        | three h => exact absurd hm h
        | four h => exact absurd hm h
        | five h => exact absurd hm h
    · rw [if_neg hc]
      by_cases hm : '#' ∈ trim l
      · simp only [matchLine, if_pos hm]
        constructor
        · intro h; cases h
        · intro h
          cases h with
          | comment h' => exact absurd h' hc
          | three h => exact absurd hm h
          | four h => exact absurd hm h
          | five h => exact absurd hm h
      · simp only [matchLine, if_neg hm]
        have fin : ∀ (t : F) (k : Bool) (a b c : Bytes),
            ((parseLines three stof stoi ls).bind fun rest => Outcome.ok (⟨a, b, c, t, k⟩ :: rest)) = .ok bs ↔
              ∃ bs', bs = ⟨a, b, c, t, k⟩ :: bs' ∧ Spec.Parsed three stof stoi ls bs' := by
          intro t k a b c
          cases hp : parseLines three stof stoi ls with
          | ok r =>
            simp only [Outcome.bind, Outcome.ok.injEq]
            constructor
            · rintro rfl
              exact ⟨r, rfl, (ih r).mp hp⟩
            · rintro ⟨bs', rfl, h⟩
              have := (ih bs').mpr h
              rw [hp] at this
              cases this
              rfl
          | throw e =>
            simp only [Outcome.bind, reduceCtorEq, false_iff, not_exists, not_and]
            intro x _ h
            have := (ih x).mpr h
            rw [hp] at this
            cases this
          | ub =>
            simp only [Outcome.bind, reduceCtorEq, false_iff, not_exists, not_and]
            intro x _ h
            have := (ih x).mpr h
            rw [hp] at this
            cases this
        match hw : words (trim l) with
        | [a, b, c] =>
          refine (fin three false a b c).trans ⟨?_, ?_⟩
          · rintro ⟨bs', rfl, h⟩
            exact .three hm hw h
          · intro h
            cases h with
            | comment h' => exact absurd h' hc
            | three _ h1 h2 => rw [hw] at h1; cases h1; exact ⟨_, rfl, h2⟩
            | four _ h1 => rw [hw] at h1; cases h1
            | five _ h1 => rw [hw] at h1; cases h1
        | [a, b, c, d] =>
          cases ht : stof d with
          | none =>
            simp only [optional, ht]
            constructor
            · intro h; cases h
            · intro h
              cases h with
              | comment h' => exact absurd h' hc
              | three _ h1 => rw [hw] at h1; cases h1
              | four _ h1 h2 => rw [hw] at h1; cases h1; rw [ht] at h2; cases h2
              | five _ h1 => rw [hw] at h1; cases h1
          | some t =>
            simp only [optional, ht]
            refine (fin t false a b c).trans ⟨?_, ?_⟩
            · rintro ⟨bs', rfl, h⟩
              exact .four hm hw ht h
            · intro h
              cases h with
              | comment h' => exact absurd h' hc
              | three _ h1 => rw [hw] at h1; cases h1
              | four _ h1 h2 h3 => rw [hw] at h1; cases h1; rw [ht] at h2; cases h2; exact ⟨_, rfl, h3⟩
              | five _ h1 => rw [hw] at h1; cases h1
        | [a, b, c, d, e] =>
          cases ht : stof d with
          | none =>
            simp only [optional, ht]
            constructor
            · intro h; cases h
            · intro h
              cases h with
              | comment h' => exact absurd h' hc
              | three _ h1 => rw [hw] at h1; cases h1
              | four _ h1 => rw [hw] at h1; cases h1
              | five _ h1 h2 => rw [hw] at h1; cases h1; rw [ht] at h2; cases h2
          | some t =>
            cases hk : stoi e with
            | none =>
              simp only [optional, ht, hk]
              constructor
              · intro h; cases h
              · intro h
                cases h with
                | comment h' => exact absurd h' hc
                | three _ h1 => rw [hw] at h1; cases h1
                | four _ h1 => rw [hw] at h1; cases h1
                | five _ h1 _ h2 => rw [hw] at h1; cases h1; rw [hk] at h2; cases h2
            | some k =>
              simp only [optional, ht, hk]
              refine (fin t k a b c).trans ⟨?_, ?_⟩
              · rintro ⟨bs', rfl, h⟩
                exact .five hm hw ht hk h
              · intro h
                cases h with
                | comment h' => exact absurd h' hc
                | three _ h1 => rw [hw] at h1; cases h1
                | four _ h1 => rw [hw] at h1; cases h1
                | five _ h1 h2 h3 h4 =>
                  rw [hw] at h1; cases h1; rw [ht] at h2; cases h2; rw [hk] at h3; cases h3; exact ⟨_, rfl, h4⟩
        | [] =>
          constructor
          · intro h; cases h
          · intro h
            cases h with
            | comment h' => exact absurd h' hc
            | three _ h1 => rw [hw] at h1; cases h1
            | four _ h1 => rw [hw] at h1; cases h1
            | five _ h1 => rw [hw] at h1; cases h1
        | [a] =>
          constructor
          · intro h; cases h
          · intro h
            cases h with
            | comment h' => exact absurd h' hc
            | three _ h1 => rw [hw] at h1; cases h1
            | four _ h1 => rw [hw] at h1; cases h1
            | five _ h1 => rw [hw] at h1; cases h1
        | [a, b] =>
          constructor
          · intro h; cases h
          · intro h
            cases h with
            | comment h' => exact absurd h' hc
            | three _ h1 => rw [hw] at h1; cases h1
            | four _ h1 => rw [hw] at h1; cases h1
            | five _ h1 => rw [hw] at h1; cases h1
        | a :: b :: c :: d :: e :: f :: g =>
          constructor
          · intro h; cases h
          · intro h
            cases h with
            | comment h' => exact absurd h' hc
            | three _ h1 => rw [hw] at h1; cases h1
            | four _ h1 => rw [hw] at h1; cases h1
            | five _ h1 => rw [hw] at h1; cases h1

/-- An empty line in the file is a syntax error. -/
theorem C26_blank_line : parseLines 3 (fun _ => none) (fun _ => none) [[]] = (.throw .elements : Res (List (Band Nat))) := by decide

def exampleLines : List Bytes := ["# filters".toList, "g  FLUX_G ERR_G".toList, "r FLUX_R ERR_R 5".toList]

example : parseLines 3 (fun w => if w = ['5'] then some 5 else none) (fun _ => none) exampleLines =
    .ok [⟨['g'], "FLUX_G".toList, "ERR_G".toList, 3, false⟩, ⟨['r'], "FLUX_R".toList, "ERR_R".toList, 5, false⟩] := by decide +kernel

/-! ## C27 -/

/-- The names are distinct, and are what follows a prefix and one more character. -/
theorem C27_exact (prefixes options : List Bytes) :
    (findWildcardNames prefixes options).Nodup ∧
      ∀ s, s ∈ findWildcardNames prefixes options ↔
        ∃ p ∈ prefixes, (∃ c, p ++ c :: s ∈ options) ∨ (s = [] ∧ p ∈ options) := by
  refine ⟨List.nodup_dedup _, ?_⟩
  intro s
  simp only [findWildcardNames, List.mem_dedup, List.mem_flatMap, List.mem_map, List.mem_filter, List.isPrefixOf_iff_prefix]
  constructor
  · rintro ⟨p, hp, o, ⟨ho, ⟨r, rfl⟩⟩, rfl⟩
    refine ⟨p, hp, ?_⟩
    rw [List.drop_left]
    cases r with
    | nil => right; exact ⟨rfl, by simpa using ho⟩
    | cons c r => left; exact ⟨c, ho⟩
  · rintro ⟨p, hp, ⟨c, ho⟩ | ⟨rfl, ho⟩⟩
    · exact ⟨p, hp, _, ⟨ho, ⟨_, rfl⟩⟩, by rw [List.drop_left]; rfl⟩
    · exact ⟨p, hp, p, ⟨ho, ⟨[], by simp⟩⟩, by simp⟩

/-- If options that begin with a prefix go on with a hyphen, the names are exactly those whose wildcard option is given. -/
theorem C27_names_partial (prefixes options : List Bytes)
    (h : ∀ p ∈ prefixes, ∀ o ∈ options, p <+: o → (p ++ ['-']) <+: o) (s : Bytes) :
    s ∈ findWildcardNames prefixes options ↔ ∃ p ∈ prefixes, wildcard p s ∈ options := by
  rw [(C27_exact prefixes options).2]
  constructor
  · rintro ⟨p, hp, ⟨c, ho⟩ | ⟨rfl, ho⟩⟩
    · obtain ⟨r, hr⟩ := h p hp _ ho ⟨_, rfl⟩
      rw [List.append_assoc, List.append_cancel_left_eq] at hr
      simp only [List.cons_append, List.nil_append, List.cons.injEq] at hr
      obtain ⟨rfl, rfl⟩ := hr
      exact ⟨p, hp, ho⟩
    · obtain ⟨r, hr⟩ := h p hp _ ho ⟨[], by simp⟩
      have := congrArg List.length hr
      simp at this
  · rintro ⟨p, hp, ho⟩
    exact ⟨p, hp, Or.inl ⟨'-', ho⟩⟩

/-- Nothing is missed, whatever the options. -/
theorem C27_complete (prefixes options : List Bytes) (p s : Bytes) (hp : p ∈ prefixes) (ho : wildcard p s ∈ options) :
    s ∈ findWildcardNames prefixes options :=
  ((C27_exact prefixes options).2 s).mpr ⟨p, hp, Or.inl ⟨'-', ho⟩⟩

/-- The full claim. -/
def C27_full : Prop := ∀ (prefixes options : List Bytes) (s : Bytes),
  s ∈ findWildcardNames prefixes options ↔ ∃ p ∈ prefixes, wildcard p s ∈ options

/-- Options that only begin like the prefix give names too. -/
theorem C27_violated : ¬ C27_full := by
  intro h
  have := (h ["filter".toList] ["filters-x".toList] "-x".toList).mp (by decide +kernel)
  obtain ⟨p, hp, ho⟩ := this
  simp only [List.mem_singleton] at hp ho
  subst hp
  exact absurd ho (by decide +kernel)

example : findWildcardNames ["a".toList, "bc".toList] ["a-1".toList, "bc-2".toList, "bc-1".toList, "d-3".toList] =
    ["2".toList, "1".toList] := by decide +kernel

/-! ## C89: columns -/

/-- What the options ask for: `none` if they are refused. -/
inductive Spec.Column (columns : List Bytes) : Option Bytes → Option Int → Bytes → Prop
  | name {n} : n ∈ columns → Column columns (some n) none n
  | index {i : Nat} {n} : columns[i]? = some n → Column columns none (some (i + 1 : Nat)) n

theorem columnByIndex_iff (columns : List Bytes) (hlen : columns.length < 2 ^ 64) (i : Int) (hi : 1 ≤ i) (hi2 : i < 2 ^ 31) (n : Bytes) :
    columnByIndex columns i = .ok n ↔ ∃ k : Nat, i = k + 1 ∧ columns[k]? = some n := by
  obtain ⟨k, rfl⟩ : ∃ k : Nat, i = k + 1 := ⟨(i - 1).toNat, by omega⟩
  have e1 : (((k : Int) + 1) % 2 ^ 64).toNat = k + 1 := by omega
  have e2 : (k + 1 + 2 ^ 64 - 1) % 2 ^ 64 = k := by omega
  unfold columnByIndex
  simp only [e1, e2]
  by_cases h : k + 1 > columns.length
  · rw [if_pos h]
    constructor
    · intro h; cases h
    · rintro ⟨k', h1, h2⟩
      have : k' = k := by omega
      subst this
      rw [List.getElem?_eq_none (by omega)] at h2
      cases h2
  · rw [if_neg h, List.getElem?_eq_getElem (by omega)]
    simp only [Outcome.ok.injEq]
    constructor
    · rintro rfl
      exact ⟨k, rfl, List.getElem?_eq_getElem (by omega)⟩
    · rintro ⟨k', h1, h2⟩
      have : k' = k := by omega
      subst this
      rw [List.getElem?_eq_getElem (by omega)] at h2
      cases h2
      rfl

/-- The options checked by `preInitialize` and a given column: the ID column is the one with that name or one-based index, and there is an
error exactly if there is none. -/
theorem C89_id_partial (columns : List Bytes) (hlen : columns.length < 2 ^ 64) (a : CatalogArgs) (hpre : preInitCatalog a = .ok ())
    (hint : ∀ i, a.idIndex = some i → i < 2 ^ 31) (hgiven : a.idName.isSome ∨ a.idIndex.isSome) (n : Bytes) :
    idColumn columns a = .ok n ↔ Spec.Column columns a.idName a.idIndex n := by
  obtain ⟨nm, ix, f⟩ := a
  unfold preInitCatalog at hpre
  cases nm with
  | some m =>
    cases ix with
    | some i => simp at hpre
    | none =>
      simp only [idColumn]
      by_cases h : m ∈ columns
      · rw [if_pos h]
        simp only [Outcome.bind_ok, Outcome.ok.injEq]
        constructor
        · rintro rfl; exact .name h
        · intro h; cases h; rfl
      · rw [if_neg h]
        simp only [Outcome.bind_throw]
        constructor
        · intro h; cases h
        · intro h'; cases h' with | name h' => exact absurd h' h
  | none =>
    cases ix with
    | none => simp at hgiven
    | some i =>
      simp only [idColumn, Outcome.bind_ok]
      have h1 : 1 ≤ i := by
        by_contra hc
        have hc : i < 1 := by omega
        simp [hc] at hpre
      rw [columnByIndex_iff columns hlen i h1 (hint i rfl)]
      constructor
      · rintro ⟨k, rfl, h⟩
        exact .index h
      · intro h
        cases h with
        | index h => exact ⟨_, by simp, h⟩

/-- The full claim: the ID column is a column of the catalogue. -/
def C89_full : Prop := ∀ (columns : List Bytes) (a : CatalogArgs) (n : Bytes),
  preInitCatalog a = .ok () → idColumn columns a = .ok n → n ∈ columns

/-- Without options the name is `ID`, whether or not there is such a column. -/
theorem C89_violated : ¬ C89_full := by
  intro h
  have := h [] {} "ID".toList (by decide +kernel) (by decide +kernel)
  cases this

/-- The columns of spectroscopic redshift and its error. -/
theorem C89_specz (columns : List Bytes) (hlen : columns.length < 2 ^ 64) (name ename : Option Bytes) (index eindex : Option Int)
    (hpre : preInitSpecZ name index ename eindex = .ok ()) (hint : ∀ i, index = some i ∨ eindex = some i → i < 2 ^ 31)
    (z : Bytes) (e : Option Bytes) :
    specZColumns columns name index ename eindex = .ok (z, e) ↔
      Spec.Column columns name index z ∧ ((ename = none ∧ eindex = none ∧ e = none) ∨ ∃ e', e = some e' ∧ Spec.Column columns ename eindex e') := by
  have one : ∀ (nm : Option Bytes) (ix : Option Int), ¬ (nm.isSome ∧ ix.isSome) → ¬ (nm.isNone ∧ ix.isNone) → (∀ i, ix = some i → 1 ≤ i ∧ i < 2 ^ 31) →
      ∀ n, specZColumn columns nm ix = .ok n ↔ Spec.Column columns nm ix n := by
    intro nm ix h1 h2 h3 n
    cases nm with
    | some m =>
      cases ix with
      | some i => simp at h1
      | none =>
        simp only [specZColumn]
        by_cases h : m ∈ columns
        · rw [if_pos h]
          simp only [Outcome.ok.injEq]
          constructor
          · rintro rfl; exact .name h
          · intro h; cases h; rfl
        · rw [if_neg h]
          constructor
          · intro h; cases h
          · intro h'; cases h' with | name h' => exact absurd h' h
    | none =>
      cases ix with
      | none => simp at h2
      | some i =>
        simp only [specZColumn]
        rw [columnByIndex_iff columns hlen i (h3 i rfl).1 (h3 i rfl).2]
        constructor
        · rintro ⟨k, rfl, h⟩
          exact .index h
        · intro h
          cases h with
          | index h => exact ⟨_, by simp, h⟩
  unfold preInitSpecZ at hpre
  by_cases h1 : name.isSome ∧ index.isSome
  · rw [if_pos h1] at hpre; cases hpre
  rw [if_neg h1] at hpre
  by_cases h2 : name.isNone ∧ index.isNone
  · rw [if_pos h2] at hpre; cases hpre
  rw [if_neg h2] at hpre
  by_cases h3 : (index.any fun i => i < 1)
  · rw [if_pos h3] at hpre; cases hpre
  rw [if_neg h3] at hpre
  by_cases h4 : ename.isSome ∧ eindex.isSome
  · rw [if_pos h4] at hpre; cases hpre
  rw [if_neg h4] at hpre
  by_cases h5 : (eindex.any fun i => i < 1)
  · rw [if_pos h5] at hpre; cases hpre
  have i1 : ∀ i, index = some i → 1 ≤ i ∧ i < 2 ^ 31 := by
    rintro i rfl
    exact ⟨by simp at h3; omega, hint i (Or.inl rfl)⟩
  have i2 : ∀ i, eindex = some i → 1 ≤ i ∧ i < 2 ^ 31 := by
    rintro i rfl
    exact ⟨by simp at h5; omega, hint i (Or.inr rfl)⟩
  have hz := one name index h1 h2 i1
  unfold specZColumns
  cases hc : specZColumn columns name index with
  | ok z' =>
    have hz' := (hz z').mp hc
    have huniq : ∀ z, Spec.Column columns name index z ↔ z' = z := by
      intro z
      rw [← hz z, hc]
      simp
    simp only [Outcome.bind_ok, huniq]
    by_cases he : ename.isNone ∧ eindex.isNone
    · rw [if_pos he]
      simp only [Option.isNone_iff_eq_none] at he
      obtain ⟨rfl, rfl⟩ := he
      simp only [Outcome.pure_eq, Outcome.ok.injEq, Prod.mk.injEq]
      constructor
      · rintro ⟨rfl, rfl⟩
        exact ⟨rfl, Or.inl (by simp)⟩
      · rintro ⟨rfl, ⟨_, _, rfl⟩ | ⟨e', _, h⟩⟩
        · exact ⟨rfl, rfl⟩
        · cases h
    · rw [if_neg he]
      have hee := one ename eindex h4 he i2
      have hne : ¬ (ename = none ∧ eindex = none ∧ e = none) := by
        rintro ⟨rfl, rfl, _⟩
        exact he ⟨rfl, rfl⟩
      cases hce : specZColumn columns ename eindex with
      | ok e1 =>
        have he1 := (hee e1).mp hce
        simp only [Outcome.bind_ok, Outcome.pure_eq, Outcome.ok.injEq, Prod.mk.injEq]
        constructor
        · rintro ⟨rfl, rfl⟩
          exact ⟨rfl, Or.inr ⟨e1, rfl, he1⟩⟩
        · rintro ⟨rfl, h | ⟨e', rfl, h⟩⟩
          · exact absurd h hne
          · have := (hee e').mpr h
            rw [hce] at this
            cases this
            exact ⟨rfl, rfl⟩
      | throw x =>
        simp only [Outcome.bind_throw, reduceCtorEq, false_iff, not_and, not_or]
        intro _
        refine ⟨fun h1 h2 h3 => hne ⟨h1, h2, h3⟩, ?_⟩
        rintro ⟨e', _, h⟩
        have := (hee e').mpr h
        rw [hce] at this
        cases this
      | ub =>
        simp only [Outcome.bind_ub, reduceCtorEq, false_iff, not_and, not_or]
        intro _
        refine ⟨fun h1 h2 h3 => hne ⟨h1, h2, h3⟩, ?_⟩
        rintro ⟨e', _, h⟩
        have := (hee e').mpr h
        rw [hce] at this
        cases this
  | throw x =>
    simp only [Outcome.bind_throw, reduceCtorEq, false_iff, not_and]
    intro h
    rw [← hz z, hc] at h
    cases h
  | ub =>
    simp only [Outcome.bind_ub, reduceCtorEq, false_iff, not_and]
    intro h
    rw [← hz z, hc] at h
    cases h

example : specZColumns ["a".toList, "z".toList, "dz".toList] (some "z".toList) none none (some 3) = .ok ("z".toList, some "dz".toList) := by
  decide +kernel

/-! ## C90: format detection -/

/-- When a null byte is among the first eighty bytes of the file, it is taken for FITS exactly if it begins with `SIMPLE  =`. -/
theorem C90_detect_partial (content : Bytes) (h : Char.ofNat 0 ∈ content.take 80) :
    ∃ b, autoDetect content = .ok b ∧ (b = true ↔ simpleCard <+: content) := by
  unfold autoDetect
  simp only
  rw [if_pos h]
  refine ⟨_, rfl, ?_⟩
  rw [decide_eq_true_iff]
  have hlen : simpleCard.length = 9 := by decide
  have hfree : Char.ofNat 0 ∉ simpleCard := by decide
  constructor
  · intro e
    have h1 : simpleCard <+: content := by
      rw [← e]
      exact ((List.take_prefix _ _).trans (List.takeWhile_prefix _)).trans (List.take_prefix _ _)
    exact h1
  · rintro ⟨r, rfl⟩
    have e1 : (simpleCard ++ r).take 80 = simpleCard ++ r.take 71 := by
      rw [List.take_append, hlen, List.take_of_length_le (by omega)]
    rw [e1, List.takeWhile_append_of_pos (by
      intro c hc
      have : c ≠ Char.ofNat 0 := fun e => hfree (e ▸ hc)
      simpa using this)]
    rw [List.take_append, hlen, List.take_of_length_le (by omega)]
    simp

/-- The full claim. -/
def C90_full : Prop := ∀ content : Bytes, ∃ b, autoDetect content = .ok b ∧ (b = true ↔ simpleCard <+: content)

/-- The buffer is not terminated: for a file without null bytes at its beginning, such as every text or FITS file, its end is passed. -/
theorem C90_violated : ¬ C90_full := by
  intro h
  obtain ⟨b, hb, _⟩ := h simpleCard
  exact absurd hb (by unfold autoDetect; simp only; rw [if_neg (by decide)]; simp)

end Alexandria.Configuration
