import Mathlib.Tactic.Linarith
import Mathlib.Tactic.Positivity
import Verif.Catalog.CatProps

/-!
# C51: photometry from a row
-/

namespace Alexandria.Catalog

open Alexandria.Str Alexandria.Table

variable {K F : Type} [Field K] [LinearOrder K] [IsStrictOrderedRing K]

/-! ## Specification -/

/-- A number is positive. -/
def Pos : Dbl K → Prop
  | .num x => 0 < x
  | .inf s => s = false
  | .nan => False

/-- A number is negative. -/
def Neg : Dbl K → Prop
  | .num x => x < 0
  | .inf s => s = true
  | .nan => False

/-- The flux stands for missing data. -/
def Missing (lib : Lib K) (s : Settings K) (flux : Dbl K) : Prop := s.missingEnabled = true ∧ (lib.isEqual flux s.missingFlag = true ∨ flux = .nan)

/-- The size of a number. -/
def Size (a b : Dbl K) : Prop :=
  match a, b with
  | .num x, .num y => 0 ≤ y ∧ (y = x ∨ y = -x)
  | .inf _, .inf t => t = false
  | .nan, .nan => True
  | _, _ => False

/-- The decision table for a filter: what is made of a flux and an error, with the threshold of the filter. -/
inductive Judged (lib : Lib K) (s : Settings K) (threshold flux error : Dbl K) : FluxError K → Prop
  | missing : flux.isInf = false → Missing lib s flux → Judged lib s threshold flux error ⟨flux, .num 0, true, false⟩
  | value (x : K) : flux = .num x → ¬ Missing lib s flux → Pos error → Judged lib s threshold flux error ⟨flux, error, false, false⟩
  | limit (x : K) (e : Dbl K) : flux = .num x → 0 < x → ¬ Missing lib s flux → s.upperEnabled = true → Neg error → lib.isEqual error s.upperFlag = false → Size error e →
      Judged lib s threshold flux error ⟨flux, e, false, true⟩
  | flagged (x : K) (e : Dbl K) : flux = .num x → 0 < x → ¬ Missing lib s flux → s.upperEnabled = true → Neg error → lib.isEqual error s.upperFlag = true → Size (flux.div threshold) e →
      Judged lib s threshold flux error ⟨flux, e, false, true⟩

/-- The conventions for the values of a photometry. -/
structure Conventions (v : FluxError K) : Prop where
  missing : v.missing = true → v.error = .num 0 ∧ v.upper = false
  upper : v.upper = true → Pos v.flux ∧ Pos v.error
  value : v.missing = false → v.upper = false → Pos v.error
  finite : v.flux.isInf = false

/-- A flux and an error measured as magnitudes. -/
inductive FromMag (lib : Lib K) (s : Settings K) (mag magErr : Dbl K) : Dbl K × Dbl K → Prop
  | missing : lib.isEqual mag s.missingFlag = true ∨ mag = .nan → FromMag lib s mag magErr (s.missingFlag, .num 0)
  | flagged (flux : Dbl K) : ¬ (lib.isEqual mag s.missingFlag = true ∨ mag = .nan) → flux = Dbl.mul (.num (3631 * 10 ^ 6)) (lib.pow10 (Dbl.mul (.num (-(4 / 10))) mag)) →
      lib.isEqual magErr s.upperFlag = true → FromMag lib s mag magErr (flux, s.upperFlag)
  | value (flux : Dbl K) : ¬ (lib.isEqual mag s.missingFlag = true ∨ mag = .nan) → flux = Dbl.mul (.num (3631 * 10 ^ 6)) (lib.pow10 (Dbl.mul (.num (-(4 / 10))) mag)) →
      lib.isEqual magErr s.upperFlag = false → FromMag lib s mag magErr (flux, Dbl.mul (Dbl.mul (Dbl.mul (.num (4 / 10)) flux) magErr) lib.log10)

/-! ## Decisions -/

theorem lt_zero (a : Dbl K) : a.lt (.num 0) = true ↔ Neg a := by
  cases a <;> simp [Dbl.lt, Neg]

theorem le_zero (a : Dbl K) : a.le (.num 0) = true ↔ Neg a ∨ a = .num 0 := by
  cases a <;> simp [Dbl.le, Dbl.lt, Dbl.eq, Neg]

theorem pos_iff (a : Dbl K) : Pos a ↔ a ≠ .nan ∧ ¬ Neg a ∧ a ≠ .num 0 := by
  cases a with
  | nan => simp [Pos]
  | inf s => simp [Pos, Neg]
  | num x =>
    simp only [Pos, Neg, ne_eq, reduceCtorEq, not_false_eq_true, Dbl.num.injEq, true_and, not_lt]
    constructor
    · intro h; exact ⟨le_of_lt h, fun hc => by rw [hc] at h; exact lt_irrefl _ h⟩
    · rintro ⟨h1, h2⟩; exact lt_of_le_of_ne h1 (Ne.symm h2)

theorem size_abs (a : Dbl K) : Size a a.abs := by
  cases a with
  | nan => trivial
  | inf s => rfl
  | num x =>
    refine ⟨abs_nonneg x, ?_⟩
    rcases abs_choice x with h | h
    · exact Or.inl h
    · exact Or.inr h

theorem size_unique (a b : Dbl K) (h : Size a b) : b = a.abs := by
  cases a with
  | nan => cases b <;> simp_all [Size, Dbl.abs]
  | inf s => cases b <;> simp_all [Size, Dbl.abs]
  | num x =>
    cases b with
    | nan => exact absurd h id
    | inf t => exact absurd h id
    | num y =>
      obtain ⟨h1, h2 | h2⟩ := h
      · rw [Dbl.abs, ← h2, abs_of_nonneg h1]
      · have : x = -y := by rw [h2, neg_neg]
        rw [Dbl.abs, this, abs_neg, abs_of_nonneg h1]

theorem missing_test (lib : Lib K) (s : Settings K) (flux : Dbl K) (hm : s.missingEnabled = true) :
    (lib.isEqual flux s.missingFlag || flux.isNan) = true ↔ Missing lib s flux := by
  unfold Missing
  rw [Bool.or_eq_true]
  cases flux <;> simp [hm, Dbl.isNan]

theorem limits_iff (lib : Lib K) (s : Settings K) (threshold : Dbl K) (x : K) (error : Dbl K) (he : error ≠ .nan) (hm : ¬ Missing lib s (.num x)) :
    (∀ v, limits lib s (some threshold) (.num x) error = .ok v ↔ Judged lib s threshold (.num x) error v) ∧
    ((∀ v, ¬ Judged lib s threshold (.num x) error v) → limits lib s (some threshold) (.num x) error = .throw .elements) := by
  have key : (∃ v, limits lib s (some threshold) (.num x) error = .ok v ∧ Judged lib s threshold (.num x) error v ∧ ∀ w, Judged lib s threshold (.num x) error w → w = v) ∨
      (limits lib s (some threshold) (.num x) error = .throw .elements ∧ ∀ w, ¬ Judged lib s threshold (.num x) error w) := by
    unfold limits
    by_cases hp : Pos error
    · left
      have hp' := (pos_iff error).1 hp
      refine ⟨⟨.num x, error, false, false⟩, ?_, .value x rfl hm hp, ?_⟩
      · have h1 : error.eq (.num 0) = false := by
          rw [Bool.eq_false_iff]
          intro hc
          exact hp'.2.2 ((eq_iff _ _).1 hc).1
        have h2 : error.lt (.num 0) = false := by
          rw [Bool.eq_false_iff]
          intro hc
          exact hp'.2.1 ((lt_zero _).1 hc)
        have h3 : error.le (.num 0) = false := by rw [Dbl.le, h1, h2]; rfl
        rw [h1, h2, h3]
        cases s.upperEnabled <;> rfl
      · intro w hw
        cases hw with
        | missing h1 h2 => exact absurd h2 hm
        | value => rfl
        | limit _ _ _ _ _ _ h => exact absurd h hp'.2.1
        | flagged _ _ _ _ _ _ h => exact absurd h hp'.2.1
    · by_cases hn : Neg error
      · have h1 : error.eq (.num 0) = false := by
          rw [Bool.eq_false_iff]
          intro hc
          rw [((eq_iff _ _).1 hc).1] at hn
          exact lt_irrefl _ hn
        have h2 : error.lt (.num 0) = true := (lt_zero _).2 hn
        have h3 : error.le (.num 0) = true := (le_zero _).2 (Or.inl hn)
        rw [h1, h2, h3]
        cases hu : s.upperEnabled with
        | false =>
          right
          refine ⟨rfl, ?_⟩
          intro w hw
          cases hw with
          | missing h1 h2 => exact absurd h2 hm
          | value _ _ _ h => exact absurd h hp
          | limit _ _ _ _ _ h => rw [hu] at h; cases h
          | flagged _ _ _ _ _ h => rw [hu] at h; cases h
        | true =>
          by_cases hx : 0 < x
          · left
            have h4 : Dbl.le (.num x) (.num 0) = false := by
              rw [Bool.eq_false_iff]
              intro hc
              rcases (le_zero _).1 hc with h | h
              · exact absurd hx (not_lt.2 (le_of_lt h))
              · cases h; exact lt_irrefl _ hx
            rw [h4]
            cases hq : lib.isEqual error s.upperFlag with
            | true =>
              refine ⟨⟨.num x, (Dbl.div (.num x) threshold).abs, false, true⟩, rfl, .flagged x _ rfl hx hm hu hn hq (size_abs _), ?_⟩
              intro w hw
              cases hw with
              | missing h1 h2 => exact absurd h2 hm
              | value _ _ _ h => exact absurd h hp
              | limit _ _ _ _ _ _ _ h => rw [hq] at h; cases h
              | flagged _ _ _ _ _ _ _ _ h => rw [size_unique _ _ h]
            | false =>
              refine ⟨⟨.num x, error.abs, false, true⟩, rfl, .limit x _ rfl hx hm hu hn hq (size_abs _), ?_⟩
              intro w hw
              cases hw with
              | missing h1 h2 => exact absurd h2 hm
              | value _ _ _ h => exact absurd h hp
              | limit _ _ _ _ _ _ _ _ h => rw [size_unique _ _ h]
              | flagged _ _ _ _ _ _ _ h => rw [hq] at h; cases h
          · right
            have h4 : Dbl.le (.num x) (.num 0) = true := (le_zero _).2 (by
              rcases lt_or_eq_of_le (not_lt.1 hx) with h | h
              · exact Or.inl h
              · exact Or.inr (by rw [h]))
            rw [h4]
            refine ⟨by cases lib.isEqual error s.upperFlag <;> rfl, ?_⟩
            intro w hw
            cases hw with
            | missing h1 h2 => exact absurd h2 hm
            | value _ _ _ h => exact absurd h hp
            | limit y _ h h' => cases h; exact hx h'
            | flagged y _ h h' => cases h; exact hx h'
      · have h0 : error = .num 0 := by
          by_contra hc
          exact hp ((pos_iff error).2 ⟨he, hn, hc⟩)
        right
        constructor
        · have h1 : error.eq (.num 0) = true := (eq_iff _ _).2 ⟨h0, he⟩
          have h3 : error.le (.num 0) = true := (le_zero _).2 (Or.inr h0)
          rw [h1, h3]
          cases s.upperEnabled <;> rfl
        · intro w hw
          cases hw with
          | missing h1 h2 => exact absurd h2 hm
          | value _ _ _ h => exact absurd h hp
          | limit _ _ _ _ _ _ h => exact absurd h hn
          | flagged _ _ _ _ _ _ h => exact absurd h hn
  rcases key with ⟨v, h1, h2, h3⟩ | ⟨h1, h2⟩
  · refine ⟨fun w => ⟨fun h => ?_, fun h => ?_⟩, fun h => absurd h2 (h v)⟩
    · rw [h1] at h; cases h; exact h2
    · rw [h3 w h]; exact h1
  · exact ⟨fun w => ⟨fun h => (by rw [h1] at h; cases h), fun h => absurd h (h2 w)⟩, fun _ => h1⟩

/-- The decisions for a filter follow the table, for errors that are not NaN; combinations that are not in the table throw. -/
theorem C51_decision_partial (lib : Lib K) (s : Settings K) (threshold flux error : Dbl K) (he : error ≠ .nan) :
    (∀ v, judge lib s (some threshold) flux error = .ok v ↔ Judged lib s threshold flux error v) ∧
    ((∀ v, ¬ Judged lib s threshold flux error v) → judge lib s (some threshold) flux error = .throw .elements) := by
  unfold judge
  cases flux with
  | inf b =>
    rw [if_pos (by rfl)]
    refine ⟨fun v => ⟨fun h => (by cases h), fun h => ?_⟩, fun _ => rfl⟩
    cases h with
    | missing h => cases h
    | value _ h => cases h
    | limit _ _ h => cases h
    | flagged _ _ h => cases h
  | nan =>
    rw [if_neg (by simp [Dbl.isInf])]
    cases hm : s.missingEnabled with
    | true =>
      have hM : Missing lib s .nan := ⟨hm, Or.inr rfl⟩
      have e : (if true = true then (if (lib.isEqual .nan s.missingFlag || Dbl.isNan (.nan : Dbl K)) = true then Outcome.ok (⟨.nan, .num 0, true, false⟩ : FluxError K) else limits lib s (some threshold) .nan error)
          else if Dbl.isNan (.nan : Dbl K) = true then .throw .elements else limits lib s (some threshold) .nan error) = (.ok ⟨.nan, .num 0, true, false⟩ : Res (FluxError K)) := by
        rw [if_pos rfl, if_pos ((missing_test lib s .nan hm).2 hM)]
      rw [e]
      have hJ : Judged lib s threshold .nan error ⟨.nan, .num 0, true, false⟩ := .missing rfl hM
      refine ⟨fun v => ⟨fun h => (by cases h; exact hJ), fun h => ?_⟩, fun h => absurd hJ (h _)⟩
      cases h with
      | missing => rfl
      | value _ h => cases h
      | limit _ _ h => cases h
      | flagged _ _ h => cases h
    | false =>
      rw [if_neg (by simp), if_pos (by rfl)]
      refine ⟨fun v => ⟨fun h => (by cases h), fun h => ?_⟩, fun _ => rfl⟩
      cases h with
      | missing _ h => rw [h.1] at hm; cases hm
      | value _ h => cases h
      | limit _ _ h => cases h
      | flagged _ _ h => cases h
  | num x =>
    rw [if_neg (by simp [Dbl.isInf])]
    by_cases hM : Missing lib s (.num x)
    · rw [if_pos hM.1, if_pos ((missing_test lib s _ hM.1).2 hM)]
      have hJ : Judged lib s threshold (.num x) error ⟨.num x, .num 0, true, false⟩ := .missing rfl hM
      refine ⟨fun v => ⟨fun h => (by cases h; exact hJ), fun h => ?_⟩, fun h => absurd hJ (h _)⟩
      cases h with
      | missing => rfl
      | value _ _ h => exact absurd hM h
      | limit _ _ _ _ h => exact absurd hM h
      | flagged _ _ _ _ h => exact absurd hM h
    · have hl := limits_iff lib s threshold x error he hM
      cases hm : s.missingEnabled with
      | true =>
        rw [if_pos rfl, if_neg (fun hc => hM ((missing_test lib s _ hm).1 hc))]
        exact hl
      | false =>
        rw [if_neg (by simp), if_neg (by simp [Dbl.isNan])]
        exact hl

/-- Values in the decision table obey the conventions, for thresholds that are finite. -/
theorem C51_conventions_partial (lib : Lib K) (s : Settings K) (t : K) (flux error : Dbl K) (v : FluxError K) (h : Judged lib s (.num t) flux error v) : Conventions v := by
  have hsize : ∀ a b : Dbl K, a ≠ .nan → a ≠ .num 0 → Size a b → Pos b := by
    intro a b h1 h2 h3
    have := size_unique _ _ h3
    subst this
    cases a with
    | nan => exact absurd rfl h1
    | inf b => rfl
    | num y => exact abs_pos.2 fun hc => h2 (by rw [hc])
  cases h with
  | missing h1 h2 => exact ⟨fun _ => ⟨rfl, rfl⟩, fun h => by simp at h, fun h => by simp at h, h1⟩
  | value x h1 h2 h3 => exact ⟨fun h => by simp at h, fun h => by simp at h, fun _ _ => h3, by rw [h1]; rfl⟩
  | limit x e h1 h2 h3 h4 h5 h6 h7 =>
    refine ⟨fun h => by simp at h, fun _ => ⟨by rw [h1]; exact h2, hsize error e ?_ ?_ h7⟩, fun _ h => by simp at h, by rw [h1]; rfl⟩
    · rintro rfl; exact h5
    · rintro rfl; exact lt_irrefl _ h5
  | flagged x e h1 h2 h3 h4 h5 h6 h7 =>
    refine ⟨fun h => by simp at h, fun _ => ⟨by rw [h1]; exact h2, ?_⟩, fun _ h => by simp at h, by rw [h1]; rfl⟩
    rw [h1] at h7
    refine hsize _ e ?_ ?_ h7
    · simp only [Dbl.div]
      by_cases ht : t = 0
      · rw [if_pos ht, if_neg (ne_of_gt h2)]; simp
      · rw [if_neg ht]; simp
    · simp only [Dbl.div]
      by_cases ht : t = 0
      · rw [if_pos ht, if_neg (ne_of_gt h2)]; simp
      · rw [if_neg ht]
        simp only [ne_eq, Dbl.num.injEq]
        exact div_ne_zero (ne_of_gt h2) ht

/-- The decisions for any errors: an error that is NaN is taken as it is, unless the data are missing. -/
theorem C51_decision_exact (lib : Lib K) (s : Settings K) (threshold flux error : Dbl K) (v : FluxError K) :
    judge lib s (some threshold) flux error = .ok v ↔
      Judged lib s threshold flux error v ∨ (error = .nan ∧ (∃ x, flux = .num x) ∧ ¬ Missing lib s flux ∧ v = ⟨flux, .nan, false, false⟩) := by
  by_cases he : error = .nan
  · subst he
    have hl : limits lib s (some threshold) flux .nan = .ok ⟨flux, .nan, false, false⟩ := by
      unfold limits
      simp [Dbl.eq, Dbl.lt, Dbl.le]
    have hJ : Judged lib s threshold flux .nan v ↔ flux.isInf = false ∧ Missing lib s flux ∧ v = ⟨flux, .num 0, true, false⟩ := by
      constructor
      · intro h
        cases h with
        | missing h1 h2 => exact ⟨h1, h2, rfl⟩
        | value _ _ _ h => exact h.elim
        | limit _ _ _ _ _ _ h => exact h.elim
        | flagged _ _ _ _ _ _ h => exact h.elim
      · rintro ⟨h1, h2, rfl⟩; exact .missing h1 h2
    rw [hJ]
    unfold judge
    cases flux with
    | inf b =>
      rw [if_pos (by rfl)]
      simp [Dbl.isInf]
    | nan =>
      rw [if_neg (by simp [Dbl.isInf])]
      cases hm : s.missingEnabled with
      | true => simp [Missing, hm, Dbl.isNan, Dbl.isInf]; exact eq_comm
      | false => simp [Missing, hm, Dbl.isNan]
    | num x =>
      rw [if_neg (by simp [Dbl.isInf]), hl]
      cases hm : s.missingEnabled with
      | true =>
        cases hq : lib.isEqual (.num x) s.missingFlag <;> simp [Missing, hm, hq, Dbl.isNan, Dbl.isInf] <;> exact eq_comm
      | false => simp [Missing, hm, Dbl.isNan]; exact eq_comm
  · rw [(C51_decision_partial lib s threshold flux error he).1 v]
    simp [he]

/-- Exactly when a value obeys the conventions: the data are missing, or the error is a number and, where the threshold is used, so is it. -/
theorem C51_conventions_iff (lib : Lib K) (s : Settings K) (threshold flux error : Dbl K) (v : FluxError K) (h : judge lib s (some threshold) flux error = .ok v) :
    Conventions v ↔ Missing lib s flux ∨ (error ≠ .nan ∧ (s.upperEnabled = true → Neg error → lib.isEqual error s.upperFlag = true → ∃ t, threshold = .num t)) := by
  rcases (C51_decision_exact lib s threshold flux error v).1 h with hJ | ⟨rfl, ⟨x, rfl⟩, hm, rfl⟩
  · clear h
    constructor
    · intro hc
      by_cases hm : Missing lib s flux
      · exact .inl hm
      refine .inr ⟨?_, fun h1 h2 h3 => ?_⟩
      · rintro rfl
        cases hJ with
        | missing _ h2 => exact hm h2
        | value _ _ _ h => exact h
        | limit _ _ _ _ _ _ h => exact h
        | flagged _ _ _ _ _ _ h => exact h
      · cases hJ with
        | missing _ h2 => exact absurd h2 hm
        | value _ _ _ h => exact absurd h2 ((pos_iff error).1 h).2.1
        | limit _ _ _ _ _ _ _ h => rw [h3] at h; cases h
        | flagged x e hx _ _ _ _ _ hs =>
          have hp := (hc.upper rfl).2
          subst hx
          cases threshold with
          | num t => exact ⟨t, rfl⟩
          | nan =>
            have := size_unique _ _ hs
            rw [this] at hp
            exact hp.elim
          | inf b =>
            have := size_unique _ _ hs
            rw [this] at hp
            simp [Dbl.div, Dbl.abs, Pos] at hp
    · rintro (hm | ⟨_, hcond⟩)
      · cases hJ with
        | missing h1 h2 => exact ⟨fun _ => ⟨rfl, rfl⟩, fun h => by simp at h, fun h => by simp at h, h1⟩
        | value _ _ h => exact absurd hm h
        | limit _ _ _ _ h => exact absurd hm h
        | flagged _ _ _ _ h => exact absurd hm h
      · by_cases hf : s.upperEnabled = true ∧ Neg error ∧ lib.isEqual error s.upperFlag = true
        · obtain ⟨t, rfl⟩ := hcond hf.1 hf.2.1 hf.2.2
          exact C51_conventions_partial lib s t flux error v hJ
        · refine C51_conventions_partial lib s 1 flux error v ?_
          cases hJ with
          | missing h1 h2 => exact .missing h1 h2
          | value x h1 h2 h3 => exact .value x h1 h2 h3
          | limit x e h1 h2 h3 h4 h5 h6 h7 => exact .limit x e h1 h2 h3 h4 h5 h6 h7
          | flagged x e h1 h2 h3 h4 h5 h6 h7 => exact absurd ⟨h4, h5, h6⟩ hf
  · constructor
    · intro hc; exact (hc.value rfl rfl).elim
    · rintro (h | ⟨h, _⟩)
      · exact absurd h hm
      · exact absurd rfl h

/-- Magnitudes are converted as specified. -/
theorem C51_magnitude (lib : Lib K) (s : Settings K) (mag magErr : Dbl K) (fe : Dbl K × Dbl K) : convertFromMag lib s mag magErr = fe ↔ FromMag lib s mag magErr fe := by
  have c1 : (3631000000 : K) = 3631 * 10 ^ 6 := by norm_num
  have c2 : (2 / 5 : K) = 4 / 10 := by norm_num
  have hcond : (lib.isEqual mag s.missingFlag || mag.isNan) = true ↔ (lib.isEqual mag s.missingFlag = true ∨ mag = .nan) := by
    rw [Bool.or_eq_true]
    cases mag <;> simp [Dbl.isNan]
  unfold convertFromMag
  rw [c1, c2]
  by_cases hm : lib.isEqual mag s.missingFlag = true ∨ mag = .nan
  · rw [if_pos (hcond.2 hm)]
    constructor
    · rintro rfl; exact .missing hm
    · intro h
      cases h with
      | missing => rfl
      | flagged _ h => exact absurd hm h
      | value _ h => exact absurd hm h
  · rw [if_neg (fun hc => hm (hcond.1 hc))]
    simp only
    cases hq : lib.isEqual magErr s.upperFlag with
    | true =>
      rw [if_pos rfl]
      constructor
      · rintro rfl; exact .flagged _ hm rfl hq
      · intro h
        cases h with
        | missing h => exact absurd h hm
        | flagged _ _ h => rw [h]
        | value _ _ _ h => rw [hq] at h; cases h
    | false =>
      rw [if_neg (by simp)]
      constructor
      · rintro rfl; exact .value _ hm rfl hq
      · intro h
        cases h with
        | missing h => exact absurd h hm
        | flagged _ _ _ h => rw [hq] at h; cases h
        | value _ _ h => rw [h]

/-- The sign of the error of a magnitude is that of the error of the flux. -/
theorem C51_magnitude_sign (lib : Lib K) (s : Settings K) (mag magErr flux error : Dbl K) (p l : K) (hp : lib.pow10 (Dbl.mul (.num (-(4 / 10))) mag) = .num p) (hp0 : 0 < p)
    (hl : lib.log10 = .num l) (hl0 : 0 < l) (h1 : ¬ (lib.isEqual mag s.missingFlag = true ∨ mag = .nan)) (h2 : lib.isEqual magErr s.upperFlag = false)
    (h : convertFromMag lib s mag magErr = (flux, error)) : Pos flux ∧ (Pos error ↔ Pos magErr) ∧ (Neg error ↔ Neg magErr) := by
  replace h := (C51_magnitude lib s mag magErr _).1 h
  cases h with
  | missing h => exact absurd h h1
  | flagged _ _ _ h => rw [h2] at h; cases h
  | value _ _ hf _ =>
    rw [hp] at hf
    subst hf
    have c : (0 : K) < 4 / 10 * (3631 * 10 ^ 6 * p) := by positivity
    refine ⟨by show (0 : K) < _; positivity, ?_, ?_⟩
    · rw [hl]
      cases magErr with
      | nan => simp [Dbl.mul, Pos]
      | inf b =>
        simp only [Dbl.mul, if_neg (ne_of_gt c), if_neg (ne_of_gt hl0), Pos]
        simp [not_lt.2 (le_of_lt c), not_lt.2 (le_of_lt hl0)]
      | num e =>
        simp only [Dbl.mul, Pos]
        rw [mul_pos_iff_of_pos_right hl0, mul_pos_iff_of_pos_left c]
    · rw [hl]
      cases magErr with
      | nan => simp [Dbl.mul, Neg]
      | inf b =>
        simp only [Dbl.mul, if_neg (ne_of_gt c), if_neg (ne_of_gt hl0), Neg]
        simp [not_lt.2 (le_of_lt c), not_lt.2 (le_of_lt hl0)]
      | num e =>
        simp only [Dbl.mul, Neg]
        rw [← neg_pos, ← neg_mul, mul_pos_iff_of_pos_right hl0, ← mul_neg, mul_pos_iff_of_pos_left c, neg_pos]

/-! ## The whole row -/

/-- The flux and the error of a filter as they are judged: converted from magnitudes if wanted. -/
def Observed (lib : Lib K) (s : Settings K) (convert : Bool) (flux error : Dbl K) (fe : Dbl K × Dbl K) : Prop :=
  if convert then FromMag lib s flux error fe else fe = (flux, error)

/-- The value of a filter: the columns of the flux and of the error, the threshold and the kind of the filter. -/
structure Filter (K : Type) where
  columns : Nat × Nat
  threshold : Dbl K
  convert : Bool

/-- The numbers of a filter in a row. -/
def Measured (conv : Conv F (Dbl K)) (lib : Lib K) (s : Settings K) (row : RowT F (Dbl K)) (f : Filter K) (fe : Dbl K × Dbl K) : Prop :=
  ∃ a b x y, row.values[f.columns.1]? = some a ∧ row.values[f.columns.2]? = some b ∧ castScalar conv .f64 a = .ok x ∧ castScalar conv .f64 b = .ok y ∧ Observed lib s f.convert x y fe

theorem observed_iff (lib : Lib K) (s : Settings K) (c : Bool) (x y : Dbl K) (fe : Dbl K × Dbl K) :
    Observed lib s c x y fe ↔ (if c then convertFromMag lib s x y else (x, y)) = fe := by
  unfold Observed
  cases c with
  | true => rw [if_pos rfl, if_pos rfl, C51_magnitude]
  | false => rw [if_neg (by simp), if_neg (by simp)]; exact eq_comm

theorem createLoop_iff (conv : Conv F (Dbl K)) (lib : Lib K) (s : Settings K) (row : RowT F (Dbl K)) :
    ∀ (l : List (Nat × Nat)) (nMap : List (Bytes × Dbl K)) (convert : List (Bytes × Bool)), nMap.length = l.length → convert.length = l.length →
    (∀ (i : Nat) ix n c fe, l[i]? = some ix → nMap[i]? = some n → convert[i]? = some c → Measured conv lib s row ⟨ix, n.2, c.2⟩ fe → fe.2 ≠ .nan) → ∀ vs,
    (createLoop conv lib s row l nMap convert = .ok vs ↔ vs.length = l.length ∧ ∀ (i : Nat) ix n c v, l[i]? = some ix → nMap[i]? = some n → convert[i]? = some c → vs[i]? = some v →
      ∃ fe, Measured conv lib s row ⟨ix, n.2, c.2⟩ fe ∧ Judged lib s n.2 fe.1 fe.2 v) := by
  intro l
  induction l with
  | nil =>
    intro nMap convert _ _ _ vs
    rw [createLoop]
    constructor
    · intro h; cases h; exact ⟨rfl, fun i ix n c v h => by simp at h⟩
    · rintro ⟨h, _⟩
      rw [List.length_eq_zero_iff.1 h]
  | cons ix l ih =>
    intro nMap convert h1 h2 hnan vs
    cases nMap with
    | nil => simp at h1
    | cons n nMap =>
      cases convert with
      | nil => simp at h2
      | cons c convert =>
        have ih' := ih nMap convert (by simpa using h1) (by simpa using h2) fun i ix n c fe e1 e2 e3 => hnan (i + 1) ix n c fe (by simpa using e1) (by simpa using e2) (by simpa using e3)
        obtain ⟨i, j⟩ := ix
        obtain ⟨cn, c⟩ := c
        rw [createLoop]
        simp only [bind_eq_ok', get_iff, List.head?_cons, Option.map_some]
        constructor
        · rintro ⟨a, ha, b, hb, x, hx, y, hy, v, hv, vs', hvs, hr⟩
          cases hr
          obtain ⟨hl, hall⟩ := (ih' vs').1 hvs
          refine ⟨by simp [hl], ?_⟩
          intro k ix n' c' v' k1 k2 k3 k4
          cases k with
          | zero =>
            simp only [List.getElem?_cons_zero, Option.some.injEq] at k1 k2 k3 k4
            subst k1 k2 k3 k4
            have hM : Measured conv lib s row ⟨(i, j), n.2, c⟩ (if c then convertFromMag lib s x y else (x, y)) := ⟨a, b, x, y, ha, hb, hx, hy, (observed_iff lib s c x y _).2 rfl⟩
            exact ⟨_, hM, ((C51_decision_partial lib s n.2 _ _ (hnan 0 (i, j) n (cn, c) _ rfl rfl rfl hM)).1 v).1 hv⟩
          | succ k =>
            simp only [List.getElem?_cons_succ] at k1 k2 k3 k4
            exact hall k ix n' c' v' k1 k2 k3 k4
        · rintro ⟨hl, hall⟩
          cases vs with
          | nil => simp at hl
          | cons v vs =>
            obtain ⟨fe, hM, hJ⟩ := hall 0 (i, j) n (cn, c) v rfl rfl rfl rfl
            have hne := hnan 0 (i, j) n (cn, c) _ rfl rfl rfl hM
            obtain ⟨a, b, x, y, ha, hb, hx, hy, ho⟩ := hM
            rw [observed_iff] at ho
            subst ho
            refine ⟨a, ha, b, hb, x, hx, y, hy, v, ((C51_decision_partial lib s n.2 _ _ hne).1 v).2 hJ, vs, (ih' vs).2 ⟨by simpa using hl, ?_⟩, rfl⟩
            intro k ix n' c' v' k1 k2 k3 k4
            exact hall (k + 1) ix n' c' v' (by simpa using k1) (by simpa using k2) (by simpa using k3) (by simpa using k4)

theorem castScalar_no_ub {D : Type} (conv : Conv F D) (c : Cell F D) : castScalar conv .f64 c ≠ .ub := by
  intro h
  match c with
  | .scalar .bool v | .scalar .i32 v | .scalar .i64 v | .scalar .f32 v | .scalar .f64 v => cases h
  | .vec _ _ | .nd _ _ _ => cases h
  | .str s =>
    rw [castScalar] at h
    split at h
    · cases h
    · split at h <;> cases h

theorem judge_no_ub (lib : Lib K) (s : Settings K) (t flux error : Dbl K) : judge lib s (some t) flux error ≠ .ub := by
  have hl : limits lib s (some t) flux error ≠ .ub := by
    unfold limits
    cases lib.isEqual error s.upperFlag <;> simp only [Bool.false_eq_true, if_false, if_true, Outcome.bind_ok, Outcome.pure_eq] <;>
    repeat' split
    all_goals simp
  unfold judge
  repeat' split
  all_goals first | exact hl | simp

theorem createLoop_no_ub (conv : Conv F (Dbl K)) (lib : Lib K) (s : Settings K) (row : RowT F (Dbl K)) :
    ∀ (l : List (Nat × Nat)) (nMap : List (Bytes × Dbl K)) (convert : List (Bytes × Bool)), nMap.length = l.length → convert.length = l.length →
    createLoop conv lib s row l nMap convert ≠ .ub := by
  intro l
  induction l with
  | nil => intro nMap convert _ _ h; rw [createLoop] at h; cases h
  | cons ix l ih =>
    intro nMap convert h1 h2 h
    cases nMap with
    | nil => simp at h1
    | cons n nMap =>
      cases convert with
      | nil => simp at h2
      | cons c convert =>
        obtain ⟨i, j⟩ := ix
        obtain ⟨cn, c⟩ := c
        rw [createLoop] at h
        have hg : ∀ i, row.get i ≠ .ub := by intro i hc; unfold RowT.get at hc; split at hc <;> cases hc
        have hb : ∀ {α β : Type} (x : Res α) (f : α → Res β), x ≠ .ub → (x >>= f) = .ub → ∃ a, x = .ok a ∧ f a = .ub := by
          intro α β x f hx hxf
          cases x with
          | ok a => exact ⟨a, rfl, hxf⟩
          | throw e => cases hxf
          | ub => exact absurd rfl hx
        obtain ⟨a, _, h⟩ := hb _ _ (hg i) h
        obtain ⟨b, _, h⟩ := hb _ _ (hg j) h
        obtain ⟨x, _, h⟩ := hb _ _ (castScalar_no_ub conv a) h
        obtain ⟨y, _, h⟩ := hb _ _ (castScalar_no_ub conv b) h
        simp only [List.head?_cons, Option.map_some] at h
        obtain ⟨v, _, h⟩ := hb _ _ (judge_no_ub lib s _ _ _) h
        obtain ⟨vs, _, h⟩ := hb _ _ (ih nMap convert (by simpa using h1) (by simpa using h2)) h
        cases h

/-- The columns of the filters. -/
theorem indexLoop_iff (info : Info) : ∀ (mapping : List (Bytes × Bytes × Bytes)) (r : List (Nat × Nat)),
    indexLoop info mapping = .ok r ↔ List.Forall₂ (fun m ix => findColumn info m.2.1 = some ix.1 ∧ findColumn info m.2.2 = some ix.2) mapping r := by
  intro mapping
  induction mapping with
  | nil => intro r; simp [indexLoop, eq_comm]
  | cons m mapping ih =>
    obtain ⟨n, f, e⟩ := m
    intro r
    rw [indexLoop, List.forall₂_cons_left_iff]
    cases hf : findColumn info f with
    | none =>
      simp only [reduceCtorEq, false_iff]
      rintro ⟨b, l, ⟨h, _⟩, _⟩
      first | (rw [hf] at h; cases h) | cases h
    | some i =>
      cases he : findColumn info e with
      | none =>
        simp only [reduceCtorEq, false_iff]
        rintro ⟨b, l, ⟨_, h⟩, _⟩
        first | (rw [he] at h; cases h) | cases h
      | some j =>
        simp only [bind_eq_ok', ih]
        constructor
        · rintro ⟨r', h1, h2⟩
          cases h2
          exact ⟨(i, j), r', ⟨by simp [hf], by simp [he]⟩, h1, rfl⟩
        · rintro ⟨⟨i', j'⟩, r', ⟨h1, h2⟩, h3, rfl⟩
          simp [hf] at h1
          simp [he] at h2
          subst h1 h2
          exact ⟨r', h3, rfl⟩

/-- The photometry of a row, if the thresholds and the kinds are listed in the order of the filters: the value of each filter follows from its own two columns, its own threshold and
its own kind, according to the decision table; it is found under the name of the filter and obeys the conventions. -/
theorem C51_photometry_partial (conv : Conv F (Dbl K)) (lib : Lib K) (info : Info) (mapping : List (Bytes × Bytes × Bytes)) (s : Settings K) (nMap : List (Bytes × Dbl K))
    (convert : List (Bytes × Bool)) (p : FromRow K) (hp : mkFromRow info mapping s nMap convert = .ok p)
    (hnames : (mapping.map Prod.fst).Nodup) (hn : nMap.map Prod.fst = mapping.map Prod.fst) (hc : convert.map Prod.fst = mapping.map Prod.fst)
    (hthr : ∀ n ∈ nMap, ∃ t, n.2 = .num t)
    (row : RowT F (Dbl K)) (herr : ∀ name f e thr c i j fe, (name, f, e) ∈ mapping → (name, thr) ∈ nMap → (name, c) ∈ convert → findColumn info f = some i → findColumn info e = some j →
      Measured conv lib s row ⟨(i, j), thr, c⟩ fe → fe.2 ≠ .nan) :
    (∀ ph, p.create conv lib row = .ok ph → ph.names = mapping.map Prod.fst ∧
      ∀ name f e thr c, (name, f, e) ∈ mapping → (name, thr) ∈ nMap → (name, c) ∈ convert →
        ∃ i j fe v, findColumn info f = some i ∧ findColumn info e = some j ∧ Measured conv lib s row ⟨(i, j), thr, c⟩ fe ∧ Judged lib s thr fe.1 fe.2 v ∧
          ph.find name = .ok (some v) ∧ Conventions v) ∧
    ((∀ name f e thr c, (name, f, e) ∈ mapping → (name, thr) ∈ nMap → (name, c) ∈ convert →
        ∃ i j fe v, findColumn info f = some i ∧ findColumn info e = some j ∧ Measured conv lib s row ⟨(i, j), thr, c⟩ fe ∧ Judged lib s thr fe.1 fe.2 v) →
      ∃ ph, p.create conv lib row = .ok ph) ∧
    p.create conv lib row ≠ .ub := by
  have hnl : nMap.length = mapping.length := by have := congrArg List.length hn; simpa using this
  have hcl : convert.length = mapping.length := by have := congrArg List.length hc; simpa using this
  rw [mkFromRow, bind_eq_ok'] at hp
  obtain ⟨indices, hi, hp⟩ := hp
  rw [if_neg (by omega)] at hp
  cases hp
  have hF := (indexLoop_iff info mapping indices).1 hi
  have hil : indices.length = mapping.length := hF.length_eq.symm
  -- positions in the lists belong to the same name
  have hpos : ∀ {β : Type} (l : List (Bytes × β)), l.map Prod.fst = mapping.map Prod.fst → ∀ (i : Nat) (name : Bytes) (fe : Bytes × Bytes) (b : β), mapping[i]? = some (name, fe) →
      ((name, b) ∈ l ↔ l[i]? = some (name, b)) := by
    intro β l hl i name fe b hm
    constructor
    · intro hmem
      obtain ⟨k, hk⟩ := List.mem_iff_getElem?.1 hmem
      have e1 : (mapping.map Prod.fst)[k]? = some name := by rw [← hl, List.getElem?_map, hk]; rfl
      have e2 : (mapping.map Prod.fst)[i]? = some name := by rw [List.getElem?_map, hm]; rfl
      have hkl := (List.getElem?_eq_some_iff.1 e1)
      have hil := (List.getElem?_eq_some_iff.1 e2)
      have := (List.Nodup.getElem_inj_iff hnames (hi := hkl.1) (hj := hil.1)).1 (hkl.2.trans hil.2.symm)
      rw [← this]; exact hk
    · exact List.mem_of_getElem?
  have hsome : ∀ {β : Type} (l : List (Bytes × β)), l.map Prod.fst = mapping.map Prod.fst → ∀ (i : Nat) (name : Bytes) (fe : Bytes × Bytes), mapping[i]? = some (name, fe) →
      ∃ b, l[i]? = some (name, b) := by
    intro β l hl i name fe hm
    have e1 : (l.map Prod.fst)[i]? = some name := by rw [hl, List.getElem?_map, hm]; rfl
    rw [List.getElem?_map] at e1
    cases hb : l[i]? with
    | none => rw [hb] at e1; cases e1
    | some b =>
      rw [hb] at e1
      simp at e1
      exact ⟨b.2, by rw [← e1]⟩
  have hcol : ∀ (i : Nat) (m : Bytes × Bytes × Bytes), mapping[i]? = some m → ∃ ix, indices[i]? = some ix ∧ findColumn info m.2.1 = some ix.1 ∧ findColumn info m.2.2 = some ix.2 := by
    intro i m hm
    have hlt := (List.getElem?_eq_some_iff.1 hm).1
    have := (List.forall₂_iff_get.1 hF).2 i hlt (by omega)
    refine ⟨indices[i], List.getElem?_eq_getElem (by omega), ?_⟩
    rw [← (List.getElem?_eq_some_iff.1 hm).2]
    exact this
  have hloop := createLoop_iff conv lib s row indices nMap convert (by omega) (by omega) (by
    intro i ix n c fe e1 e2 e3 hM
    have hlt := (List.getElem?_eq_some_iff.1 e1).1
    have hm : mapping[i]? = some mapping[i] := List.getElem?_eq_getElem (by omega)
    generalize mapping[i] = m at hm
    obtain ⟨name, f, e⟩ := m
    obtain ⟨ix', g1, g2, g3⟩ := hcol i _ hm
    obtain ⟨thr, g4⟩ := hsome nMap hn i name _ hm
    obtain ⟨c', g5⟩ := hsome convert hc i name _ hm
    rw [e1] at g1
    rw [e2] at g4
    rw [e3] at g5
    cases g1
    cases g4
    cases g5
    exact herr name f e thr c' ix.1 ix.2 fe (List.mem_of_getElem? hm) (List.mem_of_getElem? e2) (List.mem_of_getElem? e3) g2 g3 hM)
  refine ⟨?_, ?_, ?_⟩
  · intro ph hph
    rw [FromRow.create, bind_eq_ok'] at hph
    obtain ⟨vs, h1, h2⟩ := hph
    obtain ⟨hl, hall⟩ := (hloop vs).1 h1
    have hph := (C53_construct (mapping.map Prod.fst) vs).1 (by simp; omega)
    have h2' : mkPhotometry (some (mapping.map Prod.fst)) vs = .ok ph := h2
    have hnm : ph.names = mapping.map Prod.fst := by
      rw [hph] at h2'
      cases h2'
      rfl
    refine ⟨hnm, ?_⟩
    intro name f e thr c k1 k2 k3
    obtain ⟨i, hmi⟩ := List.mem_iff_getElem?.1 k1
    have hlt := (List.getElem?_eq_some_iff.1 hmi).1
    obtain ⟨ix, g1, g2, g3⟩ := hcol i _ hmi
    have g4 := (hpos nMap hn i name _ thr hmi).1 k2
    have g5 := (hpos convert hc i name _ c hmi).1 k3
    have g6 : vs[i]? = some vs[i] := List.getElem?_eq_getElem (by omega)
    obtain ⟨fe, g7, g8⟩ := hall i ix _ _ _ g1 g4 g5 g6
    have e2 : (mapping.map Prod.fst)[i]? = some name := by rw [List.getElem?_map, hmi]; rfl
    obtain ⟨v, q1, q2⟩ := (C53_find _ vs ph h2' name).1 i e2 (by
      intro j hj hcj
      have hjl := (List.getElem?_eq_some_iff.1 hcj)
      have hil := (List.getElem?_eq_some_iff.1 e2)
      have := (List.Nodup.getElem_inj_iff hnames (hi := hjl.1) (hj := hil.1)).1 (hjl.2.trans hil.2.symm)
      omega)
    rw [g6] at q1
    cases q1
    refine ⟨ix.1, ix.2, fe, vs[i], g2, g3, g7, g8, q2, ?_⟩
    obtain ⟨t, ht⟩ := hthr _ k2
    simp only at ht g8
    rw [ht] at g8
    exact C51_conventions_partial lib s t _ _ _ g8
  · intro h
    have hex : ∀ i : Fin mapping.length, ∃ v, ∀ ix n c, indices[i.1]? = some ix → nMap[i.1]? = some n → convert[i.1]? = some c →
        ∃ fe, Measured conv lib s row ⟨ix, n.2, c.2⟩ fe ∧ Judged lib s n.2 fe.1 fe.2 v := by
      intro i
      have hm : mapping[i.1]? = some mapping[i.1] := List.getElem?_eq_getElem i.2
      generalize mapping[i.1] = m at hm
      obtain ⟨name, f, e⟩ := m
      obtain ⟨ix, g1, g2, g3⟩ := hcol i.1 _ hm
      obtain ⟨thr, g4⟩ := hsome nMap hn i.1 name _ hm
      obtain ⟨c, g5⟩ := hsome convert hc i.1 name _ hm
      obtain ⟨i', j', fe, v, q1, q2, q3, q4⟩ := h name f e thr c (List.mem_of_getElem? hm) (List.mem_of_getElem? g4) (List.mem_of_getElem? g5)
      simp only at g2 g3
      rw [g2] at q1
      rw [g3] at q2
      cases q1
      cases q2
      refine ⟨v, ?_⟩
      intro ix' n' c' k1 k2 k3
      rw [g1] at k1
      rw [g4] at k2
      rw [g5] at k3
      cases k1
      cases k2
      cases k3
      exact ⟨fe, q3, q4⟩
    have hvs : createLoop conv lib s row indices nMap convert = .ok (List.ofFn fun i => (hex i).choose) := by
      refine (hloop _).2 ⟨by rw [List.length_ofFn]; omega, ?_⟩
      intro i ix n c v k1 k2 k3 k4
      rw [List.getElem?_ofFn] at k4
      split at k4
      · rename_i hlt
        cases k4
        exact (hex ⟨i, hlt⟩).choose_spec ix n c k1 k2 k3
      · cases k4
    refine ⟨⟨mapping.map Prod.fst, List.ofFn fun i => (hex i).choose⟩, ?_⟩
    rw [FromRow.create]
    simp only
    rw [hvs, Outcome.bind_ok]
    exact (C53_construct _ _).1 (by simp)
  · rw [FromRow.create]
    simp only
    intro hub
    cases hcl' : createLoop conv lib s row indices nMap convert with
    | ok vs =>
      rw [hcl', Outcome.bind_ok, mkPhotometry] at hub
      split at hub <;> cases hub
    | throw e => rw [hcl'] at hub; cases hub
    | ub => exact createLoop_no_ub conv lib s row indices nMap convert (by omega) (by omega) hcl'

/-! ## Where the conventions fail -/

/-- A library for examples: exact comparison, a stub for the power. -/
def exLib : Lib ℚ := ⟨Dbl.eq, fun _ => .num 1, .num 2⟩

def exConv : Conv Unit (Dbl ℚ) := ⟨fun _ => (), fun n => .num n, fun _ => .nan, fun _ => none, fun _ => none, fun _ => false, fun _ => false⟩

def exInfo : Info := [⟨"fa".toList, .scalar .f64, [], []⟩, ⟨"ea".toList, .scalar .f64, [], []⟩, ⟨"fb".toList, .scalar .f64, [], []⟩, ⟨"eb".toList, .scalar .f64, [], []⟩]

def exMapping : List (Bytes × Bytes × Bytes) := [("a".toList, "fa".toList, "ea".toList), ("b".toList, "fb".toList, "eb".toList)]

def exRow (a b c d : Dbl ℚ) : RowT Unit (Dbl ℚ) := ⟨[.scalar .f64 a, .scalar .f64 b, .scalar .f64 c, .scalar .f64 d], exInfo⟩

def exSettings : Settings ℚ := ⟨true, .num (-99), true, .num (-1)⟩

/-- The photometry of a row with the thresholds and kinds in the given order. -/
def exCreate (nMap : List (Bytes × Dbl ℚ)) (convert : List (Bytes × Bool)) (row : RowT Unit (Dbl ℚ)) : Res (List (FluxError ℚ)) := do
  let p ← mkFromRow exInfo exMapping exSettings nMap convert
  let ph ← p.create exConv exLib row
  return ph.values

/-- The claim that all photometries obey the conventions. -/
def C51_full : Prop := ∀ (lib : Lib ℚ) (conv : Conv Unit (Dbl ℚ)) (info : Info) (mapping : List (Bytes × Bytes × Bytes)) (s : Settings ℚ) (nMap : List (Bytes × Dbl ℚ))
  (convert : List (Bytes × Bool)) (p : FromRow ℚ) (row : RowT Unit (Dbl ℚ)) (ph : Photometry ℚ), mkFromRow info mapping s nMap convert = .ok p → p.create conv lib row = .ok ph →
  ∀ v ∈ ph.values, Conventions v

/-- An error that is NaN is accepted. -/
theorem C51_violated : ¬ C51_full := fun h => by
  have := (h exLib exConv exInfo exMapping ⟨false, .num (-99), false, .num (-1)⟩ [("a".toList, .num 3), ("b".toList, .num 3)] []
    ⟨[(0, 1), (2, 3)], ["a".toList, "b".toList], ⟨false, .num (-99), false, .num (-1)⟩, [("a".toList, .num 3), ("b".toList, .num 3)], [("a".toList, false), ("b".toList, false)]⟩
    (exRow (.num 5) .nan (.num 5) (.num 1)) ⟨["a".toList, "b".toList], [⟨.num 5, .nan, false, false⟩, ⟨.num 5, .num 1, false, false⟩]⟩
    (by rfl) (by rfl) ⟨.num 5, .nan, false, false⟩ (by simp)).value rfl rfl
  exact this

/-- The claim that the value of a filter depends on its own threshold: the order of the thresholds and kinds does not matter. -/
def C51_full_own : Prop := ∀ (nMap nMap' : List (Bytes × Dbl ℚ)) (convert convert' : List (Bytes × Bool)) (row : RowT Unit (Dbl ℚ)), nMap.Perm nMap' → convert.Perm convert' →
  exCreate nMap convert row = exCreate nMap' convert' row

/-- The threshold at the position of the filter is used, whatever its name is. -/
theorem C51_violated_order : ¬ C51_full_own := fun h => by
  have h1 := h [("a".toList, .num 2), ("b".toList, .num 4)] [("b".toList, .num 4), ("a".toList, .num 2)] [("a".toList, false), ("b".toList, false)]
    [("a".toList, false), ("b".toList, false)] (exRow (.num 8) (.num (-1)) (.num 8) (.num (-1))) (List.Perm.swap _ _ _) (List.Perm.refl _)
  revert h1
  decide +kernel

/-- The same holds for the filters that are magnitudes. -/
theorem C51_violated_kind : ¬ C51_full_own := fun h => by
  have h1 := h [("a".toList, .num 2), ("b".toList, .num 4)] [("a".toList, .num 2), ("b".toList, .num 4)] [("a".toList, true), ("b".toList, false)]
    [("b".toList, false), ("a".toList, true)] (exRow (.num 8) (.num 1) (.num 8) (.num 1)) (List.Perm.refl _) (List.Perm.swap _ _ _)
  revert h1
  decide +kernel

/-- With fewer thresholds than filters the behaviour is undefined. -/
theorem C51_violated_short : exCreate [("a".toList, .num 2)] [] (exRow (.num 8) (.num 1) (.num 8) (.num 1)) = .ub := by decide +kernel

example : exCreate [("a".toList, .num 2), ("b".toList, .num 4)] [] (exRow (.num 8) (.num (-1)) (.num (-99)) (.num 7)) =
    .ok [⟨.num 8, .num 4, false, true⟩, ⟨.num (-99), .num 0, true, false⟩] := by decide +kernel

example : exCreate [("a".toList, .num 2), ("b".toList, .num 4)] [("a".toList, true), ("b".toList, false)] (exRow (.num 8) (.num (-1)) (.num 8) (.num (-5))) =
    .ok [⟨.num 3631000000, .num 1815500000, false, true⟩, ⟨.num 8, .num 5, false, true⟩] := by decide +kernel

example : exCreate [("a".toList, .num 2), ("b".toList, .num 4)] [] (exRow (.num 8) (.num 0) (.num (-99)) (.num 7)) = .throw .elements := by decide +kernel

end Alexandria.Catalog
