import Verif.Table.ReaderProps
import Verif.Table.TokenLemmas

/-!
# A line becomes a row (C97)
-/

namespace Alexandria.Table

open Alexandria.Str

variable {F D : Type}

/-! ## Specification -/

/-- The tokens of a data line: the first is a word whatever quotes it contains, the others may be quoted. -/
def lineTokens (line : Bytes) : List Bytes :=
  match readWord line with
  | (_, none) => []
  | (t, some rest) => t :: tokens rest

/-- One token per column, each being converted to the type of the column. -/
def Converts (fmt : Fmt F D) (info : Info) (ts : List Bytes) (vs : List (Cell F D)) : Prop :=
  ts.length = info.length ∧ vs.length = info.length ∧
    ∀ (i : Nat) (t : Bytes) (d : Desc) (v : Cell F D), ts[i]? = some t → info[i]? = some d → vs[i]? = some v → convertToCellType fmt t d.type = .ok v

/-! ## Lemmas -/

/-- The tokens that are read from the result of a first read on. -/
inductive Rest : Bytes × Option Bytes → List Bytes → Prop
  | stop (t : Bytes) : Rest (t, none) []
  | more (t rest : Bytes) (ts : List Bytes) : Rest (readQ rest) ts → Rest (t, some rest) (t :: ts)

theorem length_unquote_aux : ∀ n, ∀ s : Bytes, s.length ≤ n → ∀ r, (unquote s).2 = some r → r.length < s.length := by
  intro n
  induction n with
  | zero =>
    intro s hs r hr
    have : s = [] := List.length_eq_zero_iff.1 (by omega)
    subst this
    rw [unquote.eq_def] at hr
    cases hr
  | succ n ih =>
    intro s hs r hr
    cases s with
    | nil => rw [unquote.eq_def] at hr; cases hr
    | cons c t =>
      rw [unquote.eq_def] at hr
      simp only at hr
      simp only [List.length_cons] at hs ⊢
      split at hr
      · cases t with
        | nil => cases hr
        | cons c' t' =>
          simp only [List.length_cons] at hs ⊢
          have := ih t' (by omega) r hr
          omega
      · split at hr
        · simp only [Option.some.injEq] at hr; subst hr; omega
        · have := ih t (by omega) r hr; omega

theorem length_readWord (s r : Bytes) (h : (readWord s).2 = some r) : r.length < s.length := by
  rw [readWord] at h
  have hl := List.length_dropWhile_le isSpace s
  split at h
  · cases h
  · rename_i c t e
    simp only [Option.some.injEq] at h
    subst h
    have hc : isSpace c = false := by
      have := List.head?_dropWhile_not isSpace s
      rw [e] at this
      simpa using this
    rw [List.dropWhile_cons, hc]
    simp only [Bool.not_false, if_true]
    have := List.length_dropWhile_le (fun c => !isSpace c) t
    rw [e] at hl
    simp only [List.length_cons] at hl
    omega

theorem length_readQ (s r : Bytes) (h : (readQ s).2 = some r) : r.length < s.length := by
  rw [readQ] at h
  have hl := List.length_dropWhile_le isSpace s
  split at h
  · cases h
  · rename_i c t e
    rw [e] at hl
    simp only [List.length_cons] at hl
    split at h
    · have := length_unquote_aux t.length t (Nat.le_refl _) r h
      omega
    · have := length_readWord _ r h
      simp only [List.length_cons] at this
      omega

theorem rest_tokensQ : ∀ (fuel : Nat) (s : Bytes), s.length < fuel → Rest (readQ s) (tokensQ fuel s) := by
  intro fuel
  induction fuel with
  | zero => intro s h; omega
  | succ fuel ih =>
    intro s hs
    rw [tokensQ]
    cases hq : (readQ s).2 with
    | none =>
      have : readQ s = ((readQ s).1, none) := by rw [← hq]
      rw [this]
      exact .stop _
    | some r =>
      have h1 : readQ s = ((readQ s).1, some r) := by rw [← hq]
      have h2 := length_readQ s r hq
      have h3 : Rest ((readQ s).1, some r) ((readQ s).1 :: tokensQ fuel r) := .more _ _ _ (ih r (by omega))
      rw [← h1] at h3
      exact h3

theorem rest_line (line : Bytes) : Rest (readWord line) (lineTokens line) := by
  rw [lineTokens]
  cases hq : readWord line with
  | mk t o =>
    cases o with
    | none => exact .stop _
    | some r => exact .more _ _ _ (rest_tokensQ _ _ (Nat.lt_succ_self _))

theorem convert_out (fmt : Fmt F D) (t : Bytes) (ty : CType) : (∃ c, convertToCellType fmt t ty = .ok c ∧ c.type = ty) ∨ ∃ e, convertToCellType fmt t ty = .throw e := by
  have hnd : ∀ s : Scalar, (∃ c, convertNd fmt s t = .ok c ∧ c.type = .nd s) ∨ ∃ e, convertNd fmt s t = .throw e := by
    intro s
    unfold convertNd
    split
    · split
      · exact Or.inr ⟨_, rfl⟩
      · split
        · split
          · exact Or.inr ⟨_, rfl⟩
          · exact Or.inl ⟨_, rfl, rfl⟩
        · exact Or.inr ⟨_, rfl⟩
    · exact Or.inr ⟨_, rfl⟩
  cases ty with
  | scalar s =>
    rw [convertToCellType]
    split
    · exact Or.inl ⟨_, rfl, rfl⟩
    · exact Or.inr ⟨_, rfl⟩
  | str => exact Or.inl ⟨_, rfl, rfl⟩
  | vec s =>
    rw [convertToCellType]
    split
    · exact Or.inl ⟨_, rfl, rfl⟩
    · exact Or.inr ⟨_, rfl⟩
  | nd s =>
    cases s with
    | bool => exact Or.inr ⟨_, rfl⟩
    | i32 => exact hnd .i32
    | i64 => exact hnd .i64
    | f32 => exact hnd .f32
    | f64 => exact hnd .f64
  | other n => exact Or.inr ⟨_, rfl⟩

/-- The loop converts the tokens that are there, and never more than there are columns. -/
theorem cellsLoop_iff (fmt : Fmt F D) {x : Bytes × Option Bytes} {ts : List Bytes} (h : Rest x ts) : ∀ (ds : List Desc) (vs : List (Cell F D)),
    cellsLoop fmt ds x.1 x.2 = .ok vs ↔ ts.length ≤ ds.length ∧ List.Forall₂ (fun (p : Bytes × Desc) v => convertToCellType fmt p.1 p.2.type = .ok v) (ts.zip ds) vs := by
  induction h with
  | stop t =>
    intro ds vs
    cases ds with
    | nil => rw [cellsLoop]; simp [eq_comm]
    | cons d ds => rw [cellsLoop]; simp [eq_comm]
  | more t rest ts _ ih =>
    intro ds vs
    cases ds with
    | nil => rw [cellsLoop]; simp
    | cons d ds =>
      simp only
      rw [cellsLoop, List.zip_cons_cons]
      rcases convert_out fmt t d.type with ⟨c, hc, _⟩ | ⟨e, he⟩
      · simp only [hc, Outcome.bind_ok, List.length_cons, Nat.add_le_add_iff_right]
        constructor
        · intro hv
          cases hl : cellsLoop fmt ds (readQ rest).1 (readQ rest).2 with
          | ok cs =>
            rw [hl] at hv
            simp only [Outcome.bind_ok, Outcome.pure_eq, Outcome.ok.injEq] at hv
            subst hv
            have := (ih ds cs).1 hl
            exact ⟨this.1, .cons hc this.2⟩
          | throw e => rw [hl] at hv; cases hv
          | ub => rw [hl] at hv; cases hv
        · rintro ⟨hl, hf⟩
          cases hf with
          | @cons _ v _ vs h1 h2 =>
            rw [(ih ds vs).2 ⟨hl, h2⟩]
            simp only [hc, Outcome.ok.injEq] at h1
            rw [h1]
            rfl
      · simp only [he]
        constructor
        · intro hv; cases hv
        · rintro ⟨_, hf⟩
          cases hf with
          | cons h1 h2 => simp only [he] at h1; cases h1

theorem cellsLoop_noub (fmt : Fmt F D) : ∀ (ds : List Desc) (t : Bytes) (o : Option Bytes), cellsLoop fmt ds t o ≠ .ub := by
  intro ds
  induction ds with
  | nil => intro t o; cases o <;> rw [cellsLoop] <;> simp
  | cons d ds ih =>
    intro t o
    cases o with
    | none => rw [cellsLoop]; simp
    | some r =>
      rw [cellsLoop]
      rcases convert_out fmt t d.type with ⟨c, hc, _⟩ | ⟨e, he⟩
      · rw [hc, Outcome.bind_ok]
        cases hl : cellsLoop fmt ds (readQ r).1 (readQ r).2 with
        | ok cs => intro h; cases h
        | throw e => intro h; cases h
        | ub => exact absurd hl (ih _ _)
      · rw [he]; intro h; cases h

theorem converts_iff (fmt : Fmt F D) (info : Info) (ts : List Bytes) : ∀ vs : List (Cell F D), Converts fmt info ts vs ↔
    ts.length = info.length ∧ List.Forall₂ (fun (p : Bytes × Desc) v => convertToCellType fmt p.1 p.2.type = .ok v) (ts.zip info) vs := by
  induction ts generalizing info with
  | nil =>
    intro vs
    cases info with
    | nil => simp [Converts]
    | cons d ds => simp [Converts]
  | cons t ts ih =>
    intro vs
    cases info with
    | nil => simp [Converts]
    | cons d ds =>
      cases vs with
      | nil => simp [Converts]
      | cons v vs =>
        rw [List.zip_cons_cons, List.forall₂_cons]
        have := ih ds vs
        simp only [Converts, List.length_cons, Nat.add_right_cancel_iff] at this ⊢
        constructor
        · rintro ⟨h1, h2, h3⟩
          exact ⟨h1, h3 0 t d v rfl rfl rfl, (this.1 ⟨h1, h2, fun i a b c ha hb hc => h3 (i + 1) a b c (by simpa using ha) (by simpa using hb) (by simpa using hc)⟩).2⟩
        · rintro ⟨h1, h2, h3⟩
          obtain ⟨_, g2, g3⟩ := this.2 ⟨h1, h3⟩
          refine ⟨h1, g2, fun i a b c ha hb hc => ?_⟩
          cases i with
          | zero =>
            simp only [List.getElem?_cons_zero, Option.some.injEq] at ha hb hc
            subst ha; subst hb; subst hc
            exact h2
          | succ i => exact g3 i a b c (by simpa using ha) (by simpa using hb) (by simpa using hc)

theorem forall₂_types (fmt : Fmt F D) : ∀ (ts : List Bytes) (info : List Desc) (vs : List (Cell F D)), ts.length = info.length →
    List.Forall₂ (fun (p : Bytes × Desc) v => convertToCellType fmt p.1 p.2.type = .ok v) (ts.zip info) vs →
    List.Forall₂ (fun (v : Cell F D) d => v.type = d.type) vs info := by
  intro ts
  induction ts with
  | nil =>
    intro info vs hl h
    cases info with
    | nil => cases h; exact .nil
    | cons _ _ => simp at hl
  | cons t ts ih =>
    intro info vs hl h
    cases info with
    | nil => simp at hl
    | cons d ds =>
      rw [List.zip_cons_cons] at h
      cases h with
      | cons h1 h2 =>
        refine .cons ?_ (ih ds _ (by simpa using hl) h2)
        rcases convert_out fmt t d.type with ⟨c, hc, he⟩ | ⟨e, he⟩
        · simp only [hc, Outcome.ok.injEq] at h1
          rw [← h1]; exact he
        · simp only [he] at h1; cases h1

/-! ## Property -/

/-- A data line becomes a row exactly if it has one token per column, each can be converted to the type of its column, and no string is empty or broken. -/
theorem C97_row (fmt : Fmt F D) (info : Info) (line : Bytes) (vs : List (Cell F D)) :
    parseRow fmt info line = .ok ⟨vs, info⟩ ↔ Converts fmt info (lineTokens line) vs ∧ ∀ s, Cell.str s ∈ vs → s ≠ [] ∧ OneLine s := by
  have hc := cellsLoop_iff fmt (rest_line line) info
  rw [converts_iff, parseRow]
  constructor
  · intro h
    cases hl : cellsLoop fmt info (readWord line).1 (readWord line).2 with
    | throw e => rw [hl] at h; cases h
    | ub => rw [hl] at h; cases h
    | ok ws =>
      rw [hl, Outcome.bind_ok] at h
      have hw : ws = vs := by
        by_cases hg : GoodCells info ws
        · rw [(mkRow_iff ws info).2 hg] at h; simpa using h
        · rw [(C45_row ws info).2.1 hg] at h; cases h
      subst hw
      have hg := (mkRow_iff ws info).1 h
      obtain ⟨h1, h2⟩ := (hc ws).1 hl
      have h3 := h2.length_eq
      rw [List.length_zip, hg.1.length_eq, Nat.min_eq_left h1] at h3
      exact ⟨⟨h3, h2⟩, hg.2⟩
  · rintro ⟨⟨h1, h2⟩, h3⟩
    rw [(hc vs).2 ⟨by omega, h2⟩, Outcome.bind_ok]
    exact (mkRow_iff vs info).2 ⟨forall₂_types fmt _ _ _ h1 h2, h3⟩

/-- Every other line makes the reader throw: too short, too long, or with a token that is no value of its column. -/
theorem C97_throws (fmt : Fmt F D) (info : Info) (line : Bytes)
    (h : ∀ vs : List (Cell F D), Converts fmt info (lineTokens line) vs → ∃ s, Cell.str s ∈ vs ∧ ¬ (s ≠ [] ∧ OneLine s)) :
    ∃ e, parseRow fmt info line = .throw e := by
  have hno : ∀ vs : List (Cell F D), parseRow fmt info line ≠ .ok ⟨vs, info⟩ := fun vs hv => by
    obtain ⟨h1, h2⟩ := (C97_row fmt info line vs).1 hv
    obtain ⟨s, hs, hn⟩ := h vs h1
    exact hn (h2 s hs)
  have hp : parseRow fmt info line = (do let values ← cellsLoop fmt info (readWord line).1 (readWord line).2; mkRow values (some info)) := rfl
  cases hl : cellsLoop fmt info (readWord line).1 (readWord line).2 with
  | throw e => exact ⟨e, by rw [hp, hl]; rfl⟩
  | ub => exact absurd hl (cellsLoop_noub _ _ _ _)
  | ok ws =>
    rw [hl, Outcome.bind_ok] at hp
    by_cases hg : GoodCells info ws
    · rw [(mkRow_iff ws info).2 hg] at hp; exact absurd hp (hno ws)
    · exact ⟨_, by rw [hp]; exact (C45_row ws info).2.1 hg⟩

example (fmt : Fmt F D) : parseRow fmt [⟨['a'], .scalar .bool, [], []⟩, ⟨['b'], .str, [], []⟩] ("1 \"x y\"".toList) =
    .ok ⟨[.scalar .bool true, .str ['x', ' ', 'y']], [⟨['a'], .scalar .bool, [], []⟩, ⟨['b'], .str, [], []⟩]⟩ := by
  have ht : lineTokens ("1 \"x y\"".toList) = [['1'], ['x', ' ', 'y']] := by decide +kernel
  rw [C97_row, ht, converts_iff]
  refine ⟨⟨rfl, .cons rfl (.cons rfl .nil)⟩, fun s hs => ?_⟩
  simp only [List.mem_cons, Cell.str.injEq, List.not_mem_nil, or_false, reduceCtorEq, false_or] at hs
  rw [hs]
  exact ⟨by decide, by simp [OneLine]⟩
example : lineTokens "7 \"x y\"".toList = ["7".toList, "x y".toList] := by decide +kernel
/-- The hypothesis of `C97_throws` is met by a line that is too long, although its first tokens are a row. -/
example (fmt : Fmt F D) : ∃ e, parseRow fmt [⟨['a'], .scalar .i32, [], []⟩] "7 8".toList = .throw e :=
  C97_throws fmt _ _ fun _ h => absurd h.1 (show ¬ (_ : Nat) = _ by decide +kernel)
example (fmt : Fmt F D) : ∃ e, parseRow fmt [⟨['a'], .scalar .i32, [], []⟩, ⟨['b'], .str, [], []⟩] "7".toList = .throw e :=
  C97_throws fmt _ _ fun _ h => absurd h.1 (show ¬ (_ : Nat) = _ by decide +kernel)

end Alexandria.Table
