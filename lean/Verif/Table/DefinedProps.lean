import Verif.Table.ColumnsProps
import Verif.Table.RowProps

/-!
# Which texts make a reader undefined (C159)
-/

namespace Alexandria.Table

open Alexandria.Str

variable {F D : Type}

/-! ## Specification -/

namespace Spec

/-- The words that are keywords of a type. -/
def Keyword (w : Bytes) : Prop := ∃ type, keywordToType w = .ok type

/-- A description whose unit is an opening parenthesis alone, after the name or after the name and a type. -/
def LoneParenthesis : List Bytes → Prop
  | _ :: unit :: rest => unit = ['('] ∨ (Keyword unit ∧ rest.head? = some ['('])
  | _ => False

/-- The comments of a header in which such a description of a new name comes before anything that makes the reader throw. -/
def UndefinedHeader (comments : List Bytes) : Prop :=
  ∃ before c after found, comments = before ++ c :: after ∧ described before [] = .ok found ∧ "Column:".toList <+: c ∧
    LoneParenthesis (tokens (trim (c.drop 7))) ∧ ∀ name, (tokens (trim (c.drop 7))).head? = some name → name ∉ found.map Desc.name

/-- An answer that is no answer. -/
def Undefined : Answer F D → Prop
  | .done u => u = .ub
  | .info i => i = .ub
  | .table t => t = .ub
  | _ => False

end Spec

/-! ## Lemmas -/

theorem keyword_or (w : Bytes) : (∃ t, keywordToType w = .ok t) ∨ keywordToType w = .throw .elements := by
  have step : ∀ (c : Prop) [Decidable c] (t : CType) (x : Res CType), ((∃ t, x = .ok t) ∨ x = .throw .elements) →
      (∃ t', (if c then .ok t else x) = .ok t') ∨ (if c then .ok t else x) = .throw .elements := by
    intro c _ t x hx
    by_cases h : c
    · exact Or.inl ⟨t, if_pos h⟩
    · rw [if_neg h]; exact hx
  rw [keywordToType]
  repeat' apply step
  exact Or.inr rfl

theorem keyword_plain (w : Bytes) (t : CType) (h : keywordToType w = .ok t) : ¬ ['('] <+: w ∧ w ≠ ['-'] := by
  constructor
  · rintro ⟨u, rfl⟩
    have : keywordToType ('(' :: u) = .throw .elements := by simp [keywordToType]
    rw [List.singleton_append, this] at h
    cases h
  · rintro rfl
    have : keywordToType ['-'] = .throw .elements := by decide
    rw [this] at h
    cases h

theorem mkDesc_noub (n : Bytes) (t : CType) (u d : Bytes) : mkDesc n t u d ≠ .ub := by
  by_cases h : GoodDesc ⟨n, t, u, d⟩
  · rw [(mkDesc_cases n t u d).1 h]; simp
  · rw [(mkDesc_cases n t u d).2 h]; simp

theorem unquote_length : ∀ (s : Bytes) (r : Bytes), (unquote s).2 = some r → r.length < s.length + 1
  | [], r, h => by rw [unquote] at h; cases h
  | [c], r, h => by
    rw [unquote] at h
    by_cases h1 : c = '\\'
    · rw [if_pos h1] at h; cases h
    rw [if_neg h1] at h
    by_cases h2 : c = '"'
    · rw [if_pos h2] at h; cases h; simp
    · rw [if_neg h2, unquote] at h; cases h
  | c :: c' :: t, r, h => by
    rw [unquote] at h
    by_cases h1 : c = '\\'
    · rw [if_pos h1] at h
      have := unquote_length t r h
      simp only [List.length_cons]
      omega
    rw [if_neg h1] at h
    by_cases h2 : c = '"'
    · rw [if_pos h2] at h; cases h; simp
    · rw [if_neg h2] at h
      have := unquote_length (c' :: t) r h
      simp only [List.length_cons] at this ⊢
      omega

theorem readQ_length (s r : Bytes) (h : (readQ s).2 = some r) : r.length < s.length := by
  rw [readQ] at h
  have hl := (List.dropWhile_sublist isSpace (l := s)).length_le
  cases hd : s.dropWhile isSpace with
  | nil => rw [hd] at h; cases h
  | cons c t =>
    rw [hd] at h hl
    simp only [List.length_cons] at h hl
    by_cases h1 : c = '"'
    · rw [if_pos h1] at h
      have := unquote_length t r h
      omega
    · rw [if_neg h1, readWord] at h
      have hc : isSpace c = false := by
        have := List.head?_dropWhile_not isSpace s
        rw [hd] at this
        simpa using this
      rw [List.dropWhile_cons_of_neg (by simp [hc])] at h
      simp only [Option.some.injEq] at h
      rw [← h, List.dropWhile_cons_of_pos (by simp [hc])]
      have := (List.dropWhile_sublist (fun c => !isSpace c) (l := t)).length_le
      omega

theorem tokensQ_step (f : Nat) (s : Bytes) (h : s.length < f) :
    (readQ s).2 = none ∧ tokensQ f s = [] ∨ ∃ r, (readQ s).2 = some r ∧ r.length < f - 1 ∧ tokensQ f s = (readQ s).1 :: tokensQ (f - 1) r := by
  cases f with
  | zero => omega
  | succ f =>
    rw [tokensQ]
    cases hr : (readQ s).2 with
    | none => exact Or.inl ⟨rfl, rfl⟩
    | some r =>
      have := readQ_length s r hr
      exact Or.inr ⟨r, rfl, by omega, rfl⟩

/-- The part of `parseDescription` after the type (`AsciiReaderHelper.cpp` 140-160), a name for a piece of the model. -/
def afterType (name : Bytes) (fuel : Nat) (x : CType × Bytes × Option Bytes) : Res Desc := do
  let (unit, token, st) ← if x.2.2.isSome ∧ ['('] <+: x.2.1 then
      if x.2.1.drop 1 = [] then .ub else pure ((x.2.1.drop 1).dropLast, next x.2.2)
    else pure ([], x.2.1, x.2.2)
  let (token, st) := if st.isSome ∧ token = ['-'] then next st else (token, st)
  mkDesc name x.1 unit (trim (descriptionLoop fuel token st))

theorem afterType_ub (name : Bytes) (fuel : Nat) (x : CType × Bytes × Option Bytes) : afterType name fuel x = .ub ↔ x.2.2.isSome ∧ x.2.1 = ['('] := by
  obtain ⟨type, token, st⟩ := x
  simp only [afterType]
  by_cases h : st.isSome ∧ ['('] <+: token
  · rw [if_pos h]
    obtain ⟨h1, u, rfl⟩ := h
    by_cases hu : u = []
    · subst hu
      simp [h1]
    · have h7 : (['('] ++ u).drop 1 ≠ [] := by simpa using hu
      rw [if_neg h7]
      refine ⟨fun h => absurd h (mkDesc_noub _ _ _ _), fun h => ?_⟩
      have := h.2
      simp at this
      exact absurd this hu
  · rw [if_neg h]
    refine ⟨fun h => absurd h (mkDesc_noub _ _ _ _), fun h' => absurd ⟨h'.1, ?_⟩ h⟩
    rw [h'.2]

theorem parseDescription_eq (names : List Bytes) (line : Bytes) : parseDescription names line =
    if (readQ line).1 ∈ names then .throw .elements
    else (if (next (readQ line).2).2.isSome ∧ ¬ ['('] <+: (next (readQ line).2).1 ∧ (next (readQ line).2).1 ≠ ['-'] then
        (keywordToType (next (readQ line).2).1 >>= fun type => .ok (type, next (next (readQ line).2).2))
      else .ok (CType.str, next (readQ line).2)) >>= afterType (readQ line).1 (line.length + 1) := by
  rw [parseDescription]
  by_cases h1 : (readQ line).1 ∈ names
  · simp only [if_pos h1]
  · simp only [if_neg h1]
    by_cases h2 : (next (readQ line).2).2.isSome ∧ ¬ ['('] <+: (next (readQ line).2).1 ∧ (next (readQ line).2).1 ≠ ['-']
    · simp only [if_pos h2]
      cases keywordToType (next (readQ line).2).1 with
      | ok t => rfl
      | throw e => rfl
      | ub => rfl
    · simp only [if_neg h2]
      rfl

/-- Exactly when the description of a column is undefined. -/
theorem parseDescription_ub (names : List Bytes) (line : Bytes) :
    parseDescription names line = .ub ↔ Spec.LoneParenthesis (tokens line) ∧ ∀ name, (tokens line).head? = some name → name ∉ names := by
  rw [parseDescription_eq]
  have h1 := tokensQ_step (line.length + 1) line (by omega)
  have htok : tokens line = tokensQ (line.length + 1) line := rfl
  rw [htok]
  generalize line.length + 1 = f at h1 ⊢
  generalize readQ line = q at h1 ⊢
  obtain ⟨name, st⟩ := q
  simp only at h1 ⊢
  by_cases hn : name ∈ names
  · rw [if_pos hn]
    refine ⟨fun h => (by cases h), fun h => ?_⟩
    rcases h1 with ⟨_, h2⟩ | ⟨r, _, _, h2⟩
    · rw [h2] at h; exact h.1.elim
    · rw [h2] at h; exact absurd hn (h.2 name rfl)
  rw [if_neg hn]
  rcases h1 with ⟨rfl, h2⟩ | ⟨r, rfl, h3, h2⟩
  · rw [h2]
    rw [if_neg (by simp [next]), Outcome.bind_ok, afterType_ub]
    exact ⟨fun h => by simp [next] at h, fun h => h.1.elim⟩
  rw [h2]
  have hfresh : ∀ n, (name :: tokensQ (f - 1) r).head? = some n → n ∉ names := fun n hn' => by cases hn'; exact hn
  rw [and_iff_left hfresh]
  have h4 := tokensQ_step (f - 1) r h3
  have hnx : next (some r) = readQ r := rfl
  rw [hnx]
  generalize readQ r = q2 at h4 ⊢
  obtain ⟨token, st2⟩ := q2
  simp only at h4 ⊢
  rcases h4 with ⟨rfl, h5⟩ | ⟨r2, rfl, h6, h5⟩
  · rw [h5]
    rw [if_neg (by simp), Outcome.bind_ok, afterType_ub]
    exact ⟨fun h => by simp at h, fun h => h.elim⟩
  rw [h5]
  simp only [Spec.LoneParenthesis, Option.isSome_some, true_and]
  by_cases hp : ['('] <+: token
  · -- the unit follows the name
    rw [if_neg (fun h => h.1 hp), Outcome.bind_ok, afterType_ub]
    have hk : ¬ Spec.Keyword token := fun ⟨t, ht⟩ => (keyword_plain token t ht).1 hp
    simp [hk]
  · have h0 : token ≠ ['('] := fun h => hp (by rw [h])
    by_cases hm : token = ['-']
    · subst hm
      rw [if_neg (fun h => h.2 rfl), Outcome.bind_ok, afterType_ub]
      have hk : ¬ Spec.Keyword ['-'] := fun ⟨t, ht⟩ => (keyword_plain _ t ht).2 rfl
      simp [hk]
    · rw [if_pos ⟨hp, hm⟩]
      rcases keyword_or token with ⟨t, ht⟩ | ht
      · have hk : Spec.Keyword token := ⟨t, ht⟩
        rw [ht]
        simp only [Outcome.bind_ok, hk, h0, false_or, true_and]
        rw [afterType_ub]
        have h8 := tokensQ_step (f - 1 - 1) r2 h6
        have hnx2 : next (some r2) = readQ r2 := rfl
        rw [hnx2]
        generalize readQ r2 = q3 at h8 ⊢
        obtain ⟨token3, st3⟩ := q3
        simp only at h8 ⊢
        rcases h8 with ⟨rfl, h9⟩ | ⟨r3, rfl, _, h9⟩
        · rw [h9]
          simp
        · rw [h9]
          simp
      · rw [ht]
        constructor
        · intro h; cases h
        · rintro (h | ⟨⟨t, h⟩, _⟩)
          · exact absurd h h0
          · rw [ht] at h; cases h

theorem tokens_ne {line : Bytes} (h : Spec.LoneParenthesis (tokens line)) : line ≠ [] := by
  rintro rfl
  exact h.elim

/-- Exactly when the descriptions of a header are undefined. -/
theorem described_ub : ∀ (comments : List Bytes) (found0 : List Desc), Spec.described comments found0 = .ub ↔
    ∃ before c after found, comments = before ++ c :: after ∧ Spec.described before found0 = .ok found ∧ "Column:".toList <+: c ∧
      Spec.LoneParenthesis (tokens (trim (c.drop 7))) ∧ ∀ name, (tokens (trim (c.drop 7))).head? = some name → name ∉ found.map Desc.name := by
  intro comments
  induction comments with
  | nil =>
    intro found0
    refine ⟨fun h => (by cases h), ?_⟩
    rintro ⟨before, c, after, found, h, _⟩
    simp at h
  | cons c rest ih =>
    intro found0
    -- what the rest says
    have hskip : ¬ ("Column:".toList <+: c ∧ trim (c.drop 7) ≠ []) → (Spec.described (c :: rest) found0 = .ub ↔
        ∃ before c' after found, c :: rest = before ++ c' :: after ∧ Spec.described before found0 = .ok found ∧ "Column:".toList <+: c' ∧
          Spec.LoneParenthesis (tokens (trim (c'.drop 7))) ∧ ∀ name, (tokens (trim (c'.drop 7))).head? = some name → name ∉ found.map Desc.name) := by
      intro hc
      rw [Spec.described, if_neg hc, ih found0]
      constructor
      · rintro ⟨before, c', after, found, h1, h2, h3⟩
        exact ⟨c :: before, c', after, found, by rw [h1]; rfl, by rw [Spec.described, if_neg hc]; exact h2, h3⟩
      · rintro ⟨before, c', after, found, h1, h2, h3, h4, h5⟩
        cases before with
        | nil =>
          simp only [List.nil_append, List.cons.injEq] at h1
          rw [h1.1] at hc
          exact absurd ⟨h3, tokens_ne h4⟩ hc
        | cons b before =>
          simp only [List.cons_append, List.cons.injEq] at h1
          obtain ⟨rfl, h1⟩ := h1
          rw [Spec.described, if_neg hc] at h2
          exact ⟨before, c', after, found, h1, h2, h3, h4, h5⟩
    by_cases hc : "Column:".toList <+: c ∧ trim (c.drop 7) ≠ []
    swap
    · exact hskip hc
    rw [Spec.described, if_pos hc]
    have hub := parseDescription_ub (found0.map Desc.name) (trim (c.drop 7))
    cases hp : parseDescription (found0.map Desc.name) (trim (c.drop 7)) with
    | ub =>
      rw [hp] at hub
      have h := hub.1 rfl
      exact ⟨fun _ => ⟨[], c, rest, found0, rfl, rfl, hc.1, h.1, h.2⟩, fun _ => rfl⟩
    | throw e =>
      refine ⟨fun h => (by cases h), ?_⟩
      rintro ⟨before, c', after, found, h1, h2, h3, h4, h5⟩
      cases before with
      | nil =>
        simp only [List.nil_append, List.cons.injEq] at h1
        obtain ⟨rfl, rfl⟩ := h1
        rw [Spec.described] at h2
        cases h2
        rw [hp] at hub
        exact absurd (hub.2 ⟨h4, h5⟩) (by simp)
      | cons b before =>
        simp only [List.cons_append, List.cons.injEq] at h1
        obtain ⟨rfl, h1⟩ := h1
        rw [Spec.described, if_pos hc, hp] at h2
        cases h2
    | ok d =>
      rw [Outcome.bind_ok, ih (found0 ++ [d])]
      constructor
      · rintro ⟨before, c', after, found, h1, h2, h3⟩
        exact ⟨c :: before, c', after, found, by rw [h1]; rfl, by rw [Spec.described, if_pos hc, hp, Outcome.bind_ok]; exact h2, h3⟩
      · rintro ⟨before, c', after, found, h1, h2, h3, h4, h5⟩
        cases before with
        | nil =>
          simp only [List.nil_append, List.cons.injEq] at h1
          obtain ⟨rfl, rfl⟩ := h1
          rw [Spec.described] at h2
          cases h2
          rw [hp] at hub
          exact absurd (hub.2 ⟨h4, h5⟩) (by simp)
        | cons b before =>
          simp only [List.cons_append, List.cons.injEq] at h1
          obtain ⟨rfl, h1⟩ := h1
          rw [Spec.described, if_pos hc, hp, Outcome.bind_ok] at h2
          exact ⟨before, c', after, found, h1, h2, h3, h4, h5⟩

theorem loop_noub {σ : Type} (go : σ → Bool) (body : σ → Bytes → Res σ) (h : ∀ a l, body a l ≠ .ub) : ∀ (lines : List Bytes) (a : σ), (loop go body lines a).2 ≠ .ub := by
  intro lines
  induction lines with
  | nil => intro a; rw [loop]; simp
  | cons l lines ih =>
    intro a
    rw [loop]
    by_cases hg : go a = true
    · rw [if_pos hg]
      cases hb : body a l with
      | ok a' => exact ih a'
      | throw e => simp
      | ub => exact absurd hb (h a l)
    · rw [if_neg hg]; simp

theorem mkRow_noub (values : List (Cell F D)) (info : Option Info) : mkRow values info ≠ .ub := by
  cases info with
  | none => simp [mkRow]
  | some info =>
    simp only [mkRow]
    by_cases h : values.length ≠ info.length
    · rw [if_pos h]; simp
    rw [if_neg h]
    have h1 : ∀ (vs : List (Cell F D)) (ds : List Desc), typesLoop vs ds ≠ .ub := by
      intro vs
      induction vs with
      | nil => intro ds; rw [typesLoop]; simp
      | cons v vs ih =>
        intro ds
        cases ds with
        | nil => rw [typesLoop]; simp
        | cons d ds =>
          rw [typesLoop]
          by_cases hv : v.type ≠ d.type
          · rw [if_pos hv]; simp
          · rw [if_neg hv]; exact ih ds
    have h2 : ∀ (vs : List (Cell F D)), stringsLoop vs ≠ .ub := by
      intro vs
      induction vs with
      | nil => rw [stringsLoop]; simp
      | cons v vs ih =>
        cases v with
        | str s =>
          rw [stringsLoop]
          by_cases hs : s = []
          · rw [if_pos hs]; simp
          rw [if_neg hs]
          by_cases hv : hasVertical s = true
          · rw [if_pos hv]; simp
          · rw [if_neg hv]; exact ih
        | _ => rw [stringsLoop]; exact ih; simp
    cases ht : typesLoop values info with
    | ub => exact absurd ht (h1 _ _)
    | throw e => intro h; cases h
    | ok _ =>
      cases hs : stringsLoop values with
      | ub => exact absurd hs (h2 _)
      | throw e => intro h; cases h
      | ok _ => intro h; cases h

theorem parseRow_noub (fmt : Fmt F D) (info : Info) (line : Bytes) : parseRow fmt info line ≠ .ub := by
  rw [parseRow]
  cases hc : cellsLoop fmt info (readWord line).1 (readWord line).2 with
  | ub => exact absurd hc (cellsLoop_noub _ _ _ _)
  | throw e => intro h; cases h
  | ok values => exact mkRow_noub values (some info)

theorem readBody_noub (fmt : Fmt F D) (comment : Bytes) (info : Info) (a : Int × List (RowT F D)) (line : Bytes) : readBody fmt comment info a line ≠ .ub := by
  rw [readBody]
  by_cases h : dataLine comment line = []
  · rw [if_pos h]; simp
  rw [if_neg h]
  cases hp : parseRow fmt info (dataLine comment line) with
  | ub => exact absurd hp (parseRow_noub _ _ _)
  | throw e => intro h; cases h
  | ok row => intro h; cases h

theorem mkTable_noub (rows : List (RowT F D)) : mkTable rows ≠ .ub := by
  cases rows with
  | nil => rw [mkTable]; simp
  | cons r rs =>
    rw [mkTable]
    have h1 : ∀ l : List (RowT F D), columnsLoop r.info l ≠ .ub := by
      intro l
      induction l with
      | nil => rw [columnsLoop]; simp
      | cons x l ih =>
        rw [columnsLoop]
        by_cases h : sameInfo x.info r.info = true
        · rw [if_pos h]; exact ih
        · rw [if_neg h]; simp
    cases hc : columnsLoop r.info (r :: rs) with
    | ub => exact absurd hc (h1 _)
    | throw e => intro h; cases h
    | ok _ => intro h; cases h

theorem ite_ne_ub {α : Type} (c : Prop) {_ : Decidable c} (x y : Res α) (hx : x ≠ .ub) (hy : y ≠ .ub) : (if c then x else y) ≠ .ub := by
  by_cases h : c
  · rw [if_pos h]; exact hx
  · rw [if_neg h]; exact hy

/-! ## C159 -/

/-- The columns of a text are undefined exactly if the header is. -/
theorem columns_ub (names : List Bytes) (types : List CType) (comments lines : List Bytes) : Spec.columns names types comments lines = .ub ↔
    ∃ line rest, lines = line :: rest ∧ (tokens line).length ≠ 0 ∧ (names = [] ∨ names.length = (tokens line).length) ∧ (types = [] ∨ types.length = (tokens line).length) ∧
      (columnNames comments (tokens line).length).Nodup ∧ Spec.UndefinedHeader comments := by
  have hdu := described_ub comments []
  cases lines with
  | nil =>
    rw [Spec.columns]
    exact ⟨fun h => (by cases h), fun ⟨_, _, h, _⟩ => (by cases h)⟩
  | cons line rest =>
    rw [Spec.columns]
    simp only
    by_cases hb : (tokens line).length = 0 ∨ (names ≠ [] ∧ names.length ≠ (tokens line).length) ∨ (types ≠ [] ∧ types.length ≠ (tokens line).length) ∨
        ¬ (columnNames comments (tokens line).length).Nodup
    · rw [if_pos hb]
      refine ⟨fun h => (by cases h), ?_⟩
      rintro ⟨l, r, h, h1, h2, h3, h4, _⟩
      cases h
      rcases hb with hb | hb | hb | hb
      · exact absurd hb h1
      · exact absurd hb.2 (by rcases h2 with h2 | h2; exacts [absurd h2 hb.1, fun h => h h2])
      · exact absurd hb.2 (by rcases h3 with h3 | h3; exacts [absurd h3 hb.1, fun h => h h3])
      · exact absurd h4 hb
    rw [if_neg hb]
    have hcond : (tokens line).length ≠ 0 ∧ (names = [] ∨ names.length = (tokens line).length) ∧ (types = [] ∨ types.length = (tokens line).length) ∧
        (columnNames comments (tokens line).length).Nodup := by
      refine ⟨fun h => hb (Or.inl h), ?_, ?_, ?_⟩
      · by_contra hx
        exact hb (Or.inr (Or.inl (not_or.1 hx)))
      · by_contra hx
        exact hb (Or.inr (Or.inr (Or.inl (not_or.1 hx))))
      · by_contra hx
        exact hb (Or.inr (Or.inr (Or.inr hx)))
    constructor
    · intro h
      refine ⟨line, rest, rfl, hcond.1, hcond.2.1, hcond.2.2.1, hcond.2.2.2, ?_⟩
      cases hd : Spec.described comments [] with
      | ub => exact hdu.1 hd
      | throw e => rw [hd] at h; cases h
      | ok found =>
        rw [hd, Outcome.bind_ok] at h
        exact (ite_ne_ub _ _ _ (by simp) (by simp) h).elim
    · rintro ⟨_, _, _, _, _, _, _, h⟩
      rw [hdu.2 h]
      rfl

/-- Exactly when a call of a reader is undefined: it asks for the columns, which are not known yet, there are data, as many as names and types were set, no name occurs twice, and in the header
there is a description of a new name with a lone opening parenthesis for the unit, before anything that makes the reader throw. Nothing in the rows of a text does any harm. -/
theorem C159_exact (fmt : Fmt F D) (text : Bytes) (ht : text.length < 2 ^ 31) (r : Reader) (he : r.stream.eof = false) (hf : r.stream.fail = false) (hp : r.stream.pos ≤ text.length) (c : Call) :
    Spec.Undefined (r.ask fmt text c).2 ↔ (c = .getInfo ∨ (∃ n, c = .read n) ∨ ∃ n, c = .skip n) ∧ r.info = none ∧
      ∃ line rest, left text r.comment r.stream = line :: rest ∧ (tokens line).length ≠ 0 ∧
        (r.names = [] ∨ r.names.length = (tokens line).length) ∧ (r.types = [] ∨ r.types.length = (tokens line).length) ∧
        (columnNames (headerComments r.comment (text.drop r.stream.pos)) (tokens line).length).Nodup ∧
        Spec.UndefinedHeader (headerComments r.comment (text.drop r.stream.pos)) := by
  obtain ⟨st, cm, sd, nm, ty, inf⟩ := r
  obtain ⟨p, e, f⟩ := st
  simp only at he hf hp ⊢
  subst he hf
  have hleft : left text cm { pos := p } = dataLines cm (text.drop p) := by simp [left]
  rw [hleft, ← columns_ub nm ty]
  -- the columns
  have hcol : ((⟨{ pos := p }, cm, sd, nm, ty, inf⟩ : Reader).readColumnInfo text).2 = .ub ↔
      inf = none ∧ Spec.columns nm ty (headerComments cm (text.drop p)) (dataLines cm (text.drop p)) = .ub := by
    cases inf with
    | some info => rw [Reader.readColumnInfo]; simp
    | none =>
      have h := (readColumnInfo_shift text ht p hp (⟨{}, cm, sd, nm, ty, none⟩ : Reader) hp).1
      have hs : (⟨{}, cm, sd, nm, ty, none⟩ : Reader).shift p = ⟨{ pos := p }, cm, sd, nm, ty, none⟩ := by simp [Reader.shift, Stream.shift]
      rw [hs] at h
      rw [h, C150_exact (text.drop p) (⟨{}, cm, sd, nm, ty, none⟩ : Reader) rfl rfl]
      simp
  rw [← hcol]
  generalize (⟨{ pos := p }, cm, sd, nm, ty, inf⟩ : Reader) = r
  cases c with
  | comment s =>
    refine ⟨fun h => ?_, fun h => by simp at h⟩
    simp only [Reader.ask, Reader.setComment] at h
    by_cases h1 : r.started = true
    · rw [if_pos h1] at h; cases h
    rw [if_neg h1] at h
    by_cases h2 : s = []
    · rw [if_pos h2] at h; cases h
    · rw [if_neg h2] at h; cases h
  | names l =>
    refine ⟨fun h => ?_, fun h => by simp at h⟩
    simp only [Reader.ask, Reader.fixNames, Spec.Undefined] at h
    by_cases h1 : r.started = true
    · rw [if_pos h1] at h; cases h
    rw [if_neg h1] at h
    have hl : ∀ (l set : List Bytes), fixLoop l set ≠ .ub := by
      intro l
      induction l with
      | nil => intro set; rw [fixLoop]; simp
      | cons n l ih =>
        intro set
        rw [fixLoop]
        by_cases h1 : n = []
        · rw [if_pos h1]; simp
        rw [if_neg h1]
        by_cases h2 : hasVertical n = true
        · rw [if_pos h2]; simp
        rw [if_neg h2]
        by_cases h3 : set.contains n = true
        · rw [if_pos h3]; simp
        · rw [if_neg h3]; exact ih _
    cases hx : fixLoop l [] with
    | ub => exact absurd hx (hl _ _)
    | throw e => rw [hx] at h; cases h
    | ok _ =>
      rw [hx] at h
      simp only at h
      revert h
      split
      · intro h; cases h
      · intro h; cases h
  | types l =>
    refine ⟨fun h => ?_, fun h => by simp at h⟩
    simp only [Reader.ask, Reader.fixTypes, Spec.Undefined] at h
    by_cases h1 : r.started = true
    · rw [if_pos h1] at h; cases h
    rw [if_neg h1] at h
    revert h
    split
    · intro h; cases h
    · intro h; cases h
  | getInfo =>
    simp only [Reader.ask, Spec.Undefined]
    simp
  | read n =>
    simp only [Reader.ask, Spec.Undefined]
    rw [Reader.read]
    cases hc : r.readColumnInfo text with
    | mk a b =>
      cases b with
      | ub => simp
      | throw e => simp
      | ok info =>
        simp only [reduceCtorEq, and_false, iff_false]
        have hw := whileLines_eq text (fun (a : Int × List (RowT F D)) => decide (a.1 ≠ 0)) (readBody fmt a.comment info) (fun x => by rw [readBody, if_pos (dataLine_nil _)])
          (lineFuel text) a.stream (n, []) (fuel_ok _ _)
        have hn := loop_noub (fun (a : Int × List (RowT F D)) => decide (a.1 ≠ 0)) (readBody fmt a.comment info) (readBody_noub fmt a.comment info) (linesLeft text a.stream) (n, [])
        rw [hw.1]
        cases hl : (loop (fun (a : Int × List (RowT F D)) => decide (a.1 ≠ 0)) (readBody fmt a.comment info) (linesLeft text a.stream) (n, [])).2 with
        | ub => exact absurd hl hn
        | throw e => intro h; cases h
        | ok x =>
          rw [Outcome.bind_ok]
          by_cases hx : x.2 = []
          · rw [if_pos hx]; simp
          · rw [if_neg hx]; exact mkTable_noub x.2
  | skip n =>
    simp only [Reader.ask, Spec.Undefined]
    rw [Reader.skip]
    cases hc : r.readColumnInfo text with
    | mk a b => cases b <;> simp
  | hasMoreRows => exact ⟨fun h => h.elim, fun h => by simp at h⟩
  | rowsLeft => exact ⟨fun h => h.elim, fun h => by simp at h⟩
  | getComment => exact ⟨fun h => h.elim, fun h => by simp at h⟩

/-- Every text can be read or is refused. -/
def C159_full : Prop := ∀ (text : Bytes), text.length < 2 ^ 31 → (({} : Reader).readColumnInfo text).2 ≠ .ub

/-- A unit that is an opening parenthesis: the last character of an empty string is erased. -/
theorem C159_violated : ¬ C159_full := fun h => h "# Column: a (\n1\n".toList (by decide) (by decide +kernel)

/-- A header without descriptions whose second or third word is a lone opening parenthesis does no harm: no call of the reader is undefined. -/
theorem C159_defined_partial (fmt : Fmt F D) (text : Bytes) (ht : text.length < 2 ^ 31) (r : Reader) (he : r.stream.eof = false) (hf : r.stream.fail = false) (hp : r.stream.pos ≤ text.length)
    (hc : ∀ c ∈ headerComments r.comment (text.drop r.stream.pos), "Column:".toList <+: c → ∀ i w, (i = 1 ∨ i = 2) → (tokens (trim (c.drop 7)))[i]? = some w → w ≠ ['(']) (call : Call) :
    ¬ Spec.Undefined (r.ask fmt text call).2 := by
  rw [C159_exact fmt text ht r he hf hp call]
  rintro ⟨_, _, line, rest, _, _, _, _, _, before, c, after, found, h1, _, h3, h4, _⟩
  have hk := hc c (by rw [h1]; simp) h3
  revert h4
  cases hd : tokens (trim (c.drop 7)) with
  | nil => exact fun h => h
  | cons a l =>
    cases l with
    | nil => exact fun h => h
    | cons b l =>
      rintro (h | ⟨_, h⟩)
      · exact hk 1 b (Or.inl rfl) (by rw [hd]; rfl) h
      · exact hk 2 ['('] (Or.inr rfl) (by rw [hd]; rw [List.head?_eq_getElem?] at h; simpa using h) rfl

/-! ## Examples -/

example : Spec.UndefinedHeader ["x".toList, "Column: a int".toList, "Column: b long (".toList] :=
  ⟨["x".toList, "Column: a int".toList], _, [], [⟨['a'], .scalar .i32, [], []⟩], rfl, by decide +kernel, by decide +kernel,
    by
      have e : tokens (trim ("Column: b long (".toList.drop 7)) = [['b'], "long".toList, ['(']] := by decide +kernel
      rw [e]
      exact Or.inr ⟨⟨.scalar .i64, by decide +kernel⟩, rfl⟩,
    by
      have e : tokens (trim ("Column: b long (".toList.drop 7)) = [['b'], "long".toList, ['(']] := by decide +kernel
      rw [e]
      intro name h
      cases h
      decide⟩
example : (({} : Reader).readColumnInfo "# Column: a (m) - (\n1\n".toList).2 = .ok [⟨['a'], .str, ['m'], ['(']⟩] := by decide +kernel

end Alexandria.Table
