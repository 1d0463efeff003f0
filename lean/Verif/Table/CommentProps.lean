import Verif.Table.ColumnsProps

/-!
# The columns after the comment was asked for (C96, C150)
-/

namespace Alexandria.Table

open Alexandria.Str

/-! ## Specification -/

/-- The comments before the first row of some lines. -/
def Spec.header (comment : Bytes) (lines : List Bytes) : List Bytes :=
  (((lines.map trim).filter fun l => l ≠ []).takeWhile fun l => comment.isPrefixOf l).map fun l => trim (removeAll comment 0 l)

/-! ## Lemmas -/

/-- Where the loop of `getComment` stops: at the first line that does not begin with the indicator, or with a flag. -/
theorem commentLoop_lines (text comment : Bytes) (hc : comment ≠ []) : ∀ (fuel : Nat) (s : Stream) (acc : Bytes), fuelOf text s ≤ fuel →
    ((commentLoop text comment fuel s acc).1.eof = true ∨ (commentLoop text comment fuel s acc).1.fail = true) ∨
    linesLeft text (commentLoop text comment fuel s acc).1 = (linesLeft text s).dropWhile fun l => decide (comment <+: l) := by
  intro fuel
  induction fuel with
  | zero =>
    intro s acc hfu
    have hs : s.fail = true := by
      by_contra hc
      simp only [fuelOf, hc] at hfu
      by_cases he : s.eof = true <;> simp [he] at hfu
    rw [commentLoop]
    exact Or.inl (Or.inr hs)
  | succ n ih =>
    intro s acc hfu
    rw [commentLoop]
    by_cases hs : s.fail = true
    · rw [if_pos hs]; exact Or.inl (Or.inr hs)
    · have hs' : s.fail = false := by simpa using hs
      rw [if_neg hs]
      have hnil : ¬ ([] : Bytes).take comment.length = comment := by simpa using hc.symm
      by_cases he : s.eof = true
      · have hp : peekLine text s = ([], { s with fail := true }) := by rw [peekLine, if_pos (Or.inl he)]
        simp only [hp]
        rw [if_neg hnil]
        exact Or.inl (Or.inr rfl)
      · have he' : s.eof = false := by simpa using he
        obtain ⟨l, ls, h1, h2, h3, h4, h5⟩ := getline_good text s he' hs'
        have hp : peekLine text s = (l, if (getline text s).2.fail then (getline text s).2 else s) := by
          rw [peekLine, if_neg (by simp [hs', he']), ← h2]
        simp only [hp]
        by_cases hl : comment <+: l
        · rw [if_pos ((take_eq_iff _ _).2 hl)]
          have hnf : (getline text s).2.fail = false := by
            by_contra hx
            have hx : (getline text s).2.fail = true := by simpa using hx
            have h0 : ¬ (s.eof = true ∨ s.fail = true) := by simp [he', hs']
            simp only [getline] at hx
            rw [if_neg h0] at hx
            by_cases hr : text.drop s.pos = []
            · rw [linesLeft, if_neg h0, hr] at h1
              simp only [splitChar, List.cons.injEq] at h1
              rw [← h1.1] at hl
              exact hc (List.prefix_nil.1 hl)
            · rw [if_neg hr] at hx
              split at hx <;> simp [hs'] at hx
          simp only [hnf, Bool.false_eq_true, if_false]
          have hfu' : fuelOf text (getline text s).2 ≤ n := by
            simp only [fuelOf, hs', he', Bool.false_eq_true, if_false] at hfu
            rw [fuelOf]
            rcases h4 with h4 | h4 | h4
            · simp [h4]
            · simp only [hnf, h4, if_true]; simp; omega
            · split
              · omega
              · split <;> omega
          rcases ih (getline text s).2 (acc ++ trim ((getline text s).1.drop comment.length) ++ ['\n']) hfu' with h | h
          · exact Or.inl h
          · refine Or.inr (h.trans ?_)
            rw [h1, List.dropWhile_cons_of_pos (by simpa using hl), h3]
        · rw [if_neg (fun h => hl ((take_eq_iff _ _).1 h))]
          by_cases hf : (getline text s).2.fail = true
          · simp only [if_pos hf]; exact Or.inl (Or.inr hf)
          · simp only [if_neg hf]
            right
            rw [h1, List.dropWhile_cons_of_neg (by simpa using hl)]

/-! ## C150 -/

/-- The columns that a reader finds, wherever its stream is: those in what is left of the text; a stream that has ended or failed has none. -/
theorem C150_here (text : Bytes) (ht : text.length < 2 ^ 31) (r : Reader) (hi : r.info = none) (hp : r.stream.pos ≤ text.length) :
    (r.readColumnInfo text).2 = Spec.columns r.names r.types (Spec.header r.comment (linesLeft text r.stream)) (left text r.comment r.stream) := by
  obtain ⟨st, cm, sd, nm, ty, inf⟩ := r
  simp only at hi hp ⊢
  subst hi
  by_cases hfl : st.eof = true ∨ st.fail = true
  · have h0 : countColumns text cm st = .throw .elements := by
      rw [countColumns, lineFuel, whileLines, afterTell, if_pos hfl]
      simp
    rw [Reader.readColumnInfo]
    simp only [h0]
    rw [left, if_pos hfl, Spec.columns]
  · obtain ⟨p, e, f⟩ := st
    simp only [not_or, Bool.not_eq_true] at hfl
    obtain ⟨rfl, rfl⟩ := hfl
    have h := (readColumnInfo_shift text ht p hp (⟨{}, cm, sd, nm, ty, none⟩ : Reader) hp).1
    have hs : (⟨{}, cm, sd, nm, ty, none⟩ : Reader).shift p = ⟨{ pos := p }, cm, sd, nm, ty, none⟩ := by simp [Reader.shift, Stream.shift]
    rw [hs] at h
    rw [h, C150_exact (text.drop p) (⟨{}, cm, sd, nm, ty, none⟩ : Reader) rfl rfl]
    have hleft : left text cm { pos := p } = dataLines cm (text.drop p) := by simp [left]
    rw [hleft]
    have hl : linesLeft text { pos := p } = splitChar '\n' (text.drop p) := by simp [linesLeft]
    rw [hl]
    rfl

/-! ## C96 -/

/-- The columns that are found after `getComment`: the rows are all there, the leading comments are not. -/
theorem C96_columns (text : Bytes) (ht : text.length < 2 ^ 31) (r : Reader) (hc : r.comment ≠ []) (hi : r.info = none) (hp : r.stream.pos ≤ text.length) :
    ((r.getComment text).1.readColumnInfo text).2 =
      Spec.columns r.names r.types (Spec.header r.comment ((linesLeft text r.stream).dropWhile fun l => decide (r.comment <+: l))) (left text r.comment r.stream) := by
  have h1 := C96_comment text r hc
  have h2 := commentLoop_eq text r.comment hc (lineFuel text) r.stream [] (fuel_ok text r.stream)
  have h3 := commentLoop_lines text r.comment hc (lineFuel text) r.stream [] (fuel_ok text r.stream)
  have h4 := C150_here text ht (r.getComment text).1 (h1.2.2.trans hi) (h2.2.2 hp)
  have e1 : (r.getComment text).1.comment = r.comment := rfl
  have e2 : (r.getComment text).1.names = r.names := rfl
  have e3 : (r.getComment text).1.types = r.types := rfl
  rw [e1, e2, e3, h1.2.1] at h4
  rw [h4]
  have e4 : (r.getComment text).1.stream = (commentLoop text r.comment (lineFuel text) r.stream []).1 := rfl
  rcases h3 with h3 | h3
  · have : left text r.comment r.stream = [] := by
      rw [← h1.2.1, e4, left, if_pos h3]
    rw [this, Spec.columns, Spec.columns]
  · rw [e4, h3]

/-- The columns are the same if the text does not begin with a comment, in particular for a second call of `getComment`. -/
theorem C96_same_partial (text : Bytes) (ht : text.length < 2 ^ 31) (r : Reader) (hc : r.comment ≠ []) (hi : r.info = none) (hp : r.stream.pos ≤ text.length)
    (hl : ∀ l ∈ (linesLeft text r.stream).head?, ¬ r.comment <+: l) : ((r.getComment text).1.readColumnInfo text).2 = (r.readColumnInfo text).2 := by
  rw [C96_columns text ht r hc hi hp, C150_here text ht r hi hp]
  cases h : linesLeft text r.stream with
  | nil => rfl
  | cons l ls =>
    rw [List.dropWhile_cons_of_neg]
    have := hl l (by rw [h]; rfl)
    simpa using this

/-! ## Examples -/

-- the leading comments are gone, those after an empty line are not
example : (((({} : Reader).getComment "# x\n\n# Column: a int\n1\n".toList).1).readColumnInfo "# x\n\n# Column: a int\n1\n".toList).2 = .ok [⟨['a'], .scalar .i32, [], []⟩] := by decide +kernel
example : (((({} : Reader).getComment "# Column: a int\n1\n".toList).1).readColumnInfo "# Column: a int\n1\n".toList).2 = .ok [⟨"col1".toList, .str, [], []⟩] := by decide +kernel
example : ∀ l ∈ (linesLeft " # Column: a int\n1\n".toList {}).head?, ¬ ['#'] <+: l := by decide +kernel

end Alexandria.Table
