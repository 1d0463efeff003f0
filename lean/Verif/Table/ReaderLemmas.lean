import Verif.Table.AsciiModel
import Mathlib.Tactic.ByContra
import Mathlib.Data.List.Forall2
import Mathlib.Order.Basic

/-!
# Lemmas about the loops over the lines of a stream
-/

namespace Alexandria.Table

open Alexandria.Str

/-- The lines of a stream that are left to read. -/
def linesLeft (text : Bytes) (s : Stream) : List Bytes := if s.eof ∨ s.fail then [] else splitChar '\n' (text.drop s.pos)

/-- A loop over lines. -/
def loop {σ : Type} (go : σ → Bool) (body : σ → Bytes → Res σ) : List Bytes → σ → List Bytes × Res σ
  | [], a => ([], .ok a)
  | l :: ls, a =>
    if go a then
      match body a l with
      | .ok a' => loop go body ls a'
      | .throw e => (ls, .throw e)
      | .ub => (ls, .ub)
    else (l :: ls, .ok a)

theorem splitChar_nosep (sep : Char) : ∀ s : Bytes, sep ∉ s → splitChar sep s = [s] := by
  intro s
  induction s with
  | nil => intro _; rfl
  | cons c t ih =>
    intro h
    rw [splitChar, if_neg (fun e => h (by simp [e])), ih (fun e => h (List.mem_cons_of_mem _ e))]

theorem splitChar_sep (sep : Char) : ∀ (a b : Bytes), sep ∉ a → splitChar sep (a ++ sep :: b) = a :: splitChar sep b := by
  intro a
  induction a with
  | nil => intro b _; rw [List.nil_append, splitChar, if_pos rfl]
  | cons c t ih =>
    intro b h
    rw [List.cons_append, splitChar, if_neg (fun e => h (by simp [e])), ih b (fun e => h (List.mem_cons_of_mem _ e))]

theorem takeWhile_decomp (s : Bytes) (h : (s.takeWhile fun c => c ≠ '\n').length ≠ s.length) :
    s = (s.takeWhile fun c => c ≠ '\n') ++ '\n' :: s.drop ((s.takeWhile fun c => c ≠ '\n').length + 1) := by
  induction s with
  | nil => simp at h
  | cons c t ih =>
    by_cases hc : c = '\n'
    · subst hc; simp
    · simp only [List.takeWhile_cons, ne_eq, hc, not_false_eq_true, decide_true, if_true, List.length_cons, List.cons_append, List.drop_succ_cons, List.cons.injEq, true_and] at h ⊢
      exact ih (by simpa using h)

theorem notMem_takeWhile (s : Bytes) : '\n' ∉ s.takeWhile fun c => c ≠ '\n' := by
  intro h
  have := List.all_takeWhile (p := fun c => decide (c ≠ '\n')) (l := s)
  rw [List.all_eq_true] at this
  simpa using this _ h

/-- What `getline` does on a stream with lines left. -/
theorem getline_good (text : Bytes) (s : Stream) (he : s.eof = false) (hf : s.fail = false) :
    ∃ l ls, linesLeft text s = l :: ls ∧ (getline text s).1 = l ∧ linesLeft text (getline text s).2 = ls ∧
      ((getline text s).2.fail = true ∨ (getline text s).2.eof = true ∨ s.pos < text.length ∧ s.pos < (getline text s).2.pos) ∧
      (s.pos ≤ text.length → (getline text s).2.pos ≤ text.length) := by
  have h0 : ¬ (s.eof = true ∨ s.fail = true) := by simp [he, hf]
  have hlines : linesLeft text s = splitChar '\n' (text.drop s.pos) := by rw [linesLeft, if_neg h0]
  simp only [getline]
  rw [if_neg h0]
  by_cases hr : text.drop s.pos = []
  · rw [if_pos hr]
    refine ⟨[], [], by rw [hlines, hr]; rfl, rfl, by simp [linesLeft], Or.inl rfl, fun h => h⟩
  · rw [if_neg hr]
    have hpos : s.pos < text.length := by
      by_contra hc; exact hr (List.drop_eq_nil_of_le (by omega))
    by_cases hl : ((text.drop s.pos).takeWhile fun c => c ≠ '\n').length = (text.drop s.pos).length
    · rw [if_pos hl]
      have hw : ((text.drop s.pos).takeWhile fun c => c ≠ '\n') = text.drop s.pos := (List.takeWhile_prefix _).eq_of_length hl
      refine ⟨text.drop s.pos, [], ?_, hw, by simp [linesLeft], Or.inr (Or.inl rfl), fun _ => Nat.le_refl _⟩
      rw [hlines, splitChar_nosep]
      rw [← hw]; exact notMem_takeWhile _
    · rw [if_neg hl]
      have hd := takeWhile_decomp _ hl
      refine ⟨_, splitChar '\n' (text.drop (s.pos + ((text.drop s.pos).takeWhile fun c => c ≠ '\n').length + 1)), ?_, rfl, ?_, Or.inr (Or.inr ⟨hpos, ?_⟩), fun _ => ?_⟩
      · rw [hlines]
        conv_lhs => rw [hd]
        rw [splitChar_sep _ _ _ (notMem_takeWhile _), List.drop_drop]
        rfl
      · simp [linesLeft, he, hf]
      · simp only; omega
      · have h1 := congrArg List.length hd
        have h2 := (List.takeWhile_prefix (fun c => decide (c ≠ '\n')) (l := text.drop s.pos)).length_le
        simp only [List.length_drop] at h2 hl
        simp only
        omega

/-- How many more iterations a loop can make. -/
def fuelOf (text : Bytes) (s : Stream) : Nat := if s.fail then 0 else if s.eof then 1 else text.length - s.pos + 2

/-- The loops over the stream are loops over the lines that are left. -/
theorem whileLines_eq {σ : Type} (text : Bytes) (go : σ → Bool) (body : σ → Bytes → Res σ) (hb : ∀ a, body a [] = .ok a) :
    ∀ (fuel : Nat) (s : Stream) (a : σ), fuelOf text s ≤ fuel →
      (whileLines text go body fuel s a).2 = (loop go body (linesLeft text s) a).2 ∧
      linesLeft text (whileLines text go body fuel s a).1 = (loop go body (linesLeft text s) a).1 ∧
      (s.pos ≤ text.length → (whileLines text go body fuel s a).1.pos ≤ text.length) := by
  intro fuel
  induction fuel with
  | zero =>
    intro s a hfu
    have hs : s.fail = true := by
      by_contra hc
      simp only [fuelOf, hc] at hfu
      by_cases he : s.eof = true <;> simp [he] at hfu
    rw [whileLines]
    simp [linesLeft, hs, loop]
  | succ n ih =>
    intro s a hfu
    rw [whileLines]
    by_cases hs : s.fail = true
    · rw [if_pos hs]; simp [linesLeft, hs, loop]
    · have hs' : s.fail = false := by simpa using hs
      rw [if_neg hs]
      by_cases he : s.eof = true
      · have hg : getline text s = ([], { s with fail := true }) := by rw [getline, if_pos (Or.inl he)]
        have hll : linesLeft text s = [] := by simp [linesLeft, he]
        rw [hll, loop]
        by_cases hgo : go a = true
        · rw [if_pos hgo, hg, hb]
          simp only
          have := ih { s with fail := true } a (by simp [fuelOf])
          have hll' : linesLeft text { s with fail := true } = [] := by simp [linesLeft]
          rw [hll', loop] at this
          exact this
        · rw [if_neg hgo]; exact ⟨rfl, hll, fun h => h⟩
      · have he' : s.eof = false := by simpa using he
        obtain ⟨l, ls, h1, h2, h3, h4, h5⟩ := getline_good text s he' hs'
        rw [h1, loop]
        by_cases hgo : go a = true
        · rw [if_pos hgo, if_pos hgo, h2]
          cases hbody : body a l with
          | ok a' =>
            simp only
            have hfu' : fuelOf text (getline text s).2 ≤ n := by
              simp only [fuelOf, hs', he', Bool.false_eq_true, if_false] at hfu
              rw [fuelOf]
              rcases h4 with h4 | h4 | h4
              · simp [h4]
              · by_cases hx : (getline text s).2.fail = true
                · simp [hx]
                · simp only [hx, h4, if_true]; simp; omega
              · split
                · omega
                · split <;> omega
            have := ih (getline text s).2 a' hfu'
            rw [h3] at this
            exact ⟨this.1, this.2.1, fun h => this.2.2 (h5 h)⟩
          | throw e => exact ⟨rfl, h3, h5⟩
          | ub => exact ⟨rfl, h3, h5⟩
        · rw [if_neg hgo, if_neg hgo]; exact ⟨rfl, h1, fun h => h⟩

/-- A loop that ignores some lines and uses the others in a simpler form. -/
theorem loop_filter {σ : Type} (go : σ → Bool) (clean : Bytes → Bytes) (body : σ → Bytes → Res σ) (ls : List Bytes) : ∀ a,
    let full : σ → Bytes → Res σ := fun a l => if clean l = [] then .ok a else body a (clean l)
    (loop go full ls a).2 = (loop go body ((ls.map clean).filter fun l => l ≠ []) a).2 ∧
    ((loop go full ls a).1.map clean).filter (fun l => l ≠ []) = (loop go body ((ls.map clean).filter fun l => l ≠ []) a).1 := by
  induction ls with
  | nil => intro a; exact ⟨rfl, rfl⟩
  | cons l ls ih =>
    intro a
    simp only
    rw [loop]
    by_cases hc : clean l = []
    · have hf : ((l :: ls).map clean).filter (fun l => l ≠ []) = (ls.map clean).filter fun l => l ≠ [] := by simp [hc]
      rw [hf]
      by_cases hgo : go a = true
      · rw [if_pos hgo, if_pos hc]
        exact ih a
      · rw [if_neg hgo]
        have : ∀ L, loop go body L a = (L, .ok a) := fun L => by cases L <;> simp [loop, hgo]
        rw [this]
        exact ⟨rfl, by rw [hf]⟩
    · have hf : ((l :: ls).map clean).filter (fun l => l ≠ []) = clean l :: ((ls.map clean).filter fun l => l ≠ []) := by simp [hc]
      rw [hf, loop]
      by_cases hgo : go a = true
      · rw [if_pos hgo, if_pos hgo, if_neg hc]
        cases body a (clean l) with
        | ok a' => exact ih a'
        | throw e => exact ⟨rfl, rfl⟩
        | ub => exact ⟨rfl, rfl⟩
      · rw [if_neg hgo, if_neg hgo]; exact ⟨rfl, by rw [hf]⟩

theorem afterTell_lines (text : Bytes) (s : Stream) : linesLeft text (afterTell s) = linesLeft text s := by
  rw [afterTell]
  by_cases h : s.eof = true ∨ s.fail = true
  · rw [if_pos h]; simp [linesLeft, h]
  · rw [if_neg h]

theorem rewind_lines (text : Bytes) (s : Stream) (hp : s.pos ≤ text.length) (ht : text.length < 2 ^ 31) :
    linesLeft text (rewind s) = linesLeft text s ∧ (rewind s).pos = s.pos := by
  rw [rewind]
  by_cases h : s.eof = true ∨ s.fail = true
  · simp only [h, if_true]
    simp [linesLeft, h]
  · simp only [h, if_false]
    have h1 : toInt32 s.pos = (s.pos : Int) := by
      have h2 : s.pos < 2 ^ 31 := by omega
      have h3 : s.pos % 2 ^ 32 = s.pos := Nat.mod_eq_of_lt (by omega)
      rw [toInt32, h3, if_pos h2]
    rw [h1, if_neg (by omega)]
    have : (!s.eof && !s.fail) = true := by simpa [not_or] using h
    simp [linesLeft, h]

theorem fuel_ok (text : Bytes) (s : Stream) : fuelOf text s ≤ lineFuel text := by
  rw [fuelOf, lineFuel]
  split
  · omega
  · split <;> omega

theorem dataLine_nil (comment : Bytes) : dataLine comment [] = [] := by
  rw [dataLine]
  cases find comment [] <;> simp [trim]

end Alexandria.Table
