import Verif.Table.SharedModel

/-!
# A stream of which a part was read is the stream of the rest
-/

namespace Alexandria.Table

open Alexandria.Str

variable {F D : Type}

/-- The same state, further on by `p`. -/
abbrev Stream.shift (p : Nat) (s : Stream) : Stream := { s with pos := p + s.pos }

abbrev Reader.shift (p : Nat) (r : Reader) : Reader := { r with stream := r.stream.shift p }

theorem getline_shift (text : Bytes) (p : Nat) (hp : p ≤ text.length) (s : Stream) :
    getline text (s.shift p) = ((getline (text.drop p) s).1, (getline (text.drop p) s).2.shift p) := by
  simp only [getline, Stream.shift]
  by_cases h : s.eof = true ∨ s.fail = true
  · rw [if_pos h, if_pos h]
  rw [if_neg h, if_neg h, List.drop_drop]
  by_cases h1 : text.drop (p + s.pos) = []
  · rw [if_pos h1, if_pos h1]
  rw [if_neg h1, if_neg h1]
  by_cases h2 : ((text.drop (p + s.pos)).takeWhile fun c => c ≠ '\n').length = (text.drop (p + s.pos)).length
  · rw [if_pos h2, if_pos h2]
    simp only [List.length_drop, Prod.mk.injEq, true_and, Stream.mk.injEq, and_true]
    omega
  · rw [if_neg h2, if_neg h2]
    simp only [Nat.add_assoc]

theorem fuelOf_getline (text : Bytes) (s : Stream) (hf : s.fail = false) : fuelOf text (getline text s).2 + 1 ≤ fuelOf text s := by
  by_cases he : s.eof = true
  · rw [getline, if_pos (Or.inl he)]
    simp [fuelOf, hf, he]
  · have he : s.eof = false := by simpa using he
    obtain ⟨l, ls, h1, h2, h3, h4, h5⟩ := getline_good text s he hf
    rw [fuelOf, fuelOf]
    simp only [hf, he, Bool.false_eq_true, if_false]
    rcases h4 with h4 | h4 | h4
    · rw [if_pos h4]; omega
    · by_cases h6 : (getline text s).2.fail = true
      · rw [if_pos h6]; omega
      · rw [if_neg h6, if_pos h4]; omega
    · by_cases h6 : (getline text s).2.fail = true
      · rw [if_pos h6]; omega
      rw [if_neg h6]
      by_cases h7 : (getline text s).2.eof = true
      · rw [if_pos h7]; omega
      · rw [if_neg h7]; omega

theorem whileLines_fuel {σ : Type} (text : Bytes) (go : σ → Bool) (body : σ → Bytes → Res σ) : ∀ (f g : Nat) (s : Stream) (a : σ),
    fuelOf text s ≤ f → fuelOf text s ≤ g → whileLines text go body f s a = whileLines text go body g s a := by
  intro f
  induction f with
  | zero =>
    intro g s a hf hg
    have hs : s.fail = true := by
      rw [fuelOf] at hf
      by_cases h : s.fail = true
      · exact h
      rw [if_neg h] at hf
      by_cases h' : s.eof = true
      · rw [if_pos h'] at hf; omega
      · rw [if_neg h'] at hf; omega
    cases g with
    | zero => rfl
    | succ g => rw [whileLines, whileLines, if_pos hs]
  | succ f ih =>
    intro g s a hf hg
    by_cases hs : s.fail = true
    · cases g with
      | zero => rw [whileLines, whileLines, if_pos hs]
      | succ g => rw [whileLines, whileLines, if_pos hs, if_pos hs]
    · have hs' : s.fail = false := by simpa using hs
      have hd := fuelOf_getline text s hs'
      cases g with
      | zero => omega
      | succ g =>
        rw [whileLines, whileLines, if_neg hs, if_neg hs]
        by_cases hg0 : go a = true
        · rw [if_pos hg0, if_pos hg0]
          cases body a (getline text s).1 with
          | ok a' => exact ih g _ a' (by omega) (by omega)
          | throw e => rfl
          | ub => rfl
        · rw [if_neg hg0, if_neg hg0]

theorem whileLines_shift {σ : Type} (text : Bytes) (p : Nat) (hp : p ≤ text.length) (go : σ → Bool) (body : σ → Bytes → Res σ) (s : Stream) (a : σ) :
    whileLines text go body (lineFuel text) (s.shift p) a =
      ((whileLines (text.drop p) go body (lineFuel (text.drop p)) s a).1.shift p, (whileLines (text.drop p) go body (lineFuel (text.drop p)) s a).2) := by
  have key : ∀ (f : Nat) (s : Stream) (a : σ), whileLines text go body f (s.shift p) a =
      ((whileLines (text.drop p) go body f s a).1.shift p, (whileLines (text.drop p) go body f s a).2) := by
    intro f
    induction f with
    | zero => intro s a; rfl
    | succ f ih =>
      intro s a
      rw [whileLines, whileLines, getline_shift text p hp]
      by_cases hs : s.fail = true
      · rw [if_pos hs, if_pos (show (s.shift p).fail = true from hs)]
      rw [if_neg hs, if_neg (show ¬ (s.shift p).fail = true from hs)]
      by_cases hg : go a = true
      · rw [if_pos hg, if_pos hg]
        simp only
        cases body a (getline (text.drop p) s).1 with
        | ok a' => exact ih _ a'
        | throw e => rfl
        | ub => rfl
      · rw [if_neg hg, if_neg hg]
  rw [key, whileLines_fuel (text.drop p) go body (lineFuel text) (lineFuel (text.drop p)) s a ?_ (fuel_ok _ _)]
  refine le_trans (fuel_ok _ _) ?_
  rw [lineFuel, lineFuel, List.length_drop]
  omega

theorem afterTell_shift (p : Nat) (s : Stream) : afterTell (s.shift p) = (afterTell s).shift p := by
  rw [afterTell, afterTell]
  by_cases h : s.eof = true ∨ s.fail = true
  · rw [if_pos h, if_pos (show (s.shift p).eof = true ∨ (s.shift p).fail = true from h)]
  · rw [if_neg h, if_neg h]

theorem toInt32_small (n : Nat) (h : n < 2 ^ 31) : toInt32 n = n := by
  rw [toInt32, Nat.mod_eq_of_lt (by omega), if_pos h]

theorem rewind_shift (p : Nat) (s : Stream) (h : p + s.pos < 2 ^ 31) : rewind (s.shift p) = (rewind s).shift p := by
  simp only [rewind, Stream.shift]
  by_cases h1 : s.eof = true ∨ s.fail = true
  · simp [h1]
  · rw [if_neg h1, if_neg h1, toInt32_small _ h, toInt32_small _ (by omega)]
    rw [if_neg (by omega), if_neg (by omega)]
    simp only [Int.toNat_natCast]


theorem rewind_pos (s : Stream) (h : s.pos < 2 ^ 31) : (rewind s).pos = s.pos := by
  simp only [rewind]
  by_cases h1 : s.eof = true ∨ s.fail = true
  · simp [h1]
  · rw [if_neg h1, toInt32_small _ h, if_neg (by omega)]
    simp

theorem getline_inside (text : Bytes) (s : Stream) (h : s.pos ≤ text.length) : (getline text s).2.pos ≤ text.length := by
  by_cases h1 : s.eof = true ∨ s.fail = true
  · rw [getline, if_pos h1]; exact h
  · have h1 : s.eof = false ∧ s.fail = false := by simpa using h1
    obtain ⟨l, ls, _, _, _, _, h5⟩ := getline_good text s h1.1 h1.2
    exact h5 h

theorem whileLines_inside {σ : Type} (text : Bytes) (go : σ → Bool) (body : σ → Bytes → Res σ) : ∀ (f : Nat) (s : Stream) (a : σ),
    s.pos ≤ text.length → (whileLines text go body f s a).1.pos ≤ text.length := by
  intro f
  induction f with
  | zero => intro s a h; exact h
  | succ f ih =>
    intro s a h
    rw [whileLines]
    by_cases hs : s.fail = true
    · rw [if_pos hs]; exact h
    rw [if_neg hs]
    by_cases hg : go a = true
    · rw [if_pos hg]
      cases body a (getline text s).1 with
      | ok a' => exact ih _ a' (getline_inside text s h)
      | throw e => exact getline_inside text s h
      | ub => exact getline_inside text s h
    · rw [if_neg hg]; exact h

theorem countColumns_shift (text comment : Bytes) (p : Nat) (hp : p ≤ text.length) (s : Stream) :
    countColumns text comment (s.shift p) = countColumns (text.drop p) comment s := by
  simp only [countColumns]
  rw [afterTell_shift, whileLines_shift text p hp]

theorem detectNames_shift (text comment : Bytes) (n p : Nat) (hp : p ≤ text.length) (s : Stream) :
    detectNames text comment n (s.shift p) = detectNames (text.drop p) comment n s := by
  simp only [detectNames]
  rw [afterTell_shift, whileLines_shift text p hp]

theorem detectDescriptions_shift (text comment : Bytes) (p : Nat) (hp : p ≤ text.length) (s : Stream) :
    detectDescriptions text comment (s.shift p) = detectDescriptions (text.drop p) comment s := by
  simp only [detectDescriptions]
  rw [afterTell_shift, whileLines_shift text p hp]

theorem readColumnInfo_shift (text : Bytes) (ht : text.length < 2 ^ 31) (p : Nat) (hp : p ≤ text.length) (r : Reader) (hr : p + r.stream.pos ≤ text.length) :
    (r.shift p).readColumnInfo text = ((r.readColumnInfo (text.drop p)).1.shift p, (r.readColumnInfo (text.drop p)).2) ∧
    p + (r.readColumnInfo (text.drop p)).1.stream.pos ≤ text.length := by
  obtain ⟨st, cm, sd, nm, ty, inf⟩ := r
  simp only at hr
  have e1 : (rewind st).pos = st.pos := rewind_pos _ (by omega)
  have e2 : (rewind (rewind st)).pos = st.pos := by rw [rewind_pos _ (by omega), e1]
  have e3 : (rewind (rewind (rewind st))).pos = st.pos := by rw [rewind_pos _ (by omega), e2]
  have s1 : rewind (st.shift p) = (rewind st).shift p := rewind_shift p _ (by omega)
  have s2 : rewind ((rewind st).shift p) = (rewind (rewind st)).shift p := rewind_shift p _ (by omega)
  have s3 : rewind ((rewind (rewind st)).shift p) = (rewind (rewind (rewind st))).shift p := rewind_shift p _ (by omega)
  simp only [Reader.readColumnInfo, Reader.shift]
  cases inf with
  | some info => exact ⟨rfl, hr⟩
  | none =>
    simp only [countColumns_shift text _ p hp, s1, s2, s3, detectNames_shift text _ _ p hp, detectDescriptions_shift text _ p hp]
    cases countColumns (text.drop p) cm st with
    | throw e => exact ⟨rfl, by simp only; omega⟩
    | ub => exact ⟨rfl, by simp only; omega⟩
    | ok n =>
      simp only
      by_cases h1 : nm ≠ [] ∧ nm.length ≠ n
      · rw [if_pos h1, if_pos h1]; exact ⟨rfl, by simp only; omega⟩
      rw [if_neg h1, if_neg h1]
      by_cases h2 : ty ≠ [] ∧ ty.length ≠ n
      · rw [if_pos h2, if_pos h2]; exact ⟨rfl, by simp only; omega⟩
      rw [if_neg h2, if_neg h2]
      cases detectNames (text.drop p) cm n (rewind st) with
      | throw e => exact ⟨rfl, by simp only; omega⟩
      | ub => exact ⟨rfl, by simp only; omega⟩
      | ok autoNames =>
        simp only
        cases (do let descs ← detectDescriptions (text.drop p) cm (rewind (rewind st))
                  let l ← infoLoop nm autoNames ty descs n 0
                  mkInfo l) with
        | throw e => exact ⟨rfl, by simp only; omega⟩
        | ub => exact ⟨rfl, by simp only; omega⟩
        | ok info => exact ⟨rfl, by simp only; omega⟩

theorem peekLine_shift (text : Bytes) (p : Nat) (hp : p ≤ text.length) (s : Stream) :
    peekLine text (s.shift p) = ((peekLine (text.drop p) s).1, (peekLine (text.drop p) s).2.shift p) := by
  simp only [peekLine, getline_shift text p hp]
  by_cases h : s.eof = true ∨ s.fail = true
  · rw [if_pos h, if_pos (show (s.shift p).eof = true ∨ (s.shift p).fail = true from h)]
  rw [if_neg h, if_neg (show ¬ ((s.shift p).eof = true ∨ (s.shift p).fail = true) from h)]
  by_cases h1 : (getline (text.drop p) s).2.fail = true
  · rw [if_pos h1, if_pos (show ((getline (text.drop p) s).2.shift p).fail = true from h1)]
  · rw [if_neg h1, if_neg (show ¬ ((getline (text.drop p) s).2.shift p).fail = true from h1)]

/-- After a line was looked at and read, there is less to read. -/
theorem fuelOf_peek (text : Bytes) (s : Stream) (hf : s.fail = false) : fuelOf text (getline text (peekLine text s).2).2 + 1 ≤ fuelOf text s := by
  have hpos : 1 ≤ fuelOf text s := by
    rw [fuelOf]
    simp only [hf, Bool.false_eq_true, if_false]
    by_cases h : s.eof = true
    · rw [if_pos h]
    · rw [if_neg h]; omega
  have hzero : ∀ t : Stream, t.fail = true → fuelOf text (getline text t).2 = 0 := fun t ht => by
    rw [getline, if_pos (Or.inr ht)]
    simp [fuelOf]
  rw [peekLine]
  by_cases h : s.eof = true ∨ s.fail = true
  · rw [if_pos h]
    simp only
    rw [hzero _ rfl]
    omega
  rw [if_neg h]
  simp only
  by_cases h1 : (getline text s).2.fail = true
  · rw [if_pos h1, hzero _ h1]; omega
  · rw [if_neg h1]; exact fuelOf_getline text s hf

theorem commentLoop_fuel (text comment : Bytes) : ∀ (f g : Nat) (s : Stream) (acc : Bytes),
    fuelOf text s ≤ f → fuelOf text s ≤ g → commentLoop text comment f s acc = commentLoop text comment g s acc := by
  intro f
  induction f with
  | zero =>
    intro g s a hf hg
    have hs : s.fail = true := by
      rw [fuelOf] at hf
      by_cases h : s.fail = true
      · exact h
      rw [if_neg h] at hf
      by_cases h' : s.eof = true
      · rw [if_pos h'] at hf; omega
      · rw [if_neg h'] at hf; omega
    cases g with
    | zero => rfl
    | succ g => rw [commentLoop, commentLoop, if_pos hs]
  | succ f ih =>
    intro g s a hf hg
    by_cases hs : s.fail = true
    · cases g with
      | zero => rw [commentLoop, commentLoop, if_pos hs]
      | succ g => rw [commentLoop, commentLoop, if_pos hs, if_pos hs]
    · have hs' : s.fail = false := by simpa using hs
      have hd := fuelOf_peek text s hs'
      cases g with
      | zero => omega
      | succ g =>
        rw [commentLoop, commentLoop, if_neg hs, if_neg hs]
        simp only
        by_cases hc : (peekLine text s).1.take comment.length = comment
        · rw [if_pos hc, if_pos hc]; exact ih g _ _ (by omega) (by omega)
        · rw [if_neg hc, if_neg hc]

theorem commentLoop_shift (text comment : Bytes) (p : Nat) (hp : p ≤ text.length) (s : Stream) (acc : Bytes) :
    commentLoop text comment (lineFuel text) (s.shift p) acc =
      ((commentLoop (text.drop p) comment (lineFuel (text.drop p)) s acc).1.shift p, (commentLoop (text.drop p) comment (lineFuel (text.drop p)) s acc).2) := by
  have key : ∀ (f : Nat) (s : Stream) (acc : Bytes), commentLoop text comment f (s.shift p) acc =
      ((commentLoop (text.drop p) comment f s acc).1.shift p, (commentLoop (text.drop p) comment f s acc).2) := by
    intro f
    induction f with
    | zero => intro s acc; rfl
    | succ f ih =>
      intro s acc
      rw [commentLoop, commentLoop]
      simp only [peekLine_shift text p hp, getline_shift text p hp]
      by_cases hs : s.fail = true
      · rw [if_pos hs, if_pos (show (s.shift p).fail = true from hs)]
      rw [if_neg hs, if_neg (show ¬ (s.shift p).fail = true from hs)]
      by_cases hc : (peekLine (text.drop p) s).1.take comment.length = comment
      · rw [if_pos hc, if_pos hc]; exact ih _ _
      · rw [if_neg hc, if_neg hc]
  rw [key, commentLoop_fuel (text.drop p) comment (lineFuel text) (lineFuel (text.drop p)) s acc ?_ (fuel_ok _ _)]
  refine le_trans (fuel_ok _ _) ?_
  rw [lineFuel, lineFuel, List.length_drop]
  omega

theorem commentLoop_inside (text comment : Bytes) : ∀ (f : Nat) (s : Stream) (acc : Bytes), s.pos ≤ text.length →
    (commentLoop text comment f s acc).1.pos ≤ text.length := by
  have hpeek : ∀ s : Stream, s.pos ≤ text.length → (peekLine text s).2.pos ≤ text.length := by
    intro s h
    rw [peekLine]
    by_cases h1 : s.eof = true ∨ s.fail = true
    · rw [if_pos h1]; exact h
    rw [if_neg h1]
    simp only
    by_cases h2 : (getline text s).2.fail = true
    · rw [if_pos h2]; exact getline_inside text s h
    · rw [if_neg h2]; exact h
  intro f
  induction f with
  | zero => intro s acc h; exact h
  | succ f ih =>
    intro s acc h
    rw [commentLoop]
    by_cases hs : s.fail = true
    · rw [if_pos hs]; exact h
    rw [if_neg hs]
    simp only
    by_cases hc : (peekLine text s).1.take comment.length = comment
    · rw [if_pos hc]; exact ih _ _ (getline_inside text _ (hpeek s h))
    · rw [if_neg hc]; exact hpeek s h

/-- Every call of a reader at the place `p` further on does what it does on the rest of the text. -/
theorem ask_shift (fmt : Fmt F D) (text : Bytes) (ht : text.length < 2 ^ 31) (p : Nat) (hp : p ≤ text.length) (r : Reader)
    (hr : p + r.stream.pos ≤ text.length) (c : Call) :
    (r.shift p).ask fmt text c = ((r.ask fmt (text.drop p) c).1.shift p, (r.ask fmt (text.drop p) c).2) ∧
    p + (r.ask fmt (text.drop p) c).1.stream.pos ≤ text.length := by
  have hlen : (text.drop p).length = text.length - p := List.length_drop
  have hci := readColumnInfo_shift text ht p hp r hr
  have e1 : (rewind r.stream).pos = r.stream.pos := rewind_pos _ (by omega)
  have s1 : rewind (r.stream.shift p) = (rewind r.stream).shift p := rewind_shift p _ (by omega)
  cases c with
  | comment s =>
    simp only [Reader.ask, Reader.setComment, Reader.shift]
    by_cases h1 : r.started = true
    · rw [if_pos h1, if_pos h1]; exact ⟨rfl, hr⟩
    rw [if_neg h1, if_neg h1]
    by_cases h2 : s = []
    · rw [if_pos h2, if_pos h2]; exact ⟨rfl, hr⟩
    · rw [if_neg h2, if_neg h2]; exact ⟨rfl, hr⟩
  | names l =>
    simp only [Reader.ask, Reader.fixNames, Reader.shift]
    by_cases h1 : r.started = true
    · rw [if_pos h1, if_pos h1]; exact ⟨rfl, hr⟩
    rw [if_neg h1, if_neg h1]
    cases fixLoop l [] with
    | ok _ =>
      simp only
      by_cases h2 : l ≠ [] ∧ r.types ≠ [] ∧ l.length ≠ r.types.length
      · rw [if_pos h2, if_pos h2]; exact ⟨rfl, hr⟩
      · rw [if_neg h2, if_neg h2]; exact ⟨rfl, hr⟩
    | throw e => exact ⟨rfl, hr⟩
    | ub => exact ⟨rfl, hr⟩
  | types l =>
    simp only [Reader.ask, Reader.fixTypes, Reader.shift]
    by_cases h1 : r.started = true
    · rw [if_pos h1, if_pos h1]; exact ⟨rfl, hr⟩
    rw [if_neg h1, if_neg h1]
    by_cases h2 : r.names ≠ [] ∧ l ≠ [] ∧ r.names.length ≠ l.length
    · rw [if_pos h2, if_pos h2]; exact ⟨rfl, hr⟩
    · rw [if_neg h2, if_neg h2]; exact ⟨rfl, hr⟩
  | getInfo =>
    simp only [Reader.ask]
    rw [hci.1]
    exact ⟨rfl, hci.2⟩
  | read n =>
    simp only [Reader.ask, Reader.read]
    rw [hci.1]
    have h2 := hci.2
    generalize r.readColumnInfo (text.drop p) = x at h2
    obtain ⟨r', o⟩ := x
    cases o with
    | throw e => exact ⟨rfl, h2⟩
    | ub => exact ⟨rfl, h2⟩
    | ok info =>
      simp only [Reader.shift]
      simp only at h2
      rw [whileLines_shift text p hp]
      refine ⟨rfl, ?_⟩
      have := whileLines_inside (text.drop p) (fun (a : Int × List (RowT F D)) => decide (a.1 ≠ 0)) (readBody fmt r'.comment info) (lineFuel (text.drop p)) r'.stream (n, [])
        (by omega)
      omega
  | skip n =>
    simp only [Reader.ask, Reader.skip]
    rw [hci.1]
    have h2 := hci.2
    generalize r.readColumnInfo (text.drop p) = x at h2
    obtain ⟨r', o⟩ := x
    cases o with
    | throw e => exact ⟨rfl, h2⟩
    | ub => exact ⟨rfl, h2⟩
    | ok info =>
      simp only [Reader.shift]
      simp only at h2
      rw [whileLines_shift text p hp]
      refine ⟨rfl, ?_⟩
      have := whileLines_inside (text.drop p) (fun (a : Int) => decide (a ≠ 0)) (fun a line => if dataLine r'.comment line = [] then .ok a else .ok (a - 1))
        (lineFuel (text.drop p)) r'.stream n (by omega)
      omega
  | hasMoreRows =>
    simp only [Reader.ask, Reader.hasMoreRows, Reader.shift]
    rw [afterTell_shift, whileLines_shift text p hp, s1]
    exact ⟨rfl, by rw [e1]; exact hr⟩
  | rowsLeft =>
    simp only [Reader.ask, Reader.rowsLeft, Reader.shift]
    rw [afterTell_shift, whileLines_shift text p hp, s1]
    exact ⟨rfl, by rw [e1]; exact hr⟩
  | getComment =>
    simp only [Reader.ask, Reader.getComment, Reader.shift]
    rw [commentLoop_shift text _ p hp]
    refine ⟨rfl, ?_⟩
    have := commentLoop_inside (text.drop p) r.comment (lineFuel (text.drop p)) r.stream [] (by omega)
    omega

end Alexandria.Table
