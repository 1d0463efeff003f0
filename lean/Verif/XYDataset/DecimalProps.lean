import Verif.XYDataset.AsciiParserProps
import Verif.Table.FloatTextProps
import Verif.Common.FloatTextExact

/-!
# The numbers of dataset files and the digits they need (C139)
-/

namespace Alexandria.XYDataset.AsciiIO

open Alexandria.Str Alexandria.Table Alexandria.FloatText Alexandria.XYDataset.AsciiIO.Spec

namespace Spec

/-- `x` is a `double` and none is nearer to `d`. -/
def NearestDouble (d x : Rat) : Prop := Binary.Rep 53 x ∧ ∀ y, Binary.Rep 53 y → |x - d| ≤ |y - d|

/-- A line with two decimal numbers, and the point nearest to them. -/
def DecimalPoint (line : Bytes) (p : Rat × Rat) : Prop :=
  ∃ a b u v, lineTokens line = [a, b] ∧ decimal? a = some u ∧ decimal? b = some v ∧ NearestDouble u p.1 ∧ NearestDouble v p.2

/-- The text of a file with comments and points, with `n` digits for each number. -/
def fileText (n : Nat) (comments : List Bytes) (points : List (Rat × Rat)) : Bytes :=
  (comments.map ('#' :: ·) ++ points.map fun p => print n p.1 ++ ' ' :: print n p.2).flatMap (· ++ ['\n'])

end Spec

/-! ## Lemmas -/

theorem splitChar_line (t r : Bytes) (h : '\n' ∉ t) : splitChar '\n' (t ++ '\n' :: r) = t :: splitChar '\n' r := by
  induction t with
  | nil => simp [splitChar]
  | cons c t ih =>
    simp only [List.mem_cons, not_or] at h
    rw [List.cons_append, splitChar, if_neg (fun e => h.1 e.symm), ih h.2]

theorem splitChar_lines (ls : List Bytes) (h : ∀ l ∈ ls, '\n' ∉ l) : splitChar '\n' (ls.flatMap (· ++ ['\n'])) = ls ++ [[]] := by
  induction ls with
  | nil => rfl
  | cons l ls ih =>
    rw [List.flatMap_cons, List.append_assoc, List.cons_append, List.nil_append, splitChar_line l _ (h l (by simp)),
      ih fun x hx => h x (by simp [hx]), List.cons_append]

theorem print_plain (n : Nat) (x : Rat) : print n x ≠ [] ∧ ∀ c ∈ print n x, isSpace c = false ∧ c ≠ '#' ∧ c ≠ '"' := by
  obtain ⟨h1, h2⟩ := print_chars n x
  refine ⟨h1, fun c hc => ?_⟩
  rcases h2 c hc with h | rfl | rfl | rfl | rfl
  · refine ⟨isDigit_not_space h, ?_, ?_⟩ <;> (rintro rfl; exact absurd h (by decide))
  all_goals decide

theorem findAux_none (s : Bytes) (h : '#' ∉ s) : ∀ i, findAux ['#'] s i = none := by
  induction s with
  | nil => intro i; rfl
  | cons c s ih =>
    intro i
    simp only [List.mem_cons, not_or] at h
    rw [findAux, if_neg, ih h.2]
    simpa using h.1

theorem point_line (n : Nat) (p : Rat × Rat) :
    dataLine ['#'] (print n p.1 ++ ' ' :: print n p.2) = print n p.1 ++ ' ' :: print n p.2 ∧ '\n' ∉ print n p.1 ++ ' ' :: print n p.2 ∧
    lineTokens (print n p.1 ++ ' ' :: print n p.2) = [print n p.1, print n p.2] ∧
    words (print n p.1 ++ ' ' :: print n p.2) = [print n p.1, print n p.2] ∧ isComment (print n p.1 ++ ' ' :: print n p.2) = false := by
  obtain ⟨a1, a2⟩ := print_plain n p.1
  obtain ⟨b1, b2⟩ := print_plain n p.2
  have hhash : '#' ∉ print n p.1 ++ ' ' :: print n p.2 := by
    simp only [List.mem_append, List.mem_cons, not_or]
    exact ⟨fun h => (a2 _ h).2.1 rfl, by decide, fun h => (b2 _ h).2.1 rfl⟩
  have hhead : ∀ c, (print n p.1 ++ ' ' :: print n p.2).head? = some c → isSpace c = false := fun c hc => by
    obtain ⟨d, t, hd⟩ := List.exists_cons_of_ne_nil a1
    rw [hd] at hc
    cases hc
    exact (a2 c (by rw [hd]; simp)).1
  refine ⟨?_, ?_, ?_, ?_, ?_⟩
  · have hf : find ['#'] (print n p.1 ++ ' ' :: print n p.2) = none := by
      simp only [find, Nat.zero_le, if_true, List.drop_zero]
      exact findAux_none _ hhash 0
    rw [dataLine, hf]
    simp only
    refine trim_eq hhead fun c hc => ?_
    rw [List.getLast?_append_of_ne_nil _ (by simp), List.getLast?_cons_of_ne_nil b1] at hc
    exact (b2 c (List.mem_of_getLast? hc)).1
  · simp only [List.mem_append, List.mem_cons, not_or]
    exact ⟨fun h => absurd (a2 _ h).1 (by decide), by decide, fun h => absurd (b2 _ h).1 (by decide)⟩
  · rw [lineTokens, readWord_plain _ _ a1 (fun c hc => (a2 c hc).1) (.inr ⟨_, rfl⟩)]
    simp only
    have hq := readQ_plain (print n p.2) [] b1 (fun c hc => (b2 c hc).1)
      (fun h => (b2 _ (List.mem_of_mem_head? h)).2.2 rfl) (.inl rfl)
    rw [List.append_nil] at hq
    have hs : readQ (' ' :: print n p.2) = (print n p.2, some []) := by
      have := readQ_spaces 1 (print n p.2)
      rw [hq] at this
      exact this
    rw [tokens, List.length_cons, tokensQ, hs]
    simp only
    rw [tokensQ]
    rfl
  · rw [words, splitCompress]
    have := splitGo_join (sep := isSpace) (ss := [' ']) (by simp) (by simp [isSpace]) (toks := [print n p.1, print n p.2]) (by simp)
      (by
        intro t ht
        simp only [List.mem_cons, List.not_mem_nil, or_false] at ht
        rcases ht with rfl | rfl
        · exact ⟨a1, fun c hc => (a2 c hc).1⟩
        · exact ⟨b1, fun c hc => (b2 c hc).1⟩) false
    have e : [' '].intercalate [print n p.1, print n p.2] = print n p.1 ++ ' ' :: print n p.2 := by simp [List.intercalate]
    rw [e] at this
    rw [this, List.filter_eq_self]
    intro t ht
    simp only [List.mem_cons, List.not_mem_nil, or_false] at ht
    rcases ht with rfl | rfl
    · simpa using a1
    · simpa using b1
  · rw [isComment, dropWhile_none hhead]
    have : (print n p.1 ++ ' ' :: print n p.2).head? ≠ some '#' := fun h => hhash (List.mem_of_mem_head? h)
    simpa using this

theorem fileText_lines (n : Nat) (comments : List Bytes) (hc : ∀ c ∈ comments, '\n' ∉ c) (points : List (Rat × Rat)) :
    splitChar '\n' (fileText n comments points) =
      (comments.map ('#' :: ·) ++ points.map fun p => print n p.1 ++ ' ' :: print n p.2) ++ [[]] := by
  refine splitChar_lines _ fun l hl => ?_
  rcases List.mem_append.1 hl with h | h
  · obtain ⟨c, hcm, rfl⟩ := List.mem_map.1 h
    simp only [List.mem_cons, not_or]
    exact ⟨by decide, hc c hcm⟩
  · obtain ⟨p, _, rfl⟩ := List.mem_map.1 h
    exact (point_line n p).2.1

theorem fileText_data (n : Nat) (comments : List Bytes) (hc : ∀ c ∈ comments, '\n' ∉ c) (points : List (Rat × Rat)) :
    dataLines ['#'] (fileText n comments points) = points.map fun p => print n p.1 ++ ' ' :: print n p.2 := by
  rw [dataLines, fileText_lines n comments hc, List.map_append, List.map_append, List.filter_append, List.filter_append]
  have h1 : ((comments.map ('#' :: ·)).map (dataLine ['#'])).filter (fun l => l ≠ []) = [] := by
    rw [List.filter_eq_nil_iff]
    intro l hl
    simp only [List.mem_map, exists_exists_and_eq_and] at hl
    obtain ⟨c, _, rfl⟩ := hl
    have : find ['#'] ('#' :: c) = some 0 := by
      simp only [find, Nat.zero_le, if_true, List.drop_zero]
      exact findAux_here ['#'] c 0
    rw [dataLine, this]
    simp [trim]
  have h2 : ((points.map fun p => print n p.1 ++ ' ' :: print n p.2).map (dataLine ['#'])).filter (fun l => l ≠ []) =
      points.map fun p => print n p.1 ++ ' ' :: print n p.2 := by
    rw [List.map_map, List.filter_eq_self.2]
    · exact List.map_congr_left fun p _ => (point_line n p).1
    · intro l hl
      obtain ⟨p, _, rfl⟩ := List.mem_map.1 hl
      simp [(point_line n p).1]
  rw [h1, h2]
  have h3 : ([[]].map (dataLine ['#'])).filter (fun l => l ≠ []) = [] := by decide
  rw [h3]
  simp

theorem firstData_append (hs : List Bytes) (hh : ∀ l ∈ hs, isComment l = true) (l : Bytes) (ls : List Bytes) (hl : l ≠ []) (hc : isComment l = false)
    (hls : ls ≠ []) : firstData (hs ++ l :: ls) = (l, true) := by
  induction hs with
  | nil =>
    obtain ⟨x, xs, rfl⟩ := List.exists_cons_of_ne_nil hls
    rw [List.nil_append, firstData, if_neg]
    · simp [hl, hc]
    · simp
  | cons h hs ih =>
    obtain ⟨x, xs, hx⟩ := List.exists_cons_of_ne_nil (show hs ++ l :: ls ≠ [] by simp)
    rw [List.cons_append, hx, firstData, if_pos (.inr (hh h (by simp))), ← hx]
    · exact ih fun y hy => hh y (by simp [hy])
    · simp

theorem machine_noQuotes : NoQuotes machineFmt := fun s x h hs => by
  cases s with
  | nil => cases hs
  | cons c s =>
    cases hs
    have h' : (decimal? ('"' :: s)).map (Binary.rnd 53) = some x := h
    have : decimal? ('"' :: s) = none := by
      have hm : mantissa? (('"' :: s).takeWhile fun c => !isExp c) = none := by
        rw [List.takeWhile_cons_of_pos (by decide), mantissa?, List.takeWhile_cons_of_pos (by decide)]
        simp [digits?]
      show unsigned? ('"' :: s) = none
      rw [unsigned?, hm]
    rw [this] at h'
    cases h'

/-! ## C139 -/

/-- The points of a dataset are the `double`s nearest to the decimal numbers in the file: every data line of a file that is read has two of them. -/
theorem C139_points (text : Bytes) (l : List (Rat × Rat)) (h : getDataset machineFmt (some text) = .ok (some l)) :
    l ≠ [] ∧ List.Forall₂ DecimalPoint (dataLines ['#'] text) l := by
  obtain ⟨h1, h2⟩ := C112_points machineFmt text l h
  refine ⟨h1, h2.imp ?_⟩
  rintro line p ⟨a, b, ht, ha, hb⟩
  have near : ∀ (s : Bytes) (x : Rat), machineFmt.f64.parse s = some x → ∃ d, decimal? s = some d ∧ NearestDouble d x := fun s x hx => by
    obtain ⟨d, h3, rfl⟩ := Option.map_eq_some_iff.1 (show (decimal? s).map (Binary.rnd 53) = some x from hx)
    exact ⟨d, h3, Binary.rnd_rep (by norm_num) d, fun y hy => rnd_nearest (by norm_num) d hy⟩
  obtain ⟨u, hu, nu⟩ := near a _ ha
  obtain ⟨v, hv, nv⟩ := near b _ hb
  exact ⟨a, b, u, v, ht, hu, hv, nu, nv⟩

/-- A `double` with at least seventeen digits is read back exactly, a `float` with at least nine. -/
theorem C139_digits (x : Rat) (n : Nat) :
    (17 ≤ n → Binary.Rep 53 x → parse 53 (print n x) = some x) ∧ (9 ≤ n → Binary.Rep 24 x → parse 24 (print n x) = some x) := by
  constructor
  · intro hn hx
    refine parse_print_exact (by omega) (by norm_num) ?_ hx
    exact lt_of_lt_of_le (by norm_num : 2 ^ 53 < 10 ^ 16) (Nat.pow_le_pow_right (by norm_num) (by omega))
  · intro hn hx
    refine parse_print_exact (by omega) (by norm_num) ?_ hx
    exact lt_of_lt_of_le (by norm_num : 2 ^ 24 < 10 ^ 8) (Nat.pow_le_pow_right (by norm_num) (by omega))

/-- A file with any comments that are a plain header and any points with at least seventeen digits is accepted as a dataset file and gives exactly these
points. -/
theorem C139_file (n : Nat) (hn : 17 ≤ n) (comments : List Bytes) (hc : ∀ c ∈ comments, '\n' ∉ c) (points : List (Rat × Rat)) (hne : points ≠ [])
    (hp : ∀ p ∈ points, Binary.Rep 53 p.1 ∧ Binary.Rep 53 p.2) (hh : PlainHeader (fileText n comments points)) :
    isDatasetFile (fun s => (machineFmt.f64.parse s).isSome) (fileText n comments points) = true ∧
    getDataset machineFmt (some (fileText n comments points)) = .ok (some points) := by
  have hx : ∀ x, Binary.Rep 53 x → machineFmt.f64.parse (print n x) = some x := fun x => (C139_digits x n).1 hn
  constructor
  · obtain ⟨p, ps, rfl⟩ := List.exists_cons_of_ne_nil hne
    obtain ⟨h1, h2⟩ := hp p (by simp)
    have hl := point_line n p
    rw [isDatasetFile, fileText_lines n comments hc, List.map_cons, List.append_assoc, List.cons_append, firstData_append]
    · simp [hl.2.2.2.1, hx _ h1, hx _ h2]
    · intro l hl
      obtain ⟨c, _, rfl⟩ := List.mem_map.1 hl
      simp [isComment, isSpace]
    · simp
    · exact hl.2.2.2.2
    · simp
  · rw [C112_dataset_partial machineFmt machine_noQuotes _ hh]
    refine ⟨hne, ?_⟩
    rw [fileText_data n comments hc, List.forall₂_map_left_iff, List.forall₂_same]
    intro p hpm
    obtain ⟨h1, h2⟩ := hp p hpm
    exact ⟨_, _, (point_line n p).2.2.1, hx _ h1, hx _ h2⟩

/-- Sixteen digits are not enough: `0.1 + 0.2` is printed as 0.3, which is another number. -/
theorem C139_sixteen : ∃ x : Rat, Binary.Rep 53 x ∧ parse 53 (print 16 x) ≠ some x :=
  ⟨Binary.rnd 53 (Binary.rnd 53 (1 / 10) + Binary.rnd 53 (2 / 10)), Binary.rnd_rep (by norm_num) _, by decide +kernel⟩

/-- And eight for `float`. -/
theorem C139_eight : ∃ x : Rat, Binary.Rep 24 x ∧ parse 24 (print 8 x) ≠ some x :=
  ⟨1000 + 1 / 16384, ⟨16384000 + 1, -14, by decide, by norm_num⟩, by decide +kernel⟩

/-- The text forms with seventeen and nine digits: what the writer of ASCII tables would have with `max_digits10` as the precision of its streams. -/
def wideFmt : Fmt Rat Rat := ⟨⟨print 9, parse 24⟩, ⟨print 17, parse 53⟩⟩

/-- With these digits every `float` and `double` meets the condition of C43. -/
theorem C139_repair (x : Rat) : (Binary.Rep 24 x → wideFmt.f32.Ok x) ∧ (Binary.Rep 53 x → wideFmt.f64.Ok x) := by
  have text : ∀ n, print n x ≠ [] ∧ ∀ c ∈ print n x, isSpace c = false ∧ c ≠ ',' ∧ c ≠ '"' := fun n => by
    obtain ⟨h1, h2⟩ := print_chars n x
    refine ⟨h1, fun c hc => ?_⟩
    rcases h2 c hc with h | rfl | rfl | rfl | rfl
    · refine ⟨isDigit_not_space h, ?_, ?_⟩ <;> (rintro rfl; exact absurd h (by decide))
    all_goals decide
  exact ⟨fun h => ⟨(text 9).1, (text 9).2, (C139_digits x 9).2 le_rfl h⟩, fun h => ⟨(text 17).1, (text 17).2, (C139_digits x 17).1 le_rfl h⟩⟩

/-- The numbers in a cell are of its type. -/
def Spec.OfType : Cell Rat Rat → Prop
  | .scalar .f32 x => Binary.Rep 24 x
  | .scalar .f64 x => Binary.Rep 53 x
  | .vec .f32 v => ∀ x ∈ v, Binary.Rep 24 x
  | .vec .f64 v => ∀ x ∈ v, Binary.Rep 53 x
  | .nd .f32 _ v => ∀ x ∈ v, Binary.Rep 24 x
  | .nd .f64 _ v => ∀ x ∈ v, Binary.Rep 53 x
  | _ => True

theorem ofType_ok (c : Cell Rat Rat) (h1 : CellShape c) (h2 : Spec.OfType c) : CellOk wideFmt c := by
  have h32 : ∀ x, Binary.Rep 24 x → wideFmt.f32.Ok x := fun x => (C139_repair x).1
  have h64 : ∀ x, Binary.Rep 53 x → wideFmt.f64.Ok x := fun x => (C139_repair x).2
  cases c with
  | scalar s v =>
    cases s with
    | f32 => exact h32 v h2
    | f64 => exact h64 v h2
    | _ => trivial
  | str s => exact h1
  | vec s v =>
    refine ⟨h1, fun x hx => ?_⟩
    cases s with
    | f32 => exact h32 x (h2 x hx)
    | f64 => exact h64 x (h2 x hx)
    | _ => trivial
  | nd s shape v =>
    obtain ⟨a, b, c, d, e⟩ := h1
    refine ⟨a, b, c, d, e, fun x hx => ?_⟩
    cases s with
    | f32 => exact h32 x (h2 x hx)
    | f64 => exact h64 x (h2 x hx)
    | _ => trivial

/-- The repair of C137: with these digits, tables whose names, units, descriptions and strings meet the conditions of C43 are read back unchanged, whatever
their numbers. -/
theorem C139_table (cm : Bytes) (hcm : CommentOk cm) (messages : List Bytes) (hm : ∀ m ∈ messages, MessageOk cm m)
    (t : TableT Rat Rat) (ts : List (TableT Rat Rat)) (hi : GoodInfo t.info) (hd : ∀ d ∈ t.info, ColumnOk cm d)
    (hname : ∀ d, t.info.head? = some d → ¬ "Column:".toList <+: d.name) (hne : t.rows ≠ [])
    (hr : ∀ x ∈ t :: ts, Agree t.info x.info ∧ ∀ r ∈ x.rows, GoodCells x.info r.values ∧ (∀ c ∈ r.values, CellShape c ∧ Spec.OfType c) ∧
      (∀ c ∈ r.values, ∀ s, printCell wideFmt c = .ok s → NoComment cm s) ∧ ∀ c, r.values.head? = some c → FirstOk c)
    (hplain : ∀ d ∈ t.info, (∀ c ∈ d.unit, isSpace c = false) ∧ CleanText d.description) :
    ∃ w, (do let w ← ({ comment := cm } : Writer).addComments messages; w.addAll wideFmt (t :: ts)) = .ok w ∧
      (({ comment := cm } : Reader).read wideFmt w.out (-1)).2 = .ok ⟨((t :: ts).flatMap TableT.rows).map (fun r => ⟨r.values, t.info⟩), t.info⟩ := by
  obtain ⟨w, h1, _, h3⟩ := C43_columns_partial wideFmt cm hcm messages hm t ts hi hd hname hne
    (fun x hx => ⟨(hr x hx).1, fun r hrm => by
      obtain ⟨a, b, c, d⟩ := (hr x hx).2 r hrm
      exact ⟨a, fun y hy => ofType_ok y (b y hy).1 (b y hy).2, c, d⟩⟩) hplain
  exact ⟨w, h1, h3⟩

/-! ## Examples -/

/-- A number that the writer of C137 loses. -/
example : Spec.OfType (.scalar .f64 (1234567 : Rat)) ∧ CellShape (.scalar .f64 (1234567 : Rat)) ∧ print 17 1234567 = "1234567".toList :=
  ⟨⟨1234567, 0, by decide, by norm_num⟩, trivial, by decide +kernel⟩

example : fileText 17 [" NAME : a".toList] [(1 / 2, 3), (Binary.rnd 53 (1 / 10), -2)] = "# NAME : a\n0.5 3\n0.10000000000000001 -2\n".toList := by decide +kernel
example : getDataset machineFmt (some "# NAME : a\n0.5 3\n0.10000000000000001 -2\n".toList) = .ok (some [(1 / 2, 3), (Binary.rnd 53 (1 / 10), -2)]) := by
  decide +kernel
/-- A header that is plain. -/
example : PlainHeader (fileText 17 [" NAME : a".toList] [(1 / 2, 3), (Binary.rnd 53 (1 / 10), -2)]) := by
  have hc : headerComments ['#'] (fileText 17 [" NAME : a".toList] [(1 / 2, 3), (Binary.rnd 53 (1 / 10), -2)]) = ["NAME : a".toList] := by decide +kernel
  have hl : lastWords ["NAME : a".toList] = ["NAME".toList, [':'], ['a']] := by decide +kernel
  refine ⟨by rw [hc]; decide, fun a b h => ?_⟩
  rw [hc, hl] at h
  cases h

end Alexandria.XYDataset.AsciiIO
