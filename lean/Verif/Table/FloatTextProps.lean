import Verif.Table.FloatTextModel
import Verif.Table.CastModel
import Verif.Table.WriterProps
import Verif.Common.FloatTextLemmas

/-!
# Floating point numbers in ASCII tables have six digits (C137)
-/

namespace Alexandria.Table

open Alexandria.Str Alexandria.FloatText

/-! ## Specification -/

/-- The numbers with at most six digits. -/
def SixDigits (d : Rat) : Prop := ∃ k j : Int, |k| < 10 ^ 6 ∧ d = (k : Rat) * 10 ^ j

/-- `d` is a number with at most six digits and none is nearer to `x`. -/
def Spec.Nearest6 (x d : Rat) : Prop := SixDigits d ∧ ∀ d', SixDigits d' → |d - x| ≤ |d' - x|

/-- The elements of cells before and after: numbers change by at most 5.1 millionths, everything else does not change. -/
def Spec.NearVal : (s : Scalar) → Val Rat Rat s → Val Rat Rat s → Prop
  | .f32, x, y => |y - x| ≤ |x| * (51 / 10 ^ 7)
  | .f64, x, y => |y - x| ≤ |x| * (51 / 10 ^ 7)
  | _, x, y => y = x

/-- Cells before and after. -/
inductive Spec.NearCell : Cell Rat Rat → Cell Rat Rat → Prop
  | scalar {s : Scalar} {x y : Val Rat Rat s} : Spec.NearVal s x y → Spec.NearCell (.scalar s x) (.scalar s y)
  | str (s : Bytes) : Spec.NearCell (.str s) (.str s)
  | vec {s : Scalar} {x y : List (Val Rat Rat s)} : List.Forall₂ (Spec.NearVal s) x y → Spec.NearCell (.vec s x) (.vec s y)
  | nd {s : Scalar} {shape : List Nat} {x y : List (Val Rat Rat s)} : List.Forall₂ (Spec.NearVal s) x y → Spec.NearCell (.nd s shape x) (.nd s shape y)

/-- Cells that can be written: `CellOk` without conditions on the numbers. -/
def CellShape : Cell Rat Rat → Prop
  | .scalar _ _ => True
  | .str s => s ≠ []
  | .vec _ v => v ≠ []
  | .nd s shape v => s ≠ .bool ∧ v ≠ [] ∧ shape ≠ [] ∧ (∀ n ∈ shape, n < 2 ^ 31) ∧ NdArray.accU32 shape = v.length

/-- `RowOk` without conditions on the numbers. -/
structure RowShape (cm : Bytes) (info : Info) (values : List (Cell Rat Rat)) : Prop where
  good : GoodCells info values
  cells : ∀ c ∈ values, CellShape c
  free : ∀ c ∈ values, ∀ s, printCell machineFmt c = .ok s → NoComment cm s
  first : ∀ c, values.head? = some c → FirstOk c

/-! ## Numbers -/

theorem io_text (x : Rat) : print 6 x ≠ [] ∧ ∀ c ∈ print 6 x, isSpace c = false ∧ c ≠ ',' ∧ c ≠ '"' := by
  obtain ⟨h1, h2⟩ := print_chars 6 x
  refine ⟨h1, fun c hc => ?_⟩
  rcases h2 c hc with h | rfl | rfl | rfl | rfl
  · refine ⟨isDigit_not_space h, ?_, ?_⟩ <;> (rintro rfl; exact absurd h (by decide))
  all_goals decide

/-- The text of a number is the decimal form of the nearest number with at most six digits. -/
theorem C137_text (x : Rat) : ∃ d, decimal? (print 6 x) = some d ∧ Spec.Nearest6 x d := by
  refine ⟨dec 6 x, decimal?_print (by norm_num) x, dec_form (by norm_num) x, ?_⟩
  rintro d' ⟨k, j, hk, rfl⟩
  exact dec_closest (by norm_num) x k j hk

/-- Every number is read back as the floating point number nearest to the nearest number with at most six digits, which is within 5.1 millionths of it. -/
theorem C137_read (p : Nat) (hp : 24 ≤ p) (x : Rat) :
    ∃ d, Spec.Nearest6 x d ∧ parse p (print 6 x) = some (Binary.rnd p d) ∧ |Binary.rnd p d - x| ≤ |x| * (51 / 10 ^ 7) := by
  refine ⟨dec 6 x, ⟨dec_form (by norm_num) x, ?_⟩, parse_print (by norm_num) p x, ?_⟩
  · rintro d' ⟨k, j, hk, rfl⟩
    exact dec_closest (by norm_num) x k j hk
  · have h1 := dec_rel (n := 6) (by norm_num) x
    have h2 := Binary.rnd_err p (dec 6 x)
    have h3 : ((1 : Rat) / 2) ^ p ≤ (1 / 2) ^ 24 := pow_le_pow_of_le_one (by norm_num) (by norm_num) hp
    have h4 : |dec 6 x| ≤ |x| + |dec 6 x - x| := by
      have := abs_add_le x (dec 6 x - x); rwa [add_sub_cancel] at this
    have h5 : |Binary.rnd p (dec 6 x) - x| ≤ |Binary.rnd p (dec 6 x) - dec 6 x| + |dec 6 x - x| := abs_sub_le _ _ _
    have h6 : |dec 6 x| * (1 / 2) ^ p ≤ |dec 6 x| * (1 / 2) ^ 24 := mul_le_mul_of_nonneg_left h3 (abs_nonneg _)
    have h7 := abs_nonneg x
    norm_num at h1 h6 ⊢
    linarith

/-- The text of what is read back is the same text: writing and reading again changes nothing more. -/
theorem C137_settled (p : Nat) (hp : 24 ≤ p) (x y : Rat) (h : parse p (print 6 x) = some y) : print 6 y = print 6 x ∧ parse p (print 6 y) = some y := by
  have hpow : 2 * 10 ^ 6 < 2 ^ p := lt_of_lt_of_le (by norm_num : 2 * 10 ^ 6 < 2 ^ 24) (Nat.pow_le_pow_right (by norm_num) hp)
  rw [parse_print (by norm_num), Option.some.injEq] at h
  have : print 6 y = print 6 x := by rw [← h]; exact print_congr (by norm_num) (by omega) hpow x
  exact ⟨this, by rw [this, parse_print (by norm_num), h]⟩

/-- The numbers that are read back exactly are those nearest to numbers with at most six digits. -/
theorem C137_exact (p : Nat) (hp : 24 ≤ p) (x : Rat) : parse p (print 6 x) = some x ↔ ∃ d, SixDigits d ∧ x = Binary.rnd p d := by
  have hpow : 2 * 10 ^ 6 < 2 ^ p := lt_of_lt_of_le (by norm_num : 2 * 10 ^ 6 < 2 ^ 24) (Nat.pow_le_pow_right (by norm_num) hp)
  rw [parse_print (by norm_num), Option.some.injEq]
  constructor
  · intro h
    exact ⟨dec 6 x, dec_form (by norm_num) x, h.symm⟩
  · rintro ⟨d, ⟨k, j, hk, rfl⟩, rfl⟩
    rw [dec_rnd (by norm_num) (by omega) hpow k j hk]

/-- Integers of up to six digits are read back. -/
theorem C137_integers (p : Nat) (hp : 24 ≤ p) (k : Int) (hk : |k| < 10 ^ 6) : parse p (print 6 (k : Rat)) = some (k : Rat) := by
  refine (C137_exact p hp k).2 ⟨k, ⟨k, 0, hk, by simp⟩, (Binary.rnd_of_rep (by omega) ⟨k, 0, ?_, by simp⟩).symm⟩
  exact le_trans hk.le (le_trans (by norm_num : (10 : Int) ^ 6 ≤ 2 ^ 24) (pow_le_pow_right₀ (by norm_num) hp))

/-- The condition of C43 on the numbers of a table. -/
theorem C137_ok (x : Rat) : (machineFmt.f32.Ok x ↔ ∃ d, SixDigits d ∧ x = Binary.rnd 24 d) ∧ (machineFmt.f64.Ok x ↔ ∃ d, SixDigits d ∧ x = Binary.rnd 53 d) :=
  ⟨⟨fun h => (C137_exact 24 (by norm_num) x).1 h.2.2, fun h => ⟨(io_text x).1, (io_text x).2, (C137_exact 24 (by norm_num) x).2 h⟩⟩,
    ⟨fun h => (C137_exact 53 (by norm_num) x).1 h.2.2, fun h => ⟨(io_text x).1, (io_text x).2, (C137_exact 53 (by norm_num) x).2 h⟩⟩⟩

/-- A number cast to a string and back, with a `strtod` that reads the texts of numbers: the same as written to a file and read back. -/
theorem C137_cast (conv : Conv Rat Rat) (hs : ∀ x, conv.strtod (print 6 x) = parse 53 (print 6 x)) (hh : ∀ x, conv.hugeD x = false) (x : Rat) :
    ∃ s y d, castTo conv machineFmt .str (.scalar .f64 x) = .ok (.str s) ∧ castTo conv machineFmt (.scalar .f64) (.str s) = .ok (.scalar .f64 y) ∧
      Spec.Nearest6 x d ∧ y = Binary.rnd 53 d ∧ |y - x| ≤ |x| * (51 / 10 ^ 7) := by
  obtain ⟨d, h1, h2, h3⟩ := C137_read 53 (by norm_num) x
  refine ⟨print 6 x, Binary.rnd 53 d, d, rfl, ?_, h1, rfl, h3⟩
  have hc : cstr (print 6 x) = print 6 x := List.takeWhile_eq_self_iff.2 fun c hc => by
    have := (print_chars 6 x).2 c hc
    simp only [ne_eq, decide_not, Bool.not_eq_true', decide_eq_false_iff_not]
    rintro rfl
    exact absurd this (by unfold TextChar; decide)
  have : castScalar conv .f64 (.str (print 6 x)) = .ok (Binary.rnd 53 d) := by
    simp only [castScalar]
    rw [hc, hs, h2]
    simp only [hh]
    rfl
  simp only [castTo]
  rw [this]
  rfl

/-! ## Tables -/

section maps
variable {F D : Type} (fmt : Fmt F D) (f : (s : Scalar) → Val F D s → Val F D s)

/-- Change the elements of a cell. -/
def Cell.mapVals : Cell F D → Cell F D
  | .scalar s v => .scalar s (f s v)
  | .str v => .str v
  | .vec s v => .vec s (v.map (f s))
  | .nd s shape v => .nd s shape (v.map (f s))

def RowT.mapVals (r : RowT F D) : RowT F D := ⟨r.values.map (Cell.mapVals f), r.info⟩

def TableT.mapVals (t : TableT F D) : TableT F D := ⟨t.rows.map (RowT.mapVals f), t.info⟩

variable {fmt f} (h : ∀ s v, printVal fmt s (f s v) = printVal fmt s v)
include h

theorem printCell_map (c : Cell F D) : printCell fmt (c.mapVals f) = printCell fmt c := by
  have hl : ∀ (s : Scalar) (v : List (Val F D s)), (v.map (f s)).map (printVal fmt s) = v.map (printVal fmt s) := fun s v => by
    rw [List.map_map]; exact List.map_congr_left fun x _ => h s x
  cases c with
  | scalar s v => simp only [Cell.mapVals, printCell, h]
  | str v => rfl
  | vec s v => simp only [Cell.mapVals, printCell, hl, List.map_eq_nil_iff]
  | nd s shape v => simp only [Cell.mapVals, printCell, hl, List.map_eq_nil_iff]

theorem widthLoop_map (ns : List Nat) : ∀ cs : List (Cell F D), widthLoop fmt ns (cs.map (Cell.mapVals f)) = widthLoop fmt ns cs := by
  induction ns with
  | nil => intro cs; simp only [widthLoop]
  | cons n ns ih =>
    intro cs
    cases cs with
    | nil => rfl
    | cons c cs => simp only [List.map_cons, widthLoop, printCell_map h, ih]

theorem widthsLoop_map (rs : List (RowT F D)) : ∀ ns, widthsLoop fmt (rs.map (RowT.mapVals f)) ns = widthsLoop fmt rs ns := by
  induction rs with
  | nil => intro ns; rfl
  | cons r rs ih => intro ns; simp only [List.map_cons, widthsLoop, RowT.mapVals, widthLoop_map h, ih]

theorem columnLengths_map (t : TableT F D) : columnLengths fmt (t.mapVals f) = columnLengths fmt t := by
  simp only [columnLengths, TableT.mapVals, widthsLoop_map h]

theorem cellsLine_map (cs : List (Cell F D)) : ∀ ns, cellsLine fmt ns (cs.map (Cell.mapVals f)) = cellsLine fmt ns cs := by
  induction cs with
  | nil => intro ns; rfl
  | cons c cs ih =>
    intro ns
    cases ns with
    | nil => rfl
    | cons n ns => simp only [List.map_cons, cellsLine, printCell_map h, ih]

theorem rowLines_map (ns : List Nat) (rs : List (RowT F D)) : rowLines fmt ns (rs.map (RowT.mapVals f)) = rowLines fmt ns rs := by
  induction rs with
  | nil => rfl
  | cons r rs ih => simp only [List.map_cons, rowLines, RowT.mapVals, cellsLine_map h, ih]

theorem addData_map (w : Writer) (t : TableT F D) : w.addData fmt (t.mapVals f) = w.addData fmt t := by
  have hi : (t.mapVals f).info = t.info := rfl
  have hr : (t.mapVals f).rows = t.rows.map (RowT.mapVals f) := rfl
  simp only [Writer.addData, Writer.init, Writer.append, columnLengths_map h, hr, rowLines_map h, hi]

/-- What is written depends on the texts of the elements only. -/
theorem addAll_map (ts : List (TableT F D)) : ∀ w : Writer, w.addAll fmt (ts.map (TableT.mapVals f)) = w.addAll fmt ts := by
  induction ts with
  | nil => intro w; rfl
  | cons t ts ih => intro w; simp only [List.map_cons, Writer.addAll, addData_map h, ih]

end maps

/-- The numbers as they are read back. -/
def settle : (s : Scalar) → Val Rat Rat s → Val Rat Rat s
  | .f32, x => Binary.rnd 24 (dec 6 x)
  | .f64, x => Binary.rnd 53 (dec 6 x)
  | .bool, x => x
  | .i32, x => x
  | .i64, x => x

theorem settle_print (s : Scalar) (v : Val Rat Rat s) : printVal machineFmt s (settle s v) = printVal machineFmt s v := by
  cases s with
  | f32 => exact print_congr (by norm_num) (by norm_num) (by norm_num) v
  | f64 => exact print_congr (by norm_num) (by norm_num) (by norm_num) v
  | bool => rfl
  | i32 => rfl
  | i64 => rfl

theorem settle_near (s : Scalar) (v : Val Rat Rat s) : Spec.NearVal s v (settle s v) := by
  have key : ∀ (p : Nat), 24 ≤ p → ∀ x : Rat, |Binary.rnd p (dec 6 x) - x| ≤ |x| * (51 / 10 ^ 7) := fun p hp x => by
    obtain ⟨d, _, h1, h2⟩ := C137_read p hp x
    rw [parse_print (by norm_num), Option.some.injEq] at h1
    rwa [h1]
  cases s with
  | f32 => exact key 24 (by norm_num) v
  | f64 => exact key 53 (by norm_num) v
  | bool => rfl
  | i32 => rfl
  | i64 => rfl

theorem settle_ok (s : Scalar) (v : Val Rat Rat s) : ValOk machineFmt s (settle s v) := by
  cases s with
  | f32 => exact (C137_ok _).1.2 ⟨dec 6 v, dec_form (by norm_num) v, rfl⟩
  | f64 => exact (C137_ok _).2.2 ⟨dec 6 v, dec_form (by norm_num) v, rfl⟩
  | bool => trivial
  | i32 => trivial
  | i64 => trivial

theorem settle_list (s : Scalar) (v : List (Val Rat Rat s)) : List.Forall₂ (Spec.NearVal s) v (v.map (settle s)) := by
  induction v with
  | nil => exact .nil
  | cons x v ih => exact .cons (settle_near s x) ih

theorem settle_cell (c : Cell Rat Rat) : Spec.NearCell c (c.mapVals settle) := by
  cases c with
  | scalar s v => exact .scalar (settle_near s v)
  | str v => exact .str v
  | vec s v => exact .vec (settle_list s v)
  | nd s shape v => exact .nd (settle_list s v)

theorem settle_cells (cs : List (Cell Rat Rat)) : List.Forall₂ Spec.NearCell cs (cs.map (Cell.mapVals settle)) := by
  induction cs with
  | nil => exact .nil
  | cons c cs ih => exact .cons (settle_cell c) ih

theorem settle_cellOk (c : Cell Rat Rat) (h : CellShape c) : CellOk machineFmt (c.mapVals settle) := by
  cases c with
  | scalar s v => exact settle_ok s v
  | str v => exact h
  | vec s v =>
    refine ⟨fun e => h (List.map_eq_nil_iff.1 e), fun x hx => ?_⟩
    obtain ⟨y, _, rfl⟩ := List.mem_map.1 hx
    exact settle_ok s y
  | nd s shape v =>
    obtain ⟨h1, h2, h3, h4, h5⟩ := h
    refine ⟨h1, by simpa using h2, h3, h4, by simpa using h5, fun x hx => ?_⟩
    obtain ⟨y, _, rfl⟩ := List.mem_map.1 hx
    exact settle_ok s y

theorem type_map (c : Cell Rat Rat) : (c.mapVals settle).type = c.type := by cases c <;> rfl

theorem settle_row (cm : Bytes) (info : Info) (values : List (Cell Rat Rat)) (h : RowShape cm info values) :
    RowOk machineFmt cm info (values.map (Cell.mapVals settle)) := by
  refine ⟨⟨?_, ?_⟩, ?_, ?_, ?_⟩
  · have := h.good.1
    rw [List.forall₂_map_left_iff]
    exact this.imp fun a b hab => by rw [type_map, hab]
  · intro s hs
    obtain ⟨c, hc, he⟩ := List.mem_map.1 hs
    cases c with
    | str v => exact h.good.2 s (by cases he; exact hc)
    | scalar _ _ => cases he
    | vec _ _ => cases he
    | nd _ _ _ => cases he
  · intro c hc
    obtain ⟨x, hx, rfl⟩ := List.mem_map.1 hc
    exact settle_cellOk x (h.cells x hx)
  · intro c hc s hs
    obtain ⟨x, hx, rfl⟩ := List.mem_map.1 hc
    rw [printCell_map settle_print] at hs
    exact h.free x hx s hs
  · intro c hc
    rw [List.head?_map] at hc
    obtain ⟨x, hx, rfl⟩ := Option.map_eq_some_iff.1 hc
    have := h.first x hx
    cases x <;> exact this

/-- A table with any numbers is written and read back: the columns, the rows and all the cells but the numbers are the same, the numbers are near. Writing what was
read gives the same text again, so that from then on nothing changes. -/
theorem C137_table (cm : Bytes) (hcm : CommentOk cm) (messages : List Bytes) (hm : ∀ m ∈ messages, MessageOk cm m)
    (t : TableT Rat Rat) (hi : GoodInfo t.info) (hd : ∀ d ∈ t.info, ColumnOk cm d)
    (hname : ∀ d, t.info.head? = some d → ¬ "Column:".toList <+: d.name)
    (hne : t.rows ≠ []) (hinfo : ∀ r ∈ t.rows, r.info = t.info) (hr : ∀ r ∈ t.rows, RowShape cm t.info r.values)
    (hplain : ∀ d ∈ t.info, (∀ c ∈ d.unit, isSpace c = false) ∧ CleanText d.description) :
    ∃ w t', (do let w ← ({ comment := cm } : Writer).addComments messages; w.addData machineFmt t) = .ok w ∧
      (({ comment := cm } : Reader).read machineFmt w.out (-1)).2 = .ok t' ∧
      t'.info = t.info ∧ List.Forall₂ (fun r r' => List.Forall₂ Spec.NearCell r.values r'.values) t.rows t'.rows ∧
      (do let w ← ({ comment := cm } : Writer).addComments messages; w.addData machineFmt t') = .ok w := by
  obtain ⟨w, h1, _, h3⟩ := C43_columns_partial machineFmt cm hcm messages hm (t.mapVals settle) [] hi hd hname
    (by simpa [TableT.mapVals] using hne)
    (fun x hx => by
      rw [List.mem_singleton] at hx
      subst hx
      refine ⟨rfl, fun r hrm => ?_⟩
      obtain ⟨y, hy, rfl⟩ := List.mem_map.1 hrm
      exact settle_row cm t.info y.values (hr y hy)) hplain
  have hall : ∀ (w : Writer) (x : TableT Rat Rat), w.addAll machineFmt [x] = w.addData machineFmt x := fun w x => by
    simp only [Writer.addAll]
    cases w.addData machineFmt x <;> rfl
  have hsame : (⟨([t.mapVals settle].flatMap TableT.rows).map (fun r => ⟨r.values, (t.mapVals settle).info⟩), (t.mapVals settle).info⟩ : TableT Rat Rat) = t.mapVals settle := by
    show (⟨_, _⟩ : TableT Rat Rat) = ⟨_, _⟩
    congr 1
    rw [List.flatMap_cons, List.flatMap_nil, List.append_nil]
    show (t.rows.map (RowT.mapVals settle)).map _ = t.rows.map (RowT.mapVals settle)
    rw [List.map_map]
    refine List.map_congr_left fun r hrm => ?_
    show (⟨_, t.info⟩ : RowT Rat Rat) = ⟨_, r.info⟩
    rw [hinfo r hrm]; rfl
  simp only [hall] at h1
  rw [hsame] at h3
  refine ⟨w, t.mapVals settle, by simpa only [addData_map settle_print] using h1, h3, rfl, ?_, h1⟩
  show List.Forall₂ _ t.rows (t.rows.map (RowT.mapVals settle))
  rw [List.forall₂_map_right_iff]
  exact List.forall₂_same.2 fun r _ => settle_cells r.values

/-! ## What is not read back -/

/-- The numbers of tables are read back: all the `double`s. -/
def C137_full : Prop := ∀ x : Rat, Binary.Rep 53 x → parse 53 (print 6 x) = some x

/-- The integer 1234567, which a `double` holds exactly, is written as `1.23457e+06` and read back as 1234570. -/
theorem C137_violated : ¬ C137_full := fun h => by
  have := h 1234567 ⟨1234567, 0, by decide, by norm_num⟩
  revert this
  decide +kernel

/-- Different numbers become equal: 1234567 and 1234568. -/
theorem C137_violated_equal : ¬ ∀ x y : Rat, Binary.Rep 53 x → Binary.Rep 53 y → x ≠ y → print 6 x ≠ print 6 y := fun h => by
  refine h 1234567 1234568 ⟨1234567, 0, by decide, by norm_num⟩ ⟨1234568, 0, by decide, by norm_num⟩ (by norm_num) ?_
  decide +kernel

example : print 6 1234567 = "1.23457e+06".toList ∧ parse 53 "1.23457e+06".toList = some 1234570 := ⟨by decide +kernel, by decide +kernel⟩

/-- A table of one number with ten digits: the hypotheses hold. -/
def piTable : TableT Rat Rat :=
  let info : Info := [⟨['x'], .scalar .f64, [], []⟩, ⟨['v'], .vec .f32, [], []⟩]
  ⟨[⟨[.scalar .f64 (3141592653 / 10 ^ 9), .vec .f32 [1 / 2, -123456789]], info⟩], info⟩

example : ∃ w t', (do let w ← ({ comment := ['#'] } : Writer).addComments []; w.addData machineFmt piTable) = .ok w ∧
      (({ comment := ['#'] } : Reader).read machineFmt w.out (-1)).2 = .ok t' ∧
      t'.info = piTable.info ∧ List.Forall₂ (fun r r' => List.Forall₂ Spec.NearCell r.values r'.values) piTable.rows t'.rows ∧
      (do let w ← ({ comment := ['#'] } : Writer).addComments []; w.addData machineFmt t') = .ok w := by
  refine C137_table ['#'] ⟨by decide, by decide⟩ [] (by simp) piTable ⟨by decide, by decide +kernel⟩ ?_ ?_ (by simp [piTable]) ?_ ?_ ?_
  · intro d hd
    simp only [piTable, List.mem_cons, List.not_mem_nil, or_false] at hd
    rcases hd with rfl | rfl
    · exact ⟨⟨by decide, by simp [OneLine]⟩, by simp, by decide, by decide,
        free_of_ok (x := "# Column: x double\n".toList.drop 1) (by decide +kernel) (fun c hc => by cases hc; decide +kernel)⟩
    · exact ⟨⟨by decide, by simp [OneLine]⟩, by simp, by decide, by decide,
        free_of_ok (x := "# Column: v [float]\n".toList.drop 1) (by decide +kernel) (fun c hc => by cases hc; decide +kernel)⟩
  · intro d hd
    simp only [piTable, List.head?_cons, Option.some.injEq] at hd
    subst hd
    decide +kernel
  · intro r hr
    simp only [piTable, List.mem_singleton] at hr
    subst hr
    rfl
  · intro r hr
    simp only [piTable, List.mem_singleton] at hr
    subst hr
    refine ⟨⟨.cons rfl (.cons rfl .nil), by simp⟩, ?_, ?_, ?_⟩
    · intro c hc
      simp only [List.mem_cons, List.not_mem_nil, or_false] at hc
      rcases hc with rfl | rfl
      · trivial
      · simp [CellShape]
    · intro c hc
      simp only [List.mem_cons, List.not_mem_nil, or_false] at hc
      rcases hc with rfl | rfl
      · exact free_of_ok (x := "3.14159".toList) (by decide +kernel) (fun c hc => by cases hc; decide +kernel)
      · exact free_of_ok (x := "0.5,-1.23457e+08".toList) (by decide +kernel) (fun c hc => by cases hc; decide +kernel)
    · intro c hc
      simp only [List.head?_cons, Option.some.injEq] at hc
      subst hc
      trivial
  · intro d hd
    simp only [piTable, List.mem_cons, List.not_mem_nil, or_false] at hd
    rcases hd with rfl | rfl <;> exact ⟨by simp, [], rfl, by simp⟩

end Alexandria.Table
