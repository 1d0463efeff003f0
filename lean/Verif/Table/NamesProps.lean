import Verif.Table.WriterLemmas

/-!
# The names of the columns of a text (C98)
-/

namespace Alexandria.Table

open Alexandria.Str

/-! ## Specification -/

/-- The comments before the data, without the comment indicator. -/
def headerComments (comment text : Bytes) : List Bytes :=
  ((((splitChar '\n' text).map trim).filter fun l => l ≠ []).takeWhile fun l => comment.isPrefixOf l).map fun l => trim (removeAll comment 0 l)

/-- The words of the last comment that is not empty. -/
def lastWords (comments : List Bytes) : List Bytes :=
  match (comments.filter fun l => l ≠ []).getLast? with
  | some l => tokens l
  | none => []

/-- The names in the comments that describe columns. -/
def describedNames (comments : List Bytes) : List Bytes :=
  (comments.filter fun l => "Column:".toList.isPrefixOf l).map fun l => (trim (l.drop 7)).takeWhile fun c => c ≠ ' '

/-- The names for `n` columns: the words of the last comment if their number is right, or else those of the descriptions, followed by `col` and a number. -/
def columnNames (comments : List Bytes) (n : Nat) : List Bytes :=
  let names := if (lastWords comments).length = n ∧ n ≠ 0 then lastWords comments else describedNames comments
  names ++ ((List.range n).drop names.length).map fun i => "col".toList ++ showNat (i + 1)

/-! ## Lemmas -/

theorem findAux_absent {c : Char} : ∀ (s : Bytes) (p : Nat), c ∉ s → findAux [c] s p = none := by
  intro s
  induction s with
  | nil => intro p _; simp [findAux]
  | cons d s ih =>
    intro p h
    rw [findAux, if_neg, ih _ fun hm => h (List.mem_cons_of_mem _ hm)]
    simp only [List.isPrefixOf, Bool.and_true, beq_iff_eq]
    intro e
    exact h (by simp [e])

theorem firstWord (t : Bytes) (h : t.head? ≠ some ' ') :
    (match find [' '] t with | some (i + 1) => t.take (i + 1) | _ => t) = t.takeWhile fun c => c ≠ ' ' := by
  by_cases hm : ' ' ∈ t
  · obtain ⟨x, y, rfl, hx⟩ := List.eq_append_cons_of_mem hm
    have hf : find [' '] (x ++ ' ' :: y) = some x.length := by
      have := find_char (a := []) (y := y) hx
      simpa using this
    have htw : (x ++ ' ' :: y).takeWhile (fun c => decide (c ≠ ' ')) = x := by
      rw [List.takeWhile_append_of_pos (by
        intro c hc
        have : c ≠ ' ' := fun e => hx (e ▸ hc)
        simpa using this)]
      simp
    rw [hf, htw]
    cases x with
    | nil => exact absurd rfl h
    | cons c x => simp
  · have hf : find [' '] t = none := by
      rw [find, if_pos (Nat.zero_le _), List.drop_zero, findAux_absent t 0 hm]
    rw [hf, List.takeWhile_eq_self_iff.2]
    intro c hc
    have : c ≠ ' ' := fun e => hm (e ▸ hc)
    simpa using this

theorem trim_head (s : Bytes) : (trim s).head? ≠ some ' ' := by
  intro e
  have h := rtrim_head (s.dropWhile isSpace) (fun c hc => by
    have := List.head?_dropWhile_not isSpace s
    rw [hc] at this
    simpa using this) ' ' (by rw [← trim_rtrim]; exact e)
  simp [isSpace] at h

/-- The loop over the lines of the header. -/
theorem names_loop (comment : Bytes) : ∀ (lines : List Bytes) (a : NamesSt), a.done = false →
    ∃ a', (loop (fun (a : NamesSt) => !a.done) (namesBody comment) lines a).2 = .ok a' ∧
      a'.last = ((((((lines.map trim).filter fun l => l ≠ []).takeWhile fun l => comment.isPrefixOf l).map fun l => trim (removeAll comment 0 l)).filter fun l => l ≠ []).getLast?).getD a.last ∧
      a'.descNames = a.descNames ++ describedNames ((((lines.map trim).filter fun l => l ≠ []).takeWhile fun l => comment.isPrefixOf l).map fun l => trim (removeAll comment 0 l)) := by
  intro lines
  induction lines with
  | nil => intro a _; exact ⟨a, rfl, rfl, by simp [describedNames]⟩
  | cons l lines ih =>
    intro a ha
    rw [loop, if_pos (by simp [ha]), namesBody]
    by_cases h1 : trim l = []
    · simp only [h1, if_true]
      obtain ⟨a', e1, e2, e3⟩ := ih a ha
      refine ⟨a', e1, ?_, ?_⟩
      · rw [e2]; simp [h1]
      · rw [e3]; simp [h1]
    · simp only [h1, if_false]
      by_cases h2 : comment <+: trim l
      · have h2' : comment.isPrefixOf (trim l) = true := List.isPrefixOf_iff_prefix.2 h2
        simp only [h2, if_true]
        generalize hw : trim (removeAll comment 0 (trim l)) = w
        have hlist : ((((l :: lines).map trim).filter fun l => l ≠ []).takeWhile fun l => comment.isPrefixOf l).map (fun l => trim (removeAll comment 0 l)) =
            w :: ((((lines.map trim).filter fun l => l ≠ []).takeWhile fun l => comment.isPrefixOf l).map fun l => trim (removeAll comment 0 l)) := by
          simp [h1, h2', hw]
        rw [hlist]
        generalize hrest : ((((lines.map trim).filter fun l => l ≠ []).takeWhile fun l => comment.isPrefixOf l).map fun l => trim (removeAll comment 0 l)) = rest at ih
        have hlast : ((((w :: rest).filter fun l => l ≠ []).getLast?).getD a.last) = ((rest.filter fun l => l ≠ []).getLast?).getD (if w = [] then a.last else w) := by
          by_cases hwn : w = []
          · simp [hwn]
          · rw [if_neg hwn, List.filter_cons_of_pos (by simpa using hwn), List.getLast?_cons, Option.getD_some]
        rw [hlast]
        by_cases h3 : "Column:".toList <+: w
        · rw [if_pos h3]
          simp only
          have hfw : (match find [' '] (trim (w.drop 7)) with | some (i + 1) => (trim (w.drop 7)).take (i + 1) | _ => trim (w.drop 7)) = (trim (w.drop 7)).takeWhile fun c => c ≠ ' ' :=
            firstWord _ (trim_head _)
          obtain ⟨a', e1, e2, e3⟩ := ih { a with last := if w = [] then a.last else w, descNames := a.descNames ++ [(trim (w.drop 7)).takeWhile fun c => c ≠ ' '] } ha
          refine ⟨a', by rw [← hfw] at e1; exact e1, e2, ?_⟩
          rw [e3, describedNames, describedNames, List.filter_cons_of_pos (List.isPrefixOf_iff_prefix.2 h3), List.map_cons]
          simp
        · rw [if_neg h3]
          simp only
          obtain ⟨a', e1, e2, e3⟩ := ih { a with last := if w = [] then a.last else w } ha
          refine ⟨a', e1, e2, ?_⟩
          rw [e3, describedNames, describedNames, List.filter_cons_of_neg (by rw [List.isPrefixOf_iff_prefix]; exact h3)]
      · have h2' : comment.isPrefixOf (trim l) = false := by
          rw [Bool.eq_false_iff, ne_eq, List.isPrefixOf_iff_prefix]; exact h2
        simp only [h2, if_false]
        refine ⟨{ a with done := true }, loop_stop _ _ _ _ rfl, ?_, ?_⟩
        · simp [h1, h2']
        · simp [h1, h2', describedNames]

theorem chooseNames_eq (a : NamesSt) (comments : List Bytes) (n : Nat) (h1 : a.last = ((comments.filter fun l => l ≠ []).getLast?).getD []) (h2 : a.descNames = describedNames comments) :
    chooseNames a n = columnNames comments n := by
  have hlast : (if a.last = [] then [] else if (tokens a.last).length = n then tokens a.last else []) = if (lastWords comments).length = n then lastWords comments else [] := by
    rw [h1, lastWords]
    cases hg : (comments.filter fun l => decide (l ≠ [])).getLast? with
    | none => simp
    | some w =>
      have hw : w ≠ [] := by
        have := List.mem_of_getLast? hg
        rw [List.mem_filter] at this
        simpa using this.2
      simp [hw]
  have htail : ∀ k, (List.range' (k + 1) (n - k)).map (fun i => "col".toList ++ showNat i) = ((List.range n).drop k).map fun i => "col".toList ++ showNat (i + 1) := by
    intro k
    apply List.ext_getElem?
    intro i
    simp only [List.getElem?_map, List.getElem?_drop]
    by_cases hi : i < n - k
    · rw [List.getElem?_range' (by omega), List.getElem?_range (by omega)]
      simp only [Option.map_some]
      congr 3; omega
    · rw [List.getElem?_eq_none (by simp; omega), List.getElem?_eq_none (by simp; omega)]
      rfl
  rw [chooseNames, columnNames]
  rw [hlast, htail]
  have : (if (if (lastWords comments).length = n then lastWords comments else []) = [] then a.descNames else (if (lastWords comments).length = n then lastWords comments else [])) =
      if (lastWords comments).length = n ∧ n ≠ 0 then lastWords comments else describedNames comments := by
    rw [h2]
    by_cases hl : (lastWords comments).length = n
    · rw [if_pos hl]
      by_cases hn : n = 0
      · rw [if_pos (List.length_eq_zero_iff.1 (by omega)), if_neg (by simp [hn])]
      · rw [if_neg (fun e => hn (by rw [← hl, e]; rfl)), if_pos ⟨hl, hn⟩]
    · rw [if_neg hl, if_pos rfl, if_neg fun h => hl h.1]
  rw [this]

/-! ## Property -/

/-- The names that are detected are those of the specification, and the text is rejected exactly if they are not distinct. -/
theorem C98_names (text comment : Bytes) (n : Nat) :
    ((columnNames (headerComments comment text) n).Nodup → detectNames text comment n {} = .ok (columnNames (headerComments comment text) n)) ∧
    (¬ (columnNames (headerComments comment text) n).Nodup → detectNames text comment n {} = .throw .elements) := by
  have hw := whileLines_eq text (fun (a : NamesSt) => !a.done) (namesBody comment) (fun a => rfl) (lineFuel text) (afterTell {}) {} (fuel_ok _ _)
  have hat : afterTell ({} : Stream) = {} := by decide
  have hleft : linesLeft text {} = splitChar '\n' text := by rw [linesLeft, if_neg (by simp)]; rfl
  obtain ⟨a, e1, e2, e3⟩ := names_loop comment (splitChar '\n' text) {} rfl
  rw [List.nil_append] at e3
  rw [detectNames, hw.1, hat, hleft, e1]
  simp only
  rw [chooseNames_eq a (headerComments comment text) n e2 e3]
  constructor
  · intro h
    rw [(uniqueLoop_iff _ []).2 ⟨h, by simp⟩]
    rfl
  · intro h
    rw [(uniqueLoop_out _ []).resolve_left fun hx => h ((uniqueLoop_iff _ []).1 hx).1]
    rfl

/-- Without comments before the data the names are `col1`, `col2` and so on. -/
theorem C98_default (text comment : Bytes) (n : Nat) (h : headerComments comment text = []) :
    columnNames (headerComments comment text) n = (List.range n).map fun i => "col".toList ++ showNat (i + 1) := by
  rw [h, columnNames]
  simp [lastWords, describedNames]

example : headerComments ['#'] "# Column: a int\n#\n# x y\n1 2\n# z".toList = ["Column: a int".toList, [], "x y".toList] := by decide +kernel
example : columnNames ["Column: a int".toList, [], "x y".toList] 2 = [['x'], ['y']] := by decide +kernel
example : columnNames ["Column: a int".toList, [], "x y".toList] 3 = [['a'], "col2".toList, "col3".toList] := by decide +kernel
example : detectNames "# Column: a int\n# x y\n1 2 3".toList ['#'] 3 {} = .ok [['a'], "col2".toList, "col3".toList] := by decide +kernel

end Alexandria.Table
