import Verif.Table.WriterLemmas

/-!
# Lemmas: the descriptions of the columns, the names and the rows of a written table as they are read
-/

namespace Alexandria.Table

open Alexandria.Str

variable {F D : Type}

/-! ## Keywords -/

theorem keyword_cases (t : CType) (h : typeToKeyword t = .ok (keyword t)) :
    keywordToType (keyword t) = .ok t ∧ keyword t ≠ [] ∧ (∀ c ∈ keyword t, isSpace c = false) ∧ (keyword t).head? ≠ some '"' ∧ ¬ ['('] <+: keyword t ∧ keyword t ≠ ['-'] := by
  cases t with
  | scalar s => cases s <;> decide
  | str => decide
  | vec s => cases s <;> decide
  | nd s => cases s with
    | bool => cases h
    | _ => decide
  | other _ => cases h

/-! ## Descriptions of columns -/

/-- A description that is left as it is: words, not beginning with a quote, with single spaces between them. -/
def CleanText (s : Bytes) : Prop :=
  ∃ ws : List Bytes, s = [' '].intercalate ws ∧ ∀ w ∈ ws, w ≠ [] ∧ (∀ c ∈ w, isSpace c = false) ∧ w.head? ≠ some '"'

theorem descriptionLoop_words : ∀ (ws : List Bytes) (fuel : Nat) (w : Bytes), (∀ w ∈ ws, w ≠ [] ∧ (∀ c ∈ w, isSpace c = false) ∧ w.head? ≠ some '"') →
    ws.length + 1 < fuel → descriptionLoop fuel w (some (ws.flatMap fun w => ' ' :: w)) = w ++ ' ' :: (ws.flatMap fun w => w ++ [' ']) := by
  intro ws
  induction ws with
  | nil =>
    intro fuel w _ hf
    obtain ⟨n, rfl⟩ : ∃ n, fuel = n + 2 := ⟨fuel - 2, by simp at hf; omega⟩
    rfl
  | cons v ws ih =>
    intro fuel w h hf
    obtain ⟨n, rfl⟩ : ∃ n, fuel = n + 1 := ⟨fuel - 1, by simp at hf; omega⟩
    have hv := h v (by simp)
    have hsep : Sep (ws.flatMap fun w => ' ' :: w) := by
      cases ws with
      | nil => exact Or.inl rfl
      | cons u us => exact Or.inr ⟨_, by rw [List.flatMap_cons, List.cons_append]⟩
    have hr : readQ ((v :: ws).flatMap fun w => ' ' :: w) = (v, some (ws.flatMap fun w => ' ' :: w)) := by
      have := readQ_spaces 1 (v ++ ws.flatMap fun w => ' ' :: w)
      rw [List.flatMap_cons, List.cons_append]
      have h2 : List.replicate 1 ' ' ++ (v ++ ws.flatMap fun w => ' ' :: w) = ' ' :: (v ++ ws.flatMap fun w => ' ' :: w) := rfl
      rw [h2] at this
      rw [this]
      exact readQ_plain v _ hv.1 hv.2.1 hv.2.2 hsep
    rw [descriptionLoop, hr]
    · simp only
      rw [ih n v (fun w hw => h w (List.mem_cons_of_mem _ hw)) (by simp at hf ⊢; omega)]
      simp

theorem intercalate_flatMap (w : Bytes) (ws : List Bytes) : [' '].intercalate (w :: ws) = w ++ ws.flatMap fun w => ' ' :: w := by
  induction ws generalizing w with
  | nil => simp
  | cons v ws ih => rw [List.intercalate_cons_cons, ih, List.flatMap_cons]; simp

theorem flatMap_shift (ws : List Bytes) (w : Bytes) : w ++ ' ' :: (ws.flatMap fun w => w ++ [' ']) = (w ++ ws.flatMap fun w => ' ' :: w) ++ [' '] := by
  induction ws generalizing w with
  | nil => simp
  | cons v ws ih =>
    rw [List.flatMap_cons, List.flatMap_cons]
    have := ih v
    simp only [List.append_assoc, List.nil_append, List.cons_append] at this ⊢
    rw [this]

theorem words_last (ws : List Bytes) (w : Bytes) (h : ∀ v ∈ w :: ws, v ≠ [] ∧ ∀ c ∈ v, isSpace c = false) :
    ∀ c, (w ++ ws.flatMap fun w => ' ' :: w).getLast? = some c → isSpace c = false := by
  induction ws generalizing w with
  | nil => intro c hc; simp only [List.flatMap_nil, List.append_nil] at hc; exact (h w (by simp)).2 c (List.mem_of_getLast? hc)
  | cons v ws ih =>
    intro c hc
    refine ih v (fun u hu => h u (List.mem_cons_of_mem _ hu)) c ?_
    rw [List.flatMap_cons, List.cons_append] at hc
    have hne : v ++ ws.flatMap (fun w => ' ' :: w) ≠ [] := by simp [(h v (by simp)).1]
    rw [List.getLast?_append] at hc
    cases hx : (v ++ ws.flatMap fun w => ' ' :: w).getLast? with
    | none => exact absurd (List.getLast?_eq_none_iff.1 hx) hne
    | some d =>
      rw [List.getLast?_cons, hx] at hc
      simpa using hc

theorem rtrim_eq (s : Bytes) (h : ∀ c, s.getLast? = some c → isSpace c = false) : rtrim s = s := by
  have := rtrim_append s [] h
  simpa [rtrim_nil] using this

theorem trim_tail_space (s : Bytes) (h1 : ∀ c, s.head? = some c → isSpace c = false) (h2 : ∀ c, s.getLast? = some c → isSpace c = false) (hne : s ≠ []) :
    trim (s ++ [' ']) = s := by
  rw [trim_rtrim, dropWhile_none, rtrim_append s _ h2]
  · have : rtrim [' '] = [] := rfl
    rw [this, List.append_nil]
  · intro c hc
    cases s with
    | nil => exact absurd rfl hne
    | cons d t => exact h1 c (by simpa using hc)

theorem sep_rtrim (s : Bytes) : Sep (rtrim (' ' :: s)) := by
  by_cases h : rtrim (' ' :: s) = []
  · exact Or.inl h
  · right
    have : rtrim (' ' :: s) <+: ' ' :: s := by
      rw [rtrim]
      have := List.dropWhile_suffix (p := isSpace) (l := (' ' :: s).reverse)
      have h2 := List.reverse_prefix.2 this
      rwa [List.reverse_reverse] at h2
    obtain ⟨c, t, ht⟩ := List.exists_cons_of_ne_nil h
    rw [ht] at this
    obtain ⟨u, hu⟩ := this
    rw [List.cons_append] at hu
    injection hu with h1 h2
    exact ⟨t, by rw [ht, h1]⟩

/-- The part of a description after the unit. -/
def tailPart (d : Desc) : Bytes := if d.description = [] then [] else " - ".toList ++ d.description

/-- The part of a description with the unit. -/
def unitPart (d : Desc) : Bytes := if d.unit = [] then [] else " (".toList ++ d.unit ++ [')']

theorem tail_rtrim (d : Desc) : Sep (rtrim (tailPart d)) := by
  rw [tailPart]
  split
  · exact Or.inl rfl
  · exact sep_rtrim _

/-- What is read after the unit. -/
theorem tail_ok (name : Bytes) (hn : name ≠ [] ∧ OneLine name) (type : CType) (unit : Bytes) (d : Desc) (fuel : Nat) (hf : d.description.length + 2 < fuel) :
    ∃ d', (let x := next (some (rtrim (tailPart d)))
      let y := if x.2.isSome ∧ x.1 = ['-'] then next x.2 else x
      mkDesc name type unit (trim (descriptionLoop fuel y.1 y.2))) = .ok ⟨name, type, unit, d'⟩ ∧ (CleanText d.description → d' = d.description) := by
  have hm : ∀ u s, mkDesc name type u s = .ok ⟨name, type, u, s⟩ := fun u s => (mkDesc_iff name type u s).2 hn
  refine ⟨_, hm _ _, fun hc => ?_⟩
  obtain ⟨ws, hs, hw⟩ := hc
  cases ws with
  | nil =>
    have hd : d.description = [] := by simpa using hs
    have ht : tailPart d = [] := by rw [tailPart, if_pos hd]
    rw [ht, hd]
    have hx : next (some (rtrim [])) = ([], none) := rfl
    rw [hx]
    simp only [Option.isSome_none, Bool.false_eq_true, false_and, if_false]
    cases fuel <;> rfl
  | cons w ws =>
    have hs' := hs
    rw [intercalate_flatMap] at hs
    have hw0 := hw w (by simp)
    have hne : d.description ≠ [] := by rw [hs]; simp [hw0.1]
    have hlast := words_last ws w fun v hv => ⟨(hw v hv).1, (hw v hv).2.1⟩
    have ht : rtrim (tailPart d) = ' ' :: ['-'] ++ ' ' :: (w ++ ws.flatMap fun w => ' ' :: w) := by
      rw [tailPart, if_neg hne, hs]
      have : " - ".toList ++ (w ++ ws.flatMap fun w => ' ' :: w) = " - ".toList ++ (w ++ ws.flatMap fun w => ' ' :: w) := rfl
      apply rtrim_eq
      intro c hc
      rw [List.getLast?_append] at hc
      cases hx : (w ++ ws.flatMap fun w => ' ' :: w).getLast? with
      | none => rw [List.getLast?_eq_none_iff] at hx; simp [hw0.1] at hx
      | some e => rw [hx] at hc; simp only [Option.some_or, Option.some.injEq] at hc; subst hc; exact hlast _ hx
    have hr1 : next (some (rtrim (tailPart d))) = (['-'], some (' ' :: (w ++ ws.flatMap fun w => ' ' :: w))) := by
      rw [ht, next]
      have := readQ_spaces 1 (['-'] ++ ' ' :: (w ++ ws.flatMap fun w => ' ' :: w))
      have h2 : List.replicate 1 ' ' ++ (['-'] ++ ' ' :: (w ++ ws.flatMap fun w => ' ' :: w)) = ' ' :: ['-'] ++ ' ' :: (w ++ ws.flatMap fun w => ' ' :: w) := rfl
      rw [h2] at this
      rw [this]
      exact readQ_plain ['-'] _ (by simp) (by decide) (by decide) (Or.inr ⟨_, rfl⟩)
    have hsep : Sep (ws.flatMap fun w => ' ' :: w) := by
      cases ws with
      | nil => exact Or.inl rfl
      | cons u us => exact Or.inr ⟨_, by rw [List.flatMap_cons, List.cons_append]⟩
    have hr2 : next (some (' ' :: (w ++ ws.flatMap fun w => ' ' :: w))) = (w, some (ws.flatMap fun w => ' ' :: w)) := by
      rw [next]
      have := readQ_spaces 1 (w ++ ws.flatMap fun w => ' ' :: w)
      have h2 : List.replicate 1 ' ' ++ (w ++ ws.flatMap fun w => ' ' :: w) = ' ' :: (w ++ ws.flatMap fun w => ' ' :: w) := rfl
      rw [h2] at this
      rw [this]
      exact readQ_plain w _ hw0.1 hw0.2.1 hw0.2.2 hsep
    rw [hr1]
    simp only [Option.isSome_some, true_and, if_true]
    rw [hr2]
    simp only
    have hlen : ∀ l : List Bytes, l.length ≤ (l.flatMap fun w => ' ' :: w).length := fun l => by
      induction l with
      | nil => simp
      | cons a l ih => simp only [List.flatMap_cons, List.length_append, List.length_cons]; omega
    have hl : ws.length + 1 < fuel := by
      have h1 := hlen ws
      have h2 : d.description.length = w.length + (ws.flatMap fun w => ' ' :: w).length := by rw [hs, List.length_append]
      omega
    rw [descriptionLoop_words ws fuel w (fun v hv => hw v (List.mem_cons_of_mem _ hv)) hl, flatMap_shift, trim_tail_space]
    · exact hs.symm
    · intro c hc
      cases hwc : w with
      | nil => exact absurd hwc hw0.1
      | cons e t => exact hw0.2.1 c (by rw [hwc] at hc ⊢; simp only [List.cons_append, List.head?_cons, Option.some.injEq] at hc; simp [hc])
    · exact hlast
    · simp [hw0.1]

/-- The text of the columns written for a table. -/
theorem parse_ok (names : List Bytes) (d : Desc) (hd : GoodDesc d) (hn : d.name ∉ names) (hk : typeToKeyword d.type = .ok (keyword d.type))
    (hu : ∀ c, d.unit.head? = some c → isSpace c = false) :
    ∃ u' d', parseDescription names (quotedW d.name ++ ' ' :: keyword d.type ++ rtrim (unitPart d ++ tailPart d)) = .ok ⟨d.name, d.type, u', d'⟩ ∧
      ((∀ c ∈ d.unit, isSpace c = false) → u' = d.unit ∧ (CleanText d.description → d' = d.description)) := by
  obtain ⟨k1, k2, k3, k4, k5, k6⟩ := keyword_cases d.type hk
  have hm : ∀ u s, mkDesc d.name d.type u s = .ok ⟨d.name, d.type, u, s⟩ := fun u s => (mkDesc_iff d.name d.type u s).2 hd
  have hsep : Sep (rtrim (unitPart d ++ tailPart d)) := by
    by_cases h : d.unit = []
    · rw [unitPart, if_pos h, List.nil_append]; exact tail_rtrim d
    · rw [unitPart, if_neg h]; exact sep_rtrim _
  have r1 : readQ (quotedW d.name ++ ' ' :: keyword d.type ++ rtrim (unitPart d ++ tailPart d)) = (d.name, some (' ' :: keyword d.type ++ rtrim (unitPart d ++ tailPart d))) := by
    rw [List.append_assoc]
    exact (reads_quotedW d.name hd.1).read _ (Or.inr ⟨_, rfl⟩)
  have r2 : next (some (' ' :: keyword d.type ++ rtrim (unitPart d ++ tailPart d))) = (keyword d.type, some (rtrim (unitPart d ++ tailPart d))) := by
    rw [next]
    have := readQ_spaces 1 (keyword d.type ++ rtrim (unitPart d ++ tailPart d))
    have h2 : List.replicate 1 ' ' ++ (keyword d.type ++ rtrim (unitPart d ++ tailPart d)) = ' ' :: keyword d.type ++ rtrim (unitPart d ++ tailPart d) := rfl
    rw [h2] at this
    rw [this]
    exact readQ_plain _ _ k2 k3 k4 hsep
  have hfuel : d.description.length + 2 < (quotedW d.name ++ ' ' :: keyword d.type ++ rtrim (unitPart d ++ tailPart d)).length + 1 ∨ ¬ CleanText d.description := by
    by_cases hc : CleanText d.description
    · left
      have h1 : 0 < (quotedW d.name).length := List.length_pos_iff.2 (reads_quotedW d.name hd.1).ne
      have h2 : 0 < (keyword d.type).length := List.length_pos_iff.2 k2
      have h3 : d.description.length ≤ (rtrim (unitPart d ++ tailPart d)).length := by
        obtain ⟨ws, hs, hw⟩ := hc
        cases ws with
        | nil => simp [hs]
        | cons w ws =>
          have hlast := words_last ws w fun v hv => ⟨(hw v hv).1, (hw v hv).2.1⟩
          rw [← intercalate_flatMap, ← hs] at hlast
          have hne : d.description ≠ [] := by rw [hs, intercalate_flatMap]; simp [(hw w (by simp)).1]
          rw [tailPart, if_neg hne, rtrim_eq]
          · simp only [List.length_append]; omega
          · intro c hc
            rw [List.getLast?_append, List.getLast?_append] at hc
            cases hx : d.description.getLast? with
            | none => exact absurd (List.getLast?_eq_none_iff.1 hx) hne
            | some e => rw [hx] at hc; simp only [Option.some_or, Option.some.injEq] at hc; subst hc; exact hlast _ hx
      simp only [List.length_append, List.length_cons]
      omega
    · right; exact hc
  generalize hfe : (quotedW d.name ++ ' ' :: keyword d.type ++ rtrim (unitPart d ++ tailPart d)).length + 1 = fuel at hfuel
  have hp : ∀ u, (∀ c ∈ d.unit, isSpace c = false) → u = d.unit → ∀ x, x = next (some (rtrim (tailPart d))) → ∃ d',
      (let y := if x.2.isSome ∧ x.1 = ['-'] then next x.2 else x
       mkDesc d.name d.type u (trim (descriptionLoop fuel y.1 y.2))) = .ok ⟨d.name, d.type, u, d'⟩ ∧ (CleanText d.description → d' = d.description) := by
    intro u _ _ x hx
    subst hx
    rcases hfuel with hfl | hfl
    · exact tail_ok d.name hd d.type u d fuel hfl
    · exact ⟨_, hm _ _, fun hc => absurd hc hfl⟩
  rw [parseDescription, r1]
  simp only
  rw [if_neg hn, r2]
  simp only [Option.isSome_some, true_and]
  rw [if_pos ⟨k5, k6⟩, k1]
  simp only [Outcome.bind_ok, Outcome.pure_eq, hfe]
  by_cases hue : d.unit = []
  · have h0 : unitPart d ++ tailPart d = tailPart d := by rw [unitPart, if_pos hue, List.nil_append]
    rw [h0]
    have hnp : ¬ ((next (some (rtrim (tailPart d)))).2.isSome = true ∧ ['('] <+: (next (some (rtrim (tailPart d)))).1) := by
      by_cases hde : d.description = []
      · rw [tailPart, if_pos hde]; decide
      · rw [tailPart, if_neg hde]
        have h1 : rtrim (" - ".toList ++ d.description) = ' ' :: '-' :: rtrim (' ' :: d.description) := rtrim_append [' ', '-'] (' ' :: d.description) (by decide)
        rw [h1, next]
        have := readQ_spaces 1 (['-'] ++ rtrim (' ' :: d.description))
        have h2 : List.replicate 1 ' ' ++ (['-'] ++ rtrim (' ' :: d.description)) = ' ' :: '-' :: rtrim (' ' :: d.description) := rfl
        rw [h2] at this
        rw [this, readQ_plain ['-'] _ (by simp) (by decide) (by decide) (sep_rtrim _)]
        simp
    rw [if_neg hnp]
    by_cases hsp : ∀ c ∈ d.unit, isSpace c = false
    · obtain ⟨d', h1, h2⟩ := hp [] hsp hue.symm _ rfl
      exact ⟨[], d', h1, fun _ => ⟨hue.symm, h2⟩⟩
    · exact ⟨[], _, hm _ _, fun h => absurd h hsp⟩
  · obtain ⟨c, t, hct⟩ := List.exists_cons_of_ne_nil hue
    have hcs := hu c (by rw [hct]; rfl)
    have hl : rtrim (unitPart d ++ tailPart d) = ' ' :: ('(' :: (d.unit ++ [')']) ++ rtrim (tailPart d)) := by
      have : unitPart d ++ tailPart d = (' ' :: '(' :: (d.unit ++ [')'])) ++ tailPart d := by rw [unitPart, if_neg hue]; rfl
      rw [this, rtrim_append]
      · rfl
      · intro e he
        have : (' ' :: '(' :: (d.unit ++ [')'])).getLast? = some ')' := by
          rw [show (' ' :: '(' :: (d.unit ++ [')'])) = (' ' :: '(' :: d.unit) ++ [')'] from rfl, List.getLast?_append]
          rfl
        rw [this] at he; cases he; decide
    rw [hl]
    have hq : next (some (' ' :: ('(' :: (d.unit ++ [')']) ++ rtrim (tailPart d)))) = readWord ('(' :: (d.unit ++ [')']) ++ rtrim (tailPart d)) := by
      rw [next]
      have := readQ_spaces 1 ('(' :: (d.unit ++ [')']) ++ rtrim (tailPart d))
      have h2 : List.replicate 1 ' ' ++ ('(' :: (d.unit ++ [')']) ++ rtrim (tailPart d)) = ' ' :: ('(' :: (d.unit ++ [')']) ++ rtrim (tailPart d)) := rfl
      rw [h2] at this
      rw [this, readQ, List.cons_append, List.dropWhile_cons_of_neg (by decide)]
      simp only
      rw [if_neg (by decide)]
    rw [hq]
    by_cases hsp : ∀ c ∈ d.unit, isSpace c = false
    · have hw : readWord ('(' :: (d.unit ++ [')']) ++ rtrim (tailPart d)) = ('(' :: (d.unit ++ [')']), some (rtrim (tailPart d))) := by
        refine readWord_plain _ _ (by simp) ?_ (tail_rtrim d)
        intro e he
        simp only [List.mem_cons, List.mem_append, List.not_mem_nil, or_false] at he
        rcases he with rfl | he | rfl
        · decide
        · exact hsp e he
        · decide
      rw [hw]
      simp only [Option.isSome_some, true_and]
      rw [if_pos (by exact ⟨_, rfl⟩), List.drop_one, List.tail_cons, if_neg (by simp), List.dropLast_concat]
      obtain ⟨d', h1, h2⟩ := hp d.unit hsp rfl _ rfl
      exact ⟨d.unit, d', h1, fun _ => ⟨rfl, h2⟩⟩
    · have hw : ∃ w st, readWord ('(' :: (d.unit ++ [')']) ++ rtrim (tailPart d)) = ('(' :: c :: w, some st) := by
        rw [readWord, hct]
        simp only [List.cons_append]
        rw [List.dropWhile_cons_of_neg (by decide)]
        simp only
        rw [List.takeWhile_cons_of_pos (by decide), List.takeWhile_cons_of_pos (by simp [hcs])]
        exact ⟨_, _, rfl⟩
      obtain ⟨w, st, hw⟩ := hw
      rw [hw]
      simp only [Option.isSome_some, true_and]
      rw [if_pos (by exact ⟨_, rfl⟩), List.drop_one, List.tail_cons, if_neg (by simp)]
      exact ⟨_, _, hm _ _, fun h => absurd h hsp⟩

end Alexandria.Table
