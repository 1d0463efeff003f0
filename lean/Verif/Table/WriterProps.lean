import Verif.Table.RoundTripLemmas

/-!
# Tables written as text are read back (C43, C44) and lines as rows (C97)
-/

namespace Alexandria.Table

open Alexandria.Str

variable {F D : Type}

/-! ## Keywords -/

/-- The keyword written for a type is read as this type. -/
theorem C44_keywords (t : CType) (k : Bytes) (h : typeToKeyword t = .ok k) : keywordToType k = .ok t := by
  have hk : keyword t = k := by rw [keyword, h]
  have := keyword_cases t (by rw [hk]; exact h)
  rw [hk] at this
  exact this.1

theorem ite_known {P : Prop} [Decidable P] {a t : CType} {X : Res CType} {l : List CType} (h : (if P then .ok a else X) = .ok t)
    (hX : X = .ok t → t ∈ l) : t ∈ a :: l := by
  by_cases hP : P
  · rw [if_pos hP] at h
    injection h with h
    simp [h]
  · rw [if_neg hP] at h
    exact List.mem_cons_of_mem _ (hX h)

theorem keywordToType_known (k : Bytes) (t : CType) (h : keywordToType k = .ok t) :
    t ∈ [.scalar .bool, .scalar .i32, .scalar .i64, .scalar .f32, .scalar .f64, .str, .vec .bool, .vec .i32, .vec .i64, .vec .f32, .vec .f64,
      .nd .i32, .nd .i64, .nd .f32, .nd .f64] := by
  unfold keywordToType at h
  iterate 15 refine ite_known h fun h => ?_
  cases h

/-- A keyword is written exactly for the types of cells that can be read; arrays of `bool` and unknown types are rejected. -/
theorem C44_types (t : CType) : (∃ k, typeToKeyword t = .ok k) ↔ ∃ k, keywordToType k = .ok t := by
  constructor
  · rintro ⟨k, hk⟩; exact ⟨k, C44_keywords t k hk⟩
  · rintro ⟨k, hk⟩
    cases t with
    | scalar s => cases s <;> exact ⟨_, rfl⟩
    | str => exact ⟨_, rfl⟩
    | vec s => cases s <;> exact ⟨_, rfl⟩
    | nd s =>
      cases s with
      | bool => exact absurd (keywordToType_known k _ hk) (by decide)
      | _ => exact ⟨_, rfl⟩
    | other n => exact absurd (keywordToType_known k _ hk) (by simp)

example : typeToKeyword (.nd .f32) = .ok "[float+]".toList ∧ keywordToType "[float+]".toList = .ok (.nd .f32) := by decide +kernel
example : ¬ ∃ k, typeToKeyword (.nd .bool) = .ok k := by rintro ⟨k, hk⟩; cases hk

/-! ## Lemmas -/

theorem prefix_sep (p q rest : Bytes) (hp : ' ' ∉ p) (hs : Sep rest) (h : p <+: q ++ rest) : p <+: q := by
  rcases List.prefix_or_prefix_of_prefix h (List.prefix_append q rest) with h1 | ⟨r, hr⟩
  · exact h1
  · cases r with
    | nil => rw [List.append_nil] at hr; rw [hr]
    | cons c r =>
      exfalso
      rw [← hr, List.prefix_append_right_inj] at h
      obtain ⟨u, hu⟩ := h
      rcases hs with rfl | ⟨t, rfl⟩
      · simp at hu
      · rw [List.cons_append] at hu
        injection hu with h1 _
        subst h1
        exact hp (by rw [← hr]; simp)

theorem not_column (name rest : Bytes) (hs : Sep rest) (hn : ¬ "Column:".toList <+: name) : ¬ "Column:".toList <+: quotedW name ++ rest := by
  intro h
  have h1 := prefix_sep _ _ _ (by decide) hs h
  rw [quotedW] at h1
  split at h1
  · obtain ⟨t, ht⟩ := h1
    have hC : "Column:".toList = 'C' :: "olumn:".toList := by decide
    rw [hC, quotedOut, List.cons_append, List.cons_append] at ht
    injection ht with h2 _
    exact absurd h2 (by decide)
  · exact hn h1

theorem types_mem {vs : List (Cell F D)} {ds : List Desc} (h : List.Forall₂ (fun (v : Cell F D) (d : Desc) => v.type = d.type) vs ds) :
    ∀ d ∈ ds, ∃ v ∈ vs, v.type = d.type := by
  induction h with
  | nil => simp
  | cons h1 _ ih =>
    intro d hd
    rcases List.mem_cons.1 hd with rfl | hd
    · exact ⟨_, by simp, h1⟩
    · obtain ⟨v, hv, e⟩ := ih d hd
      exact ⟨v, List.mem_cons_of_mem _ hv, e⟩

theorem cell_keyword (fmt : Fmt F D) (c : Cell F D) (h : CellOk fmt c) : typeToKeyword c.type = .ok (keyword c.type) := by
  cases c with
  | scalar s _ => cases s <;> rfl
  | str _ => rfl
  | vec s _ => cases s <;> rfl
  | nd s _ _ => cases s with
    | bool => exact absurd rfl h.1
    | _ => rfl

theorem agree_cells {a b : Info} (h : Agree a b) (vs : List (Cell F D)) (hg : GoodCells b vs) : GoodCells a vs := by
  refine ⟨?_, hg.2⟩
  have h1 := hg.1
  clear hg
  induction h1 generalizing a with
  | nil => cases a with
    | nil => exact .nil
    | cons _ _ => simp [Agree] at h
  | @cons v d vs ds e _ ih =>
    cases a with
    | nil => simp [Agree] at h
    | cons x xs =>
      simp only [Agree, List.map_cons, List.cons.injEq, Prod.mk.injEq] at h
      exact .cons (e.trans h.1.2.1.symm) (ih h.2)

/-! ## Writing and reading -/

/-- `C43_roundtrip_partial`, and that the last line is a row. -/
theorem roundtrip_lines (fmt : Fmt F D) (cm : Bytes) (hcm : CommentOk cm) (messages : List Bytes) (hm : ∀ m ∈ messages, MessageOk cm m)
    (t : TableT F D) (ts : List (TableT F D)) (hi : GoodInfo t.info) (hd : ∀ d ∈ t.info, ColumnOk cm d)
    (hname : ∀ d, t.info.head? = some d → ¬ "Column:".toList <+: d.name)
    (hne : t.rows ≠ []) (hr : ∀ x ∈ t :: ts, Agree t.info x.info ∧ ∀ r ∈ x.rows, RowOk fmt cm x.info r.values) :
    ∃ w info, (do let w ← ({ comment := cm } : Writer).addComments messages; w.addAll fmt (t :: ts)) = .ok w ∧
      List.Forall₂ SameColumn info t.info ∧
      (({ comment := cm } : Reader).readColumnInfo w.out).2 = .ok info ∧
      (({ comment := cm } : Reader).read fmt w.out (-1)).2 = .ok ⟨((t :: ts).flatMap TableT.rows).map (fun r => ⟨r.values, info⟩), info⟩ ∧
      List.Forall₂ (fun l (r : RowT F D) => parseRow fmt info l = .ok ⟨r.values, info⟩) (dataLines cm w.out) ((t :: ts).flatMap TableT.rows) ∧
      ∃ init last, splitChar '\n' w.out = init ++ [last, []] ∧ trim last ≠ [] ∧ ∀ c, cm.head? = some c → c ∉ last := by
  obtain ⟨c0, pat, rfl⟩ := List.exists_cons_of_ne_nil hcm.1
  have hsp : ∀ c ∈ c0 :: pat, isSpace c = false := fun c hc => (hcm.2 c hc).1
  have hc0 : isSpace c0 = false := hsp c0 (by simp)
  have hnul : '\x00' ∉ c0 :: pat := fun h => (hcm.2 _ h).2 rfl
  have hcl : '\n' ∉ c0 :: pat := fun h => absurd (hsp _ h) (by decide)
  -- rows with respect to the columns of the first part
  have hrow : ∀ r ∈ (t :: ts).flatMap TableT.rows, RowOk fmt (c0 :: pat) t.info r.values := fun r hr' => by
    obtain ⟨x, hx, hrx⟩ := List.mem_flatMap.1 hr'
    have := (hr x hx).2 r hrx
    exact ⟨agree_cells (hr x hx).1 _ this.good, this.cells, this.free, this.first⟩
  have hk : ∀ d ∈ t.info, typeToKeyword d.type = .ok (keyword d.type) := fun d hdm => by
    obtain ⟨r, rs, hrs⟩ := List.exists_cons_of_ne_nil hne
    have h1 := (hr t (by simp)).2 r (by rw [hrs]; simp)
    obtain ⟨v, hv, e⟩ := types_mem h1.good.1 d hdm
    rw [← e]; exact cell_keyword fmt v (h1.cells v hv)
  have hlenr : ∀ r ∈ (t :: ts).flatMap TableT.rows, r.values.length = t.info.length := fun r hr' => (hrow r hr').good.1.length_eq
  obtain ⟨w, pre, ps, lines, e1, e2, e3, e4, e5⟩ := written fmt (c0 :: pat) hnul messages t ts hi.1 hk fun x hx =>
    ⟨(hr x hx).1, fun r hrx => ⟨hlenr r (List.mem_flatMap.2 ⟨x, hx, hrx⟩), ((hr x hx).2 r hrx).cells⟩⟩
  have hvne : ∀ r ∈ (t :: ts).flatMap TableT.rows, r.values ≠ [] := fun r hr' e => hi.1 (List.length_eq_zero_iff.1 (by rw [← hlenr r hr', e]; rfl))
  have hdfree : ∀ d ∈ t.info, c0 ∉ descText d (keyword d.type) := fun d hdm hmem =>
    (hd d hdm).free _ (describe_text [] d (hk d hdm)) c0 rfl (by simp [hmem])
  have hqfree : ∀ d ∈ t.info, c0 ∉ quotedW d.name := fun d hdm hmem => hdfree d hdm (by
    unfold descText
    simp only [List.mem_append, List.mem_cons]
    exact Or.inl (Or.inl (Or.inl (Or.inr hmem))))
  have hnfree : c0 ∉ spaced ps := spaced_free c0 hc0 ps (forall₂_pair e4 hqfree fun p d hp hq => by rw [hp.2]; exact hq)
  -- the names
  obtain ⟨d0, ds0, hds⟩ := List.exists_cons_of_ne_nil hi.1
  obtain ⟨k0, ps0, hps, hnames⟩ : ∃ k0 ps0, ps = (k0, quotedW d0.name) :: ps0 ∧
      List.Forall₂ (fun (p : Nat × Bytes) v => 1 ≤ p.1 ∧ Reads p.2 v) ((k0, quotedW d0.name) :: ps0) (t.info.map Desc.name) := by
    have hall : List.Forall₂ (fun (p : Nat × Bytes) v => 1 ≤ p.1 ∧ Reads p.2 v) ps (t.info.map Desc.name) := by
      rw [List.forall₂_map_right_iff]
      exact forall₂_imp_mem e4 fun p d hdm hp => ⟨hp.1, by rw [hp.2]; exact reads_quotedW d.name (hd d hdm).good.1⟩
    have h4 := e4
    rw [hds] at h4
    cases h4 with
    | @cons p _ l _ a b =>
      obtain ⟨k, raw⟩ := p
      obtain ⟨_, a2⟩ := a
      simp only at a2
      subst a2
      exact ⟨k, l, rfl, hall⟩
  have htrimn : trim (spaced ps) = quotedW d0.name ++ spaced ps0 := by
    rw [hps]
    exact trim_spaced k0 _ ps0 (forall₂_left hnames fun p v hp => ⟨hp.2.ne, hp.2.head, hp.2.last⟩)
  have htok : tokens (trim (spaced ps)) = t.info.map Desc.name := by rw [htrimn]; exact tokens_trimmed k0 _ ps0 _ hnames
  have hsep0 : Sep (spaced ps0) := spaced_sep ps0 fun p hp => (forall₂_left hnames (fun p v hp => hp.1)) p (List.mem_cons_of_mem _ hp)
  have hncol : ¬ "Column:".toList <+: trim (spaced ps) := by
    rw [htrimn]; exact not_column _ _ hsep0 (hname d0 (by rw [hds]; rfl))
  have hnne : trim (spaced ps) ≠ [] := by
    rw [htrimn]; simp [(reads_quotedW d0.name (hd d0 (by rw [hds]; simp)).good.1).ne]
  -- the lines
  have hlines : List.Forall₂ (fun l (r : RowT F D) => RowLine fmt l r.values ∧ RowOk fmt (c0 :: pat) t.info r.values ∧ r.values ≠ []) lines ((t :: ts).flatMap TableT.rows) :=
    forall₂_imp_mem e5 fun l r hr' h => ⟨h, hrow r hr', hvne r hr'⟩
  have hlfree : ∀ l ∈ lines, c0 ∉ l := forall₂_left hlines fun l r h => rowLine_free fmt (c0 :: pat) c0 hc0 rfl l _ h.1 h.2.1.cells h.2.1.free
  have hltrim : ∀ l ∈ lines, trim l ≠ [] ∧ (tokens (trim l)).length = t.info.length := forall₂_left hlines fun l r h => by
    obtain ⟨c, cs, hcs⟩ := List.exists_cons_of_ne_nil h.2.2
    have hc := h.2.1.cells
    have hl := h.2.1.good.1.length_eq
    have hrl := h.1
    rw [hcs] at hc hl hrl
    obtain ⟨ps', f1, _, f2⟩ := rowLine_trim fmt l c cs hrl hc
    refine ⟨by rw [f1]; simp [(cell_reads fmt c (hc c (by simp))).2.1.ne], by rw [f2, List.length_map]; exact hl⟩
  have hlne : lines ≠ [] := fun e => by
    rw [e] at e5
    cases hfl : (t :: ts).flatMap TableT.rows with
    | nil => rw [List.flatMap_cons, List.append_eq_nil_iff] at hfl; exact hne hfl.1
    | cons _ _ => rw [hfl] at e5; cases e5
  obtain ⟨row, rest, hrr⟩ := List.exists_cons_of_ne_nil hlne
  have hprefree : ∀ l ∈ pre, l = [] ∨ ∃ s, l = c0 :: pat ++ s ∧ c0 ∉ s ∧ ¬ "Column:".toList <+: trim s := fun l hl => by
    rcases e3 l hl with rfl | ⟨m, hmm, s, hs, rfl⟩
    · exact Or.inl rfl
    · refine Or.inr ⟨' ' :: s, rfl, ?_, ?_⟩
      · rw [List.mem_cons, not_or]
        refine ⟨fun e => by rw [e] at hc0; exact absurd hc0 (by decide), fun hcs => ?_⟩
        exact (hm m hmm).1 c0 rfl (by
          rw [← splitChar_join '\n' m]
          have : ∀ (ss : List Bytes), s ∈ ss → c0 ∈ ['\n'].intercalate ss := by
            intro ss
            induction ss with
            | nil => simp
            | cons a ss ih =>
              intro hmem
              cases ss with
              | nil =>
                rw [List.mem_singleton] at hmem
                subst hmem
                rw [List.intercalate_singleton]; exact hcs
              | cons b ss =>
                rw [List.intercalate_cons_cons]
                rcases List.mem_cons.1 hmem with rfl | hmem
                · simp [hcs]
                · simp only [List.mem_append]; exact Or.inr (ih hmem)
          exact this _ hs)
      · have : trim (' ' :: s) = trim s := trim_spaces 1 s
        rw [this]
        exact (hm m hmm).2 s hs
  generalize hH : pre ++ ((t.info.map fun d => c0 :: pat ++ descText d (keyword d.type)) ++ [] :: (c0 :: pat ++ spaced ps) :: [] :: lines) = L at e2
  have hnl : ∀ l ∈ L, '\n' ∉ l := by
    intro l hl
    rw [← hH] at hl
    rcases List.mem_append.1 hl with hl | hl
    · rcases e3 l hl with rfl | ⟨m, _, s, hs, rfl⟩
      · simp
      · intro h
        rcases List.mem_append.1 h with h | h
        · exact hcl h
        rcases List.mem_cons.1 h with h | h
        · exact absurd h (by decide)
        · exact splitChar_free '\n' m s hs h
    · rcases List.mem_append.1 hl with hl | hl
      · obtain ⟨d, hdm, rfl⟩ := List.mem_map.1 hl
        rw [List.mem_append]
        rintro (h | h)
        · exact hcl h
        · have hD := hd d hdm
          have hkk := keyword_cases d.type (hk d hdm)
          unfold descText at h
          simp only [List.mem_append, List.mem_cons] at h
          rcases h with (((h | h) | h | h) | h) | h
          · exact absurd h (by decide)
          · exact quotedW_line d.name (fun hmem => hD.good.2 _ hmem (by decide)) h
          · exact absurd h (by decide)
          · exact absurd (hkk.2.2.1 _ h) (by decide)
          · split at h
            · simp at h
            · simp only [List.mem_append, List.mem_cons, List.not_mem_nil, or_false] at h
              rcases h with (h | h) | h
              · exact absurd h (by decide)
              · exact hD.unitLine h
              · exact absurd h (by decide)
          · split at h
            · simp at h
            · rcases List.mem_append.1 h with h | h
              · exact absurd h (by decide)
              · exact hD.descLine h
      · simp only [List.mem_cons] at hl
        rcases hl with rfl | rfl | rfl | hl
        · simp
        · rw [List.mem_append]
          rintro (h | h)
          · exact hcl h
          · exact spaced_line ps (forall₂_pair e4 hd fun p d hp hq => by rw [hp.2]; exact quotedW_line d.name fun hmem => hq.good.2 _ hmem (by decide)) h
        · simp
        · exact (forall₂_left hlines fun l r h => rowLine_line fmt l _ h.1 h.2.1.cells h.2.1.good.2) l hl
  have hsplit : splitChar '\n' w.out = L ++ [[]] := by rw [e2]; exact splitChar_joinLines L hnl
  have hleft : linesLeft w.out {} = L ++ [[]] := by rw [linesLeft, if_neg (by simp)]; exact hsplit
  have hdata : dataLines (c0 :: pat) w.out = lines.map trim := by
    rw [dataLines, hsplit, ← hH]
    have hskip : ∀ ls : List Bytes, (∀ l ∈ ls, dataLine (c0 :: pat) l = []) → (ls.map (dataLine (c0 :: pat))).filter (fun l => l ≠ []) = [] := fun ls h => by
      rw [List.filter_eq_nil_iff]
      intro a ha
      obtain ⟨l, hl, rfl⟩ := List.mem_map.1 ha
      simp [h l hl]
    have hkeep : (lines.map (dataLine (c0 :: pat))).filter (fun l => l ≠ []) = lines.map trim := by
      have : lines.map (dataLine (c0 :: pat)) = lines.map trim := List.map_congr_left fun l hl => dataLine_free c0 pat l (hlfree l hl)
      rw [this, List.filter_eq_self]
      intro a ha
      obtain ⟨l, hl, rfl⟩ := List.mem_map.1 ha
      simpa using (hltrim l hl).1
    have hcom : ∀ s, dataLine (c0 :: pat) (c0 :: pat ++ s) = [] := fun s => dataLine_comment (List.prefix_append _ _)
    simp only [List.map_append, List.filter_append, List.map_cons, List.map_nil]
    have p1 := hskip pre fun l hl => by
      rcases hprefree l hl with rfl | ⟨s, rfl, _⟩
      · exact dataLine_nil _
      · exact hcom s
    have p2 := hskip (t.info.map fun d => c0 :: pat ++ descText d (keyword d.type)) fun l hl => by
      obtain ⟨d, _, rfl⟩ := List.mem_map.1 hl
      exact hcom _
    rw [p1, p2]
    simp only [dataLine_nil, hcom, List.nil_append]
    simp only [ne_eq, not_true_eq_false, decide_false, Bool.false_eq_true, not_false_eq_true, List.filter_cons_of_neg, List.filter_nil, List.append_nil]
    exact hkeep
  have hrow1 := hltrim row (by rw [hrr]; simp)
  -- reading the columns
  have hat : afterTell ({} : Stream) = {} := by decide
  have hleft0 : left w.out (c0 :: pat) {} = lines.map trim := by rw [left, if_neg (by simp)]; exact hdata
  have hcount : countColumns w.out (c0 :: pat) {} = .ok t.info.length := by
    have hw := whileData w.out (c0 :: pat) (fun (a : Nat × Bool) => !a.2) (fun _ l => .ok ((tokens l).length, true)) (afterTell {}) (0, false)
    simp only at hw
    rw [countColumns]
    rw [hw.1, hat, hleft0, hrr, List.map_cons, loop, if_pos (by rfl)]
    simp only
    rw [loop_stop _ _ _ _ (by rfl)]
    simp only
    rw [hrow1.2, if_neg (by simpa using hi.1)]
  have hLn : L ++ [[]] = (pre ++ ((t.info.map fun d => c0 :: pat ++ descText d (keyword d.type)) ++ [[]])) ++ (c0 :: pat ++ spaced ps) :: [] :: row :: (rest ++ [[]]) := by
    rw [← hH, hrr]; simp
  have hdetn : detectNames w.out (c0 :: pat) t.info.length {} = .ok (t.info.map Desc.name) := by
    obtain ⟨a, g1, g2⟩ := names_ok c0 pat hsp (pre ++ ((t.info.map fun d => c0 :: pat ++ descText d (keyword d.type)) ++ [[]])) (fun l hl => by
      rcases List.mem_append.1 hl with hl | hl
      · rcases hprefree l hl with rfl | ⟨s, rfl, hs, _⟩
        · exact Or.inl rfl
        · exact Or.inr ⟨s, rfl, hs⟩
      · rcases List.mem_append.1 hl with hl | hl
        · obtain ⟨d, hdm, rfl⟩ := List.mem_map.1 hl
          exact Or.inr ⟨_, rfl, hdfree d hdm⟩
        · rw [List.mem_singleton] at hl; exact Or.inl hl) (spaced ps) hnfree hnne row (hlfree row (by rw [hrr]; simp)) hrow1.1 (rest ++ [[]])
    have hw := whileLines_eq w.out (fun (a : NamesSt) => !a.done) (namesBody (c0 :: pat)) (fun a => rfl) (lineFuel w.out) (afterTell {}) {} (fuel_ok _ _)
    have hch : chooseNames a t.info.length = t.info.map Desc.name := by
      have hmne : t.info.map Desc.name ≠ [] := by simpa using hi.1
      rw [chooseNames]
      simp only [g2]
      have hx : (if trim (spaced ps) = [] then [] else if (tokens (trim (spaced ps))).length = t.info.length then tokens (trim (spaced ps)) else []) = t.info.map Desc.name := by
        rw [if_neg hnne, htok, if_pos (by simp)]
      rw [hx, if_neg hmne]
      simp
    rw [detectNames, hw.1, hat, hleft, hLn, g1]
    simp only
    rw [hch, (uniqueLoop_iff _ []).2 ⟨hi.2, by simp⟩]
    rfl
  obtain ⟨info, g3, g4⟩ := descriptions_ok c0 pat hsp pre hprefree t.info (fun d hdm => ⟨(hd d hdm).good, hk d hdm, (hd d hdm).unitHead, hdfree d hdm⟩) hi.2
    (spaced ps) hnfree hncol row (hlfree row (by rw [hrr]; simp)) hrow1.1 (rest ++ [[]])
  have hdetd : detectDescriptions w.out (c0 :: pat) {} = .ok info := by
    have hw := whileLines_eq w.out (fun (a : List Desc × Bool) => !a.2) (descriptionsBody (c0 :: pat)) (fun a => rfl) (lineFuel w.out) (afterTell {}) ([], false) (fuel_ok _ _)
    have hLd : L ++ [[]] = pre ++ ((t.info.map fun d => c0 :: pat ++ descText d (keyword d.type)) ++ [] :: (c0 :: pat ++ spaced ps) :: [] :: row :: (rest ++ [[]])) := by
      rw [← hH, hrr]; simp
    rw [detectDescriptions, hw.1, hat, hleft, hLd, g3]
  have hnm := sameColumn_names g4
  have hnd' : (info.map Desc.name).Nodup := by rw [hnm]; exact hi.2
  have hlen : t.info.length = info.length := g4.length_eq.symm
  have hgood : ∀ d ∈ info, GoodDesc d := forall₂_pair g4 hd fun a b hab hb => by rw [GoodDesc, hab.1]; exact hb.good
  have hcol : ({ comment := c0 :: pat } : Reader).readColumnInfo w.out = ({ comment := c0 :: pat, started := true, info := some info }, .ok info) := by
    have hrw : rewind ({} : Stream) = {} := by decide
    rw [Reader.readColumnInfo]
    simp only [hrw]
    rw [hcount]
    simp only [ne_eq, not_true_eq_false, false_and, if_false]
    rw [hdetn]
    simp only
    rw [hdetd]
    simp only [Outcome.bind_ok]
    rw [← hnm, hlen, infoLoop_ok info hnd' hgood info.length 0 (by simp)]
    simp only [Outcome.bind_ok, List.drop_zero]
    rw [(mkInfo_iff info).2 ⟨fun e => hi.1 (List.length_eq_zero_iff.1 (by rw [hlen, e]; rfl)), hnd'⟩]
  have hparse : List.Forall₂ (fun l (r : RowT F D) => parseRow fmt info l = .ok ⟨r.values, info⟩) (dataLines (c0 :: pat) w.out) ((t :: ts).flatMap TableT.rows) := by
    rw [hdata, List.forall₂_map_left_iff]
    exact hlines.imp fun l r h => parseRow_ok fmt info l r.values h.2.2 h.1 h.2.1.cells h.2.1.first (sameColumn_cells g4 _ h.2.1.good)
  have hend : ∃ init last, splitChar '\n' w.out = init ++ [last, []] ∧ trim last ≠ [] ∧ ∀ c, (c0 :: pat).head? = some c → c ∉ last := by
    refine ⟨pre ++ ((t.info.map fun d => c0 :: pat ++ descText d (keyword d.type)) ++ [] :: (c0 :: pat ++ spaced ps) :: [] :: lines.dropLast), lines.getLast hlne, ?_,
      (hltrim _ (List.getLast_mem hlne)).1, fun c hc => ?_⟩
    · rw [hsplit, ← hH]
      conv_lhs => rw [← List.dropLast_append_getLast hlne]
      simp
    · simp only [List.head?_cons, Option.some.injEq] at hc
      rw [← hc]
      exact hlfree _ (List.getLast_mem hlne)
  refine ⟨w, info, e1, g4, by rw [hcol], ?_, hparse, hend⟩
  rw [Reader.read, hcol]
  simp only
  have hw := whileData w.out (c0 :: pat) (fun (a : Int × List (RowT F D)) => decide (a.1 ≠ 0)) (fun a l => do let row ← parseRow fmt info l; return (a.1 - 1, a.2 ++ [row])) {} (-1, [])
  simp only at hw
  have hbody : readBody fmt (c0 :: pat) info = fun a l => if dataLine (c0 :: pat) l = [] then .ok a else (do let row ← parseRow fmt info (dataLine (c0 :: pat) l); return (a.1 - 1, a.2 ++ [row])) := rfl
  rw [hbody, hw.1, left, if_neg (by simp)]
  simp only [List.drop_zero]
  rw [loop_read]
  have hfor : List.Forall₂ (fun l r => parseRow fmt info l = .ok r) (dataLines (c0 :: pat) w.out) (((t :: ts).flatMap TableT.rows).map fun r => (⟨r.values, info⟩ : RowT F D)) := by
    rw [List.forall₂_map_right_iff]; exact hparse
  have hcnt : count (-1) (dataLines (c0 :: pat) w.out) = (dataLines (c0 :: pat) w.out).length := by rw [count, if_pos (by decide)]
  rw [hcnt, specRead_ok fmt info _ _ _ hfor]
  simp only [Outcome.bind_ok, Outcome.pure_eq, List.nil_append]
  rw [List.take_of_length_le (by rw [hfor.length_eq]), mkTable_same info _ fun r hr' => by
    obtain ⟨x, _, rfl⟩ := List.mem_map.1 hr'; rfl]
  rw [if_neg]
  intro e
  rw [List.map_eq_nil_iff, List.flatMap_cons, List.append_eq_nil_iff] at e
  exact hne e.1

/-- What the writer makes of comments and of a table given in any number of parts is read back as the same table: the names and the types of the columns, all the cells, the
units without whitespace and the descriptions made of plain words. The lines can be read in any chunks, being the rows in order. -/
theorem C43_roundtrip_partial (fmt : Fmt F D) (cm : Bytes) (hcm : CommentOk cm) (messages : List Bytes) (hm : ∀ m ∈ messages, MessageOk cm m)
    (t : TableT F D) (ts : List (TableT F D)) (hi : GoodInfo t.info) (hd : ∀ d ∈ t.info, ColumnOk cm d)
    (hname : ∀ d, t.info.head? = some d → ¬ "Column:".toList <+: d.name)
    (hne : t.rows ≠ []) (hr : ∀ x ∈ t :: ts, Agree t.info x.info ∧ ∀ r ∈ x.rows, RowOk fmt cm x.info r.values) :
    ∃ w info, (do let w ← ({ comment := cm } : Writer).addComments messages; w.addAll fmt (t :: ts)) = .ok w ∧
      List.Forall₂ SameColumn info t.info ∧
      (({ comment := cm } : Reader).readColumnInfo w.out).2 = .ok info ∧
      (({ comment := cm } : Reader).read fmt w.out (-1)).2 = .ok ⟨((t :: ts).flatMap TableT.rows).map (fun r => ⟨r.values, info⟩), info⟩ ∧
      List.Forall₂ (fun l (r : RowT F D) => parseRow fmt info l = .ok ⟨r.values, info⟩) (dataLines cm w.out) ((t :: ts).flatMap TableT.rows) := by
  obtain ⟨w, info, h1, h2, h3, h4, h5, _⟩ := roundtrip_lines fmt cm hcm messages hm t ts hi hd hname hne hr
  exact ⟨w, info, h1, h2, h3, h4, h5⟩

/-- Columns with units without whitespace and descriptions made of plain words are read back entirely. -/
theorem C43_columns_partial (fmt : Fmt F D) (cm : Bytes) (hcm : CommentOk cm) (messages : List Bytes) (hm : ∀ m ∈ messages, MessageOk cm m)
    (t : TableT F D) (ts : List (TableT F D)) (hi : GoodInfo t.info) (hd : ∀ d ∈ t.info, ColumnOk cm d)
    (hname : ∀ d, t.info.head? = some d → ¬ "Column:".toList <+: d.name)
    (hne : t.rows ≠ []) (hr : ∀ x ∈ t :: ts, Agree t.info x.info ∧ ∀ r ∈ x.rows, RowOk fmt cm x.info r.values)
    (hplain : ∀ d ∈ t.info, (∀ c ∈ d.unit, isSpace c = false) ∧ CleanText d.description) :
    ∃ w, (do let w ← ({ comment := cm } : Writer).addComments messages; w.addAll fmt (t :: ts)) = .ok w ∧
      (({ comment := cm } : Reader).readColumnInfo w.out).2 = .ok t.info ∧
      (({ comment := cm } : Reader).read fmt w.out (-1)).2 = .ok ⟨((t :: ts).flatMap TableT.rows).map (fun r => ⟨r.values, t.info⟩), t.info⟩ := by
  obtain ⟨w, info, h1, h2, h3, h4, _⟩ := C43_roundtrip_partial fmt cm hcm messages hm t ts hi hd hname hne hr
  have : info = t.info := by
    have h := forall₂_imp_mem (R := SameColumn) (S := fun a b => a = b) h2 fun a b hb hab => by
      obtain ⟨e1, e2, e3⟩ := hab
      obtain ⟨e4, e5⟩ := e3 (hplain b hb).1
      have e6 := e5 (hplain b hb).2
      cases a; cases b
      simp only at e1 e2 e4 e6
      rw [e1, e2, e4, e6]
    exact List.forall₂_eq_eq_eq ▸ h
  rw [this] at h3 h4
  exact ⟨w, h1, h3, h4⟩

/-! ## What is not read back -/

/-- The types for which the claim is made. -/
def Claimed (t : CType) : Prop := t ∈ [.scalar .bool, .scalar .i32, .scalar .i64, .str, .vec .bool, .vec .i32, .vec .i64]

/-- The claim without restrictions on characters and sizes: one part, the default comment indicator. -/
def C43_full : Prop := ∀ (fmt : Fmt Unit Unit) (t : TableT Unit Unit), GoodInfo t.info → (∀ d ∈ t.info, GoodDesc d ∧ Claimed d.type) → t.rows ≠ [] →
  (∀ r ∈ t.rows, r.info = t.info ∧ GoodCells t.info r.values) →
  ∃ w info, ({} : Writer).addData fmt t = .ok w ∧ List.Forall₂ (fun a b : Desc => a.name = b.name ∧ a.type = b.type) info t.info ∧
    (({} : Reader).read fmt w.out (-1)).2 = .ok ⟨t.rows.map (fun r => ⟨r.values, info⟩), info⟩

/-- Some conversions, which are not used. -/
def noFloats : Fmt Unit Unit := ⟨⟨fun _ => [], fun _ => none⟩, ⟨fun _ => [], fun _ => none⟩⟩

/-- A table of one column and one row. -/
def single (d : Desc) (c : Cell Unit Unit) : TableT Unit Unit := ⟨[⟨[c], [d]⟩], [d]⟩

/-- What reading the written table gives. -/
def again (t : TableT Unit Unit) : Res (TableT Unit Unit) := do
  let w ← ({} : Writer).addData noFloats t
  (({} : Reader).read noFloats w.out (-1)).2

theorem again_full (h : C43_full) (d : Desc) (c : Cell Unit Unit) (hd : GoodDesc d ∧ Claimed d.type) (hc : c.type = d.type) (hs : ∀ s, c = .str s → s ≠ [] ∧ OneLine s) :
    ∃ d', d'.name = d.name ∧ d'.type = d.type ∧ again (single d c) = .ok (single d' c) := by
  obtain ⟨w, info, h1, h2, h3⟩ := h noFloats (single d c) ⟨by simp [single], by simp [single]⟩ (by simpa [single] using hd) (by simp [single])
    (by simpa [single, GoodCells, eq_comm, hc] using hs)
  cases h2 with
  | @cons d' _ _ _ a b =>
    cases b
    refine ⟨d', a.1, a.2, ?_⟩
    rw [again, h1, Outcome.bind_ok, h3]
    rfl

/-- The number of rows if a table was read. -/
def rowsOf (t : Res (TableT Unit Unit)) : Option (List (List Bytes)) :=
  match t with
  | .ok t => some (t.rows.map fun r => r.values.map fun c => match c with
    | .str s => s
    | _ => [])
  | _ => none

/-- A string with a space in the first column: the first token of a line is read without quotes. -/
theorem C43_violated : ¬ C43_full := fun h => by
  obtain ⟨d', _, _, h3⟩ := again_full h ⟨['n'], .str, [], []⟩ (.str ['a', ' ', 'b']) ⟨⟨by simp, by simp [OneLine]⟩, by simp [Claimed]⟩ rfl
    (fun s hs => by cases hs; simp [OneLine])
  have h4 : rowsOf (again (single ⟨['n'], .str, [], []⟩ (.str ['a', ' ', 'b']))) = none := by decide +kernel
  rw [h3] at h4
  cases h4

/-- A comment indicator in a string. -/
theorem C43_violated_comment : ¬ C43_full := fun h => by
  obtain ⟨d', _, _, h3⟩ := again_full h ⟨['n'], .str, [], []⟩ (.str ['a', '#', 'b']) ⟨⟨by simp, by simp [OneLine]⟩, by simp [Claimed]⟩ rfl
    (fun s hs => by cases hs; simp [OneLine])
  have h4 : rowsOf (again (single ⟨['n'], .str, [], []⟩ (.str ['a', '#', 'b']))) = some [[['a']]] := by decide +kernel
  rw [h3] at h4
  revert h4
  simp [rowsOf, single]

/-- A vector without elements: `quoted` looks at the characters of an empty text. -/
theorem C43_violated_vector : ¬ C43_full := fun h => by
  obtain ⟨d', _, _, h3⟩ := again_full h ⟨['n'], .vec .i32, [], []⟩ (.vec .i32 []) ⟨⟨by simp, by simp [OneLine]⟩, by simp [Claimed]⟩ rfl (fun s hs => by cases hs)
  have h4 : rowsOf (again (single ⟨['n'], .vec .i32, [], []⟩ (.vec .i32 []))) = none := by decide +kernel
  rw [h3] at h4
  cases h4

/-- A unit that begins with a space. -/
theorem C43_violated_unit : ¬ C43_full := fun h => by
  obtain ⟨d', _, _, h3⟩ := again_full h ⟨['n'], .str, [' '], []⟩ (.str ['a']) ⟨⟨by simp, by simp [OneLine]⟩, by simp [Claimed]⟩ rfl
    (fun s hs => by cases hs; simp [OneLine])
  have h4 : rowsOf (again (single ⟨['n'], .str, [' '], []⟩ (.str ['a']))) = none := by decide +kernel
  rw [h3] at h4
  cases h4

/-! ## Example -/

def sampleTable : TableT Unit Unit :=
  let info : Info := [⟨"a b".toList, .scalar .i32, ['m'], "number of things".toList⟩, ⟨['s'], .str, [], []⟩, ⟨['v'], .vec .i64, [], []⟩]
  ⟨[⟨[.scalar .i32 (-7), .str "x \"y\\".toList, .vec .i64 [1, -2]], info⟩, ⟨[.scalar .i32 12345, .str ['z'], .vec .i64 [3]], info⟩], info⟩

example : (do let w ← ({} : Writer).addComments ["hello\nworld".toList]; let w ← w.addAll noFloats [sampleTable]; return w.out) =
    .ok ("# hello\n# world\n\n# Column: \"a b\" int (m) - number of things\n# Column: s string\n# Column: v [long]\n\n" ++
      "# \"a b\"         s    v\n\n     -7 \"x \\\"y\\\\\" 1,-2\n  12345         z    3\n").toList := by decide +kernel

theorem free_of_ok {cm : Bytes} {r : Res Bytes} {x : Bytes} (hr : r = .ok x) (hx : ∀ c, cm.head? = some c → c ∉ x) : ∀ s, r = .ok s → NoComment cm s := by
  intro s hs
  rw [hr] at hs
  cases hs
  exact hx

/-- The sample table meets the hypotheses. -/
example : ∃ w, (do let w ← ({ comment := ['#'] } : Writer).addComments ["hello\nworld".toList]; w.addAll noFloats [sampleTable]) = .ok w ∧
    (({ comment := ['#'] } : Reader).readColumnInfo w.out).2 = .ok sampleTable.info ∧
    (({ comment := ['#'] } : Reader).read noFloats w.out (-1)).2 = .ok sampleTable := by
  refine C43_columns_partial noFloats ['#'] ⟨by decide, by decide⟩ _ ?_ sampleTable [] ⟨by decide, by decide +kernel⟩ ?_ ?_ (by simp [sampleTable]) ?_ ?_
  · intro m hm
    simp only [List.mem_cons, List.not_mem_nil, or_false] at hm
    subst hm
    refine ⟨fun c hc => ?_, by decide +kernel⟩
    cases hc
    decide +kernel
  · intro d hd
    simp only [sampleTable, List.mem_cons, List.not_mem_nil, or_false] at hd
    rcases hd with rfl | rfl | rfl
    · exact ⟨⟨by decide, by simp [OneLine]⟩, by simp; decide, by decide, by decide +kernel,
        free_of_ok (x := "# Column: \"a b\" int (m) - number of things\n".toList.drop 1) (by decide +kernel) (fun c hc => by cases hc; decide +kernel)⟩
    · exact ⟨⟨by decide, by simp [OneLine]⟩, by simp, by decide, by decide,
        free_of_ok (x := "# Column: s string\n".toList.drop 1) (by decide +kernel) (fun c hc => by cases hc; decide +kernel)⟩
    · exact ⟨⟨by decide, by simp [OneLine]⟩, by simp, by decide, by decide,
        free_of_ok (x := "# Column: v [long]\n".toList.drop 1) (by decide +kernel) (fun c hc => by cases hc; decide +kernel)⟩
  · intro d hd
    simp only [sampleTable, List.head?_cons, Option.some.injEq] at hd
    subst hd
    decide +kernel
  · intro x hx
    simp only [List.mem_cons, List.not_mem_nil, or_false] at hx
    subst hx
    refine ⟨rfl, fun r hr => ?_⟩
    simp only [sampleTable, List.mem_cons, List.not_mem_nil, or_false] at hr
    rcases hr with rfl | rfl
    · refine ⟨⟨.cons rfl (.cons rfl (.cons rfl .nil)), fun s hs => ?_⟩, fun c hc => ?_, fun c hc => ?_, fun c hc => ?_⟩
      · simp only [List.mem_cons, Cell.str.injEq, List.not_mem_nil, or_false, reduceCtorEq, false_or] at hs
        rw [hs]
        exact ⟨by decide, by simp [OneLine]⟩
      · simp only [List.mem_cons, List.not_mem_nil, or_false] at hc
        rcases hc with rfl | rfl | rfl
        · trivial
        · simp [CellOk]
        · exact ⟨by simp, fun _ _ => trivial⟩
      · simp only [List.mem_cons, List.not_mem_nil, or_false] at hc
        rcases hc with rfl | rfl | rfl
        · exact free_of_ok (x := "-7".toList) (by decide +kernel) (fun c hc => by cases hc; decide)
        · exact free_of_ok (x := "\"x \\\"y\\\\\"".toList) (by decide +kernel) (fun c hc => by cases hc; decide +kernel)
        · exact free_of_ok (x := "1,-2".toList) (by decide +kernel) (fun c hc => by cases hc; decide)
      · simp only [List.head?_cons, Option.some.injEq] at hc
        subst hc
        trivial
    · refine ⟨⟨.cons rfl (.cons rfl (.cons rfl .nil)), fun s hs => ?_⟩, fun c hc => ?_, fun c hc => ?_, fun c hc => ?_⟩
      · simp only [List.mem_cons, Cell.str.injEq, List.not_mem_nil, or_false, reduceCtorEq, false_or] at hs
        rw [hs]
        exact ⟨by decide, by simp [OneLine]⟩
      · simp only [List.mem_cons, List.not_mem_nil, or_false] at hc
        rcases hc with rfl | rfl | rfl
        · trivial
        · simp [CellOk]
        · exact ⟨by simp, fun _ _ => trivial⟩
      · simp only [List.mem_cons, List.not_mem_nil, or_false] at hc
        rcases hc with rfl | rfl | rfl
        · exact free_of_ok (x := "12345".toList) (by decide +kernel) (fun c hc => by cases hc; decide)
        · exact free_of_ok (x := "z".toList) (by decide +kernel) (fun c hc => by cases hc; decide +kernel)
        · exact free_of_ok (x := "3".toList) (by decide +kernel) (fun c hc => by cases hc; decide)
      · simp only [List.head?_cons, Option.some.injEq] at hc
        subst hc
        trivial
  · intro d hd
    simp only [sampleTable, List.mem_cons, List.not_mem_nil, or_false] at hd
    rcases hd with rfl | rfl | rfl
    · exact ⟨by decide, ["number".toList, "of".toList, "things".toList], by decide +kernel, by decide +kernel⟩
    · exact ⟨by simp, [], rfl, by simp⟩
    · exact ⟨by simp, [], rfl, by simp⟩

end Alexandria.Table
