import Verif.Table.TokenLemmas

/-!
# Lemmas: cells as text
-/

namespace Alexandria.Table

open Alexandria.Str

variable {F D : Type}

/-- The text of a floating point number is a token without commas and is read back. -/
def FloatIO.Ok {T : Type} (io : FloatIO T) (x : T) : Prop :=
  io.print x ≠ [] ∧ (∀ c ∈ io.print x, isSpace c = false ∧ c ≠ ',' ∧ c ≠ '"') ∧ io.parse (io.print x) = some x

/-- Nothing is assumed about the elements of other types. -/
def ValOk (fmt : Fmt F D) : (s : Scalar) → Val F D s → Prop
  | .f32, v => fmt.f32.Ok v
  | .f64, v => fmt.f64.Ok v
  | _, _ => True

/-- Cells that can be written: vectors and arrays are not empty, arrays have a shape with dimensions that fit an `int32_t`. -/
def CellOk (fmt : Fmt F D) : Cell F D → Prop
  | .scalar s v => ValOk fmt s v
  | .str s => s ≠ []
  | .vec s v => v ≠ [] ∧ ∀ x ∈ v, ValOk fmt s x
  | .nd s shape v => s ≠ .bool ∧ v ≠ [] ∧ shape ≠ [] ∧ (∀ n ∈ shape, n < 2 ^ 31) ∧ NdArray.accU32 shape = v.length ∧ ∀ x ∈ v, ValOk fmt s x

theorem plain_ok {s : Bytes} (h : ∀ c ∈ s, Plain c) : ∀ c ∈ s, isSpace c = false ∧ c ≠ ',' ∧ c ≠ '"' ∧ c ≠ '>' := by
  intro c hc
  rcases h c hc with h | rfl
  · refine ⟨isDigit_not_space h, ?_, ?_, ?_⟩ <;> (rintro rfl; exact absurd h (by decide))
  · decide

theorem printVal_ok (fmt : Fmt F D) (s : Scalar) (v : Val F D s) (h : ValOk fmt s v) :
    printVal fmt s v ≠ [] ∧ (∀ c ∈ printVal fmt s v, isSpace c = false ∧ c ≠ ',' ∧ c ≠ '"') ∧ convertVal fmt s (printVal fmt s v) = some v := by
  cases s with
  | bool =>
    rcases v with _ | _
    · refine ⟨by simp [printVal], ?_, ?_⟩
      · intro c hc; simp only [printVal, List.mem_singleton] at hc; subst hc; decide
      · show convertVal fmt .bool ['0'] = some false
        rw [convertVal, if_neg (by decide), if_pos (by decide)]
    · refine ⟨by simp [printVal], ?_, ?_⟩
      · intro c hc; simp only [printVal, List.mem_singleton] at hc; subst hc; decide
      · show convertVal fmt .bool ['1'] = some true
        rw [convertVal, if_pos (by decide)]
  | i32 =>
    refine ⟨showInt_ne _, fun c hc => ?_, ?_⟩
    · have := plain_ok (showInt_plain _) c hc
      exact ⟨this.1, this.2.1, this.2.2.1⟩
    · have h1 := Int32.minValue_le_toInt v
      have h2 := Int32.toInt_lt v
      rw [convertVal]
      simp only [printVal]
      rw [lexInt_showInt _ _ _ (by simpa using Int32.le_toInt v) (by omega), Option.map_some, Int32.ofInt_toInt]
  | i64 =>
    refine ⟨showInt_ne _, fun c hc => ?_, ?_⟩
    · have := plain_ok (showInt_plain _) c hc
      exact ⟨this.1, this.2.1, this.2.2.1⟩
    · have h2 := Int64.toInt_lt v
      rw [convertVal]
      simp only [printVal]
      rw [lexInt_showInt _ _ _ (by simpa using Int64.le_toInt v) (by omega), Option.map_some, Int64.ofInt_toInt]
  | f32 => exact h
  | f64 => exact h

theorem commas_eq (l : List Bytes) : commas l = [','].intercalate l := by
  cases l with
  | nil => rfl
  | cons x xs =>
    rw [commas]
    induction xs generalizing x with
    | nil => simp
    | cons y ys ih => rw [List.flatMap_cons, List.intercalate_cons_cons, ← ih y]; simp

theorem commaTokens_commas (l : List Bytes) (hne : l ≠ []) (h : ∀ x ∈ l, x ≠ [] ∧ ',' ∉ x) : commaTokens (commas l) = l := by
  rw [commaTokens, commas_eq, splitChar_intercalate ',' l hne fun t ht => (h t ht).2]
  exact List.filter_eq_self.2 fun t ht => by simpa using (h t ht).1

theorem mapAll_some {α β : Type} (f : α → Option β) (g : β → α) (l : List β) (h : ∀ x ∈ l, f (g x) = some x) : mapAll f (l.map g) = some l := by
  induction l with
  | nil => rfl
  | cons x l ih =>
    rw [List.map_cons, mapAll, h x (by simp), ih fun y hy => h y (List.mem_cons_of_mem _ hy)]

theorem convertVec_commas (fmt : Fmt F D) (s : Scalar) (v : List (Val F D s)) (hne : v ≠ []) (h : ∀ x ∈ v, ValOk fmt s x) :
    convertVec fmt s (commas (v.map (printVal fmt s))) = some v := by
  rw [convertVec, commaTokens_commas _ (by simpa using hne)]
  · exact mapAll_some _ _ v fun x hx => (printVal_ok fmt s x (h x hx)).2.2
  · intro x hx
    obtain ⟨y, hy, rfl⟩ := List.mem_map.1 hx
    have := printVal_ok fmt s y (h y hy)
    exact ⟨this.1, fun hc => (this.2.1 _ hc).2.1 rfl⟩

theorem mem_commas {l : List Bytes} {c : Char} (h : c ∈ commas l) : c = ',' ∨ ∃ x ∈ l, c ∈ x := by
  cases l with
  | nil => simp [commas] at h
  | cons x xs =>
    simp only [commas, List.mem_append, List.mem_flatMap, List.mem_cons] at h
    rcases h with h | ⟨y, hy, rfl | h⟩
    · exact Or.inr ⟨x, by simp, h⟩
    · exact Or.inl rfl
    · exact Or.inr ⟨y, List.mem_cons_of_mem _ hy, h⟩

theorem commas_ne {l : List Bytes} (hne : l ≠ []) (h : ∀ x ∈ l, x ≠ []) : commas l ≠ [] := by
  cases l with
  | nil => exact absurd rfl hne
  | cons x xs => simp [commas, h x (by simp)]

/-- The shape as `int32_t` values. -/
theorem shape_text (fmt : Fmt F D) (shape : List Nat) (hne : shape ≠ []) (h : ∀ n ∈ shape, n < 2 ^ 31) :
    ∃ v : List Int32, convertVec fmt .i32 (commas (shape.map showNat)) = some v ∧ v.map toSize = shape := by
  have hr : ∀ n ∈ shape, (Int32.ofInt (n : Int)).toInt = n := fun n hn => by
    apply Int32.toInt_ofInt_of_le
    · have : (0 : Int) ≤ n := Int.natCast_nonneg n
      omega
    · have := h n hn; omega
  refine ⟨shape.map fun n : Nat => Int32.ofInt (n : Int), ?_, ?_⟩
  · have := convertVec_commas fmt .i32 (shape.map fun n : Nat => Int32.ofInt (n : Int)) (by simpa using hne) (fun _ _ => trivial)
    rw [List.map_map] at this
    rw [← this]
    congr 2
    apply List.map_congr_left
    intro n hn
    simp only [Function.comp_apply, printVal]
    rw [hr n hn, showInt, if_neg (by omega)]
    rfl
  · rw [List.map_map]
    conv_rhs => rw [← List.map_id shape]
    apply List.map_congr_left
    intro n hn
    simp only [Function.comp_apply, toSize, id]
    rw [hr n hn]
    have := h n hn
    rw [Int.emod_eq_of_lt (by omega) (by omega)]
    rfl

/-- The token that is read for the text of a cell. -/
def cellToken (fmt : Fmt F D) : Cell F D → Bytes
  | .str s => s
  | c => match printCell fmt c with
    | .ok s => s
    | _ => []

/-- The text written for a cell. -/
def cellText (fmt : Fmt F D) (c : Cell F D) : Bytes :=
  match printCell fmt c with
  | .ok s => s
  | _ => []

/-- A cell that is not a string is written as a token. -/
theorem cell_plain (fmt : Fmt F D) (c : Cell F D) (h : CellOk fmt c) (hs : ∀ s, c ≠ .str s) :
    ∃ raw, printCell fmt c = .ok raw ∧ raw ≠ [] ∧ (∀ x ∈ raw, isSpace x = false ∧ x ≠ '"') ∧ convertToCellType fmt raw c.type = .ok c := by
  cases c with
  | scalar s v =>
    have := printVal_ok fmt s v h
    refine ⟨_, rfl, this.1, fun x hx => ⟨(this.2.1 x hx).1, (this.2.1 x hx).2.2⟩, ?_⟩
    simp only [Cell.type, convertToCellType, this.2.2]
  | str s => exact absurd rfl (hs s)
  | vec s v =>
    have hne : commas (v.map (printVal fmt s)) ≠ [] := commas_ne (by simpa using h.1) fun x hx => by
      obtain ⟨y, hy, rfl⟩ := List.mem_map.1 hx
      exact (printVal_ok fmt s y (h.2 y hy)).1
    refine ⟨commas (v.map (printVal fmt s)), by rw [printCell, if_neg h.1], hne, fun x hx => ?_, ?_⟩
    · rcases mem_commas hx with rfl | ⟨y, hy, hx⟩
      · decide
      · obtain ⟨z, hz, rfl⟩ := List.mem_map.1 hy
        have := (printVal_ok fmt s z (h.2 z hz)).2.1 x hx
        exact ⟨this.1, this.2.2⟩
    · simp only [Cell.type, convertToCellType, convertVec_commas fmt s v h.1 h.2]
  | nd s shape v =>
    obtain ⟨hb, hne, hsh, hlt, hacc, hv⟩ := h
    refine ⟨'<' :: commas (shape.map showNat) ++ '>' :: commas (v.map (printVal fmt s)), by rw [printCell, if_neg hne, if_neg hsh], by simp, fun x hx => ?_, ?_⟩
    · simp only [List.cons_append, List.mem_cons, List.mem_append] at hx
      rcases hx with rfl | hx | rfl | hx
      · decide
      · rcases mem_commas hx with rfl | ⟨y, hy, hx⟩
        · decide
        · obtain ⟨n, hn, rfl⟩ := List.mem_map.1 hy
          have := plain_ok (s := showNat n) (fun c hc => Or.inl (isDigit_showNat hc)) x hx
          exact ⟨this.1, this.2.2.1⟩
      · decide
      · rcases mem_commas hx with rfl | ⟨y, hy, hx⟩
        · decide
        · obtain ⟨z, hz, rfl⟩ := List.mem_map.1 hy
          have := (printVal_ok fmt s z (hv z hz)).2.1 x hx
          exact ⟨this.1, this.2.2⟩
    · have hc : convertToCellType fmt ('<' :: commas (shape.map showNat) ++ '>' :: commas (v.map (printVal fmt s))) (CType.nd s) =
          convertNd fmt s ('<' :: commas (shape.map showNat) ++ '>' :: commas (v.map (printVal fmt s))) := by
        cases s <;> first | rfl | exact absurd rfl hb
      simp only [Cell.type]
      rw [hc]
      have hx : '>' ∉ '<' :: commas (shape.map showNat) := by
        intro hx
        rcases List.mem_cons.1 hx with hx | hx
        · exact absurd hx (by decide)
        · rcases mem_commas hx with hx | ⟨y, hy, hx⟩
          · exact absurd hx (by decide)
          · obtain ⟨n, hn, rfl⟩ := List.mem_map.1 hy
            exact (plain_ok (s := showNat n) (fun c hc => Or.inl (isDigit_showNat hc)) _ hx).2.2.2 rfl
      have hf : find ['>'] ('<' :: commas (shape.map showNat) ++ '>' :: commas (v.map (printVal fmt s))) = some ('<' :: commas (shape.map showNat)).length := by
        have := find_char (a := []) (y := commas (v.map (printVal fmt s))) hx
        simpa using this
      obtain ⟨w, hw1, hw2⟩ := shape_text fmt shape hsh hlt
      have hd : convertVec fmt s (('<' :: commas (shape.map showNat) ++ '>' :: commas (v.map (printVal fmt s))).drop (('<' :: commas (shape.map showNat)).length + 1)) = some v := by
        rw [← List.drop_drop, List.drop_left, List.drop_one, List.tail_cons]
        exact convertVec_commas fmt s v hne hv
      have hs1 : convertVec fmt .i32 ((('<' :: commas (shape.map showNat) ++ '>' :: commas (v.map (printVal fmt s))).drop 1).take
          (('<' :: commas (shape.map showNat)).length - 1)) = some w := by
        have : ((('<' :: commas (shape.map showNat) ++ '>' :: commas (v.map (printVal fmt s))).drop 1).take (('<' :: commas (shape.map showNat)).length - 1)) = commas (shape.map showNat) := by
          simp
        rw [this]; exact hw1
      rw [List.cons_append] at hf hd hs1 ⊢
      rw [convertNd, hf]
      simp only
      rw [hd, hs1]
      simp only
      rw [hw2, if_neg (by simpa using hacc)]

/-- What is written for a cell is read back. -/
theorem cell_reads (fmt : Fmt F D) (c : Cell F D) (h : CellOk fmt c) :
    printCell fmt c = .ok (cellText fmt c) ∧ Reads (cellText fmt c) (cellToken fmt c) ∧ convertToCellType fmt (cellToken fmt c) c.type = .ok c := by
  by_cases hs : ∃ s, c = .str s
  · obtain ⟨s, rfl⟩ := hs
    exact ⟨rfl, reads_quotedW s h, rfl⟩
  · obtain ⟨raw, h1, h2, h3, h4⟩ := cell_plain fmt c h fun s e => hs ⟨s, e⟩
    have ht : cellText fmt c = raw := by rw [cellText, h1]
    have hk : cellToken fmt c = raw := by
      cases c with
      | str s => exact absurd ⟨s, rfl⟩ hs
      | _ => simp only [cellToken, h1]
    rw [ht, hk]
    exact ⟨h1, reads_plain raw h2 (fun x hx => (h3 x hx).1) fun e => (h3 _ (List.mem_of_mem_head? (by simpa using e))).2 rfl, h4⟩

/-- The cells of the first column, whose tokens are read without quotes. -/
def FirstOk : Cell F D → Prop
  | .str s => ∀ c ∈ s, isSpace c = false ∧ c ≠ '"'
  | _ => True

theorem first_reads (fmt : Fmt F D) (c : Cell F D) (h : CellOk fmt c) (hf : FirstOk c) (rest : Bytes) (hr : Sep rest) :
    readWord (cellText fmt c ++ rest) = (cellToken fmt c, some rest) := by
  by_cases hs : ∃ s, c = .str s
  · obtain ⟨s, rfl⟩ := hs
    have : cellText fmt (Cell.str s : Cell F D) = s := quotedW_plain s hf
    rw [this]
    exact readWord_plain s rest h (fun c hc => (hf c hc).1) hr
  · obtain ⟨raw, h1, h2, h3, h4⟩ := cell_plain fmt c h fun s e => hs ⟨s, e⟩
    have ht : cellText fmt c = raw := by rw [cellText, h1]
    have hk : cellToken fmt c = raw := by
      cases c with
      | str s => exact absurd ⟨s, rfl⟩ hs
      | _ => simp only [cellToken, h1]
    rw [ht, hk]
    exact readWord_plain raw rest h2 (fun x hx => (h3 x hx).1) hr

end Alexandria.Table
