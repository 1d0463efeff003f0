import Verif.Npy.Lemmas
import Verif.Npy.Spec

/-!
# The header that is written is parsed back
-/

namespace Alexandria.Npy

open Alexandria.Str Alexandria.NdArray.Spec Spec

/-- The text between the parentheses of a shape. -/
def shapeText (shape : List Nat) : Bytes := shape.flatMap fun s => showNat s ++ [',']

theorem shapeText_eq {shape : List Nat} (hne : shape ≠ []) :
    shapeText shape = [','].intercalate (shape.map showNat) ++ [','] := by
  induction shape with
  | nil => exact absurd rfl hne
  | cons n shape ih =>
    by_cases hn : shape = []
    · subst hn; simp [shapeText]
    · rw [List.map_cons, List.intercalate_cons_of_ne_nil (by simpa using hn)]
      have := ih hn
      simp only [shapeText, List.flatMap_cons] at this ⊢
      rw [this]
      simp

theorem paren_notin {ss : Bytes} (hss : ')' ∉ ss) (shape : List Nat) : ')' ∉ ss.intercalate (shape.map showNat) := by
  induction shape with
  | nil => simp
  | cons n shape ih =>
    have hd : ')' ∉ showNat n := fun h => by simpa using isDigit_showNat h
    by_cases hn : shape = []
    · subst hn; simpa using hd
    · rw [List.map_cons, List.intercalate_cons_of_ne_nil (by simpa using hn)]
      simp only [List.mem_append, not_or]
      exact ⟨⟨hd, hss⟩, ih⟩

theorem shapeText_paren {shape : List Nat} (hne : shape ≠ []) : ')' ∉ shapeText shape := by
  rw [shapeText_eq hne]
  simp only [List.mem_append, not_or]
  exact ⟨paren_notin (by decide) shape, by decide⟩

theorem chop_shapeText {shape : List Nat} (hne : shape ≠ []) :
    chopComma (shapeText shape) = .ok ([','].intercalate (shape.map showNat)) := by
  rw [shapeText_eq hne]
  simp [chopComma]

theorem sizes_shape {shape : List Nat} (hne : shape ≠ []) (hb : ∀ n ∈ shape, n < 2 ^ 64) :
    stringToSizes ([','].intercalate (shape.map showNat)) = some shape :=
  stringToSizes_join (by simp) (by simp) hne hb

theorem typeDescription_fields (ty : Bytes) {attrs : List Bytes} (hne : attrs ≠ []) :
    typeDescription ty attrs = '[' :: (attrs.flatMap (fieldText ty) ++ [']']) := by
  simp only [typeDescription, hne, if_false]
  rfl

/-- A keyword without special characters does not occur in a field of a type that does not contain it. -/
theorem skips_field {p ty a : Bytes} (h1 : '\'' ∉ p) (h2 : '<' ∉ p) (h3 : ' ' ∉ p) (h4 : ¬ p <:+: ['(']) (h5 : ¬ p <:+: [',', ' ', '\''])
    (h6 : ¬ p <:+: [')', ',']) (hty : ¬ p <:+: ty) (ha : ¬ p <:+: a) : Skips p (fieldText ty a) := by
  have : fieldText ty a = (['('] ++ ['\'']) ++ ((a ++ ['\'']) ++ (([',', ' ', '\''] ++ ['<']) ++ ((ty ++ ['\'']) ++ ([')', ','] ++ [' '])))) := by
    simp [fieldText]
  rw [this]
  exact (Skips.one h4 h1).append ((Skips.one ha h1).append ((Skips.one h5 h2).append ((Skips.one hty h1).append (Skips.one h6 h3))))

theorem skips_descr {p : Bytes} (h1 : '\'' ∉ p) (h2 : '<' ∉ p) (h3 : ' ' ∉ p) (hb : '[' ∉ p) (hb' : ']' ∉ p) (h4 : ¬ p <:+: ['(']) (h5 : ¬ p <:+: [',', ' ', '\''])
    (h6 : ¬ p <:+: [')', ',']) (h7 : ¬ p <:+: []) {ty : Bytes} (hty : ¬ p <:+: ty) {attrs : List Bytes} (ha : ∀ a ∈ attrs, ¬ p <:+: a) :
    Skips p (typeDescription ty attrs) := by
  by_cases hn : attrs = []
  · subst hn
    have : typeDescription ty [] = ([] ++ ['\'']) ++ (([] ++ ['<']) ++ (ty ++ ['\''])) := by simp [typeDescription]
    rw [this]
    exact (Skips.one h7 h1).append ((Skips.one h7 h2).append (Skips.one hty h1))
  · rw [typeDescription_fields ty hn]
    have : '[' :: (attrs.flatMap (fieldText ty) ++ [']']) = ([] ++ ['[']) ++ (attrs.flatMap (fieldText ty) ++ ([] ++ [']'])) := by simp
    rw [this]
    exact (Skips.one h7 hb).append ((Skips.flatMap fun a h => skips_field h1 h2 h3 h4 h5 h6 hty (ha a h)).append (Skips.one h7 hb'))

theorem skips_fort1 : Skips "fortran_order".toList litDescr :=
  (Skips.one (x := "{'descr':".toList) (c := ' ') (by decide) (by decide) : Skips _ (_ ++ _))

theorem skips_fort2 : Skips "fortran_order".toList ", '".toList :=
  (Skips.one (x := ", ".toList) (c := '\'') (by decide) (by decide) : Skips _ (_ ++ _))

theorem skips_descr1 : Skips "descr".toList "{'".toList :=
  (Skips.one (x := "{".toList) (c := '\'') (by decide) (by decide) : Skips _ (_ ++ _))

theorem skips_shape1 : Skips "shape".toList litDescr :=
  (Skips.one (x := "{'descr':".toList) (c := ' ') (by decide) (by decide) : Skips _ (_ ++ _))

theorem skips_shape2 : Skips "shape".toList ", 'fortran_order': False, '".toList :=
  (Skips.one (x := ", 'fortran_order': False, ".toList) (c := '\'') (by decide) (by decide) : Skips _ (_ ++ _))

theorem lit_fort : litShape =
    ", '".toList ++ ("fortran_order".toList ++ ("': ".toList ++ "False, 'shape': ".toList)) := by decide

theorem lit_descr : litDescr = "{'".toList ++ ("descr".toList ++ "': ".toList) := by decide

theorem lit_shape : litShape ++ ['('] =
    ", 'fortran_order': False, '".toList ++ ("shape".toList ++ "': (".toList) := by decide

/-- Where the parser finds its pieces in a written dictionary. -/
theorem pieces_dict (d : Dtype) {attrs : List Bytes} (ha : ∀ a ∈ attrs, SafeName a) {shape : List Nat} (hne : shape ≠ []) (R : Bytes)
    (hl : (dict d.str attrs shape ++ R).length < 2 ^ 63) :
    Pieces (dict d.str attrs shape ++ R) "Fals".toList
      (typeDescription d.str attrs ++ (litShape ++ npyShape shape ++ ['}'] ++ R)) (shapeText shape) := by
  refine ⟨hl, ?_, ?_, ?_⟩
  · refine ⟨litDescr ++ typeDescription d.str attrs ++ ", '".toList, "False, 'shape': ".toList ++ npyShape shape ++ ['}'] ++ R, ?_, ?_, ?_⟩
    · rw [dict, lit_fort]; simp only [List.append_assoc]
    · refine (skips_fort1.append ?_).append skips_fort2
      exact skips_descr (by decide) (by decide) (by decide) (by decide) (by decide) (by decide) (by decide) (by decide) (by decide)
        (dtype_nofort d) fun a h => (ha a h).noFortran
    · rfl
  · refine ⟨"{'".toList, ?_, skips_descr1⟩
    rw [dict, lit_descr]; simp only [List.append_assoc]
  · refine ⟨litDescr ++ typeDescription d.str attrs ++ ", 'fortran_order': False, '".toList, ['}'] ++ R, ?_, ?_,
      shapeText_paren hne⟩
    · have h := congrArg (· ++ (shapeText shape ++ ')' :: (['}'] ++ R))) lit_shape
      simp only [List.append_assoc] at h
      rw [dict]
      simp only [List.append_assoc]
      rw [← h]
      simp [npyShape, shapeText]
    · refine (skips_shape1.append ?_).append skips_shape2
      exact skips_descr (by decide) (by decide) (by decide) (by decide) (by decide) (by decide) (by decide) (by decide) (by decide)
        (dtype_noshape d) fun a h => (ha a h).noShape

/-- The written dictionary is parsed back. -/
theorem parseDict_dict (d : Dtype) {attrs : List Bytes} (ha : ∀ a ∈ attrs, SafeName a) {shape : List Nat} (hne : shape ≠ [])
    (hb : ∀ n ∈ shape, n < 2 ^ 64) (R : Bytes) (hl : (dict d.str attrs shape ++ R).length < 2 ^ 63) :
    parseDict (dict d.str attrs shape ++ R) = .ok ⟨false, false, d.str, shape, attrs, NdArray.accI32 shape⟩ := by
  have P := pieces_dict d ha hne R hl
  by_cases hn : attrs = []
  · subst hn
    have ht : ∀ z, typeDescription d.str [] ++ z = '\'' :: (('<' :: d.str) ++ '\'' :: z) := by intro z; simp [typeDescription]
    rw [ht] at P
    rw [parseDict_single P (by simpa using dtype_noquote d) (chop_shapeText hne) (sizes_shape hne hb)]
    rfl
  · have ht : ∀ z, typeDescription d.str attrs ++ z = '[' :: (attrs.flatMap (fieldText d.str) ++ ']' :: z) := by
      intro z; rw [typeDescription_fields _ hn]; simp
    rw [ht] at P
    rw [parseDict_fields P ?_ (parseFields_text (dtype_noquote d) (dtype_ne_nil d) hn fun a h => (ha a h).noQuote) (chop_shapeText hne)
      (sizes_shape hne hb)]
    · rfl
    · simp only [List.mem_flatMap, not_exists, not_and]
      intro a h
      have h1 := (ha a h).noBracket
      have h2 := dtype_nobracket d
      simp [fieldText, h1, h2]

theorem padHeader_eq (d : Bytes) : ∃ k, padHeader d = d ++ (List.replicate k ' ' ++ ['\n']) ∧ (12 + (padHeader d).length) % 64 = 0 ∧
    (padHeader d).length ≤ d.length + 65 := by
  refine ⟨64 - (6 + 2 + 4 + d.length % 2 ^ 32 + 1) % 64, by simp [padHeader], ?_, ?_⟩ <;>
  · simp only [padHeader, List.length_append, List.length_replicate, List.length_cons, List.length_nil]
    omega

theorem fieldLoop_names : ∀ (fuel : Nat) (s : Bytes) (big : Bool) (attrs : List Bytes) (dtype : Bytes) (x : Bool × List Bytes × Bytes),
    fieldLoop fuel s big attrs dtype = .ok x → x.2.1 = attrs ∧ x.2.2 = dtype ∨ x.2.1 ≠ [] := by
  intro fuel
  induction fuel with
  | zero => intro s big attrs dtype x h; rw [fieldLoop] at h; cases h; exact Or.inl ⟨rfl, rfl⟩
  | succ fuel ih =>
    intro s big attrs dtype x h
    rw [fieldLoop] at h
    cases hm : searchField s with
    | none => rw [hm] at h; cases h; exact Or.inl ⟨rfl, rfl⟩
    | some m =>
      obtain ⟨name, ty, rest⟩ := m
      rw [hm] at h
      simp only at h
      have key : ∀ b d, fieldLoop fuel rest b (attrs ++ [name]) d = .ok x → x.2.1 ≠ [] := by
        intro b d h
        rcases ih _ _ _ _ _ h with h | h
        · rw [h.1]; simp
        · exact h
      cases hv : parseSingleValue ty with
      | ub => rw [hv] at h; cases h
      | throw e => rw [hv] at h; cases h
      | ok v =>
        obtain ⟨e, d⟩ := v
        rw [hv] at h
        simp only [Outcome.bind_ok] at h
        by_cases h1 : dtype = []
        · rw [if_pos h1] at h; exact Or.inr (key _ _ h)
        · rw [if_neg h1] at h
          by_cases h2 : dtype ≠ d ∨ big ≠ e
          · rw [if_pos h2] at h; cases h
          · rw [if_neg h2] at h; exact Or.inr (key _ _ h)

/-- A header with a type has a byte order. -/
theorem parseDict_set {header : Bytes} {hd : Header} (hp : parseDict header = .ok hd) (ht : hd.dtype ≠ []) : ¬ endianUnset header hd := by
  rintro ⟨ha, hc⟩
  have hlt : (posVal (find "descr".toList header) + 8) % 2 ^ 64 < header.length := (List.getElem?_eq_some_iff.1 hc).1
  have hch : charAt header ((posVal (find "descr".toList header) + 8) % 2 ^ 64) = .ok '[' := by
    rw [charAt, if_neg (by omega), hc]; rfl
  unfold parseDict at hp
  simp only [hch, Outcome.bind_ok] at hp
  generalize substr header ((posVal (find "fortran_order".toList header) + 16) % 2 ^ 64) 4 = x1 at hp
  cases x1 with
  | ub => cases hp
  | throw e => cases hp
  | ok f =>
    simp only [Outcome.bind_ok] at hp
    rw [if_neg (by decide), if_pos trivial] at hp
    generalize substr header ((posVal (find "descr".toList header) + 8) % 2 ^ 64 + 1) _ = x2 at hp
    cases x2 with
    | ub => cases hp
    | throw e => cases hp
    | ok s =>
      simp only [Outcome.bind_ok] at hp
      cases hx : parseFields s with
      | ub => rw [hx] at hp; cases hp
      | throw e => rw [hx] at hp; cases hp
      | ok x =>
        have hn := fieldLoop_names _ _ _ _ _ _ hx
        obtain ⟨big, attrs, dtype⟩ := x
        rw [hx] at hp
        simp only [Outcome.bind_ok] at hp
        generalize substr header ((posVal (find "shape".toList header) + 9) % 2 ^ 64) _ = x3 at hp
        cases x3 with
        | ub => cases hp
        | throw e => cases hp
        | ok s' =>
          simp only [Outcome.bind_ok] at hp
          cases hs : chopComma s' with
          | ub => rw [hs] at hp; cases hp
          | throw e => rw [hs] at hp; cases hp
          | ok s'' =>
            rw [hs] at hp
            simp only [Outcome.bind_ok] at hp
            cases hz : stringToSizes s'' with
            | none => rw [hz] at hp; cases hp
            | some shape =>
              rw [hz] at hp
              cases hp
              simp only at ha ht hn
              rcases hn with hn | hn
              · exact ht hn.2
              · exact hn ha

/-- The stream of a file that starts with magic string, version 2 and a length. -/
theorem readHeader_v2 {header rest : Bytes} {hd : Header} (hl : header.length < 2 ^ 32) (hp : parseDict header = .ok hd)
    (hf : hd.fortran = false) (hb : hd.big = false) (ht : hd.dtype ≠ []) :
    readHeader (magic ++ version ++ le32 header.length ++ header ++ rest) = .ok (hd, rest) := by
  have e1 : readExact 6 (magic ++ version ++ le32 header.length ++ header ++ rest) =
      .ok (magic, version ++ le32 header.length ++ header ++ rest) := by
    simp [readExact, magic]
  have e2 : readExact 2 (version ++ le32 header.length ++ header ++ rest) = .ok (version, le32 header.length ++ header ++ rest) := by
    simp [readExact, version]
  have e3 : readExact 4 (le32 header.length ++ header ++ rest) = .ok (le32 header.length, header ++ rest) := by
    simp [readExact, le32]
  have e4 : readZero header.length (header ++ rest) = (header, rest) := by
    simp [readZero]
  unfold readHeader
  rw [e1]
  simp only [Outcome.bind_ok, ne_eq, not_true_eq_false, if_false]
  rw [e2]
  simp only [Outcome.bind_ok]
  rw [if_neg (by decide), if_neg (by decide), e3]
  simp only [Outcome.bind_ok, le32_val hl, e4, hp, hf, hb, Bool.false_eq_true, if_false, Outcome.pure_eq, if_neg (parseDict_set hp ht)]

/-- The bytes of a written header. -/
def headerBytes (ty : Bytes) (attrs : List Bytes) (s : List Nat) : Bytes :=
  magic ++ version ++ le32 ((padHeader (dict ty attrs s)).length % 2 ^ 32) ++ padHeader (dict ty attrs s)

theorem writeHeader_spec {ty : Bytes} {shape : List Nat} {attrs : List Bytes} {b : Bytes} (h : writeHeader ty shape attrs = .ok b) :
    ∃ s, shape = NdArray.appendAttrShape s attrs.length ∧
      b = headerBytes ty attrs s := by
  unfold writeHeader at h
  by_cases hn : attrs = []
  · subst hn
    simp only [ne_eq, not_true_eq_false, if_false, Outcome.bind_ok, Outcome.pure_eq, Outcome.ok.injEq] at h
    exact ⟨shape, by simp [NdArray.appendAttrShape], h.symm⟩
  · rw [if_pos hn] at h
    cases hg : shape.getLast? with
    | none => rw [hg] at h; simp at h
    | some l =>
      rw [hg] at h
      by_cases hl : attrs.length ≠ l
      · simp only [if_pos hl, Outcome.bind_throw] at h; cases h
      · simp only [if_neg hl, Outcome.bind_ok, Outcome.pure_eq, Outcome.ok.injEq] at h
        refine ⟨shape.dropLast, ?_, h.symm⟩
        have hlen : attrs.length ≠ 0 := by simpa using hn
        rw [NdArray.appendAttrShape, if_pos hlen]
        obtain ⟨ys, rfl⟩ := List.getLast?_eq_some_iff.mp hg
        simp at hl ⊢
        exact hl.symm

theorem writeHeader_ok (ty : Bytes) (s : List Nat) (attrs : List Bytes) :
    writeHeader ty (NdArray.appendAttrShape s attrs.length) attrs =
      .ok (headerBytes ty attrs s) := by
  unfold writeHeader headerBytes
  by_cases hn : attrs = []
  · subst hn; simp [NdArray.appendAttrShape]
  · have hlen : attrs.length ≠ 0 := by simpa using hn
    rw [if_pos hn, NdArray.appendAttrShape, if_pos hlen]
    simp

/-- The header that is written is read back, with whatever follows. -/
theorem readHeader_written (d : Dtype) {attrs : List Bytes} (ha : ∀ a ∈ attrs, SafeName a) {shape : List Nat} (hne : shape ≠ [])
    (hb : ∀ n ∈ shape, n < 2 ^ 64) (hl : (dict d.str attrs shape).length + 65 < 2 ^ 32) (rest : Bytes) :
    readHeader (headerBytes d.str attrs shape ++ rest) =
      .ok (⟨false, false, d.str, shape, attrs, NdArray.accI32 shape⟩, rest) := by
  obtain ⟨k, he, _, hle⟩ := padHeader_eq (dict d.str attrs shape)
  rw [headerBytes, Nat.mod_eq_of_lt (by omega)]
  apply readHeader_v2 (by omega) _ rfl rfl (dtype_ne_nil d)
  rw [he] at hle ⊢
  exact parseDict_dict d ha hne hb _ (by omega)

theorem decodeAll_enc {T : Type} (E : Elem T) (l : List T) (r : Bytes) : decodeAll E l.length (l.flatMap E.enc ++ r) = l := by
  induction l with
  | nil => rfl
  | cons x l ih =>
    rw [List.flatMap_cons, List.length_cons, decodeAll, List.append_assoc]
    have h := E.enc_length x
    rw [List.take_append_of_le_length (by omega), List.take_of_length_le (by omega), E.dec_enc]
    rw [← h, List.drop_left, ih]

theorem enc_flat_length {T : Type} (E : Elem T) (l : List T) : (l.flatMap E.enc).length = E.dtype.size * l.length := by
  induction l with
  | nil => simp
  | cons x l ih => rw [List.flatMap_cons, List.length_append, ih, E.enc_length, List.length_cons, Nat.mul_succ]; omega

/-! ## Headers written by numpy -/

theorem lit_numpy1 : ("{'descr': '<".toList : Bytes) = "{'".toList ++ ("descr".toList ++ ("': ".toList ++ "'<".toList)) := by decide

theorem lit_numpy2 : ("', 'fortran_order': False, 'shape': ".toList : Bytes) =
    "', '".toList ++ ("fortran_order".toList ++ ("': ".toList ++ "False, 'shape': ".toList)) := by decide

theorem lit_numpy3 : ("', 'fortran_order': False, 'shape': ".toList : Bytes) ++ ['('] =
    "', 'fortran_order': False, '".toList ++ ("shape".toList ++ "': (".toList) := by decide

/-- The text between the parentheses of a Python tuple. -/
def tupleText : List Nat → Bytes
  | [] => []
  | [n] => showNat n ++ [',']
  | l => ", ".toList.intercalate (l.map showNat)

theorem pyTuple_eq (shape : List Nat) : pyTuple shape = ['('] ++ (tupleText shape ++ [')']) := by
  match shape with
  | [] => rfl
  | [n] => simp [pyTuple, tupleText]
  | a :: b :: l => simp [pyTuple, tupleText]

theorem tuple_paren (shape : List Nat) : ')' ∉ tupleText shape := by
  match shape with
  | [] => simp [tupleText]
  | [n] =>
    have hd : ')' ∉ showNat n := fun h => by simpa using isDigit_showNat h
    simp [tupleText, hd]
  | a :: b :: l => exact paren_notin (by decide) _

theorem showNat_last_not_comma {n : Nat} : (showNat n).getLast? ≠ some ',' := by
  intro h
  have := isDigit_showNat (List.mem_of_getLast? h)
  exact absurd this (by decide)

theorem intercalate_getLast {ss : Bytes} {toks : List Bytes} {t : Bytes} (ht : toks.getLast? = some t) (hn : t ≠ []) :
    (ss.intercalate toks).getLast? = t.getLast? := by
  induction toks with
  | nil => cases ht
  | cons u us ih =>
    by_cases hu : us = []
    · subst hu
      simp only [List.getLast?_singleton, Option.some.injEq] at ht
      rw [List.intercalate_singleton, ht]
    · rw [List.intercalate_cons_of_ne_nil hu]
      have h1 : us.getLast? = some t := by
        obtain ⟨v, vs, rfl⟩ := List.exists_cons_of_ne_nil hu
        simpa using ht
      have h2 := ih h1
      have h3 : ss.intercalate us ≠ [] := by
        intro h0
        rw [h0] at h2
        simp only [List.getLast?_nil] at h2
        exact hn (List.getLast?_eq_none_iff.mp h2.symm)
      rw [List.getLast?_append_of_ne_nil _ h3, h2]

theorem chop_tuple {shape : List Nat} (hne : shape ≠ []) (hb : ∀ n ∈ shape, n < 2 ^ 64) :
    ∃ st, chopComma (tupleText shape) = .ok st ∧ stringToSizes st = some shape := by
  match shape, hne with
  | [n], _ =>
    refine ⟨showNat n, by simp [tupleText, chopComma], ?_⟩
    have := stringToSizes_join (ss := [',']) (by simp) (by simp) (shape := [n]) (by simp) hb
    simpa using this
  | a :: b :: l, _ =>
    have hlast : ∃ m, ((a :: b :: l).map showNat).getLast? = some (showNat m) := by
      rw [List.getLast?_map]
      cases h : (a :: b :: l).getLast? with
      | none => simp at h
      | some m => exact ⟨m, rfl⟩
    obtain ⟨m, hm⟩ := hlast
    have hg := intercalate_getLast (ss := ", ".toList) hm (showNat_ne_nil m)
    refine ⟨", ".toList.intercalate ((a :: b :: l).map showNat), ?_,
      stringToSizes_join (by decide) (by decide) (by simp) hb⟩
    rw [tupleText, chopComma]
    · rw [hg]
      have h1 := showNat_last_not_comma (n := m)
      cases hx : (showNat m).getLast? with
      | none => exact absurd (List.getLast?_eq_none_iff.mp hx) (showNat_ne_nil m)
      | some c =>
        rw [hx] at h1
        split
        · rename_i he; cases he
        · rename_i he; exact absurd he h1
        · rfl
    · simp
    · simp

theorem skips_numpy1 : Skips "fortran_order".toList "{'descr': '<".toList :=
  (Skips.one (x := "{'descr': '".toList) (c := '<') (by decide) (by decide) : Skips _ (_ ++ _))
theorem skips_numpy2 : Skips "fortran_order".toList (['\''] ++ ", '".toList) :=
  (Skips.one (x := []) (c := '\'') (by decide) (by decide) : Skips _ (_ ++ _)).append skips_fort2
theorem skips_numpy3 : Skips "shape".toList "{'descr': '<".toList :=
  (Skips.one (x := "{'descr': '".toList) (c := '<') (by decide) (by decide) : Skips _ (_ ++ _))
theorem skips_numpy4 : Skips "shape".toList "', 'fortran_order': False, '".toList :=
  (Skips.one (x := "', 'fortran_order': False, ".toList) (c := '\'') (by decide) (by decide) : Skips _ (_ ++ _))

theorem skips_type {p : Bytes} (h1 : '\'' ∉ p) {ty z : Bytes} (hty : ¬ p <:+: ty) (hz : Skips p z) : Skips p (ty ++ '\'' :: z) :=
  Skips.seg ty '\'' z hty h1 hz

theorem pieces_numpy (d : Dtype) {shape : List Nat} (R : Bytes) (hl : (numpyDict d.str shape ++ R).length < 2 ^ 63) :
    ∃ r, Pieces (numpyDict d.str shape ++ R) "Fals".toList ('\'' :: (('<' :: d.str) ++ '\'' :: r)) (tupleText shape) := by
  refine ⟨", 'fortran_order': False, 'shape': ".toList ++ (pyTuple shape ++ (", }".toList ++ R)), hl, ?_, ?_, ?_⟩
  · refine ⟨"{'descr': '<".toList ++ (d.str ++ '\'' :: ", '".toList), "False, 'shape': ".toList ++ (pyTuple shape ++ (", }".toList ++ R)), ?_, ?_, rfl⟩
    · have h : ("', 'fortran_order': False, 'shape': ".toList : Bytes) =
        '\'' :: (", '".toList ++ ("fortran_order".toList ++ ("': ".toList ++ "False, 'shape': ".toList))) := by decide
      delta numpyDict
      rw [h]
      simp only [List.append_assoc, List.cons_append]
    · exact skips_numpy1.append (skips_type (by decide) (dtype_nofort d) skips_fort2)
  · refine ⟨"{'".toList, ?_, skips_descr1⟩
    have h : ("{'descr': '<".toList : Bytes) = "{'".toList ++ ("descr".toList ++ ("': ".toList ++ ['\'', '<'])) := by decide
    have h2 : ("', 'fortran_order': False, 'shape': ".toList : Bytes) = '\'' :: ", 'fortran_order': False, 'shape': ".toList := by decide
    delta numpyDict
    rw [h, h2]
    simp only [List.append_assoc, List.cons_append, List.nil_append]
  · refine ⟨"{'descr': '<".toList ++ (d.str ++ '\'' :: ", 'fortran_order': False, '".toList), ", }".toList ++ R, ?_, ?_, tuple_paren shape⟩
    · have h : ("', 'fortran_order': False, 'shape': ".toList : Bytes) ++ (['('] ++ (tupleText shape ++ ')' :: (", }".toList ++ R))) =
        '\'' :: (", 'fortran_order': False, '".toList ++ ("shape".toList ++ ("': (".toList ++ (tupleText shape ++ ')' :: (", }".toList ++ R))))) := by
        have h0 : ("', 'fortran_order': False, 'shape': ".toList : Bytes) ++ ['('] =
          '\'' :: (", 'fortran_order': False, '".toList ++ ("shape".toList ++ "': (".toList)) := by decide
        rw [← List.append_assoc, h0]
        simp only [List.append_assoc, List.cons_append]
      delta numpyDict
      rw [pyTuple_eq]
      simp only [List.append_assoc, List.cons_append, List.nil_append] at h ⊢
      rw [h]
    · exact skips_numpy3.append (skips_type (by decide) (dtype_noshape d) skips_shape2)

theorem parseDict_numpy (d : Dtype) {shape : List Nat} (hne : shape ≠ []) (hb : ∀ n ∈ shape, n < 2 ^ 64) (R : Bytes)
    (hl : (numpyDict d.str shape ++ R).length < 2 ^ 63) :
    parseDict (numpyDict d.str shape ++ R) = .ok ⟨false, false, d.str, shape, [], NdArray.accI32 shape⟩ := by
  obtain ⟨r, P⟩ := pieces_numpy d R hl
  obtain ⟨st, h1, h2⟩ := chop_tuple hne hb
  rw [parseDict_single P (by simpa using dtype_noquote d) h1 h2]
  rfl

/-- A stream with the 16 bit length of version 1. -/
theorem readHeader_v1 {header rest : Bytes} {hd : Header} (hl : header.length < 2 ^ 16) (hp : parseDict header = .ok hd)
    (hf : hd.fortran = false) (hb : hd.big = false) (ht : hd.dtype ≠ []) :
    readHeader (magic ++ ['\x01', '\x00'] ++ (le32 header.length).take 2 ++ header ++ rest) = .ok (hd, rest) := by
  have e1 : readExact 6 (magic ++ ['\x01', '\x00'] ++ (le32 header.length).take 2 ++ header ++ rest) =
      .ok (magic, ['\x01', '\x00'] ++ (le32 header.length).take 2 ++ header ++ rest) := by
    simp [readExact, magic]
  have e2 : readExact 2 (['\x01', '\x00'] ++ (le32 header.length).take 2 ++ header ++ rest) =
      .ok (['\x01', '\x00'], (le32 header.length).take 2 ++ header ++ rest) := by
    simp [readExact]
  have e3 : readExact 2 ((le32 header.length).take 2 ++ header ++ rest) = .ok ((le32 header.length).take 2, header ++ rest) := by
    simp [readExact, le32]
  have e4 : readZero header.length (header ++ rest) = (header, rest) := by
    simp [readZero]
  have hv : leVal ((le32 header.length).take 2) = header.length := by
    have hv : ∀ k, k < 256 → (Char.ofNat k).toNat = k := by
      intro k hk
      have h : k.isValidChar := Or.inl (by omega)
      simp only [Char.ofNat, h, dif_pos]
      rfl
    simp only [le32, List.take_succ_cons, List.take_zero, leVal]
    rw [hv _ (by omega), hv _ (by omega)]
    omega
  unfold readHeader
  rw [e1]
  simp only [Outcome.bind_ok, ne_eq, not_true_eq_false, if_false]
  rw [e2]
  simp only [Outcome.bind_ok]
  rw [if_neg (by decide), if_pos (by decide), e3]
  simp only [Outcome.bind_ok, hv, e4, hp, hf, hb, Bool.false_eq_true, if_false, Outcome.pure_eq, if_neg (parseDict_set hp ht)]

end Alexandria.Npy
