import Verif.Npy.NumpySpec
import Verif.Npy.Props

/-!
# Lemmas about files of numpy
-/

namespace Alexandria.Npy

open Alexandria.Str Alexandria.NdArray.Spec Spec

/-! ## Finding fields -/

theorem searchField_ne {c : Char} (hc : c ≠ '(') (r : Bytes) : searchField (c :: r) = searchField r := by
  have h : matchField (c :: r) = none := by
    unfold matchField
    split
    · rename_i t heq
      simp only [List.cons.injEq] at heq
      exact absurd heq.1 hc
    · rfl
  rw [searchField, h]

theorem searchField_skip {x : Bytes} (hx : '(' ∉ x) (r : Bytes) : searchField (x ++ r) = searchField r := by
  induction x with
  | nil => rfl
  | cons c x ih =>
    simp only [List.mem_cons, not_or] at hx
    rw [List.cons_append, searchField_ne (Ne.symm hx.1), ih hx.2]

theorem searchField_open {c : Char} (hc : c ≠ '\'') (r : Bytes) : searchField ('(' :: c :: r) = searchField (c :: r) := by
  have h : matchField ('(' :: c :: r) = none := by
    unfold matchField
    split
    · rename_i t heq
      simp only [List.cons.injEq, true_and] at heq
      exact absurd heq.1 hc
    · rfl
  conv_lhs => rw [searchField, h]

theorem matchField_plain {name ty r : Bytes} (hn : '\'' ∉ name) (hty : '\'' ∉ ty) :
    matchField ('(' :: '\'' :: (name ++ '\'' :: ',' :: ' ' :: '\'' :: (ty ++ '\'' :: ')' :: r))) = some (name, ty, r) := by
  rw [matchField, dropWhile_quote hn]
  have h2 : ∀ z : Bytes, (' ' :: '\'' :: z).dropWhile isSpace = '\'' :: z := by
    intro z
    simp [List.dropWhile_cons, show isSpace ' ' = true by decide, show isSpace '\'' = false by decide]
  simp only [h2]
  rw [dropWhile_quote hty]
  simp only
  rw [takeWhile_quote hn, takeWhile_quote hty]

theorem searchField_plain {f : PyField} (hf : SafeName f.name) (ht : f.ty.Safe) (hs : f.sub = []) (r : Bytes) :
    searchField (f.text ++ r) = some (f.name, f.ty.order :: f.ty.code, r) := by
  have h := matchField_plain (r := r) hf.noQuote ht.name.noQuote
  have he : f.text ++ r = '(' :: '\'' :: (f.name ++ '\'' :: ',' :: ' ' :: '\'' :: ((f.ty.order :: f.ty.code) ++ '\'' :: ')' :: r)) := by
    simp [PyField.text, PyType.text, hs]
  rw [he, searchField, h]

/-- A field with a shape does not match at its opening parenthesis. -/
theorem matchField_sub {name ty r : Bytes} (hn : '\'' ∉ name) (hty : '\'' ∉ ty) :
    matchField ('(' :: '\'' :: (name ++ '\'' :: ',' :: ' ' :: '\'' :: (ty ++ '\'' :: ',' :: r))) = none := by
  rw [matchField, dropWhile_quote hn]
  have h2 : ∀ z : Bytes, (' ' :: '\'' :: z).dropWhile isSpace = '\'' :: z := by
    intro z
    simp [List.dropWhile_cons, show isSpace ' ' = true by decide, show isSpace '\'' = false by decide]
  simp only [h2]
  rw [dropWhile_quote hty]
  split
  · rename_i heq
    simp at heq
  · rfl

/-- Nor inside of its name. -/
theorem searchField_name {name : Bytes} (hn : '\'' ∉ name) {c : Char} (hc : c ≠ ',') (r : Bytes) :
    searchField (name ++ '\'' :: ',' :: ' ' :: '\'' :: c :: r) = searchField ('\'' :: c :: r) := by
  induction name with
  | nil =>
    rw [List.nil_append, searchField_ne (by decide), searchField_ne (by decide), searchField_ne (by decide)]
  | cons d name ih =>
    simp only [List.mem_cons, not_or] at hn
    by_cases hd : d = '('
    · subst hd
      cases name with
      | nil =>
        have h : matchField ('(' :: '\'' :: ',' :: ' ' :: '\'' :: c :: r) = none := by
          rw [matchField]
          have : ([',', ' '] ++ '\'' :: (c :: r)).dropWhile (· ≠ '\'') = '\'' :: (c :: r) := dropWhile_quote (by decide)
          simp only [List.cons_append, List.nil_append] at this
          rw [this]
          split
          · rename_i heq
            simp only [List.cons.injEq, true_and] at heq
            exact absurd heq.1 hc
          · rfl
        have h0 := ih hn.2
        simp only [List.nil_append] at h0
        rw [List.cons_append, List.nil_append, searchField, h]
        exact h0
      | cons e name =>
        have he : e ≠ '\'' := by
          rintro rfl
          exact hn.2 (by simp)
        rw [List.cons_append, List.cons_append, searchField_open he]
        exact ih hn.2
    · rw [List.cons_append, searchField_ne hd, ih hn.2]

theorem tuple_noparen (shape : List Nat) : '(' ∉ tupleText shape := by
  have hj : ∀ l : List Nat, '(' ∉ ", ".toList.intercalate (l.map showNat) := by
    intro l
    induction l with
    | nil => simp
    | cons n l ih =>
      have hd : '(' ∉ showNat n := fun h => by simpa using isDigit_showNat h
      by_cases hn : l = []
      · subst hn; simpa using hd
      · rw [List.map_cons, List.intercalate_cons_of_ne_nil (by simpa using hn)]
        simp only [List.mem_append, not_or]
        exact ⟨⟨hd, by decide⟩, ih⟩
  match shape with
  | [] => simp [tupleText]
  | [n] =>
    have hd : '(' ∉ showNat n := fun h => by simpa using isDigit_showNat h
    simp [tupleText, hd]
  | a :: b :: l => exact hj _

theorem showNat_noquote (n : Nat) : '\'' ∉ showNat n := fun h => by simpa using isDigit_showNat h

theorem tupleText_head {shape : List Nat} (hne : shape ≠ []) : ∃ c t, tupleText shape = c :: t ∧ c ≠ '\'' := by
  have key : ∀ n (z : Bytes), ∃ c t, showNat n ++ z = c :: t ∧ c ≠ '\'' := by
    intro n z
    obtain ⟨c, t, h⟩ := List.exists_cons_of_ne_nil (showNat_ne_nil n)
    refine ⟨c, t ++ z, by rw [h]; rfl, ?_⟩
    rintro rfl
    exact showNat_noquote n (by rw [h]; simp)
  match shape, hne with
  | [n], _ => exact key n _
  | a :: b :: l, _ =>
    rw [tupleText, List.map_cons, List.intercalate_cons_of_ne_nil (by simp), List.append_assoc]
    · exact key a _
    · simp
    · simp

theorem searchField_sub {f : PyField} (hf : SafeName f.name) (ht : f.ty.Safe) (hs : f.sub ≠ []) (r : Bytes) :
    searchField (f.text ++ r) = searchField r := by
  obtain ⟨c, t, hc, hcq⟩ := tupleText_head hs
  have he : f.text ++ r = '(' :: '\'' :: (f.name ++ '\'' :: ',' :: ' ' :: '\'' :: ((f.ty.order :: f.ty.code) ++ '\'' :: ',' ::
      (' ' :: '(' :: (tupleText f.sub ++ (')' :: ')' :: r))))) := by
    simp [PyField.text, PyType.text, hs, pyTuple_eq]
  have hm := matchField_sub (r := ' ' :: '(' :: (tupleText f.sub ++ (')' :: ')' :: r))) hf.noQuote ht.name.noQuote
  rw [he, searchField, hm]
  simp only
  rw [searchField_ne (by decide)]
  have hq : f.ty.order ≠ ',' := by rcases ht.order with h | h | h <;> rw [h] <;> decide
  rw [List.cons_append, searchField_name hf.noQuote hq, searchField_ne (by decide), ← List.cons_append, searchField_skip ht.noParen,
    searchField_ne (by decide), searchField_ne (by decide), searchField_ne (by decide), hc, List.cons_append, searchField_open hcq,
    ← List.cons_append, ← hc, searchField_skip (tuple_noparen _), searchField_ne (by decide), searchField_ne (by decide)]

/-! ## The list of fields -/

/-- The fields, each after a separator. -/
def tails (fs : List PyField) : Bytes := fs.flatMap fun f => ',' :: ' ' :: f.text

theorem join_eq (f : PyField) (fs : List PyField) : ", ".toList.intercalate ((f :: fs).map PyField.text) = f.text ++ tails fs := by
  induction fs generalizing f with
  | nil => simp [tails]
  | cons g fs ih =>
    rw [List.map_cons, List.intercalate_cons_of_ne_nil (by simp), ih]
    simp [tails]

/-- The type of a field agrees with the first one. -/
def Agrees (big : Bool) (code : Bytes) (f : PyField) : Prop := f.ty.code = code ∧ (f.ty.order == '>') = big

instance (big : Bool) (code : Bytes) : DecidablePred (Agrees big code) := fun _ => inferInstanceAs (Decidable (_ ∧ _))

theorem fieldLoop_rest {code : Bytes} (hcode : code ≠ []) (big : Bool) (fs : List PyField)
    (hs : ∀ f ∈ fs, SafeName f.name ∧ f.ty.Safe) (acc : List Bytes) (fuel : Nat) (hfu : fs.length < fuel) :
    fieldLoop fuel (tails fs) big acc code =
      if ∀ f ∈ scalars fs, Agrees big code f then .ok (big, acc ++ (scalars fs).map PyField.name, code) else .throw .invalidArgument := by
  induction fs generalizing acc fuel with
  | nil =>
    obtain ⟨n, rfl⟩ : ∃ n, fuel = n + 1 := ⟨fuel - 1, by simp at hfu; omega⟩
    simp [fieldLoop, tails, searchField, scalars]
  | cons f fs ih =>
    obtain ⟨n, rfl⟩ : ∃ n, fuel = n + 1 := ⟨fuel - 1, by simp at hfu; omega⟩
    obtain ⟨hf, ht⟩ := hs f (by simp)
    have hs' : ∀ f ∈ fs, SafeName f.name ∧ f.ty.Safe := fun g hg => hs g (by simp [hg])
    simp only [List.length_cons] at hfu
    have he : tails (f :: fs) = ',' :: ' ' :: (f.text ++ tails fs) := by simp [tails]
    rw [he, fieldLoop, searchField_sep]
    by_cases hsub : f.sub = []
    · rw [searchField_plain hf ht hsub]
      have hsc : scalars (f :: fs) = f :: scalars fs := by simp [scalars, hsub]
      simp only [parseSingleValue, Outcome.bind_ok]
      rw [if_neg hcode, hsc]
      by_cases hag : Agrees big code f
      · rw [if_neg (by simp only [Agrees] at hag; simp [hag.1, hag.2]), ih hs' _ _ (by omega)]
        by_cases hall : ∀ f ∈ scalars fs, Agrees big code f
        · rw [if_pos hall, if_pos (by simpa [hag] using hall)]
          simp
        · rw [if_neg hall, if_neg (by simpa [hag] using hall)]
      · rw [if_pos ?_, if_neg ?_]
        · intro h
          exact hag (h f (by simp))
        · by_contra hcon
          rw [not_or, not_not, not_not] at hcon
          exact hag ⟨hcon.1.symm, hcon.2.symm⟩
    · rw [searchField_sub hf ht hsub]
      have hsc : scalars (f :: fs) = scalars fs := by simp [scalars, hsub]
      have := ih hs' acc (n + 1) (by omega)
      rw [fieldLoop] at this
      rw [this, hsc]

/-- What `parseFieldValues` finds in a list of fields. -/
theorem fieldLoop_first (fs : List PyField) (hs : ∀ f ∈ fs, SafeName f.name ∧ f.ty.Safe) (fuel : Nat) (hfu : fs.length < fuel) :
    fieldLoop fuel (tails fs) false [] [] =
      match scalars fs with
      | [] => .ok (false, [], [])
      | f :: gs => if ∀ g ∈ gs, Agrees (f.ty.order == '>') f.ty.code g then
          .ok (f.ty.order == '>', (f :: gs).map PyField.name, f.ty.code) else .throw .invalidArgument := by
  induction fs generalizing fuel with
  | nil =>
    obtain ⟨n, rfl⟩ : ∃ n, fuel = n + 1 := ⟨fuel - 1, by simp at hfu; omega⟩
    simp [fieldLoop, tails, searchField, scalars]
  | cons f fs ih =>
    obtain ⟨n, rfl⟩ : ∃ n, fuel = n + 1 := ⟨fuel - 1, by simp at hfu; omega⟩
    obtain ⟨hf, ht⟩ := hs f (by simp)
    have hs' : ∀ f ∈ fs, SafeName f.name ∧ f.ty.Safe := fun g hg => hs g (by simp [hg])
    simp only [List.length_cons] at hfu
    have he : tails (f :: fs) = ',' :: ' ' :: (f.text ++ tails fs) := by simp [tails]
    rw [he, fieldLoop, searchField_sep]
    by_cases hsub : f.sub = []
    · rw [searchField_plain hf ht hsub]
      have hsc : scalars (f :: fs) = f :: scalars fs := by simp [scalars, hsub]
      simp only [parseSingleValue, Outcome.bind_ok, if_true]
      rw [fieldLoop_rest ht.code _ fs hs' _ _ (by omega), hsc]
      simp
    · rw [searchField_sub hf ht hsub]
      have hsc : scalars (f :: fs) = scalars fs := by simp [scalars, hsub]
      have := ih hs' (n + 1) (by omega)
      rw [fieldLoop] at this
      rw [this, hsc]

theorem tails_length (fs : List PyField) : fs.length ≤ (tails fs).length := by
  induction fs with
  | nil => simp
  | cons f fs ih =>
    simp only [tails, List.flatMap_cons, List.length_append, List.length_cons] at ih ⊢
    omega

theorem parseFields_numpy (fs : List PyField) (hs : ∀ f ∈ fs, SafeName f.name ∧ f.ty.Safe) :
    parseFields (", ".toList.intercalate (fs.map PyField.text)) =
      match scalars fs with
      | [] => .ok (false, [], [])
      | f :: gs => if ∀ g ∈ gs, Agrees (f.ty.order == '>') f.ty.code g then
          .ok (f.ty.order == '>', (f :: gs).map PyField.name, f.ty.code) else .throw .invalidArgument := by
  cases fs with
  | nil => simp [parseFields, fieldLoop, searchField, scalars]
  | cons f fs =>
    have hlen := tails_length fs
    have hl2 : 0 < f.text.length := by simp [PyField.text]
    rw [join_eq, parseFields, ← fieldLoop_first (f :: fs) hs ((f.text ++ tails fs).length + 1) (by simp; omega)]
    have he : tails (f :: fs) = ',' :: ' ' :: (f.text ++ tails fs) := by simp [tails]
    rw [he, fieldLoop, fieldLoop, searchField_sep]

/-! ## The dictionary -/

/-- A keyword is not in a text without its first letter. -/
theorem not_infix_of_head {c : Char} {p x : Bytes} (h : c ∉ x) : ¬ (c :: p) <:+: x := by
  rintro ⟨a, b, rfl⟩
  exact h (by simp)

theorem tuple_nohead {c : Char} (hc : c.isDigit = false) (hc1 : c ≠ ',') (hc2 : c ≠ ' ') (shape : List Nat) : c ∉ tupleText shape := by
  have hd : ∀ n, c ∉ showNat n := by
    intro n h
    have h1 := isDigit_showNat h
    rw [hc] at h1
    cases h1
  have hj : ∀ l : List Nat, c ∉ ", ".toList.intercalate (l.map showNat) := by
    intro l
    induction l with
    | nil => simp
    | cons n l ih =>
      by_cases hn : l = []
      · subst hn; simpa using hd n
      · rw [List.map_cons, List.intercalate_cons_of_ne_nil (by simpa using hn)]
        simp only [List.mem_append, not_or]
        exact ⟨⟨hd n, by simp [hc1, hc2]⟩, ih⟩
  match shape with
  | [] => simp [tupleText]
  | [n] => simp [tupleText, hd n, hc1]
  | a :: b :: l => exact hj _

/-- A keyword of the header: letters only. -/
structure Key (p : Bytes) : Prop where
  special : ∀ c ∈ ['\'', ' ', '(', ')', '[', ']', ','], c ∉ p
  head : ∃ c q, p = c :: q ∧ c.isDigit = false ∧ c ≠ ',' ∧ c ≠ ' '

theorem Key.ne {p : Bytes} (k : Key p) : ¬ p <:+: [] := by
  obtain ⟨c, q, rfl, _⟩ := k.head
  exact not_infix_of_head (by simp)

theorem Key.char {p : Bytes} (k : Key p) {c : Char} (hc : c ∈ ['\'', ' ', '(', ')', '[', ']', ',']) : Skips p [c] :=
  (Skips.one (x := []) k.ne (k.special c hc) : Skips p ([] ++ [c]))

theorem Key.tuple {p : Bytes} (k : Key p) (shape : List Nat) : ¬ p <:+: tupleText shape := by
  obtain ⟨c, q, rfl, h1, h2, h3⟩ := k.head
  exact not_infix_of_head (tuple_nohead h1 h2 h3 shape)

theorem skips_pyField {p : Bytes} (k : Key p) {f : PyField} (hn : ¬ p <:+: f.name) (ht : ¬ p <:+: f.ty.order :: f.ty.code) :
    Skips p f.text := by
  have h1 : Skips p (['('] ++ (['\''] ++ ((f.name ++ ['\'']) ++ ([','] ++ ([' '] ++ (['\''] ++ ((f.ty.order :: f.ty.code) ++ ['\'']))))))) :=
    (k.char (by simp)).append ((k.char (by simp)).append ((Skips.one hn (k.special _ (by simp))).append ((k.char (by simp)).append
      ((k.char (by simp)).append ((k.char (by simp)).append (Skips.one ht (k.special _ (by simp))))))))
  by_cases hs : f.sub = []
  · have he : f.text = (['('] ++ (['\''] ++ ((f.name ++ ['\'']) ++ ([','] ++ ([' '] ++ (['\''] ++ ((f.ty.order :: f.ty.code) ++ ['\''])))))))
        ++ [')'] := by
      simp [PyField.text, PyType.text, hs]
    rw [he]
    exact h1.append (k.char (by simp))
  · have he : f.text = (['('] ++ (['\''] ++ ((f.name ++ ['\'']) ++ ([','] ++ ([' '] ++ (['\''] ++ ((f.ty.order :: f.ty.code) ++ ['\''])))))))
        ++ ([','] ++ ([' '] ++ (['('] ++ ((tupleText f.sub ++ [')']) ++ [')'])))) := by
      simp [PyField.text, PyType.text, hs, pyTuple_eq]
    rw [he]
    exact h1.append ((k.char (by simp)).append ((k.char (by simp)).append ((k.char (by simp)).append
      ((Skips.one (k.tuple _) (k.special _ (by simp))).append (k.char (by simp))))))

/-- No keyword in names and types. -/
def Without (p : Bytes) : PyDescr → Prop
  | .plain t => ¬ p <:+: t.order :: t.code
  | .record fs => ∀ f ∈ fs, ¬ p <:+: f.name ∧ ¬ p <:+: f.ty.order :: f.ty.code

theorem skips_pyDescr {p : Bytes} (k : Key p) {d : PyDescr} (hd : Without p d) : Skips p d.text := by
  cases d with
  | plain t =>
    exact ((k.char (by simp)).append (Skips.one hd (k.special _ (by simp))) : Skips p (['\''] ++ ((t.order :: t.code) ++ ['\''])))
  | record fs =>
    rw [PyDescr.text]
    refine ((k.char (by simp)).append ?_).append (k.char (by simp))
    cases fs with
    | nil => exact .nil
    | cons f fs =>
      rw [join_eq]
      refine (skips_pyField k (hd f (by simp)).1 (hd f (by simp)).2).append (Skips.flatMap fun g hg => ?_)
      exact ((k.char (by simp)).append ((k.char (by simp)).append (skips_pyField k (hd g (by simp [hg])).1 (hd g (by simp [hg])).2)) :
        Skips p ([','] ++ ([' '] ++ g.text)))

theorem key_fort : Key "fortran_order".toList := ⟨by decide, 'f', "ortran_order".toList, by decide, by decide, by decide, by decide⟩
theorem key_shape : Key "shape".toList := ⟨by decide, 's', "hape".toList, by decide, by decide, by decide, by decide⟩

theorem safe_fort {d : PyDescr} (h : d.Safe) : Without "fortran_order".toList d := by
  cases d with
  | plain t => exact h.name.noFortran
  | record fs => exact fun f hf => ⟨(h f hf).1.noFortran, (h f hf).2.name.noFortran⟩

theorem safe_shape {d : PyDescr} (h : d.Safe) : Without "shape".toList d := by
  cases d with
  | plain t => exact h.name.noShape
  | record fs => exact fun f hf => ⟨(h f hf).1.noShape, (h f hf).2.name.noShape⟩

/-- The text of a truth value. -/
def pyBool (b : Bool) : Bytes := if b then "True".toList else "False".toList

theorem pieces_saved (s : Saved) (hs : s.descr.Safe) (R : Bytes) (hl : (s.dict ++ R).length < 2 ^ 63) :
    ∃ r, Pieces (s.dict ++ R) ((pyBool s.fortran).take 4) (s.descr.text ++ r) (tupleText s.shape) := by
  have hd : s.dict ++ R = "{'descr': ".toList ++ (s.descr.text ++ (", 'fortran_order': ".toList ++ (pyBool s.fortran ++
      (", 'shape': ".toList ++ (pyTuple s.shape ++ (", }".toList ++ R)))))) := by
    delta Saved.dict pyBool
    simp only [List.append_assoc]
  refine ⟨", 'fortran_order': ".toList ++ (pyBool s.fortran ++ (", 'shape': ".toList ++ (pyTuple s.shape ++ (", }".toList ++ R)))), hl, ?_, ?_, ?_⟩
  · refine ⟨"{'descr': ".toList ++ (s.descr.text ++ ", '".toList), pyBool s.fortran ++ (", 'shape': ".toList ++ (pyTuple s.shape ++ (", }".toList ++ R))),
      ?_, ?_, ?_⟩
    · have h : (", 'fortran_order': ".toList : Bytes) = ", '".toList ++ ("fortran_order".toList ++ "': ".toList) := by decide
      rw [hd, h]
      simp only [List.append_assoc]
    · exact (skips_fort1 : Skips _ "{'descr': ".toList).append ((skips_pyDescr key_fort (safe_fort hs)).append skips_fort2)
    · rw [List.take_append_of_le_length]
      cases s.fortran <;> decide
  · refine ⟨"{'".toList, ?_, skips_descr1⟩
    have h : ("{'descr': ".toList : Bytes) = "{'".toList ++ ("descr".toList ++ "': ".toList) := by decide
    rw [hd, h]
    simp only [List.append_assoc]
  · refine ⟨"{'descr': ".toList ++ (s.descr.text ++ (", 'fortran_order': ".toList ++ (pyBool s.fortran ++ ", '".toList))), ", }".toList ++ R,
      ?_, ?_, tuple_paren _⟩
    · have h : (", 'shape': ".toList : Bytes) ++ (pyTuple s.shape ++ (", }".toList ++ R)) =
        ", '".toList ++ ("shape".toList ++ ("': (".toList ++ (tupleText s.shape ++ ')' :: (", }".toList ++ R)))) := by
        rw [pyTuple_eq]
        simp
      rw [hd, h]
      simp only [List.append_assoc]
    · refine (skips_shape1 : Skips _ "{'descr': ".toList).append ((skips_pyDescr key_shape (safe_shape hs)).append (Skips.append ?_ ?_))
      · exact (Skips.one (p := "shape".toList) (x := ", 'fortran_order':".toList) (c := ' ') (by decide) (by decide) : Skips _ (_ ++ _))
      · have : pyBool s.fortran ++ ", '".toList = (pyBool s.fortran ++ ", ".toList) ++ ['\''] := by simp
        rw [this]
        exact Skips.one (by cases s.fortran <;> decide) (by decide)

theorem parseDict_fields_throw {H f st fs r : Bytes} {e : Err}
    (P : Pieces H f ('[' :: (fs ++ ']' :: r)) st) (hfs : ']' ∉ fs) (hparse : parseFields fs = .throw e) :
    parseDict H = .throw e := by
  obtain ⟨D0, hH, hpos⟩ := descr_pos P
  have hl := P.len
  have hf := fort_eq P
  unfold parseDict
  simp only [hf, hpos, Outcome.bind_ok]
  rw [hH] at hl ⊢
  rw [charAt_append rfl]
  simp only [Outcome.bind_ok]
  rw [if_neg (by decide), if_pos (by simp)]
  rw [fields_eq hfs hl]
  simp only [Outcome.bind_ok, hparse, Outcome.bind_throw]

theorem join_nobracket {fs : List PyField} (hs : ∀ f ∈ fs, SafeName f.name ∧ f.ty.Safe) :
    ']' ∉ ", ".toList.intercalate (fs.map PyField.text) := by
  have hf : ∀ f ∈ fs, ']' ∉ f.text := by
    intro f hf
    obtain ⟨h1, h2⟩ := hs f hf
    have h3 := h1.noBracket
    have h4 := h2.name.noBracket
    have h5 : ']' ∉ tupleText f.sub := tuple_nohead (by decide) (by decide) (by decide) _
    simp only [List.mem_cons, not_or] at h4
    rw [PyField.text, PyType.text, pyTuple_eq]
    split <;> simp [h3, h4, h5]
  cases fs with
  | nil => simp
  | cons f fs =>
    rw [join_eq]
    simp only [List.mem_append, not_or, tails, List.mem_flatMap, not_exists, not_and, List.mem_cons]
    refine ⟨hf f (by simp), fun g hg => ⟨by decide, by decide, hf g (by simp [hg])⟩⟩

/-- What the dictionary of numpy says, for the parser. -/
def savedHeader (s : Saved) : Res Header :=
  match s.descr with
  | .plain t => .ok ⟨s.fortran, t.order == '>', t.code, s.shape, [], NdArray.accI32 s.shape⟩
  | .record fs =>
    match scalars fs with
    | [] => .ok ⟨s.fortran, false, [], s.shape, [], NdArray.accI32 s.shape⟩
    | f :: gs => if ∀ g ∈ gs, Agrees (f.ty.order == '>') f.ty.code g then
        .ok ⟨s.fortran, f.ty.order == '>', f.ty.code, s.shape, (f :: gs).map PyField.name, NdArray.accI32 s.shape⟩
      else .throw .invalidArgument

theorem parseDict_saved (s : Saved) (hs : s.descr.Safe) (hne : s.shape ≠ []) (hb : ∀ n ∈ s.shape, n < 2 ^ 64) (R : Bytes)
    (hl : (s.dict ++ R).length < 2 ^ 63) : parseDict (s.dict ++ R) = savedHeader s := by
  obtain ⟨r, P⟩ := pieces_saved s hs R hl
  obtain ⟨st, h1, h2⟩ := chop_tuple hne hb
  have hft : ((pyBool s.fortran).take 4 == "True".toList) = s.fortran := by cases s.fortran <;> decide
  unfold savedHeader
  cases hd : s.descr with
  | plain t =>
    rw [hd] at P hs
    have he : (PyDescr.plain t).text ++ r = '\'' :: ((t.order :: t.code) ++ '\'' :: r) := by simp [PyDescr.text, PyType.text]
    rw [he] at P
    rw [parseDict_single P hs.name.noQuote h1 h2, hft]
  | record fs =>
    rw [hd] at P hs
    have he : (PyDescr.record fs).text ++ r = '[' :: (", ".toList.intercalate (fs.map PyField.text) ++ ']' :: r) := by simp [PyDescr.text]
    rw [he] at P
    have hp := parseFields_numpy fs hs
    simp only
    cases hsc : scalars fs with
    | nil =>
      rw [hsc] at hp
      rw [parseDict_fields P (join_nobracket hs) hp h1 h2, hft]
    | cons f gs =>
      rw [hsc] at hp
      simp only at hp ⊢
      by_cases hall : ∀ g ∈ gs, Agrees (f.ty.order == '>') f.ty.code g
      · rw [if_pos hall] at hp ⊢
        rw [parseDict_fields P (join_nobracket hs) hp h1 h2, hft]
      · rw [if_neg hall] at hp ⊢
        rw [parseDict_fields_throw P (join_nobracket hs) hp]

/-! ## The file -/

theorem header_length (s : Saved) : s.header.length = s.dict.length + s.padding + 1 := by
  simp [Saved.header]; omega

theorem readHeader_saved (s : Saved) (hl : s.header.length < 2 ^ (if s.short then 16 else 32)) (data : Bytes) :
    readHeader (s.start ++ data) = (parseDict s.header).bind fun hd =>
      if hd.fortran then .throw .elements else if endianUnset s.header hd then .ub else if hd.big then .throw .elements else .ok (hd, data) := by
  have hv : ∀ k, k < 256 → (Char.ofNat k).toNat = k := by
    intro k hk
    have h : k.isValidChar := Or.inl (by omega)
    simp only [Char.ofNat, h, dif_pos]
    rfl
  have e4 : readZero s.header.length (s.header ++ data) = (s.header, data) := by simp [readZero]
  have e1 : ∀ z : Bytes, readExact 6 (['\x93', 'N', 'U', 'M', 'P', 'Y'] ++ z) = .ok (magic, z) := by
    intro z
    simp [readExact, magic]
  unfold readHeader
  cases hsh : s.short with
  | true =>
    rw [hsh] at hl
    simp only [if_true] at hl
    have he : s.start ++ data = ['\x93', 'N', 'U', 'M', 'P', 'Y'] ++ (['\x01', '\x00'] ++
        ([byteOf s.header.length 0, byteOf s.header.length 1] ++ (s.header ++ data))) := by
      simp [Saved.start, hsh]
    have hlv : leVal [byteOf s.header.length 0, byteOf s.header.length 1] = s.header.length := by
      simp only [byteOf, leVal]
      rw [hv _ (Nat.mod_lt _ (by decide)), hv _ (Nat.mod_lt _ (by decide))]
      omega
    have e2 : ∀ z : Bytes, readExact 2 (['\x01', '\x00'] ++ z) = .ok (['\x01', '\x00'], z) := by
      intro z; simp [readExact]
    have e3 : ∀ z : Bytes, readExact 2 ([byteOf s.header.length 0, byteOf s.header.length 1] ++ z) =
        .ok ([byteOf s.header.length 0, byteOf s.header.length 1], z) := by
      intro z; simp [readExact]
    rw [he, e1]
    simp only [Outcome.bind_ok, ne_eq, not_true_eq_false, if_false]
    rw [e2]
    simp only [Outcome.bind_ok]
    rw [if_neg (by decide), if_pos (by decide), e3]
    simp only [Outcome.bind_ok, hlv, e4]
    rfl
  | false =>
    rw [hsh] at hl
    simp only [Bool.false_eq_true, if_false] at hl
    have he : s.start ++ data = ['\x93', 'N', 'U', 'M', 'P', 'Y'] ++ (['\x02', '\x00'] ++
        ([byteOf s.header.length 0, byteOf s.header.length 1, byteOf s.header.length 2, byteOf s.header.length 3] ++ (s.header ++ data))) := by
      simp [Saved.start, hsh]
    have hlv : leVal [byteOf s.header.length 0, byteOf s.header.length 1, byteOf s.header.length 2, byteOf s.header.length 3] = s.header.length := by
      simp only [byteOf, leVal]
      rw [hv _ (Nat.mod_lt _ (by decide)), hv _ (Nat.mod_lt _ (by decide)), hv _ (Nat.mod_lt _ (by decide)), hv _ (Nat.mod_lt _ (by decide))]
      omega
    have e2 : ∀ z : Bytes, readExact 2 (['\x02', '\x00'] ++ z) = .ok (['\x02', '\x00'], z) := by
      intro z; simp [readExact]
    have e3 : ∀ z : Bytes, readExact 4 ([byteOf s.header.length 0, byteOf s.header.length 1, byteOf s.header.length 2, byteOf s.header.length 3] ++ z) =
        .ok ([byteOf s.header.length 0, byteOf s.header.length 1, byteOf s.header.length 2, byteOf s.header.length 3], z) := by
      intro z; simp [readExact]
    rw [he, e1]
    simp only [Outcome.bind_ok, ne_eq, not_true_eq_false, if_false]
    rw [e2]
    simp only [Outcome.bind_ok]
    rw [if_neg (by decide), if_neg (by decide), e3]
    simp only [Outcome.bind_ok, hlv, e4]
    rfl

theorem parseDict_header (s : Saved) (hs : s.descr.Safe) (hne : s.shape ≠ []) (hb : ∀ n ∈ s.shape, n < 2 ^ 64)
    (hl : s.header.length < 2 ^ (if s.short then 16 else 32)) : parseDict s.header = savedHeader s := by
  have hl2 : s.header.length < 2 ^ 32 := by
    cases h : s.short <;> rw [h] at hl <;> simp at hl <;> omega
  have he : s.header = s.dict ++ (List.replicate s.padding ' ' ++ ['\n']) := by simp [Saved.header]
  rw [he] at hl2 ⊢
  exact parseDict_saved s hs hne hb _ (by omega)

theorem dim_le_card : ∀ {s : List Nat}, (∀ d ∈ s, 0 < d) → ∀ n ∈ s, n ≤ card s := by
  intro s
  induction s with
  | nil => intro _ n hn; cases hn
  | cons d ds ih =>
    intro hp n hn
    have hd : 0 < card ds := NdArray.card_pos_iff.mpr fun x hx => hp x (by simp [hx])
    rw [card]
    rcases List.mem_cons.mp hn with rfl | hn
    · exact Nat.le_mul_of_pos_right _ hd
    · exact Nat.le_trans (ih (fun x hx => hp x (by simp [hx])) n hn) (Nat.le_mul_of_pos_left _ (hp d (by simp)))

theorem decodeAll_length {T : Type} (E : Elem T) (n : Nat) (x : Bytes) : (decodeAll E n x).length = n := by
  induction n generalizing x with
  | zero => rfl
  | succ n ih => simp [decodeAll, ih]

theorem decodeAll_take {T : Type} (E : Elem T) (l : List T) (n : Nat) (hn : n ≤ l.length) :
    decodeAll E n (readZero (E.dtype.size * n) (l.flatMap E.enc)).1 = l.take n := by
  have h1 : l.flatMap E.enc = (l.take n).flatMap E.enc ++ (l.drop n).flatMap E.enc := by
    rw [← List.flatMap_append, List.take_append_drop]
  have h2 : (l.take n).length = n := by simp [hn]
  have h3 := enc_flat_length E (l.take n)
  rw [h2] at h3
  have h4 : readZero (E.dtype.size * n) (l.flatMap E.enc) = ((l.take n).flatMap E.enc, (l.drop n).flatMap E.enc) := by
    rw [readZero, h1, ← h3]
    simp
  have h5 := decodeAll_enc E (l.take n) []
  rw [h2, List.append_nil] at h5
  rw [h4, h5]

/-- Reading after a header of the right kind: as many elements as shape and names ask for. -/
theorem readNpy_of_header {T : Type} (E : Elem T) (g : NdArray.Heap T) {input : Bytes} {shape : List Nat} {names : List Bytes} {l : List T}
    (hh : readHeader input = .ok (⟨false, false, E.dtype.str, shape, names, NdArray.accI32 shape⟩, l.flatMap E.enc))
    (hpos : ∀ d ∈ shape, 0 < d)
    (hsmall : card (NdArray.appendAttrShape shape names.length) < 2 ^ 31)
    (hl : card (NdArray.appendAttrShape shape names.length) ≤ l.length) :
    readNpy E g input = .ok (g ++ [l.take (card (NdArray.appendAttrShape shape names.length))],
      ⟨g.length, 0, NdArray.appendAttrShape shape names.length, NdArray.updateStrides (NdArray.appendAttrShape shape names.length),
        names.map String.ofList, card (NdArray.appendAttrShape shape names.length)⟩) := by
  have hcard : card (NdArray.appendAttrShape shape names.length) = card shape * (if names.length ≠ 0 then names.length else 1) := by
    rw [NdArray.appendAttrShape]
    split
    · rw [NdArray.card_append]; simp [card]
    · simp
  have hcs : 0 < card shape := NdArray.card_pos_iff.mpr hpos
  have hle : card shape ≤ card (NdArray.appendAttrShape shape names.length) := by
    rw [hcard]
    exact Nat.le_mul_of_pos_right _ (by split <;> omega)
  rw [readNpy, hh]
  simp only [Outcome.bind_ok, ne_eq, not_true_eq_false, if_false]
  have hn : (if ¬names = [] then NdArray.accI32 shape * names.length % 2 ^ 64 else NdArray.accI32 shape) =
      card (NdArray.appendAttrShape shape names.length) := by
    rw [NdArray.accI32_eq (by omega), hcard]
    by_cases ha : names = []
    · subst ha; simp
    · have hal : names.length ≠ 0 := by simpa using ha
      rw [if_pos ha, if_pos hal]
      rw [hcard, if_pos hal] at hsmall
      exact Nat.mod_eq_of_lt (by omega)
  rw [hn, if_neg (by omega), decodeAll_take E l _ hl]
  rw [NdArray.mkAttrs, NdArray.mkData, List.length_map, NdArray.accU32_eq, Nat.mod_eq_of_lt (by omega), if_neg (by simp; omega)]
  rfl

/-- The elements of a fresh array. -/
theorem iterate_fresh {T : Type} (k : NdArray.Heap T) (data : List T) (S : List Nat) (attrs : List String) (hS : S ≠ []) (hsz : data.length = card S) :
    NdArray.iterate (k ++ [data]) ⟨k.length, 0, S, NdArray.updateStrides S, attrs, card S⟩ = .ok data := by
  rw [NdArray.iterate_unit (NdArray.updateStrides_compat _) hS]
  rw [← NdArray.collect_ok data]
  congr 1
  simp only [← hsz]
  apply List.ext_getElem (by simp)
  intro i h1 h2
  simp at h1
  simp [NdArray.atOffset, h1]

end Alexandria.Npy
