import Verif.Npy.ExactProps
import Verif.Npy.MmapModel

/-!
# What is read from any sequence of bytes (C160)
-/

namespace Alexandria.Npy

open Alexandria.Str

variable {T : Type}

/-! ## Specification -/

namespace Spec.Any

/-- The text that begins `k` characters after the start of the first occurrence of a word; if the word does not occur, `k - 1` characters after the start of the text. -/
def textAfter (word : Bytes) (k : Nat) (text : Bytes) : Option Bytes :=
  let p := match find word text with
    | some i => i + k
    | none => k - 1
  if p ≤ text.length then some (text.drop p) else none

/-- What is understood of a dictionary; the byte order may be unknown. -/
structure Dict where
  fortran : Bool
  big : Option Bool
  code : Bytes
  names : List Bytes
  shape : List Nat
  deriving DecidableEq

/-- The type: between quotes, or in the fields up to a closing bracket. -/
def type : Bytes → Res (Option Bool × Bytes × List Bytes)
  | [] => .throw .elements
  | c :: r =>
    if c = '\'' then
      match r.takeWhile (· ≠ '\'') with
      | [] => .ub
      | o :: code => .ok (some (o == '>'), code, [])
    else if c = '[' then
      match parseFields (r.takeWhile (· ≠ ']')) with
      | .ok (big, names, code) => .ok (if names = [] then none else some big, code, names)
      | .throw e => .throw e
      | .ub => .ub
    else .throw .elements

/-- The numbers up to a closing parenthesis. -/
def numbers (t : Bytes) : Res (List Nat) :=
  let s := t.takeWhile (· ≠ ')')
  if s = [] then .ub
  else match stringToSizes (if s.getLast? = some ',' then s.dropLast else s) with
    | none => .throw .elements
    | some shape => .ok shape

/-- The three entries of the dictionary, each found by its name. -/
def dictionary (text : Bytes) : Res Dict :=
  match textAfter "fortran_order".toList 16 text with
  | none => .throw .outOfRange
  | some f =>
    match textAfter "descr".toList 8 text with
    | none => .ub
    | some d =>
      match type d with
      | .throw e => .throw e
      | .ub => .ub
      | .ok (big, code, names) =>
        match textAfter "shape".toList 9 text with
        | none => .throw .outOfRange
        | some t =>
          match numbers t with
          | .throw e => .throw e
          | .ub => .ub
          | .ok shape => .ok ⟨f.take 4 == "True".toList, big, code, names, shape⟩

/-- How long the number is that tells the length of the dictionary. -/
def width (input : Bytes) : Nat := if (input.drop 6).take 1 = ['\x01'] then 2 else 4

/-- How long the dictionary is said to be. -/
def length (input : Bytes) : Nat := leVal ((input.drop 8).take (width input))

/-- The text of the dictionary; what is missing is filled with zeros. -/
def text (input : Bytes) : Bytes :=
  ((input.drop (8 + width input)).take (length input)) ++ List.replicate (length input - (input.drop (8 + width input)).length) '\x00'

/-- The dictionary of a file. -/
def header (input : Bytes) : Res Dict :=
  if input.length < 6 then .ub
  else if ¬ magic <+: input then .throw .elements
  else if input.length < 8 then .ub
  else if leVal ((input.drop 6).take 2) > 30 then .throw .elements
  else if input.length < 8 + width input then .ub
  else match dictionary (text input) with
    | .throw e => .throw e
    | .ub => .ub
    | .ok d =>
      if d.fortran then .throw .elements
      else match d.big with
        | none => .ub
        | some true => .throw .elements
        | some false => .ok d

/-- The number of elements that are read, computed in 32 and 64 bits. -/
def count (d : Dict) : Nat := if d.names = [] then NdArray.accI32 d.shape else (NdArray.accI32 d.shape * d.names.length) % 2 ^ 64

end Spec.Any

/-! ## Lemmas -/

theorem findAux_le (p : Bytes) : ∀ (s : Bytes) (i j : Nat), findAux p s i = some j → i ≤ j ∧ j ≤ i + s.length := by
  intro s
  induction s with
  | nil =>
    intro i j h
    rw [findAux] at h
    by_cases hp : p.isPrefixOf ([] : Bytes) = true
    · rw [if_pos hp] at h; cases h; simp
    · rw [if_neg hp] at h; cases h
  | cons c t ih =>
    intro i j h
    rw [findAux] at h
    by_cases hp : p.isPrefixOf (c :: t) = true
    · rw [if_pos hp] at h; cases h; simp
    · rw [if_neg hp] at h
      have := ih _ _ h
      simp only [List.length_cons]
      omega

theorem place_eq (word : Bytes) (k : Nat) (hk : 0 < k) (hk2 : k < 100) (H : Bytes) (hl : H.length < 2 ^ 63) :
    (posVal (find word H) + k) % 2 ^ 64 = match find word H with | some i => i + k | none => k - 1 := by
  cases h : find word H with
  | none => simp only [posVal, Option.getD_none]; omega
  | some i =>
    rw [find, if_pos (Nat.zero_le _)] at h
    have := findAux_le _ _ _ _ h
    simp only [posVal, Option.getD_some, List.drop_zero] at this ⊢
    omega

theorem substr_after (word : Bytes) (k n : Nat) (hk : 0 < k) (hk2 : k < 100) (H : Bytes) (hl : H.length < 2 ^ 63) :
    substr H ((posVal (find word H) + k) % 2 ^ 64) n = match Spec.Any.textAfter word k H with
      | none => .throw .outOfRange
      | some t => .ok (t.take n) := by
  rw [place_eq word k hk hk2 H hl, Spec.Any.textAfter]
  generalize (match find word H with | some i => i + k | none => k - 1) = p
  rw [substr]
  by_cases h : p ≤ H.length
  · rw [if_neg (by omega)]
    simp only [if_pos h]
  · rw [if_pos (by omega)]
    simp only [if_neg h]

theorem findAux_none (c : Char) : ∀ (s : Bytes) (i : Nat), c ∉ s → findAux [c] s i = none := by
  intro s
  induction s with
  | nil => intro i _; rfl
  | cons x t ih =>
    intro i h
    simp only [List.mem_cons, not_or] at h
    rw [findAux, if_neg (by simp [List.isPrefixOf, h.1]), ih _ h.2]

/-- The text from a place up to a character, as `find` and `substr` get it. -/
theorem substr_upTo (c : Char) (H : Bytes) (hl : H.length < 2 ^ 63) (p : Nat) (hp : p ≤ H.length) :
    substr H p ((posVal (find [c] H p) + 2 ^ 64 - p) % 2 ^ 64) = .ok ((H.drop p).takeWhile (· ≠ c)) := by
  rw [substr, if_neg (by omega), find, if_pos hp]
  congr 1
  generalize hD : H.drop p = D
  have hDl : D.length + p = H.length := by rw [← hD, List.length_drop]; omega
  by_cases hc : c ∈ D
  · obtain ⟨x, y, he, hx⟩ := List.eq_append_cons_of_mem hc
    rw [he, findAux_char hx]
    rw [he] at hDl
    simp only [List.length_append, List.length_cons] at hDl
    simp only [posVal, Option.getD_some]
    have : (p + x.length + 2 ^ 64 - p) % 2 ^ 64 = x.length := by omega
    rw [this]
    have htw : (x ++ c :: y).takeWhile (· ≠ c) = x := by
      rw [List.takeWhile_append_of_pos (by intro a ha; simp; rintro rfl; exact hx ha)]
      simp
    rw [htw]
    simp
  · rw [findAux_none c D p hc]
    have htw : D.takeWhile (· ≠ c) = D := by
      rw [List.takeWhile_eq_self_iff]
      intro a ha
      simp
      rintro rfl
      exact hc ha
    rw [htw]
    simp only [posVal, Option.getD_none]
    apply List.take_of_length_le
    omega

/-- The type is parsed as specified. -/
theorem parseType_eq (H : Bytes) (hl : H.length < 2 ^ 63) (loc : Nat) (hloc : loc ≤ H.length) :
    (do
      let c ← charAt H loc
      if c = '\'' then do
        let e := posVal (find ['\''] H (loc + 1))
        let s ← substr H (loc + 1) ((e + 2 ^ 64 - loc - 1) % 2 ^ 64)
        let (big, dtype) ← parseSingleValue s
        .ok (big, [], dtype)
      else if c = '[' then do
        let e := posVal (find [']'] H (loc + 1))
        let s ← substr H (loc + 1) ((e + 2 ^ 64 - loc - 1) % 2 ^ 64)
        parseFields s
      else .throw .elements : Res (Bool × List Bytes × Bytes)) =
    match Spec.Any.type (H.drop loc) with
      | .ok (big, code, names) => .ok (big.getD false, names, code)
      | .throw e => .throw e
      | .ub => .ub := by
  cases hd : H.drop loc with
  | nil =>
    have hlen : H.length ≤ loc := List.drop_eq_nil_iff.1 hd
    have hc : charAt H loc = .ok '\x00' := by
      rw [charAt, if_neg (by omega), List.getElem?_eq_none (by omega)]; rfl
    rw [hc, Outcome.bind_ok, if_neg (by decide), if_neg (by decide)]
    rfl
  | cons c r =>
    have hlt : loc < H.length := by
      by_contra h
      rw [List.drop_eq_nil_of_le (by omega)] at hd
      cases hd
    have hg : H[loc]? = some c := by
      rw [← List.head?_drop, hd]; rfl
    have hr : H.drop (loc + 1) = r := by
      rw [← List.drop_drop, hd]; rfl
    have hc : charAt H loc = .ok c := by
      rw [charAt, if_neg (by omega), hg]; rfl
    have h3 : ∀ x, x + 2 ^ 64 - loc - 1 = x + 2 ^ 64 - (loc + 1) := by intro x; omega
    rw [hc, Outcome.bind_ok, Spec.Any.type]
    by_cases h1 : c = '\''
    · rw [if_pos h1, if_pos h1]
      simp only [h3]
      rw [substr_upTo _ H hl (loc + 1) (by omega), Outcome.bind_ok, hr]
      cases r.takeWhile (· ≠ '\'') with
      | nil => rfl
      | cons o code => rfl
    · rw [if_neg h1, if_neg h1]
      by_cases h2 : c = '['
      · rw [if_pos h2, if_pos h2]
        simp only [h3]
        rw [substr_upTo _ H hl (loc + 1) (by omega), Outcome.bind_ok, hr]
        cases hp : parseFields (r.takeWhile (· ≠ ']')) with
        | ub => rfl
        | throw e => rfl
        | ok x =>
          obtain ⟨big, names, code⟩ := x
          simp only
          by_cases hn : names = []
          · subst hn
            have : big = false := by
              have hz : ∀ (fuel : Nat) (s : Bytes) (b : Bool) (attrs : List Bytes) (d : Bytes) (x : Bool × List Bytes × Bytes),
                  fieldLoop fuel s b attrs d = .ok x → x.2.1 = [] → x.1 = b := by
                intro fuel
                induction fuel with
                | zero => intro s b attrs d x h _; rw [fieldLoop] at h; cases h; rfl
                | succ fuel ih =>
                  intro s b attrs d x h hx
                  rw [fieldLoop] at h
                  cases hm : searchField s with
                  | none => rw [hm] at h; cases h; rfl
                  | some m =>
                    obtain ⟨name, ty, rest⟩ := m
                    rw [hm] at h
                    simp only at h
                    have key : ∀ b d, fieldLoop fuel rest b (attrs ++ [name]) d = .ok x → False := by
                      intro b d h
                      rcases fieldLoop_names _ _ _ _ _ _ h with h | h
                      · rw [h.1] at hx; simp at hx
                      · exact h hx
                    cases hv : parseSingleValue ty with
                    | ub => rw [hv] at h; cases h
                    | throw e => rw [hv] at h; cases h
                    | ok v =>
                      obtain ⟨e, d'⟩ := v
                      rw [hv] at h
                      simp only [Outcome.bind_ok] at h
                      by_cases h1 : d = []
                      · rw [if_pos h1] at h; exact (key _ _ h).elim
                      · rw [if_neg h1] at h
                        by_cases h2 : d ≠ d' ∨ b ≠ e
                        · rw [if_pos h2] at h; cases h
                        · rw [if_neg h2] at h; exact (key _ _ h).elim
              exact hz _ _ _ _ _ _ hp rfl
            rw [if_pos rfl, this]
            rfl
          · rw [if_neg hn]
            rfl
      · rw [if_neg h2, if_neg h2]

/-- A piece of the model, as one step. -/
theorem parseDict_steps (H : Bytes) : parseDict H =
    (substr H ((posVal (find "fortran_order".toList H) + 16) % 2 ^ 64) 4 >>= fun f =>
      ((do
        let c ← charAt H ((posVal (find "descr".toList H) + 8) % 2 ^ 64)
        if c = '\'' then do
          let e := posVal (find ['\''] H ((posVal (find "descr".toList H) + 8) % 2 ^ 64 + 1))
          let s ← substr H ((posVal (find "descr".toList H) + 8) % 2 ^ 64 + 1) ((e + 2 ^ 64 - (posVal (find "descr".toList H) + 8) % 2 ^ 64 - 1) % 2 ^ 64)
          let (big, dtype) ← parseSingleValue s
          .ok (big, [], dtype)
        else if c = '[' then do
          let e := posVal (find [']'] H ((posVal (find "descr".toList H) + 8) % 2 ^ 64 + 1))
          let s ← substr H ((posVal (find "descr".toList H) + 8) % 2 ^ 64 + 1) ((e + 2 ^ 64 - (posVal (find "descr".toList H) + 8) % 2 ^ 64 - 1) % 2 ^ 64)
          parseFields s
        else .throw .elements : Res (Bool × List Bytes × Bytes)) >>= fun x =>
      (substr H ((posVal (find "shape".toList H) + 9) % 2 ^ 64)
          ((posVal (find [')'] H ((posVal (find "shape".toList H) + 9) % 2 ^ 64)) + 2 ^ 64 - (posVal (find "shape".toList H) + 9) % 2 ^ 64) % 2 ^ 64) >>= fun s =>
        chopComma s >>= fun s => match stringToSizes s with
          | none => .throw .elements
          | some shape => .ok ⟨f == "True".toList, x.1, x.2.2, shape, x.2.1, NdArray.accI32 shape⟩))) := by
  unfold parseDict
  dsimp only
  cases substr H ((posVal (find "fortran_order".toList H) + 16) % 2 ^ 64) 4 with
  | ub => rfl
  | throw e => rfl
  | ok f =>
    simp only [Outcome.bind_ok]
    cases charAt H ((posVal (find "descr".toList H) + 8) % 2 ^ 64) with
    | ub => rfl
    | throw e => rfl
    | ok c =>
      simp only [Outcome.bind_ok]
      by_cases h1 : c = '\''
      · simp only [if_pos h1]
        cases substr H ((posVal (find "descr".toList H) + 8) % 2 ^ 64 + 1) _ with
        | ub => rfl
        | throw e => rfl
        | ok s =>
          simp only [Outcome.bind_ok]
          cases parseSingleValue s with
          | ub => rfl
          | throw e => rfl
          | ok v => rfl
      · simp only [if_neg h1]
        by_cases h2 : c = '['
        · simp only [if_pos h2]
          cases substr H ((posVal (find "descr".toList H) + 8) % 2 ^ 64 + 1) _ with
          | ub => rfl
          | throw e => rfl
          | ok s =>
            simp only [Outcome.bind_ok]
            cases parseFields s with
            | ub => rfl
            | throw e => rfl
            | ok v => rfl
        · simp only [if_neg h2]
          rfl

theorem chop_numbers (t : Bytes) (f : List Nat → Header) : (chopComma (t.takeWhile (· ≠ ')')) >>= fun s => match stringToSizes s with
      | none => .throw .elements
      | some shape => .ok (f shape)) = match Spec.Any.numbers t with
      | .ok shape => .ok (f shape)
      | .throw e => .throw e
      | .ub => .ub := by
  rw [Spec.Any.numbers]
  generalize t.takeWhile (· ≠ ')') = s
  by_cases hne : s = []
  · subst hne
    rfl
  · have h : chopComma s = .ok (if s.getLast? = some ',' then s.dropLast else s) := by
      rw [chopComma]
      split
      · rename_i h; exact absurd (List.getLast?_eq_none_iff.1 h) hne
      · rename_i h; rw [if_pos h]
      · rename_i h1 h2; rw [h2, if_neg (fun h => h1 (Option.some.inj h))]
    rw [h, Outcome.bind_ok]
    simp only [if_neg hne]
    cases stringToSizes (if s.getLast? = some ',' then s.dropLast else s) <;> rfl

/-- The parser understands a dictionary as specified. -/
theorem parseDict_spec (H : Bytes) (hl : H.length < 2 ^ 63) : parseDict H = match Spec.Any.dictionary H with
    | .ok d => .ok ⟨d.fortran, d.big.getD false, d.code, d.shape, d.names, NdArray.accI32 d.shape⟩
    | .throw e => .throw e
    | .ub => .ub := by
  rw [parseDict_steps, substr_after _ 16 4 (by decide) (by decide) H hl, Spec.Any.dictionary]
  cases h1 : Spec.Any.textAfter "fortran_order".toList 16 H with
  | none => rfl
  | some f =>
    simp only [Outcome.bind_ok]
    have hp := place_eq "descr".toList 8 (by decide) (by decide) H hl
    generalize (posVal (find "descr".toList H) + 8) % 2 ^ 64 = loc at hp
    have h2 : Spec.Any.textAfter "descr".toList 8 H = if loc ≤ H.length then some (H.drop loc) else none := by
      rw [Spec.Any.textAfter, ← hp]
    rw [h2]
    by_cases hloc : loc ≤ H.length
    swap
    · rw [if_neg hloc, charAt, if_pos (by omega)]
      rfl
    · rw [if_pos hloc, parseType_eq H hl loc hloc]
      simp only
      cases h3 : Spec.Any.type (H.drop loc) with
      | ub => rfl
      | throw e => rfl
      | ok x =>
        obtain ⟨big, code, names⟩ := x
        simp only [Outcome.bind_ok]
        have hp2 := place_eq "shape".toList 9 (by decide) (by decide) H hl
        generalize (posVal (find "shape".toList H) + 9) % 2 ^ 64 = loc2 at hp2
        have h4 : Spec.Any.textAfter "shape".toList 9 H = if loc2 ≤ H.length then some (H.drop loc2) else none := by
          rw [Spec.Any.textAfter, ← hp2]
        rw [h4]
        by_cases hloc2 : loc2 ≤ H.length
        swap
        · rw [if_neg hloc2, substr, if_pos (by omega)]
          rfl
        · rw [if_pos hloc2, substr_upTo _ H hl loc2 hloc2, Outcome.bind_ok, chop_numbers (H.drop loc2)]
          simp only
          cases Spec.Any.numbers (H.drop loc2) <;> rfl

/-- Whether the byte order was set. -/
theorem unset_spec (H : Bytes) (hl : H.length < 2 ^ 63) (d : Spec.Any.Dict) (hd : Spec.Any.dictionary H = .ok d) :
    endianUnset H ⟨d.fortran, d.big.getD false, d.code, d.shape, d.names, NdArray.accI32 d.shape⟩ ↔ d.big = none := by
  have hp := place_eq "descr".toList 8 (by decide) (by decide) H hl
  rw [endianUnset, hp]
  rw [Spec.Any.dictionary] at hd
  cases h1 : Spec.Any.textAfter "fortran_order".toList 16 H with
  | none => rw [h1] at hd; cases hd
  | some f =>
    rw [h1] at hd
    simp only at hd
    rw [Spec.Any.textAfter] at hd
    generalize (match find "descr".toList H with | some i => i + 8 | none => 8 - 1) = loc at hd ⊢
    by_cases hloc : loc ≤ H.length
    swap
    · rw [if_neg hloc] at hd; cases hd
    · rw [if_pos hloc] at hd
      simp only at hd
      cases h3 : Spec.Any.type (H.drop loc) with
      | ub => rw [h3] at hd; cases hd
      | throw e => rw [h3] at hd; cases hd
      | ok x =>
        obtain ⟨big, code, names⟩ := x
        rw [h3] at hd
        simp only at hd
        cases h4 : Spec.Any.textAfter "shape".toList 9 H with
        | none => rw [h4] at hd; cases hd
        | some t =>
          rw [h4] at hd
          simp only at hd
          cases h5 : Spec.Any.numbers t with
          | ub => rw [h5] at hd; cases hd
          | throw e => rw [h5] at hd; cases hd
          | ok shape =>
            rw [h5] at hd
            cases hd
            simp only
            have hg : H[loc]? = (H.drop loc).head? := by rw [List.head?_drop]
            rw [hg]
            cases hdr : H.drop loc with
            | nil => rw [hdr] at h3; cases h3
            | cons c r =>
              rw [hdr, Spec.Any.type] at h3
              simp only [List.head?_cons, Option.some.injEq]
              by_cases hq : c = '\''
              · rw [if_pos hq] at h3
                cases hw : r.takeWhile (· ≠ '\'') with
                | nil => rw [hw] at h3; cases h3
                | cons o cd =>
                  rw [hw] at h3
                  cases h3
                  subst hq
                  simp
              · rw [if_neg hq] at h3
                by_cases hb : c = '['
                · rw [if_pos hb] at h3
                  cases hf : parseFields (r.takeWhile (· ≠ ']')) with
                  | ub => rw [hf] at h3; cases h3
                  | throw e => rw [hf] at h3; cases h3
                  | ok y =>
                    obtain ⟨b', n', c'⟩ := y
                    rw [hf] at h3
                    cases h3
                    by_cases hn : names = []
                    · simp [hn, hb]
                    · simp [hn]
                · rw [if_neg hb] at h3; cases h3

/-- The header is read as specified. -/
theorem readHeader_spec (input : Bytes) (hb : ∀ c ∈ input, c.toNat < 256) : readHeader input = match Spec.Any.header input with
    | .ok d => .ok (⟨d.fortran, d.big.getD false, d.code, d.shape, d.names, NdArray.accI32 d.shape⟩, input.drop (8 + Spec.Any.width input + Spec.Any.length input))
    | .throw e => .throw e
    | .ub => .ub := by
  have hval : ∀ s : Bytes, (∀ c ∈ s, c.toNat < 256) → leVal s < 256 ^ s.length := by
    intro s
    induction s with
    | nil => intro _; simp [leVal]
    | cons c t ih =>
      intro h
      have h1 := h c (by simp)
      have h2 := ih fun x hx => h x (by simp [hx])
      rw [leVal, List.length_cons, Nat.pow_succ]
      omega
  have hlen : Spec.Any.length input < 2 ^ 32 := by
    have := hval ((input.drop 8).take (Spec.Any.width input)) fun c hc => hb c (List.mem_of_mem_drop (List.mem_of_mem_take hc))
    have hle : ((input.drop 8).take (Spec.Any.width input)).length ≤ 4 := by
      rw [List.length_take, Spec.Any.width]
      by_cases h : (input.drop 6).take 1 = ['\x01']
      · rw [if_pos h]; omega
      · rw [if_neg h]; omega
    have h256 : 256 ^ ((input.drop 8).take (Spec.Any.width input)).length ≤ 256 ^ 4 := Nat.pow_le_pow_right (by decide) hle
    rw [Spec.Any.length]
    omega
  rw [Spec.Any.header]
  unfold readHeader
  by_cases h6 : input.length < 6
  · rw [if_pos h6, readExact, if_pos h6]
    rfl
  rw [if_neg h6, readExact, if_neg h6, Outcome.bind_ok]
  simp only
  have hmg : magic <+: input ↔ input.take 6 = magic := by
    rw [List.prefix_iff_eq_take]
    exact eq_comm
  by_cases hm : input.take 6 = magic
  swap
  · rw [if_pos hm, if_pos (fun h => hm (hmg.1 h))]
  rw [if_neg (fun h => h hm), if_neg (fun h => h (hmg.2 hm))]
  by_cases h8 : input.length < 8
  · rw [if_pos h8, readExact, if_pos (by rw [List.length_drop]; omega)]
    rfl
  rw [if_neg h8, readExact, if_neg (by rw [List.length_drop]; omega), Outcome.bind_ok]
  simp only
  by_cases hv : leVal ((input.drop 6).take 2) > 30
  · rw [if_pos hv, if_pos hv]
  rw [if_neg hv, if_neg hv]
  have hv1 : ((input.drop 6).take 2).take 1 = (input.drop 6).take 1 := by rw [List.take_take]; rfl
  have hstep : (if ((input.drop 6).take 2).take 1 = ['\x01'] then readExact 2 ((input.drop 6).drop 2) else readExact 4 ((input.drop 6).drop 2)) =
      readExact (Spec.Any.width input) (input.drop 8) := by
    rw [hv1, List.drop_drop, Spec.Any.width]
    by_cases h : (input.drop 6).take 1 = ['\x01']
    · rw [if_pos h, if_pos h]
    · rw [if_neg h, if_neg h]
  have hw : ∀ (k : Bytes × Bytes → Res (Header × Bytes)),
      (if ((input.drop 6).take 2).take 1 = ['\x01'] then (readExact 2 ((input.drop 6).drop 2)) >>= k else (readExact 4 ((input.drop 6).drop 2)) >>= k) =
      readExact (Spec.Any.width input) (input.drop 8) >>= k := by
    intro k
    rw [← hstep]
    by_cases h : ((input.drop 6).take 2).take 1 = ['\x01']
    · rw [if_pos h, if_pos h]
    · rw [if_neg h, if_neg h]
  rw [hw]
  by_cases hsh : input.length < 8 + Spec.Any.width input
  · rw [if_pos hsh, readExact, if_pos (by rw [List.length_drop]; omega)]
    rfl
  rw [if_neg hsh, readExact, if_neg (by rw [List.length_drop]; omega), Outcome.bind_ok]
  simp only
  have ht : (readZero (leVal ((input.drop 8).take (Spec.Any.width input))) ((input.drop 8).drop (Spec.Any.width input))).1 = Spec.Any.text input := by
    rw [readZero, List.drop_drop]
    rfl
  have hr : (readZero (leVal ((input.drop 8).take (Spec.Any.width input))) ((input.drop 8).drop (Spec.Any.width input))).2 =
      input.drop (8 + Spec.Any.width input + Spec.Any.length input) := by
    rw [readZero, List.drop_drop, List.drop_drop]
    rfl
  rw [ht, hr]
  have htl : (Spec.Any.text input).length < 2 ^ 63 := by
    rw [Spec.Any.text]
    simp only [List.length_append, List.length_take, List.length_replicate, List.length_drop]
    omega
  rw [parseDict_spec _ htl]
  cases hdict : Spec.Any.dictionary (Spec.Any.text input) with
  | ub => rfl
  | throw e => rfl
  | ok d =>
    have hu := unset_spec _ htl d hdict
    simp only [Outcome.bind_ok]
    by_cases hf : d.fortran = true
    · rw [if_pos hf, if_pos hf]
    · rw [if_neg hf, if_neg hf]
      cases hbg : d.big with
      | none =>
        rw [hbg] at hu
        rw [if_pos (hu.2 rfl)]
      | some b =>
        rw [hbg] at hu
        rw [if_neg (fun h => by cases hu.1 h)]
        cases b with
        | true => rfl
        | false => simp [hbg]

/-! ## C160 -/

/-- **C160**: what `readNpy` makes of any sequence of bytes: the header as specified, then as many elements as its shape and names say, with zeros for what is missing. -/
theorem C160_exact (E : Elem T) (g : NdArray.Heap T) (input : Bytes) (hb : ∀ c ∈ input, c.toNat < 256) : readNpy E g input = match Spec.Any.header input with
    | .ok d =>
      if d.code ≠ E.dtype.str then .throw .elements
      else if Spec.Any.count d = 0 then .ub
      else ofNd (NdArray.mkAttrs g d.shape (d.names.map String.ofList)
        (decodeAll E (Spec.Any.count d) (readZero (E.dtype.size * Spec.Any.count d) (input.drop (8 + Spec.Any.width input + Spec.Any.length input))).1))
    | .throw e => .throw e
    | .ub => .ub := by
  rw [readNpy, readHeader_spec input hb]
  cases Spec.Any.header input with
  | ub => rfl
  | throw e => rfl
  | ok d =>
    simp only [Outcome.bind_ok]
    have hn : (if d.names ≠ [] then (NdArray.accI32 d.shape * d.names.length) % 2 ^ 64 else NdArray.accI32 d.shape) = Spec.Any.count d := by
      rw [Spec.Any.count]
      by_cases h : d.names = []
      · rw [if_neg (fun h' => h' h), if_pos h]
      · rw [if_pos h, if_neg h]
    rw [hn]

theorem mkAttrs_noub (g : NdArray.Heap T) (s : List Nat) (attrs : List String) (data : List T) : ofNd (NdArray.mkAttrs g s attrs data) ≠ .ub := by
  rw [NdArray.mkAttrs]
  cases h : NdArray.mkData g (NdArray.appendAttrShape s attrs.length) data with
  | ub =>
    rw [NdArray.mkData] at h
    split at h <;> cases h
  | throw e => intro h; cases h
  | ok x => intro h; cases h

/-- **C160**: exactly when reading is undefined: the file ends before the dictionary, the dictionary makes the parser read outside of a string or compare a byte order that was not set,
or there are no elements. -/
theorem C160_undefined (E : Elem T) (g : NdArray.Heap T) (input : Bytes) (hb : ∀ c ∈ input, c.toNat < 256) : readNpy E g input = .ub ↔
    input.length < 6 ∨
    (magic <+: input ∧ (input.length < 8 ∨
      (leVal ((input.drop 6).take 2) ≤ 30 ∧ (input.length < 8 + Spec.Any.width input ∨ Spec.Any.dictionary (Spec.Any.text input) = .ub ∨
        ∃ d, Spec.Any.dictionary (Spec.Any.text input) = .ok d ∧ d.fortran = false ∧ (d.big = none ∨ (d.big = some false ∧ d.code = E.dtype.str ∧ Spec.Any.count d = 0)))))) := by
  rw [C160_exact E g input hb, Spec.Any.header]
  by_cases h6 : input.length < 6
  · rw [if_pos h6]
    exact ⟨fun _ => Or.inl h6, fun _ => rfl⟩
  rw [if_neg h6]
  simp only [h6, false_or]
  by_cases hm : magic <+: input
  swap
  · rw [if_pos hm]
    exact ⟨fun h => (by cases h), fun h => absurd h.1 hm⟩
  rw [if_neg (fun h => h hm)]
  simp only [hm, true_and]
  by_cases h8 : input.length < 8
  · rw [if_pos h8]
    exact ⟨fun _ => Or.inl h8, fun _ => rfl⟩
  rw [if_neg h8]
  simp only [h8, false_or]
  by_cases hv : leVal ((input.drop 6).take 2) > 30
  · rw [if_pos hv]
    exact ⟨fun h => (by cases h), fun h => absurd h.1 (by omega)⟩
  rw [if_neg hv]
  have hv' : leVal ((input.drop 6).take 2) ≤ 30 := by omega
  simp only [hv', true_and]
  by_cases hsh : input.length < 8 + Spec.Any.width input
  · rw [if_pos hsh]
    exact ⟨fun _ => Or.inl hsh, fun _ => rfl⟩
  rw [if_neg hsh]
  simp only [hsh, false_or]
  cases hd : Spec.Any.dictionary (Spec.Any.text input) with
  | ub => exact ⟨fun _ => Or.inl rfl, fun _ => rfl⟩
  | throw e => exact ⟨fun h => (by cases h), fun h => (by rcases h with h | ⟨_, h, _⟩ <;> cases h)⟩
  | ok d =>
    simp only [reduceCtorEq, false_or, Outcome.ok.injEq, exists_eq_left']
    by_cases hf : d.fortran = true
    · rw [if_pos hf]
      exact ⟨fun h => (by cases h), fun h => absurd h.1 (by simp [hf])⟩
    rw [if_neg hf]
    have hf' : d.fortran = false := by simpa using hf
    simp only [hf', true_and]
    cases hbg : d.big with
    | none => exact ⟨fun _ => Or.inl rfl, fun _ => rfl⟩
    | some b =>
      cases b with
      | true => exact ⟨fun h => (by cases h), fun h => (by rcases h with h | ⟨h, _⟩ <;> cases h)⟩
      | false =>
        simp only [reduceCtorEq, false_or, true_and]
        by_cases hc : d.code = E.dtype.str
        · rw [if_neg (fun h => h hc)]
          by_cases h0 : Spec.Any.count d = 0
          · rw [if_pos h0]
            exact ⟨fun _ => ⟨hc, h0⟩, fun _ => rfl⟩
          · rw [if_neg h0]
            exact ⟨fun h => absurd h (mkAttrs_noub _ _ _ _), fun h => absurd h.2 h0⟩
        · rw [if_pos hc]
          exact ⟨fun h => (by cases h), fun h => absurd h.1 hc⟩

/-- The place where the data begin. -/
theorem headerEnd_eq (input : Bytes) : Mmap.headerEnd input = 8 + Spec.Any.width input + Spec.Any.length input := by
  rw [Mmap.headerEnd, Spec.Any.length, Spec.Any.width]
  by_cases h : (input.drop 6).take 1 = ['\x01']
  · simp only [if_pos h]
  · simp only [if_neg h]

/-- **C160**: what `mmapNpy` makes of any file that is not empty, mapped in a mode that can be written: the same header is read; the file has to contain the dictionary as a whole, but its data are not looked at. -/
theorem C160_mmap (E : Elem T) (disk : Bytes) (hb : ∀ c ∈ disk, c.toNat < 256) (hne : disk ≠ []) (mode : Mmap.Mode) (hm : mode ≠ .readonly) (maxSize : Nat) :
    Mmap.mmapNpy E disk mode maxSize =
      match Spec.Any.header (disk.take (if maxSize ≠ 0 then maxSize else disk.length)) with
      | .ok d =>
        if d.code ≠ E.dtype.str then .throw .elements
        else if (disk.take (if maxSize ≠ 0 then maxSize else disk.length)).length < Mmap.headerEnd (disk.take (if maxSize ≠ 0 then maxSize else disk.length)) then .ub
        else if NdArray.accU32 (NdArray.appendAttrShape d.shape d.names.length) ≠ Spec.Any.count d then ofNd (.throw .invalidArgument)
        else .ok (⟨disk, mode, if maxSize ≠ 0 then maxSize else disk.length, []⟩,
          ⟨Mmap.headerEnd (disk.take (if maxSize ≠ 0 then maxSize else disk.length)), Spec.Any.count d, if maxSize ≠ 0 then maxSize else disk.length, d.names⟩,
          ⟨0, 0, NdArray.appendAttrShape d.shape d.names.length, NdArray.updateStrides (NdArray.appendAttrShape d.shape d.names.length), d.names.map String.ofList,
            NdArray.accU32 (NdArray.appendAttrShape d.shape d.names.length)⟩)
      | .throw e => .throw e
      | .ub => .ub := by
  rw [Mmap.mmapNpy]
  simp only [if_neg hne]
  generalize (if maxSize ≠ 0 then maxSize else disk.length) = len
  have hs : Mmap.Mem.stream ⟨disk, mode, len, []⟩ = disk.take len := by
    rw [Mmap.Mem.stream]
    exact if_neg hm
  rw [hs, readHeader_spec _ (fun c hc => hb c (List.mem_of_mem_take hc))]
  generalize disk.take len = input
  cases Spec.Any.header input with
  | ub => rfl
  | throw e => rfl
  | ok d =>
    simp only [Outcome.bind_ok]
    have hn : (if d.names ≠ [] then (NdArray.accI32 d.shape * d.names.length) % 2 ^ 64 else NdArray.accI32 d.shape) = Spec.Any.count d := by
      rw [Spec.Any.count]
      by_cases h : d.names = []
      · rw [if_neg (fun h' => h' h), if_pos h]
      · rw [if_pos h, if_neg h]
    rw [hn]
    by_cases hc : d.code ≠ E.dtype.str
    · rw [if_pos hc, if_pos hc]
    rw [if_neg hc, if_neg hc]
    by_cases hl : input.length < Mmap.headerEnd input
    · rw [if_pos hl, if_pos hl]
    rw [if_neg hl, if_neg hl]
    have he : input.length - (input.drop (8 + Spec.Any.width input + Spec.Any.length input)).length = Mmap.headerEnd input := by
      rw [List.length_drop, ← headerEnd_eq]
      omega
    rw [he]
    rfl

/-- Every file is read or refused. -/
def C160_full : Prop := ∀ input : Bytes, (∀ c ∈ input, c.toNat < 256) → readNpy byteElem [] input ≠ .ub

/-- A file that ends after its version: the length of the dictionary is not set. -/
theorem C160_violated : ¬ C160_full := fun h => h (magic ++ version) (by decide) (by decide +kernel)

/-! ## Examples -/

/-- A file with a dictionary. -/
def fileOf (dict : String) : Bytes := magic ++ version ++ le32 dict.toList.length ++ dict.toList

-- words that do not occur: the parser looks near the start of the text
example : Spec.Any.textAfter "descr".toList 8 "{ 'a': '<B' }".toList = some "'<B' }".toList ∧ Spec.Any.textAfter "shape".toList 9 "'shape'".toList = none := by decide +kernel
-- the entries in another order
example : readNpy byteElem [] (fileOf "{'shape': (2,), 'fortran_order': False, 'descr': '<B'}" ++ ['a', 'b']) = .ok ([[97, 98]], ⟨0, 0, [2], [1], [], 2⟩) := by decide +kernel
-- no shape, no type, no field
example : readNpy byteElem [] (fileOf "{'descr': '<B', 'fortran_order': False, 'shape': ()}") = .ub ∧
    readNpy byteElem [] (fileOf "{'descr': '', 'fortran_order': False, 'shape': (1,)}") = .ub ∧
    readNpy byteElem [] (fileOf "{'descr': [], 'fortran_order': False, 'shape': (1,)}") = .ub ∧
    readNpy byteElem [] (fileOf "{'descr': [], 'fortran_order': True, 'shape': (1,)}") = .throw .elements ∧
    readNpy byteElem [] (fileOf "{'fortran_order': False, 'shape': (1,), 'descr") = .ub := by decide +kernel
-- a mapping of a file without its data
example : (Mmap.mmapNpy byteElem (fileOf "{'descr': '<B', 'fortran_order': False, 'shape': (9,)}") .readwrite 0) =
    .ok (⟨fileOf "{'descr': '<B', 'fortran_order': False, 'shape': (9,)}", .readwrite, 66, []⟩, ⟨66, 9, 66, []⟩, ⟨0, 0, [9], [1], [], 9⟩) := by decide +kernel
example : Spec.Any.dictionary "{'descr': '<B', 'fortran_order': False, 'shape': (2,3)}".toList = .ok ⟨false, some false, ['B'], [], [2, 3]⟩ := by decide +kernel

end Alexandria.Npy
