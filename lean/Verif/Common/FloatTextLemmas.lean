import Verif.Common.FloatText
import Verif.Common.StringsLemmas
import Mathlib.Tactic.NormNum

/-!
# Lemmas: floating point numbers as text
-/

namespace Alexandria.FloatText

open Alexandria.Str

/-! ## Texts -/

abbrev Digits (s : Bytes) : Prop := ∀ c ∈ s, c.isDigit = true

/-- The number of digits. -/
def num (s : Bytes) : Nat := Nat.ofDigitChars 10 s 0

theorem digits?_eq {s : Bytes} (hne : s ≠ []) (h : Digits s) : digits? s = some (num s) := by
  rw [digits?, if_pos ⟨hne, List.all_eq_true.mpr h⟩, num]

theorem num_zeros (s : Bytes) (k : Nat) : num (s ++ List.replicate k '0') = num s * 10 ^ k := by
  rw [num, Nat.ofDigitChars_append, Nat.ofDigitChars_replicate_zero, Nat.mul_comm]; rfl

theorem num_zeros_append (k : Nat) (s : Bytes) : num (List.replicate k '0' ++ s) = num s := by
  rw [num, Nat.ofDigitChars_append, Nat.ofDigitChars_replicate_zero, Nat.mul_zero]; rfl

theorem num_showNat (n : Nat) : num (showNat n) = n := by rw [num, showNat, Nat.ofDigitChars_ten_toDigits]

theorem digits_showNat (n : Nat) : Digits (showNat n) := fun _ hc => isDigit_showNat hc

theorem strip_eq (s : Bytes) : ∃ k, s = strip s ++ List.replicate k '0' := by
  refine ⟨(s.reverse.takeWhile fun c => c == '0').length, ?_⟩
  have h1 : s.reverse = (s.reverse.takeWhile fun c => c == '0') ++ s.reverse.dropWhile fun c => c == '0' := List.takeWhile_append_dropWhile.symm
  have h2 : (s.reverse.takeWhile fun c => c == '0') = List.replicate (s.reverse.takeWhile fun c => c == '0').length '0' :=
    List.eq_replicate_iff.2 ⟨rfl, fun c hc => by simpa using List.mem_takeWhile_imp hc⟩
  have h3 := congrArg List.reverse h1
  rw [List.reverse_reverse, List.reverse_append, h2, List.reverse_replicate] at h3
  exact h3

theorem strip_mem {s : Bytes} {c : Char} (h : c ∈ strip s) : c ∈ s := by
  obtain ⟨k, hk⟩ := strip_eq s
  rw [hk]; exact List.mem_append_left _ h

theorem digit_ne {c : Char} (h : c.isDigit = true) : c ≠ '.' ∧ c ≠ '-' ∧ c ≠ '+' ∧ isExp c = false := by
  refine ⟨?_, ?_, ?_, ?_⟩
  · rintro rfl; exact absurd h (by decide)
  · rintro rfl; exact absurd h (by decide)
  · rintro rfl; exact absurd h (by decide)
  · by_contra hc
    simp only [isExp, Bool.or_eq_true, beq_iff_eq, Bool.not_eq_false] at hc
    rcases hc with rfl | rfl <;> exact absurd h (by decide)

theorem withFraction_mem {ip fp : Bytes} {c : Char} (h : c ∈ withFraction ip fp) : c ∈ ip ∨ c ∈ fp ∨ c = '.' := by
  unfold withFraction at h
  rcases List.mem_append.1 h with h | h
  · exact .inl h
  · by_cases hf : fp = []
    · rw [if_pos hf] at h; simp at h
    · rw [if_neg hf] at h
      rcases List.mem_cons.1 h with h | h
      · exact .inr (.inr h)
      · exact .inr (.inl h)

theorem mantissa?_eq {ip fp : Bytes} (hi : Digits ip) (hf : Digits fp) (hne : ip ≠ []) :
    mantissa? (withFraction ip fp) = some (num (ip ++ fp), fp.length) := by
  have hp : ∀ c ∈ ip, (c != '.') = true := fun c hc => by simpa using (digit_ne (hi c hc)).1
  have hd : digits? (ip ++ fp) = some (num (ip ++ fp)) :=
    digits?_eq (by simp [hne]) fun c hc => (List.mem_append.1 hc).elim (hi c) (hf c)
  unfold mantissa? withFraction
  by_cases hfe : fp = []
  · subst hfe
    have h1 : (ip.takeWhile fun c => c != '.') = ip := List.takeWhile_eq_self_iff.2 hp
    have h2 : (ip.dropWhile fun c => c != '.') = [] := List.dropWhile_eq_nil_iff.2 hp
    rw [List.append_nil] at hd ⊢
    simp only [if_true, List.append_nil, h1, h2, List.drop_nil, hd, Option.map_some, List.length_nil]
  · have h1 : ((ip ++ '.' :: fp).takeWhile fun c => c != '.') = ip := by
      rw [List.takeWhile_append_of_pos hp, List.takeWhile_cons_of_neg (by simp), List.append_nil]
    have h2 : ((ip ++ '.' :: fp).dropWhile fun c => c != '.') = '.' :: fp := by
      rw [List.dropWhile_append_of_pos hp, List.dropWhile_cons_of_neg (by simp)]
    simp only [if_neg hfe, h1, h2, List.drop_succ_cons, List.drop_zero, hd, Option.map_some]

theorem noExp {ip fp : Bytes} (hi : Digits ip) (hf : Digits fp) : ∀ c ∈ withFraction ip fp, (!isExp c) = true := fun c hc => by
  rcases withFraction_mem hc with h | h | rfl
  · simpa using (digit_ne (hi c h)).2.2.2
  · simpa using (digit_ne (hf c h)).2.2.2
  · decide

theorem unsigned?_fixed {ip fp : Bytes} (hi : Digits ip) (hf : Digits fp) (hne : ip ≠ []) :
    unsigned? (withFraction ip fp) = some ((num (ip ++ fp) : Rat) * 10 ^ (-(fp.length : Int))) := by
  have h1 := List.takeWhile_eq_self_iff.2 (noExp hi hf)
  have h2 := List.dropWhile_eq_nil_iff.2 (noExp hi hf)
  unfold unsigned?
  rw [h1, mantissa?_eq hi hf hne, h2]

theorem exponent?_expText (e : Int) : exponent? (expText e) = some e := by
  have hd : digits? ((if e.natAbs < 10 then ['0'] else []) ++ showNat e.natAbs) = some e.natAbs := by
    rw [digits?_eq (by simp [showNat_ne_nil]) ?_]
    · by_cases h : e.natAbs < 10
      · rw [if_pos h]
        have := num_zeros_append 1 (showNat e.natAbs)
        rw [num_showNat] at this
        exact congrArg some this
      · rw [if_neg h, List.nil_append, num_showNat]
    · intro c hc
      rcases List.mem_append.1 hc with hc | hc
      · by_cases h : e.natAbs < 10
        · rw [if_pos h] at hc
          rw [List.mem_singleton.1 hc]; decide
        · rw [if_neg h] at hc; simp at hc
      · exact digits_showNat _ c hc
  unfold expText
  by_cases h : e < 0
  · rw [if_pos h]
    simp only [exponent?]
    rw [hd, Option.map_some]
    congr 1; omega
  · rw [if_neg h]
    simp only [exponent?]
    rw [hd, Option.map_some]
    congr 1; omega

theorem unsigned?_sci {ip fp : Bytes} (hi : Digits ip) (hf : Digits fp) (hne : ip ≠ []) (e : Int) :
    unsigned? (withFraction ip fp ++ 'e' :: expText e) = some ((num (ip ++ fp) : Rat) * 10 ^ (e - (fp.length : Int))) := by
  have h1 : ((withFraction ip fp ++ 'e' :: expText e).takeWhile fun c => !isExp c) = withFraction ip fp := by
    rw [List.takeWhile_append_of_pos (noExp hi hf), List.takeWhile_cons_of_neg (by decide), List.append_nil]
  have h2 : ((withFraction ip fp ++ 'e' :: expText e).dropWhile fun c => !isExp c) = 'e' :: expText e := by
    rw [List.dropWhile_append_of_pos (noExp hi hf), List.dropWhile_cons_of_neg (by decide)]
  unfold unsigned?
  rw [h1, mantissa?_eq hi hf hne, h2]
  simp only
  rw [exponent?_expText, Option.map_some]

theorem length_showNat {n m : Nat} (hn : 1 ≤ n) (h1 : 10 ^ (n - 1) ≤ m) (h2 : m < 10 ^ n) : (showNat m).length = n := by
  apply le_antisymm
  · exact (Nat.length_toDigits_le_iff (by norm_num) (by omega)).2 h2
  · by_contra hc
    rcases Nat.eq_or_lt_of_le hn with h | h
    · subst h
      have := showNat_ne_nil m
      exact this (List.length_eq_zero_iff.1 (by omega))
    · have := (Nat.length_toDigits_le_iff (b := 10) (n := m) (k := n - 1) (by norm_num) (by omega)).1 (by unfold showNat at hc; omega)
      omega

/-- The text stands for the rounded number. -/
theorem unsigned?_posText {n m : Nat} (hn : 1 ≤ n) (h1 : 10 ^ (n - 1) ≤ m) (h2 : m < 10 ^ n) (e : Int) :
    unsigned? (posText n m e) = some ((m : Rat) * 10 ^ (e + 1 - (n : Int))) := by
  have hl := length_showNat hn h1 h2
  have hds := digits_showNat m
  -- the digits without the zeros at the end
  have key : ∀ (a t : Bytes) (k : Nat) (j : Int), a ++ t ++ List.replicate k '0' = showNat m → j = e - (a.length - 1 : Int) →
      (num (a ++ t) : Rat) * 10 ^ (j - t.length) = (m : Rat) * 10 ^ (e + 1 - (n : Int)) := fun a t k j hs hj => by
    have e1 := congrArg num hs
    rw [num_zeros, num_showNat] at e1
    have e2 := congrArg List.length hs
    simp only [List.length_append, List.length_replicate] at e2
    rw [hl] at e2
    rw [← e1, hj]
    push_cast
    rw [mul_assoc, ← zpow_natCast, ← zpow_add₀ (by norm_num)]
    congr 2
    rw [← e2]; push_cast; ring
  unfold posText
  by_cases hr : -4 ≤ e ∧ e < n
  · simp only [if_pos hr]
    by_cases he : 0 ≤ e
    · rw [if_pos he]
      obtain ⟨k, hk⟩ := strip_eq ((showNat m).drop (e.toNat + 1))
      have hlen : ((showNat m).take (e.toNat + 1)).length = e.toNat + 1 := by rw [List.length_take, hl]; omega
      have hne : (showNat m).take (e.toNat + 1) ≠ [] := fun hc => by rw [hc] at hlen; simp at hlen
      rw [unsigned?_fixed (fun c hc => hds c (List.mem_of_mem_take hc)) (fun c hc => hds c (List.mem_of_mem_drop (strip_mem hc))) hne]
      congr 1
      rw [← key ((showNat m).take (e.toNat + 1)) (strip ((showNat m).drop (e.toNat + 1))) k 0 ?_ ?_]
      · rw [zero_sub]
      · rw [List.append_assoc, ← hk, List.take_append_drop]
      · rw [hlen]; push_cast; omega
    · rw [if_neg he]
      obtain ⟨k, hk⟩ := strip_eq (showNat m)
      have hz : Digits (List.replicate (e.natAbs - 1) '0') := fun c hc => by rw [List.eq_of_mem_replicate hc]; decide
      rw [unsigned?_fixed (fun c hc => by rw [List.mem_singleton.1 hc]; decide)
        (fun c hc => (List.mem_append.1 hc).elim (hz c) fun h => hds c (strip_mem h)) (by simp)]
      congr 1
      have e3 : num (['0'] ++ (List.replicate (e.natAbs - 1) '0' ++ strip (showNat m))) = num ([] ++ strip (showNat m)) := by
        rw [← List.append_assoc, show ['0'] ++ List.replicate (e.natAbs - 1) '0' = List.replicate (e.natAbs - 1 + 1) '0' from rfl, num_zeros_append]; rfl
      rw [e3, ← key [] (strip (showNat m)) k (e + 1) (by rw [List.nil_append, ← hk]) (by simp)]
      congr 2
      rw [List.length_append, List.length_replicate]
      push_cast
      omega
  · simp only [if_neg hr]
    obtain ⟨k, hk⟩ := strip_eq ((showNat m).drop 1)
    have hlen : ((showNat m).take 1).length = 1 := by rw [List.length_take, hl]; omega
    have hne : (showNat m).take 1 ≠ [] := fun hc => by rw [hc] at hlen; simp at hlen
    rw [unsigned?_sci (fun c hc => hds c (List.mem_of_mem_take hc)) (fun c hc => hds c (List.mem_of_mem_drop (strip_mem hc))) hne]
    congr 1
    exact key _ _ k e (by rw [List.append_assoc, ← hk, List.take_append_drop]) (by rw [hlen]; simp)

/-- The characters of the texts. -/
def TextChar (c : Char) : Prop := c.isDigit = true ∨ c = '.' ∨ c = 'e' ∨ c = '-' ∨ c = '+'

theorem posText_chars (n m : Nat) (e : Int) : ∀ c ∈ posText n m e, TextChar c := by
  have hds := digits_showNat m
  have hw : ∀ {ip fp : Bytes}, Digits ip → Digits fp → ∀ c ∈ withFraction ip fp, TextChar c := fun hi hf c hc => by
    rcases withFraction_mem hc with h | h | h
    · exact .inl (hi c h)
    · exact .inl (hf c h)
    · exact .inr (.inl h)
  unfold posText
  by_cases hr : -4 ≤ e ∧ e < n
  · simp only [if_pos hr]
    by_cases he : 0 ≤ e
    · rw [if_pos he]
      exact hw (fun c hc => hds c (List.mem_of_mem_take hc)) (fun c hc => hds c (List.mem_of_mem_drop (strip_mem hc)))
    · rw [if_neg he]
      exact hw (fun c hc => by rw [List.mem_singleton.1 hc]; decide) fun c hc => (List.mem_append.1 hc).elim
        (fun hc => by rw [List.eq_of_mem_replicate hc]; decide) fun h => hds c (strip_mem h)
  · simp only [if_neg hr]
    intro c hc
    rcases List.mem_append.1 hc with hc | hc
    · exact hw (fun c hc => hds c (List.mem_of_mem_take hc)) (fun c hc => hds c (List.mem_of_mem_drop (strip_mem hc))) c hc
    · rcases List.mem_cons.1 hc with h | hc
      · exact .inr (.inr (.inl h))
      · unfold expText at hc
        rcases List.mem_cons.1 hc with h | hc
        · by_cases he : e < 0
          · rw [if_pos he] at h; exact .inr (.inr (.inr (.inl h)))
          · rw [if_neg he] at h; exact .inr (.inr (.inr (.inr h)))
        · rcases List.mem_append.1 hc with hc | hc
          · by_cases he : e.natAbs < 10
            · rw [if_pos he] at hc; rw [List.mem_singleton.1 hc]; exact .inl (by decide)
            · rw [if_neg he] at hc; simp at hc
          · exact .inl (digits_showNat _ c hc)

/-- The text of a positive number begins with a digit. -/
theorem posText_head (n m : Nat) (e : Int) : ∃ c t, posText n m e = c :: t ∧ c.isDigit = true := by
  obtain ⟨d, ds, hd⟩ := List.exists_cons_of_ne_nil (showNat_ne_nil m)
  have h0 : d.isDigit = true := digits_showNat m d (by rw [hd]; simp)
  unfold posText withFraction
  rw [hd]
  by_cases hr : -4 ≤ e ∧ e < n
  · simp only [if_pos hr]
    by_cases he : 0 ≤ e
    · rw [if_pos he]; exact ⟨d, _, rfl, h0⟩
    · rw [if_neg he]; exact ⟨'0', _, rfl, by decide⟩
  · simp only [if_neg hr]
    exact ⟨d, _, rfl, h0⟩

theorem decimal?_posText {n m : Nat} (hn : 1 ≤ n) (h1 : 10 ^ (n - 1) ≤ m) (h2 : m < 10 ^ n) (e : Int) :
    decimal? (posText n m e) = some ((m : Rat) * 10 ^ (e + 1 - (n : Int))) := by
  obtain ⟨c, t, hc, hd⟩ := posText_head n m e
  have hu := unsigned?_posText hn h1 h2 e
  rw [hc] at hu ⊢
  unfold decimal?
  split
  · rename_i heq; exact absurd (List.cons.inj heq).1 (digit_ne hd).2.1
  · rename_i heq; exact absurd (List.cons.inj heq).1 (digit_ne hd).2.2.1
  · exact hu

/-! ## Rounding to a number of digits -/

theorem toInt_closest (q : Rat) (k : Int) : |(Binary.toInt q : Rat) - q| ≤ |(k : Rat) - q| := by
  have h := Binary.toInt_err q
  by_cases hk : k = Binary.toInt q
  · rw [hk]
  · have h1 : (1 : Rat) ≤ |(k : Rat) - Binary.toInt q| := by
      have : (1 : Int) ≤ |k - Binary.toInt q| := Int.one_le_abs (sub_ne_zero.2 hk)
      exact_mod_cast this
    have h2 : |(k : Rat) - Binary.toInt q| ≤ |(k : Rat) - q| + |(Binary.toInt q : Rat) - q| := by
      rw [abs_sub_comm (Binary.toInt q : Rat) q]; exact abs_sub_le _ _ _
    linarith

/-- An integer nearer than one half is the rounded number. -/
theorem toInt_eq {q : Rat} {k : Int} (h : |(k : Rat) - q| < 1 / 2) : Binary.toInt q = k := by
  have h1 := toInt_closest q k
  have h2 : |(Binary.toInt q : Rat) - k| ≤ |(Binary.toInt q : Rat) - q| + |(k : Rat) - q| := by
    rw [abs_sub_comm (k : Rat) q]; exact abs_sub_le _ _ _
  have h3 : |(Binary.toInt q : Rat) - k| < 1 := by linarith
  have h4 : |Binary.toInt q - k| < 1 := by exact_mod_cast h3
  rw [Int.abs_lt_one_iff] at h4
  omega

theorem log_bounds {x : Rat} (hx : 0 < x) : (10 : Rat) ^ Int.log 10 x ≤ x ∧ x < (10 : Rat) ^ (Int.log 10 x + 1) := by
  have h1 := Int.zpow_log_le_self (b := 10) (by norm_num) hx
  have h2 := Int.lt_zpow_succ_log_self (b := 10) (by norm_num) x
  exact ⟨by exact_mod_cast h1, by exact_mod_cast h2⟩

theorem log_eq {x : Rat} {e : Int} (h1 : (10 : Rat) ^ e ≤ x) (h2 : x < (10 : Rat) ^ (e + 1)) : Int.log 10 x = e := by
  have hx : 0 < x := lt_of_lt_of_le (zpow_pos (by norm_num) e) h1
  obtain ⟨h3, h4⟩ := log_bounds hx
  have a : Int.log 10 x < e + 1 := (zpow_lt_zpow_iff_right₀ (by norm_num : (1 : Rat) < 10)).1 (lt_of_le_of_lt h3 h2)
  have b : e < Int.log 10 x + 1 := (zpow_lt_zpow_iff_right₀ (by norm_num : (1 : Rat) < 10)).1 (lt_of_le_of_lt h1 h4)
  omega

/-- The value of digits and an exponent. -/
def value (n : Nat) (r : Nat × Int) : Rat := (r.1 : Rat) * 10 ^ (r.2 + 1 - (n : Int))

theorem ten_split (a b c : Int) (h : a + b = c) : (10 : Rat) ^ a * 10 ^ b = 10 ^ c := by rw [← h, zpow_add₀ (by norm_num)]

/-- The scaled number and its integer. -/
theorem scaled {n : Nat} (hn : 1 ≤ n) {x : Rat} (hx : 0 < x) :
    (10 : Rat) ^ (n - 1) ≤ x * 10 ^ ((n : Int) - 1 - Int.log 10 x) ∧ x * 10 ^ ((n : Int) - 1 - Int.log 10 x) < 10 ^ n := by
  obtain ⟨h1, h2⟩ := log_bounds hx
  have hp : (0 : Rat) < 10 ^ ((n : Int) - 1 - Int.log 10 x) := zpow_pos (by norm_num) _
  constructor
  · have := mul_le_mul_of_nonneg_right h1 hp.le
    rw [ten_split _ _ ((n - 1 : Nat) : Int) (by push_cast [Nat.cast_sub hn]; ring), zpow_natCast] at this
    exact this
  · have := mul_lt_mul_of_pos_right h2 hp
    rw [ten_split _ _ (n : Int) (by ring), zpow_natCast] at this
    exact this

theorem sig_int {n : Nat} (hn : 1 ≤ n) {x : Rat} (hx : 0 < x) :
    (10 : Int) ^ (n - 1) ≤ Binary.toInt (x * 10 ^ ((n : Int) - 1 - Int.log 10 x)) ∧ Binary.toInt (x * 10 ^ ((n : Int) - 1 - Int.log 10 x)) ≤ 10 ^ n := by
  obtain ⟨h1, h2⟩ := scaled hn hx
  constructor
  · have := Binary.toInt_mono (a := (((10 : Int) ^ (n - 1) : Int) : Rat)) (by push_cast; exact h1)
    rwa [Binary.toInt_int] at this
  · have := Binary.toInt_mono (b := (((10 : Int) ^ n : Int) : Rat)) (by push_cast; exact h2.le)
    rwa [Binary.toInt_int] at this

/-- There are `n` digits. -/
theorem sig_digits {n : Nat} (hn : 1 ≤ n) {x : Rat} (hx : 0 < x) : 10 ^ (n - 1) ≤ (sig n x).1 ∧ (sig n x).1 < 10 ^ n := by
  obtain ⟨h1, h2⟩ := sig_int hn hx
  have hlt : 10 ^ (n - 1) < 10 ^ n := Nat.pow_lt_pow_right (by norm_num) (by omega)
  unfold sig
  simp only
  generalize Binary.toInt (x * 10 ^ ((n : Int) - 1 - Int.log 10 x)) = m at h1 h2
  have h0 : (0 : Int) ≤ m := le_trans (by positivity) h1
  have h3 : ((m.toNat : Nat) : Int) = m := Int.toNat_of_nonneg h0
  have h4 : 10 ^ (n - 1) ≤ m.toNat := by rw [← h3] at h1; exact_mod_cast h1
  have h5 : m.toNat ≤ 10 ^ n := by rw [← h3] at h2; exact_mod_cast h2
  by_cases h : m.toNat = 10 ^ n
  · rw [if_pos h]; exact ⟨le_rfl, hlt⟩
  · rw [if_neg h]; exact ⟨h4, lt_of_le_of_ne h5 h⟩

/-- The digits stand for the integer nearest to the scaled number. -/
theorem value_sig {n : Nat} (hn : 1 ≤ n) {x : Rat} (hx : 0 < x) :
    value n (sig n x) = (Binary.toInt (x * 10 ^ ((n : Int) - 1 - Int.log 10 x)) : Rat) * 10 ^ (Int.log 10 x + 1 - (n : Int)) := by
  obtain ⟨h1, h2⟩ := sig_int hn hx
  unfold value sig
  simp only
  generalize Binary.toInt (x * 10 ^ ((n : Int) - 1 - Int.log 10 x)) = m at h1 h2
  have h0 : (0 : Int) ≤ m := le_trans (by positivity) h1
  have h3 : ((m.toNat : Nat) : Rat) = m := by exact_mod_cast Int.toNat_of_nonneg h0
  by_cases h : m.toNat = 10 ^ n
  · rw [if_pos h, ← h3, h]
    push_cast
    rw [← zpow_natCast, ← zpow_natCast, ten_split _ _ (Int.log 10 x + 1) (by push_cast [Nat.cast_sub hn]; ring),
      ten_split _ _ (Int.log 10 x + 1) (by ring)]
  · rw [if_neg h, ← h3]

/-- The error is at most half a unit of the last digit. -/
theorem value_err {n : Nat} (hn : 1 ≤ n) {x : Rat} (hx : 0 < x) : |value n (sig n x) - x| ≤ 1 / 2 * 10 ^ (Int.log 10 x + 1 - (n : Int)) := by
  rw [value_sig hn hx]
  have hp : (0 : Rat) < 10 ^ (Int.log 10 x + 1 - (n : Int)) := zpow_pos (by norm_num) _
  have he := Binary.toInt_err (x * 10 ^ ((n : Int) - 1 - Int.log 10 x))
  have hxx : x = x * 10 ^ ((n : Int) - 1 - Int.log 10 x) * 10 ^ (Int.log 10 x + 1 - (n : Int)) := by
    rw [mul_assoc, ten_split _ _ 0 (by ring), zpow_zero, mul_one]
  generalize x * 10 ^ ((n : Int) - 1 - Int.log 10 x) = q at he hxx
  generalize Int.log 10 x + 1 - (n : Int) = j at *
  rw [hxx, ← sub_mul, abs_mul, abs_of_pos hp]
  exact mul_le_mul_of_nonneg_right he hp.le

/-- The error is at most five units of the digit after the last one of the number. -/
theorem value_rel {n : Nat} (hn : 1 ≤ n) {x : Rat} (hx : 0 < x) : |value n (sig n x) - x| ≤ x * (5 / 10 ^ n) := by
  refine le_trans (value_err hn hx) ?_
  have h := (log_bounds hx).1
  have h1 : (10 : Rat) ^ (Int.log 10 x + 1 - (n : Int)) = 10 ^ Int.log 10 x * (10 / 10 ^ n) := by
    rw [show Int.log 10 x + 1 - (n : Int) = Int.log 10 x + (1 - (n : Int)) by ring, zpow_add₀ (by norm_num), zpow_sub₀ (by norm_num), zpow_one, zpow_natCast]
  rw [h1]
  have h2 : (0 : Rat) < 5 / 10 ^ n := by positivity
  have := mul_le_mul_of_nonneg_right h h2.le
  calc 1 / 2 * ((10 : Rat) ^ Int.log 10 x * (10 / 10 ^ n)) = 10 ^ Int.log 10 x * (5 / 10 ^ n) := by ring
    _ ≤ _ := this

/-- No number with at most `n` digits is nearer. -/
theorem value_closest {n : Nat} (hn : 1 ≤ n) {x : Rat} (hx : 0 < x) (k : Int) (j : Int) (hk : |k| < 10 ^ n) :
    |value n (sig n x) - x| ≤ |(k : Rat) * 10 ^ j - x| := by
  have hp : (0 : Rat) < 10 ^ (Int.log 10 x + 1 - (n : Int)) := zpow_pos (by norm_num) _
  have hxx : x = x * 10 ^ ((n : Int) - 1 - Int.log 10 x) * 10 ^ (Int.log 10 x + 1 - (n : Int)) := by
    rw [mul_assoc, ten_split _ _ 0 (by ring), zpow_zero, mul_one]
  -- multiples of the unit of the last digit
  have key : ∀ i : Int, |value n (sig n x) - x| ≤ |(i : Rat) * 10 ^ (Int.log 10 x + 1 - (n : Int)) - x| := fun i => by
    rw [value_sig hn hx]
    have he := toInt_closest (x * 10 ^ ((n : Int) - 1 - Int.log 10 x)) i
    generalize x * 10 ^ ((n : Int) - 1 - Int.log 10 x) = q at he hxx
    generalize Int.log 10 x + 1 - (n : Int) = j at *
    rw [hxx, ← sub_mul, ← sub_mul, abs_mul, abs_mul, abs_of_pos hp]
    exact mul_le_mul_of_nonneg_right he hp.le
  by_cases hj : Int.log 10 x + 1 - (n : Int) ≤ j
  · obtain ⟨i, hi⟩ := Int.eq_ofNat_of_zero_le (sub_nonneg.2 hj)
    have := key (k * 10 ^ i)
    push_cast at this
    rw [mul_assoc, ← zpow_natCast, ten_split _ _ j (by omega)] at this
    exact this
  · -- numbers of smaller units are below the power of ten
    have h1 := (log_bounds hx).1
    have hkr : (k : Rat) ≤ 10 ^ n := by
      have : k ≤ 10 ^ n := le_trans (le_abs_self k) hk.le
      exact_mod_cast this
    have hj2 : (k : Rat) * 10 ^ j ≤ 10 ^ Int.log 10 x := by
      calc (k : Rat) * 10 ^ j ≤ 10 ^ n * 10 ^ j := mul_le_mul_of_nonneg_right hkr (zpow_pos (by norm_num) _).le
        _ = 10 ^ ((n : Int) + j) := by rw [← zpow_natCast, ten_split _ _ _ rfl]
        _ ≤ 10 ^ Int.log 10 x := zpow_le_zpow_right₀ (by norm_num) (by omega)
    have := key (10 ^ (n - 1))
    push_cast at this
    rw [← zpow_natCast, ten_split _ _ (Int.log 10 x) (by push_cast [Nat.cast_sub hn]; ring)] at this
    refine le_trans this ?_
    rw [abs_of_nonpos (by linarith), abs_of_nonpos (by linarith)]
    linarith

/-- Numbers near to a number of `n` digits are rounded to it. -/
theorem sig_unique {n : Nat} (hn : 1 ≤ n) {m : Nat} {e : Int} (h1 : 10 ^ (n - 1) ≤ m) (h2 : m < 10 ^ n) {x ε : Rat} (hε : 2 * 10 ^ n * ε < 1)
    (hx : |x - value n (m, e)| ≤ value n (m, e) * ε) : sig n x = (m, e) := by
  obtain ⟨u, hu⟩ : ∃ u : Rat, u = 10 ^ (e + 1 - (n : Int)) := ⟨_, rfl⟩
  have hup : 0 < u := by rw [hu]; exact zpow_pos (by norm_num) _
  have hv : value n (m, e) = m * u := by rw [hu]; rfl
  have hE : (10 : Rat) ^ e = 10 ^ (n - 1) * u := by
    rw [hu, ← zpow_natCast, ten_split _ _ e (by push_cast [Nat.cast_sub hn]; ring)]
  have hE1 : (10 : Rat) ^ (e + 1) = 10 ^ n * u := by rw [hu, ← zpow_natCast, ten_split _ _ (e + 1) (by ring)]
  have hm1 : (10 : Rat) ^ (n - 1) ≤ m := by exact_mod_cast h1
  have hm2 : (m : Rat) + 1 ≤ 10 ^ n := by exact_mod_cast h2
  have hm0 : (0 : Rat) < m := lt_of_lt_of_le (by positivity) hm1
  have hε0 : 0 ≤ ε := by
    by_contra hc
    have : value n (m, e) * ε < 0 := by rw [hv]; exact mul_neg_of_pos_of_neg (by positivity) (by linarith)
    exact absurd (le_trans (abs_nonneg _) hx) (by linarith)
  have hme : (m : Rat) * ε < 1 / 2 := by nlinarith
  rw [hv] at hx
  have hx2 : |x - m * u| < 1 / 2 * u := lt_of_le_of_lt hx (by rw [mul_right_comm]; exact mul_lt_mul_of_pos_right hme hup)
  rw [abs_lt] at hx2
  have hscale : ∀ E : Int, E = e → x * 10 ^ ((n : Int) - 1 - E) = x / u := fun E hE' => by
    rw [hE', hu, div_eq_mul_inv, ← zpow_neg]; congr 2; ring
  have hxe : x < 10 ^ (e + 1) := by rw [hE1]; nlinarith
  by_cases hge : (10 : Rat) ^ e ≤ x
  · have hlog := log_eq hge hxe
    have hti : Binary.toInt (x * 10 ^ ((n : Int) - 1 - Int.log 10 x)) = (m : Int) := by
      apply toInt_eq
      rw [hscale _ hlog, abs_lt]
      push_cast
      have hxu : x = x / u * u := by field_simp
      generalize x / u = q at *
      rw [hxu] at hx2
      constructor <;> nlinarith
    unfold sig
    simp only [hti, Int.toNat_natCast]
    rw [if_neg (by omega), hlog]
  · -- just below a power of ten
    have hmeq : m = 10 ^ (n - 1) := by
      by_contra hc
      have h3 : 10 ^ (n - 1) + 1 ≤ m := by omega
      have h4 : (10 : Rat) ^ (n - 1) + 1 ≤ m := by exact_mod_cast h3
      rw [hE] at hge
      nlinarith
    have hmq : (m : Rat) = 10 ^ (n - 1) := by exact_mod_cast hmeq
    have htn : (10 : Rat) ^ n = 10 * 10 ^ (n - 1) := by
      conv_lhs => rw [show n = n - 1 + 1 by omega]
      rw [pow_succ]; ring
    -- half a unit of the digit after the last one
    have hx3 : m * u - 1 / 20 * u < x := by
      rw [abs_le] at hx
      have : (m : Rat) * ε < 1 / 20 := by rw [hmq]; rw [htn] at hε; linarith
      have := mul_lt_mul_of_pos_right this hup
      nlinarith [hx.1]
    have hlog : Int.log 10 x = e - 1 := by
      refine log_eq ?_ (by rw [sub_add_cancel]; exact not_le.1 hge)
      have h3 : (10 : Rat) ^ (e - 1) * 10 = 10 ^ e := by rw [← zpow_add_one₀ (by norm_num), sub_add_cancel]
      have h4 : (1 : Rat) ≤ 10 ^ (n - 1) := one_le_pow₀ (by norm_num)
      rw [hE] at h3
      rw [hmq] at hx3
      nlinarith
    have hs10 : x * 10 ^ ((n : Int) - 1 - Int.log 10 x) = 10 * (x / u) := by
      rw [hlog, show (n : Int) - 1 - (e - 1) = 1 + -(e + 1 - (n : Int)) by ring, zpow_add₀ (by norm_num), zpow_neg, ← hu, zpow_one]
      field_simp
    have hti : Binary.toInt (x * 10 ^ ((n : Int) - 1 - Int.log 10 x)) = ((10 ^ n : Nat) : Int) := by
      apply toInt_eq
      rw [hs10, abs_lt]
      push_cast
      rw [htn, ← hmq]
      have hxu : x = x / u * u := by field_simp
      have hlt := not_le.1 hge
      rw [hE, ← hmq] at hlt
      generalize x / u = q at *
      rw [hxu] at hx3 hlt
      have a1 : q < m := lt_of_mul_lt_mul_right hlt hup.le
      have a2 : (m : Rat) - 1 / 20 < q := lt_of_mul_lt_mul_right (by linarith) hup.le
      constructor <;> linarith
    unfold sig
    simp only [hti, Int.toNat_natCast]
    rw [if_pos trivial, hlog, sub_add_cancel, hmeq]

/-! ## Writing and reading -/

/-- The number with `n` digits that is printed. -/
def dec (n : Nat) (x : Rat) : Rat := if x = 0 then 0 else if x < 0 then -value n (sig n (-x)) else value n (sig n x)

theorem decimal?_print {n : Nat} (hn : 1 ≤ n) (x : Rat) : decimal? (print n x) = some (dec n x) := by
  unfold print dec
  by_cases h0 : x = 0
  · rw [if_pos h0, if_pos h0]; decide +kernel
  · rw [if_neg h0, if_neg h0]
    by_cases h1 : x < 0
    · rw [if_pos h1, if_pos h1]
      obtain ⟨a, b⟩ := sig_digits hn (neg_pos.2 h1)
      simp only [decimal?]
      rw [unsigned?_posText hn a b]; rfl
    · rw [if_neg h1, if_neg h1]
      have hx : 0 < x := lt_of_le_of_ne (not_lt.1 h1) (Ne.symm h0)
      obtain ⟨a, b⟩ := sig_digits hn hx
      rw [decimal?_posText hn a b]; rfl

theorem parse_print {n : Nat} (hn : 1 ≤ n) (p : Nat) (x : Rat) : parse p (print n x) = some (Binary.rnd p (dec n x)) := by
  rw [parse, decimal?_print hn, Option.map_some]

theorem dec_neg (n : Nat) (x : Rat) : dec n (-x) = -dec n x := by
  unfold dec
  rcases lt_trichotomy x 0 with h | h | h
  · rw [if_neg (by linarith), if_neg (by linarith), if_neg (by linarith), if_pos h, neg_neg]
  · subst h; simp
  · rw [if_neg (by linarith), if_pos (by linarith), if_neg (by linarith), if_neg (by linarith), neg_neg]

theorem dec_of_pos (n : Nat) {x : Rat} (h : 0 < x) : dec n x = value n (sig n x) := by
  rw [dec, if_neg (by linarith), if_neg (by linarith)]

theorem value_pos {n : Nat} (hn : 1 ≤ n) {x : Rat} (hx : 0 < x) : 0 < value n (sig n x) := by
  have h := (sig_digits hn hx).1
  have h1 : 0 < (sig n x).1 := lt_of_lt_of_le (by positivity) h
  have h2 : (0 : Rat) < ((sig n x).1 : Rat) := by exact_mod_cast h1
  exact mul_pos h2 (zpow_pos (by norm_num) _)

/-- No number with at most `n` digits is nearer. -/
theorem dec_closest {n : Nat} (hn : 1 ≤ n) (x : Rat) (k : Int) (j : Int) (hk : |k| < 10 ^ n) : |dec n x - x| ≤ |(k : Rat) * 10 ^ j - x| := by
  rcases lt_trichotomy x 0 with h | h | h
  · have := value_closest hn (neg_pos.2 h) (-k) j (by rwa [abs_neg])
    rw [← dec_of_pos n (neg_pos.2 h), dec_neg] at this
    rw [show -dec n x - -x = -(dec n x - x) by ring, abs_neg] at this
    push_cast at this
    rwa [show -(k : Rat) * 10 ^ j - -x = -((k : Rat) * 10 ^ j - x) by ring, abs_neg] at this
  · subst h
    rw [dec, if_pos rfl, sub_zero, abs_zero]; exact abs_nonneg _
  · rw [dec_of_pos n h]; exact value_closest hn h k j hk

theorem dec_rel {n : Nat} (hn : 1 ≤ n) (x : Rat) : |dec n x - x| ≤ |x| * (5 / 10 ^ n) := by
  rcases lt_trichotomy x 0 with h | h | h
  · have := value_rel hn (neg_pos.2 h)
    rw [← dec_of_pos n (neg_pos.2 h), dec_neg] at this
    rw [show -dec n x - -x = -(dec n x - x) by ring, abs_neg] at this
    rwa [abs_of_neg h]
  · subst h
    rw [dec, if_pos rfl, sub_zero, abs_zero, zero_mul]
  · rw [dec_of_pos n h, abs_of_pos h]; exact value_rel hn h

/-- It has at most `n` digits. -/
theorem dec_form {n : Nat} (hn : 1 ≤ n) (x : Rat) : ∃ k j : Int, |k| < 10 ^ n ∧ dec n x = (k : Rat) * 10 ^ j := by
  have key : ∀ y : Rat, 0 < y → ∃ k j : Int, |k| < 10 ^ n ∧ dec n y = (k : Rat) * 10 ^ j := fun y hy =>
    ⟨(sig n y).1, (sig n y).2 + 1 - (n : Int), by
      rw [Nat.abs_cast]; exact_mod_cast (sig_digits hn hy).2, by rw [dec_of_pos n hy, value]; push_cast; rfl⟩
  rcases lt_trichotomy x 0 with h | h | h
  · obtain ⟨k, j, h1, h2⟩ := key (-x) (neg_pos.2 h)
    refine ⟨-k, j, by rwa [abs_neg], ?_⟩
    rw [dec_neg] at h2
    push_cast
    linarith
  · exact ⟨0, 0, by simp, by rw [h, dec, if_pos rfl]; simp⟩
  · exact key x h

/-- Positive integers with at most `n` digits, scaled to `n` digits. -/
theorem normalise {n : Nat} {k : Nat} (h0 : 0 < k) (hk : k < 10 ^ n) (j : Int) :
    ∃ (m : Nat) (e : Int), 10 ^ (n - 1) ≤ m ∧ m < 10 ^ n ∧ (k : Rat) * 10 ^ j = value n (m, e) := by
  have hn : 1 ≤ n := by
    by_contra hc
    rw [show n = 0 by omega] at hk
    omega
  have h1 := Nat.pow_log_le_self 10 (x := k) (by omega)
  have h2 := Nat.lt_pow_succ_log_self (b := 10) (by norm_num) k
  have h3 : Nat.log 10 k < n := Nat.log_lt_of_lt_pow (by omega) hk
  refine ⟨k * 10 ^ (n - 1 - Nat.log 10 k), j + Nat.log 10 k, ?_, ?_, ?_⟩
  · calc 10 ^ (n - 1) = 10 ^ Nat.log 10 k * 10 ^ (n - 1 - Nat.log 10 k) := by rw [← pow_add]; congr 1; omega
      _ ≤ _ := Nat.mul_le_mul_right _ h1
  · calc k * 10 ^ (n - 1 - Nat.log 10 k) < 10 ^ (Nat.log 10 k).succ * 10 ^ (n - 1 - Nat.log 10 k) := Nat.mul_lt_mul_of_pos_right h2 (by positivity)
      _ = 10 ^ n := by rw [← pow_add]; congr 1; omega
  · rw [value]
    push_cast
    rw [mul_assoc, ← zpow_natCast, ten_split _ _ j (by push_cast [Nat.cast_sub (show Nat.log 10 k ≤ n - 1 by omega), Nat.cast_sub hn]; ring)]

/-- A floating point number of enough bits keeps the digits. -/
theorem sig_rnd {n p : Nat} (hn : 1 ≤ n) (hp : 1 ≤ p) (h : 2 * 10 ^ n < 2 ^ p) {m : Nat} {e : Int} (h1 : 10 ^ (n - 1) ≤ m) (h2 : m < 10 ^ n) :
    0 < Binary.rnd p (value n (m, e)) ∧ sig n (Binary.rnd p (value n (m, e))) = (m, e) := by
  have hm : (0 : Rat) < m := by
    have : 0 < m := lt_of_lt_of_le (by positivity) h1
    exact_mod_cast this
  have hv : 0 < value n (m, e) := mul_pos hm (zpow_pos (by norm_num) _)
  refine ⟨by rw [Binary.rnd_of_pos hv]; exact Binary.rndPos_pos hp hv, sig_unique hn h1 h2 (ε := (1 / 2) ^ p) ?_ ?_⟩
  · have h3 : (2 * 10 ^ n : Rat) < 2 ^ p := by exact_mod_cast h
    rw [one_div, inv_pow, ← div_eq_mul_inv, div_lt_one (by positivity)]
    exact h3
  · have := Binary.rnd_err p (value n (m, e))
    rwa [abs_of_pos hv] at this

theorem dec_rnd {n p : Nat} (hn : 1 ≤ n) (hp : 1 ≤ p) (h : 2 * 10 ^ n < 2 ^ p) (k j : Int) (hk : |k| < 10 ^ n) :
    dec n (Binary.rnd p ((k : Rat) * 10 ^ j)) = (k : Rat) * 10 ^ j := by
  have key : ∀ i : Nat, 0 < i → i < 10 ^ n → dec n (Binary.rnd p ((i : Rat) * 10 ^ j)) = (i : Rat) * 10 ^ j := fun i h0 hi => by
    obtain ⟨m, e, h1, h2, h3⟩ := normalise h0 hi j
    obtain ⟨h4, h5⟩ := sig_rnd hn hp h (e := e) h1 h2
    rw [h3, dec_of_pos n h4, h5]
  rcases lt_trichotomy k 0 with h0 | h0 | h0
  · obtain ⟨i, hi⟩ := Int.eq_ofNat_of_zero_le (show 0 ≤ -k by omega)
    have hki : k = -(i : Int) := by omega
    rw [hki, abs_neg, Nat.abs_cast] at hk
    have := key i (by omega) (by exact_mod_cast hk)
    rw [hki]
    push_cast
    rw [neg_mul, Binary.rnd_neg, dec_neg, this]
  · subst h0
    simp [Binary.rnd_zero, dec]
  · obtain ⟨i, hi⟩ := Int.eq_ofNat_of_zero_le h0.le
    subst hi
    rw [Nat.abs_cast] at hk
    exact key i (by omega) (by exact_mod_cast hk)

/-- What is printed depends on the rounded number. -/
theorem print_congr {n : Nat} (hn : 1 ≤ n) {p : Nat} (hp : 1 ≤ p) (h : 2 * 10 ^ n < 2 ^ p) (x : Rat) : print n (Binary.rnd p (dec n x)) = print n x := by
  have key : ∀ y : Rat, 0 < y → 0 < Binary.rnd p (dec n y) ∧ sig n (Binary.rnd p (dec n y)) = sig n y := fun y hy => by
    obtain ⟨a, b⟩ := sig_digits hn hy
    rw [dec_of_pos n hy]
    exact sig_rnd hn hp h a b
  rcases lt_trichotomy x 0 with h0 | h0 | h0
  · obtain ⟨a, b⟩ := key (-x) (neg_pos.2 h0)
    rw [dec_neg, Binary.rnd_neg] at a b
    unfold print
    rw [if_neg (by linarith), if_pos (by linarith), if_neg (by linarith), if_pos h0, b]
  · subst h0
    rw [dec, if_pos rfl, Binary.rnd_zero]
  · obtain ⟨a, b⟩ := key x h0
    unfold print
    rw [if_neg (by linarith), if_neg (by linarith), if_neg (by linarith), if_neg (by linarith), b]

theorem print_chars (n : Nat) (x : Rat) : print n x ≠ [] ∧ ∀ c ∈ print n x, TextChar c := by
  unfold print
  by_cases h0 : x = 0
  · rw [if_pos h0]
    exact ⟨by simp, fun c hc => by rw [List.mem_singleton.1 hc]; exact .inl (by decide)⟩
  · rw [if_neg h0]
    by_cases h1 : x < 0
    · rw [if_pos h1]
      refine ⟨by simp, fun c hc => ?_⟩
      rcases List.mem_cons.1 hc with h | h
      · exact .inr (.inr (.inr (.inl h)))
      · exact posText_chars _ _ _ c h
    · rw [if_neg h1]
      obtain ⟨c, t, hc, _⟩ := posText_head n (sig n x).1 (sig n x).2
      exact ⟨by rw [hc]; simp, posText_chars _ _ _⟩

end Alexandria.FloatText
