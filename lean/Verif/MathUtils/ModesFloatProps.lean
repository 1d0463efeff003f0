import Verif.MathUtils.ModesFloatModel
import Verif.MathUtils.ModesProps
import Verif.NdArray.RoundProps
import Verif.Common.Gradual

/-!
# Extraction of modes on floating point numbers (C173)
-/

namespace Alexandria.MathUtils.FloatModes

/-! ## Specification -/

section
variable {F : Type} (A : Arith F)

/-- The width of a sample as it is computed. -/
def Spec.width (xs : List F) (i : Nat) : F :=
  if i = 0 then A.sub (xs.getD 1 A.zero) (xs.getD 0 A.zero)
  else if i + 1 = xs.length then A.sub (xs.getD i A.zero) (xs.getD (i - 1) A.zero)
  else A.div (A.sub (xs.getD (i + 1) A.zero) (xs.getD (i - 1) A.zero)) A.two

/-- The terms of the indices `lo` to `hi`, added one after the other. -/
def Spec.total (g : Nat → F) (lo hi : Nat) : F := (List.range' lo (hi + 1 - lo)).foldl (fun s j => A.add s (g j)) A.zero

/-- A peak: the index of its highest sample, and its first and last sample. -/
structure Spec.Peak where
  top : Nat
  lo : Nat
  hi : Nat

/-- What is left of a density without some peaks. -/
def Spec.residual (f : Nat → F) (peaks : List Spec.Peak) (i : Nat) : F := if ∃ p ∈ peaks, p.lo ≤ i ∧ i ≤ p.hi then A.zero else f i

/-- A sample is below the threshold, and its neighbour is not below it. -/
def Spec.Turns (f : Nat → F) (t : F) (i j : Nat) : Prop := A.lt (f i) t = true ∧ A.le (f i) (f j) = true

/-- The search to the left ends at `r`: before the first sample, before a zero, or where the density, already below the threshold, does not fall further. -/
def Spec.LeftEnd (f : Nat → F) (t : F) (c r : Nat) : Prop :=
  1 ≤ r ∧ r ≤ c ∧ (∀ q, r ≤ q → q ≤ c → A.eq (f q) A.zero = false) ∧ (∀ q, r < q → q ≤ c → ¬ Spec.Turns A f t q (q - 1)) ∧
    (r = 1 ∨ A.eq (f (r - 1)) A.zero = true ∨ Spec.Turns A f t r (r - 1))

/-- The same to the right. -/
def Spec.RightEnd (n : Nat) (f : Nat → F) (t : F) (c r : Nat) : Prop :=
  c ≤ r ∧ r + 1 < n ∧ (∀ q, c ≤ q → q ≤ r → A.eq (f q) A.zero = false) ∧ (∀ q, c ≤ q → q < r → ¬ Spec.Turns A f t q (q + 1)) ∧
    (r + 2 = n ∨ A.eq (f (r + 1)) A.zero = true ∨ Spec.Turns A f t r (r + 1))

/-- A mode `m` describes the peak `p` of the density `f` in the arithmetic `A`. -/
structure Spec.IsMode (xs : List F) (mr : F) (f : Nat → F) (m : Mode F) (p : Spec.Peak) : Prop where
  lo_le : p.lo ≤ p.top
  le_hi : p.top ≤ p.hi
  hi_lt : p.hi < xs.length
  sample : xs[p.top]? = some m.sample
  left : (p.lo = 0 ∧ (p.top = 0 ∨ A.eq (f p.top) A.zero = true)) ∨ Spec.LeftEnd A f (A.mul (A.sub A.one mr) (f p.top)) p.top p.lo
  right : (p.hi + 1 = xs.length ∧ (p.top + 1 = xs.length ∨ A.eq (f p.top) A.zero = true)) ∨
    Spec.RightEnd A xs.length f (A.mul (A.sub A.one mr) (f p.top)) p.top p.hi
  area : m.area = Spec.total A (fun j => A.mul (f j) (Spec.width A xs j)) p.lo p.hi
  mean : m.mean = A.div (Spec.total A (fun j => A.mul (A.mul (xs.getD j A.zero) (f j)) (Spec.width A xs j)) p.lo p.hi) m.area

/-! ## The functions -/

variable {A}

theorem elem_ok {l : List F} {i : Nat} (h : i < l.length) : elem l i = .ok (l.getD i A.zero) := by
  rw [elem, List.getElem?_eq_getElem h, List.getD_eq_getElem _ _ h]

theorem maxIndexLoop_lt : ∀ (l : List F) (mx : F) (index maxIndex : Nat), maxIndex < index + l.length → maxIndexLoop A l mx index maxIndex < index + l.length := by
  intro l
  induction l with
  | nil => intro mx index maxIndex h; exact h
  | cons y l ih =>
    intro mx index maxIndex h
    rw [List.length_cons] at h ⊢
    rw [maxIndexLoop, show index + (l.length + 1) = index + 1 + l.length by omega]
    by_cases hc : A.lt mx y = true
    · rw [if_pos hc]; exact ih _ _ _ (by omega)
    · rw [if_neg hc]; exact ih _ _ _ (by omega)

theorem findMaximumIndex_lt {ys : List F} (h : 0 < ys.length) : findMaximumIndex A ys < ys.length := by
  have := maxIndexLoop_lt (A := A) ys A.minusOne 0 0 (by omega)
  rwa [Nat.zero_add] at this

theorem leftLoop_spec (ys : List F) (t : F) : ∀ (p mn : Nat), p < ys.length →
    ∃ r, leftLoop A ys t p mn = .ok r ∧ ((r = mn ∧ (p = 0 ∨ A.eq (ys.getD p A.zero) A.zero = true)) ∨ Spec.LeftEnd A (ys.getD · A.zero) t p r) := by
  intro p
  induction p with
  | zero => intro mn _; exact ⟨mn, rfl, .inl ⟨rfl, .inl rfl⟩⟩
  | succ p ih =>
    intro mn hp
    rw [leftLoop, elem_ok (A := A) hp, elem_ok (A := A) (show p < ys.length by omega)]
    simp only [Outcome.bind_ok, Outcome.pure_eq]
    by_cases hz : A.eq (ys.getD (p + 1) A.zero) A.zero = true
    · rw [if_pos hz]
      exact ⟨mn, rfl, .inl ⟨rfl, .inr hz⟩⟩
    · rw [if_neg hz]
      rw [Bool.not_eq_true] at hz
      by_cases hs : Spec.Turns A (ys.getD · A.zero) t (p + 1) p
      · rw [if_pos (Bool.and_eq_true_iff.mpr hs)]
        refine ⟨p + 1, rfl, .inr ⟨by omega, le_refl _, ?_, ?_, .inr (.inr hs)⟩⟩
        · intro q h1 h2
          have : q = p + 1 := by omega
          exact this ▸ hz
        · intro q h1 h2; omega
      · rw [if_neg (fun h => hs (Bool.and_eq_true_iff.mp h))]
        obtain ⟨r, hr, h⟩ := ih (p + 1) (by omega)
        refine ⟨r, hr, .inr ?_⟩
        rcases h with ⟨rfl, h⟩ | ⟨h1, h2, h3, h4, h5⟩
        · refine ⟨by omega, le_refl _, ?_, by intro q h1 h2; omega, ?_⟩
          · intro q h1 h2
            have : q = p + 1 := by omega
            exact this ▸ hz
          · rcases h with h | h
            · exact .inl (by omega)
            · exact .inr (.inl h)
        · refine ⟨h1, by omega, ?_, ?_, h5⟩
          · intro q hq1 hq2
            by_cases hq : q = p + 1
            · exact hq ▸ hz
            · exact h3 q hq1 (by omega)
          · intro q hq1 hq2
            by_cases hq : q = p + 1
            · subst hq; exact hs
            · exact h4 q hq1 (by omega)

theorem rightLoop_spec (ys : List F) (t : F) : ∀ (fuel p mx : Nat), p < ys.length → ys.length - p ≤ fuel →
    ∃ r, rightLoop A ys t fuel p mx = .ok r ∧ ((r = mx ∧ (p + 1 = ys.length ∨ A.eq (ys.getD p A.zero) A.zero = true)) ∨
      Spec.RightEnd A ys.length (ys.getD · A.zero) t p r) := by
  intro fuel
  induction fuel with
  | zero => intro p mx hp hf; omega
  | succ fuel ih =>
    intro p mx hp hf
    rw [rightLoop]
    by_cases hl : p = ys.length - 1
    · rw [if_pos hl]
      exact ⟨mx, rfl, .inl ⟨rfl, .inl (by omega)⟩⟩
    · rw [if_neg hl, elem_ok (A := A) hp, elem_ok (A := A) (show p + 1 < ys.length by omega)]
      simp only [Outcome.bind_ok, Outcome.pure_eq]
      by_cases hz : A.eq (ys.getD p A.zero) A.zero = true
      · rw [if_pos hz]
        exact ⟨mx, rfl, .inl ⟨rfl, .inr hz⟩⟩
      · rw [if_neg hz]
        rw [Bool.not_eq_true] at hz
        by_cases hs : Spec.Turns A (ys.getD · A.zero) t p (p + 1)
        · rw [if_pos (Bool.and_eq_true_iff.mpr hs)]
          refine ⟨p, rfl, .inr ⟨le_refl _, by omega, ?_, ?_, .inr (.inr hs)⟩⟩
          · intro q h1 h2
            have : q = p := by omega
            exact this ▸ hz
          · intro q h1 h2; omega
        · rw [if_neg (fun h => hs (Bool.and_eq_true_iff.mp h))]
          obtain ⟨r, hr, h⟩ := ih (p + 1) p (by omega) (by omega)
          refine ⟨r, hr, .inr ?_⟩
          rcases h with ⟨rfl, h⟩ | ⟨h1, h2, h3, h4, h5⟩
          · refine ⟨le_refl _, by omega, ?_, by intro q h1 h2; omega, ?_⟩
            · intro q h1 h2
              have : q = r := by omega
              exact this ▸ hz
            · rcases h with h | h
              · exact .inl (by omega)
              · exact .inr (.inl h)
          · refine ⟨by omega, h2, ?_, ?_, h5⟩
            · intro q hq1 hq2
              by_cases hq : q = p
              · exact hq ▸ hz
              · exact h3 q (by omega) hq2
            · intro q hq1 hq2
              by_cases hq : q = p
              · subst hq; exact hs
              · exact h4 q (by omega) hq2

theorem catchPeak_ok (ys : List F) (center : Nat) (mr : F) (hc : center < ys.length) :
    ∃ lo hi, catchPeak A ys center mr = .ok (lo, hi) ∧ lo ≤ center ∧ center ≤ hi ∧ hi < ys.length ∧
      ((lo = 0 ∧ (center = 0 ∨ A.eq (ys.getD center A.zero) A.zero = true)) ∨
        Spec.LeftEnd A (ys.getD · A.zero) (A.mul (A.sub A.one mr) (ys.getD center A.zero)) center lo) ∧
      ((hi + 1 = ys.length ∧ (center + 1 = ys.length ∨ A.eq (ys.getD center A.zero) A.zero = true)) ∨
        Spec.RightEnd A ys.length (ys.getD · A.zero) (A.mul (A.sub A.one mr) (ys.getD center A.zero)) center hi) := by
  obtain ⟨lo, h1, h2⟩ := leftLoop_spec (A := A) ys (A.mul (A.sub A.one mr) (ys.getD center A.zero)) center 0 hc
  obtain ⟨hi, h3, h4⟩ := rightLoop_spec (A := A) ys (A.mul (A.sub A.one mr) (ys.getD center A.zero)) (ys.length + 1 - center) center (ys.length - 1) hc (by omega)
  refine ⟨lo, hi, ?_, ?_, ?_, ?_, h2, ?_⟩
  · rw [catchPeak, elem_ok (A := A) hc]
    simp only [Outcome.bind_ok, h1, h3, Outcome.pure_eq]
  · rcases h2 with ⟨rfl, _⟩ | h
    · omega
    · exact h.2.1
  · rcases h4 with ⟨rfl, _⟩ | h
    · omega
    · exact h.1
  · rcases h4 with ⟨rfl, _⟩ | h
    · omega
    · have := h.2.1; omega
  · rcases h4 with ⟨rfl, h⟩ | h
    · exact .inl ⟨by omega, h⟩
    · exact .inr h

theorem sampleWidth_ok {xs : List F} {i : Nat} (hi : i < xs.length) (hn : 2 ≤ xs.length) : sampleWidth A xs i = .ok (Spec.width A xs i) := by
  rw [sampleWidth, Spec.width]
  by_cases h0 : i = 0
  · rw [if_pos h0, if_pos h0, elem_ok (A := A) (by omega), elem_ok (A := A) (by omega)]
    rfl
  · rw [if_neg h0, if_neg h0]
    by_cases hl : i + 1 = xs.length
    · rw [if_pos (by omega), if_pos hl, elem_ok (A := A) hi, elem_ok (A := A) (by omega)]
      rfl
    · rw [if_neg (by omega), if_neg hl, elem_ok (A := A) (by omega), elem_ok (A := A) (by omega)]
      rfl

theorem areaLoop_ok {xs ys : List F} (hl : xs.length = ys.length) (hn : 2 ≤ xs.length) : ∀ (fuel i : Nat) (num area : F), i + fuel ≤ xs.length →
    areaLoop A xs ys fuel i num area =
      .ok ((List.range' i fuel).foldl (fun s j => A.add s (A.mul (A.mul (xs.getD j A.zero) (ys.getD j A.zero)) (Spec.width A xs j))) num,
        (List.range' i fuel).foldl (fun s j => A.add s (A.mul (ys.getD j A.zero) (Spec.width A xs j))) area) := by
  intro fuel
  induction fuel with
  | zero => intro i num area _; rfl
  | succ fuel ih =>
    intro i num area hi
    rw [areaLoop, sampleWidth_ok (by omega) hn, elem_ok (A := A) (show i < xs.length by omega), elem_ok (A := A) (show i < ys.length by omega)]
    simp only [Outcome.bind_ok]
    rw [ih _ _ _ (by omega), List.range'_succ, List.foldl_cons, List.foldl_cons]

theorem avgArea_ok {xs ys : List F} (hl : xs.length = ys.length) (hn : 2 ≤ xs.length) {lo hi : Nat} (h2 : hi < xs.length) (h1 : lo ≤ hi) :
    avgArea A xs ys lo hi = .ok (A.div (Spec.total A (fun j => A.mul (A.mul (xs.getD j A.zero) (ys.getD j A.zero)) (Spec.width A xs j)) lo hi)
      (Spec.total A (fun j => A.mul (ys.getD j A.zero) (Spec.width A xs j)) lo hi), Spec.total A (fun j => A.mul (ys.getD j A.zero) (Spec.width A xs j)) lo hi) := by
  rw [avgArea, areaLoop_ok hl hn _ _ _ _ (by omega)]
  rfl

theorem interpolationAround_ok {xs ys : List F} (hl : xs.length = ys.length) (hn : 3 ≤ xs.length) {i : Nat} (hi : i < xs.length) :
    ∃ v, interpolationAround A xs ys i = .ok v ∧ (v = xs.getD 0 A.zero ∨ v = xs.getD (xs.length - 1) A.zero ∨
      (A.lt v (xs.getD 0 A.zero) = false ∧ A.lt (xs.getD (xs.length - 1) A.zero) v = false)) := by
  rw [interpolationAround, if_neg (by omega)]
  obtain ⟨i', h⟩ : ∃ i', i' = if i = 0 then i + 1 else if i + 1 = xs.length then i - 1 else i := ⟨_, rfl⟩
  simp only [← h]
  have hi' : 1 ≤ i' ∧ i' + 1 < xs.length := by
    rw [h]
    split_ifs <;> omega
  rw [if_neg (by omega), elem_ok (A := A) (l := xs) (i := i' - 1) (by omega), elem_ok (A := A) (l := ys) (i := i' - 1) (by omega),
    elem_ok (A := A) (l := xs) (i := i') (by omega), elem_ok (A := A) (l := ys) (i := i') (by omega),
    elem_ok (A := A) (l := xs) (i := i' + 1) (by omega), elem_ok (A := A) (l := ys) (i := i' + 1) (by omega),
    elem_ok (A := A) (l := xs) (i := 0) (by omega), elem_ok (A := A) (l := xs) (i := xs.length - 1) (by omega)]
  simp only [Outcome.bind_ok, Outcome.pure_eq]
  refine ⟨_, rfl, ?_⟩
  generalize (if (!A.eq _ A.zero) = true then _ else _ : F) = v
  by_cases h1 : A.lt v (xs.getD 0 A.zero) = true
  · rw [if_pos h1]; exact .inl rfl
  · rw [if_neg h1]
    by_cases h2 : A.lt (xs.getD (xs.length - 1) A.zero) v = true
    · rw [if_pos h2]; exact .inr (.inl rfl)
    · rw [if_neg h2]; exact .inr (.inr ⟨by simpa using h1, by simpa using h2⟩)

theorem length_flatten (ys : List F) (lo hi : Nat) : (flatten A ys lo hi).length = ys.length := by simp [flatten]

theorem getD_flatten (ys : List F) (lo hi j : Nat) : (flatten A ys lo hi).getD j A.zero = if lo ≤ j ∧ j ≤ hi then A.zero else ys.getD j A.zero := by
  rw [flatten, List.getD_eq_getElem?_getD, List.getElem?_map, List.getElem?_zipIdx, List.getD_eq_getElem?_getD]
  cases ys[j]? <;> simp

theorem residual_flatten (ys : List F) (p : Spec.Peak) (ps : List Spec.Peak) :
    Spec.residual A ((flatten A ys p.lo p.hi).getD · A.zero) ps = Spec.residual A (ys.getD · A.zero) (p :: ps) := by
  funext j
  rw [Spec.residual, Spec.residual]
  by_cases h : ∃ p ∈ ps, p.lo ≤ j ∧ j ≤ p.hi
  · rw [if_pos h, if_pos]
    obtain ⟨q, hq, h⟩ := h
    exact ⟨q, List.mem_cons_of_mem _ hq, h⟩
  · rw [if_neg h, getD_flatten]
    by_cases h2 : p.lo ≤ j ∧ j ≤ p.hi
    · rw [if_pos h2, if_pos ⟨p, List.mem_cons_self, h2⟩]
    · rw [if_neg h2, if_neg]
      rintro ⟨q, hq, h3⟩
      rcases List.mem_cons.mp hq with rfl | hq
      · exact h2 h3
      · exact h ⟨q, hq, h3⟩

theorem residual_nil (f : Nat → F) : Spec.residual A f [] = f := by
  funext j
  simp [Spec.residual]

theorem extractMode_ok {xs ys : List F} (hl : xs.length = ys.length) (hn : 3 ≤ xs.length) (mr : F) :
    ∃ (m : Mode F) (p : Spec.Peak), extractMode A xs ys mr = .ok (m, flatten A ys p.lo p.hi) ∧ Spec.IsMode A xs mr (ys.getD · A.zero) m p ∧
      p.top = findMaximumIndex A ys ∧ (m.interp = xs.getD 0 A.zero ∨ m.interp = xs.getD (xs.length - 1) A.zero ∨
      (A.lt m.interp (xs.getD 0 A.zero) = false ∧ A.lt (xs.getD (xs.length - 1) A.zero) m.interp = false)) := by
  have hc := findMaximumIndex_lt (A := A) (ys := ys) (by omega)
  obtain ⟨c, e⟩ : ∃ c, c = findMaximumIndex A ys := ⟨_, rfl⟩
  rw [← e] at hc ⊢
  obtain ⟨lo, h, h1, h2, h3, h4, h5, h6⟩ := catchPeak_ok (A := A) ys c mr hc
  obtain ⟨v, hv, hv2⟩ := interpolationAround_ok (A := A) hl hn (show c < xs.length by omega)
  have ha := avgArea_ok (A := A) hl (by omega) (show h < xs.length by omega) (show lo ≤ h by omega)
  refine ⟨⟨xs.getD c A.zero, A.div (Spec.total A (fun j => A.mul (A.mul (xs.getD j A.zero) (ys.getD j A.zero)) (Spec.width A xs j)) lo h)
      (Spec.total A (fun j => A.mul (ys.getD j A.zero) (Spec.width A xs j)) lo h), v, Spec.total A (fun j => A.mul (ys.getD j A.zero) (Spec.width A xs j)) lo h⟩,
    ⟨c, lo, h⟩, ?_, ⟨h2, h3, by show h < xs.length; omega, ?_, h5, by rw [hl]; exact h6, rfl, rfl⟩, rfl, hv2⟩
  · rw [extractMode, ← e]
    simp only [h1, Outcome.bind_ok, ha, hv, elem_ok (A := A) (show c < xs.length by omega), Outcome.pure_eq]
  · rw [List.getD_eq_getElem _ _ (by omega), List.getElem?_eq_getElem]

/-! ## Any arithmetic -/

theorem highest_ok (A : Arith F) (xs ys : List F) (hl : xs.length = ys.length) (hn : 3 ≤ xs.length) (mr : F) (n : Nat) :
    ∃ (ms : List (Mode F)) (peaks : List Spec.Peak), highestModes A xs mr n ys = .ok ms ∧ ms.length = n ∧ peaks.length = n ∧
      (∀ (k : Nat) m p, ms[k]? = some m → peaks[k]? = some p → Spec.IsMode A xs mr (Spec.residual A (ys.getD · A.zero) (peaks.take k)) m p) ∧
      (∀ m ∈ ms, m.interp = xs.getD 0 A.zero ∨ m.interp = xs.getD (xs.length - 1) A.zero ∨
        (A.lt m.interp (xs.getD 0 A.zero) = false ∧ A.lt (xs.getD (xs.length - 1) A.zero) m.interp = false)) ∧
      (∀ (k : Nat) p, peaks[k]? = some p → ∃ l : List F, l.length = xs.length ∧ (l.getD · A.zero) = Spec.residual A (ys.getD · A.zero) (peaks.take k) ∧
        p.top = findMaximumIndex A l) := by
  induction n generalizing ys with
  | zero =>
    refine ⟨[], [], rfl, rfl, rfl, ?_, ?_, ?_⟩
    · intro k m p h; simp at h
    · simp
    · intro k p h; simp at h
  | succ n ih =>
    obtain ⟨m, p, h1, h2, h4, h3⟩ := extractMode_ok (A := A) hl hn mr
    obtain ⟨ms, peaks, i1, i2, i3, i4, i5, i6⟩ := ih (flatten A ys p.lo p.hi) (by rw [length_flatten]; exact hl)
    refine ⟨m :: ms, p :: peaks, ?_, by simp [i2], by simp [i3], ?_, ?_, ?_⟩
    · rw [highestModes, h1]
      simp only [Outcome.bind_ok, i1, Outcome.pure_eq]
    · intro k m' p' hm hp
      cases k with
      | zero =>
        simp only [List.getElem?_cons_zero, Option.some.injEq] at hm hp
        subst hm hp
        rw [List.take_zero, residual_nil]
        exact h2
      | succ k =>
        rw [List.getElem?_cons_succ] at hm hp
        rw [List.take_succ_cons, ← residual_flatten]
        exact i4 k m' p' hm hp
    · intro m' hm
      rcases List.mem_cons.mp hm with rfl | hm
      · exact h3
      · exact i5 m' hm
    · intro k p' hp
      cases k with
      | zero =>
        simp only [List.getElem?_cons_zero, Option.some.injEq] at hp
        subst hp
        rw [List.take_zero, residual_nil]
        exact ⟨ys, hl.symm, rfl, h4⟩
      | succ k =>
        rw [List.getElem?_cons_succ] at hp
        rw [List.take_succ_cons, ← residual_flatten]
        exact i6 k p' hp

/-- **C173 (highest modes, any numbers).** Whatever the numbers are and however their operations are rounded, for at least three samples `extractNHighestModes` reads
nothing outside of the vectors and gives exactly `n` modes. Each describes a peak of what the ones before it leave of the density. -/
theorem C173_highest (A : Arith F) (xs ys : List F) (hl : xs.length = ys.length) (hn : 3 ≤ xs.length) (mr : F) (n : Nat) :
    ∃ (ms : List (Mode F)) (peaks : List Spec.Peak), highestModes A xs mr n ys = .ok ms ∧ ms.length = n ∧ peaks.length = n ∧
      (∀ (k : Nat) m p, ms[k]? = some m → peaks[k]? = some p → Spec.IsMode A xs mr (Spec.residual A (ys.getD · A.zero) (peaks.take k)) m p) ∧
      (∀ m ∈ ms, m.interp = xs.getD 0 A.zero ∨ m.interp = xs.getD (xs.length - 1) A.zero ∨
        (A.lt m.interp (xs.getD 0 A.zero) = false ∧ A.lt (xs.getD (xs.length - 1) A.zero) m.interp = false)) := by
  obtain ⟨ms, peaks, h1, h2, h3, h4, h5, _⟩ := highest_ok A xs ys hl hn mr n
  exact ⟨ms, peaks, h1, h2, h3, h4, h5⟩

/-- The modes extracted one after the other, and the density that is left. -/
inductive Steps (A : Arith F) (xs : List F) (mr : F) : List F → List (Mode F) → List F → Prop
  | nil (ys : List F) : Steps A xs mr ys [] ys
  | cons {ys ys' ys'' : List F} {m : Mode F} {ms : List (Mode F)} : extractMode A xs ys mr = .ok (m, ys') → Steps A xs mr ys' ms ys'' →
      Steps A xs mr ys (m :: ms) ys''

theorem Steps.snoc {xs : List F} {mr : F} {ys ys' ys'' : List F} {m : Mode F} {ms : List (Mode F)} (h : Steps A xs mr ys ms ys')
    (hm : extractMode A xs ys' mr = .ok (m, ys'')) : Steps A xs mr ys (ms ++ [m]) ys'' := by
  induction h with
  | nil => exact .cons hm (.nil _)
  | cons h1 _ ih => exact .cons h1 (ih hm)

theorem Steps.highest {xs : List F} {mr : F} {ys ys' : List F} {ms : List (Mode F)} (h : Steps A xs mr ys ms ys') : highestModes A xs mr ms.length ys = .ok ms := by
  induction h with
  | nil => rfl
  | cons h1 _ ih =>
    rw [List.length_cons, highestModes, h1]
    simp only [Outcome.bind_ok, ih, Outcome.pure_eq]

theorem insertMode_spec (n : Nat) (m : Mode F) (result dropped : List (Mode F)) (hdn : dropped ≠ [] → n ≤ result.length) :
    ∃ dropped', (dropped' ≠ [] → n ≤ (insertMode A n m result).length) ∧ (insertMode A n m result ++ dropped').Perm (result ++ dropped ++ [m]) ∧
      min n (result.length + 1) ≤ (insertMode A n m result).length := by
  rw [insertMode.eq_def]
  have hsplit := List.takeWhile_append_dropWhile (p := fun r : Mode F => !A.lt r.area m.area) (l := result)
  generalize result.takeWhile (fun r => !A.lt r.area m.area) = tw at *
  generalize result.dropWhile (fun r => !A.lt r.area m.area) = dw at *
  cases dw with
  | nil =>
    rw [List.append_nil] at hsplit
    subst hsplit
    simp only
    by_cases hlen : tw.length < n
    · rw [if_pos hlen]
      have hdr : dropped = [] := by
        by_contra h
        have := hdn h
        omega
      subst hdr
      refine ⟨[], by simp, by simp, ?_⟩
      rw [List.length_append, List.length_singleton]
      exact min_le_right _ _
    · rw [if_neg hlen]
      refine ⟨m :: dropped, fun _ => by omega, ?_, by omega⟩
      rw [List.append_assoc]
      exact (List.perm_append_comm (l₁ := [m]) (l₂ := dropped)).append_left tw
  | cons r0 rest =>
    simp only
    subst hsplit
    refine ⟨dropped, ?_, ?_, ?_⟩
    · intro h
      have := hdn h
      simp only [List.length_append, List.length_cons] at this ⊢
      omega
    · have e : (tw ++ m :: (r0 :: rest)).Perm (tw ++ (r0 :: rest) ++ [m]) := by
        rw [List.append_assoc]
        exact (List.perm_append_comm (l₁ := [m]) (l₂ := r0 :: rest)).append_left tw
      refine (e.append_right dropped).trans ?_
      rw [List.append_assoc (tw ++ (r0 :: rest)), List.append_assoc (tw ++ (r0 :: rest))]
      exact List.perm_append_comm.append_left _
    · simp only [List.length_append, List.length_cons]
      omega

theorem biggestLoop_spec {xs ys0 : List F} (hn : 3 ≤ xs.length) (mr : F) {n : Nat} (h1n : 1 ≤ n) (t0 : F) :
    ∀ (fuel : Nat) (ys : List F) (result hs dropped : List (Mode F)), xs.length = ys.length → Steps A xs mr ys0 hs ys →
      hs.length ≤ 3 * n + 1 → 3 * n + 2 ≤ hs.length + fuel → (dropped ≠ [] → n ≤ result.length) → (result ++ dropped).Perm hs → min n hs.length ≤ result.length →
      ∃ (ms hs' dropped' : List (Mode F)) (last : Mode F),
        biggestLoop A xs mr n fuel ys ((hs.map Mode.area).foldl A.sub t0) hs.length result = .ok (some ms) ∧ highestModes A xs mr hs'.length ys0 = .ok hs' ∧
        hs'.length ≤ 3 * n + 2 ∧ (ms ++ dropped').Perm hs' ∧ n ≤ ms.length ∧
        ms.getLast? = some last ∧ (A.lt ((hs'.map Mode.area).foldl A.sub t0) last.area = true ∨ hs'.length = 3 * n + 2) := by
  intro fuel
  induction fuel with
  | zero => intro ys result hs dropped _ _ h1 h2; omega
  | succ fuel ih =>
    intro ys result hs dropped hl hst hlen hfuel hdn hperm hmin
    obtain ⟨m, p, e1, _, _⟩ := extractMode_ok (A := A) hl hn mr
    obtain ⟨dropped', i3, i4, i5⟩ := insertMode_spec (A := A) n m result dropped hdn
    have hst' := hst.snoc e1
    have htot' : A.sub ((hs.map Mode.area).foldl A.sub t0) m.area = ((hs ++ [m]).map Mode.area).foldl A.sub t0 := by
      rw [List.map_append, List.foldl_append]
      rfl
    have hperm' : (insertMode A n m result ++ dropped').Perm (hs ++ [m]) := i4.trans (hperm.append_right [m])
    have hlen' : (hs ++ [m]).length = hs.length + 1 := by simp
    have hmin' : min n (hs ++ [m]).length ≤ (insertMode A n m result).length := by
      rw [hlen']
      refine le_trans ?_ i5
      rw [Nat.le_min]
      constructor
      · exact min_le_left _ _
      · by_cases h : result.length < n
        · have hde : dropped = [] := by
            by_contra h'
            have := hdn h'
            omega
          subst hde
          have := hperm.length_eq
          rw [List.append_nil] at this
          omega
        · have := min_le_left n (hs.length + 1)
          omega
    rw [biggestLoop, e1]
    simp only [Outcome.bind_ok, htot']
    have next := fun hlt : hs.length < 3 * n + 1 => ih (flatten A ys p.lo p.hi) (insertMode A n m result) (hs ++ [m]) dropped' (by rw [length_flatten]; exact hl) hst'
        (by omega) (by omega) i3 hperm' hmin'
    simp only [hlen'] at next
    by_cases hle : n ≤ (insertMode A n m result).length
    · rw [if_pos hle]
      obtain ⟨last, hlast⟩ : ∃ last, (insertMode A n m result).getLast? = some last := by
        cases h : (insertMode A n m result).getLast? with
        | none => rw [List.getLast?_eq_none_iff] at h; rw [h] at hle; simp at hle; omega
        | some l => exact ⟨l, rfl⟩
      simp only [hlast]
      by_cases hc : A.lt (((hs ++ [m]).map Mode.area).foldl A.sub t0) last.area = true ∨ hs.length > 3 * n
      · rw [if_pos hc]
        refine ⟨_, hs ++ [m], dropped', last, rfl, hst'.highest, by omega, hperm', hle, hlast, ?_⟩
        rcases hc with hc | hc
        · exact .inl hc
        · exact .inr (by omega)
      · rw [if_neg hc]
        exact next (by omega)
    · rw [if_neg hle]
      refine next ?_
      by_contra h
      rw [hlen'] at hmin'
      have : min n (hs.length + 1) = n := Nat.min_eq_left (by omega)
      omega

/-- **C173 (biggest modes, any numbers).** Whatever the numbers are and however their operations are rounded, for at least three samples and `n ≥ 1`
`extractNBigestModes` reads nothing outside of the vectors and ends after at most `3 n + 2` extractions. It gives at least `n` and at most that many of the modes that
`extractNHighestModes` gives. It ends because the area that is left compares less than the last mode, or after `3 n + 2` extractions. -/
theorem C173_biggest (A : Arith F) (xs ys : List F) (hl : xs.length = ys.length) (hn : 3 ≤ xs.length) (mr : F) (n : Nat) (h1n : 1 ≤ n) (fuel : Nat) (hf : 3 * n + 2 ≤ fuel) :
    ∃ (ms hs dropped : List (Mode F)) (last : Mode F), biggestModes A fuel xs ys mr n = .ok (some ms) ∧ n ≤ ms.length ∧
      highestModes A xs mr hs.length ys = .ok hs ∧ hs.length ≤ 3 * n + 2 ∧ (ms ++ dropped).Perm hs ∧ ms.getLast? = some last ∧
      (A.lt ((hs.map Mode.area).foldl A.sub (Spec.total A (fun j => A.mul (ys.getD j A.zero) (Spec.width A xs j)) 0 (xs.length - 1))) last.area = true ∨
        hs.length = 3 * n + 2) := by
  obtain ⟨ms, hs, dropped, last, h1, h2, h3, h4, h5, h6, h7⟩ := biggestLoop_spec (A := A) (xs := xs) (ys0 := ys) hn mr h1n
    (Spec.total A (fun j => A.mul (ys.getD j A.zero) (Spec.width A xs j)) 0 (xs.length - 1)) fuel ys [] [] [] hl (.nil _)
    (by simp) (by simpa using hf) (by simp) (by simp) (by simp)
  refine ⟨ms, hs, dropped, last, ?_, h5, h2, h3, h4, h6, h7⟩
  rw [biggestModes, if_neg (by omega), avgArea_ok hl (by omega) (by omega) (Nat.zero_le _)]
  simp only [Outcome.bind_ok]
  exact h1

end

/-! ## NaN and infinities -/

section
variable {K : Type} [Field K] [LinearOrder K] {R : Rounding K} {M : K}

theorem add_nan (a : Ext K) : Ext.add R M a .nan = .nan := by cases a <;> rfl
theorem nan_add (a : Ext K) : Ext.add R M .nan a = .nan := by cases a <;> rfl
theorem sub_nan (a : Ext K) : Ext.sub R M a .nan = .nan := add_nan a
theorem nan_sub (a : Ext K) : Ext.sub R M .nan a = .nan := nan_add _
theorem mul_nan (a : Ext K) : Ext.mul R M a .nan = .nan := by cases a <;> rfl
theorem nan_mul (a : Ext K) : Ext.mul R M .nan a = .nan := by cases a <;> rfl

theorem foldl_add_nan (g : Nat → Ext K) (l : List Nat) : l.foldl (fun s j => Ext.add R M s (g j)) .nan = .nan := by
  induction l with
  | nil => rfl
  | cons j l ih => rw [List.foldl_cons, nan_add, ih]

theorem foldl_add_mem (g : Nat → Ext K) (l : List Nat) (h : ∃ j ∈ l, g j = .nan) : ∀ s, l.foldl (fun s j => Ext.add R M s (g j)) s = .nan := by
  induction l with
  | nil => obtain ⟨j, hj, _⟩ := h; simp at hj
  | cons i l ih =>
    intro s
    rw [List.foldl_cons]
    obtain ⟨j, hj, e⟩ := h
    rcases List.mem_cons.mp hj with rfl | hj
    · rw [e, add_nan]; exact foldl_add_nan g l
    · exact ih ⟨j, hj, e⟩ _

theorem foldl_sub_nan (l : List (Ext K)) : l.foldl (Ext.sub R M) .nan = .nan := by
  induction l with
  | nil => rfl
  | cons j l ih => rw [List.foldl_cons, nan_sub, ih]

theorem total_nan (xs ys : List (Ext K)) (hl : xs.length = ys.length) (hn : 3 ≤ xs.length) (h : .nan ∈ xs ∨ .nan ∈ ys) :
    Spec.total (Arith.ieee R M) (fun j => Ext.mul R M (ys.getD j (.fin 0)) (Spec.width (Arith.ieee R M) xs j)) 0 (xs.length - 1) = .nan := by
  refine foldl_add_mem _ _ ?_ _
  rcases h with h | h
  · obtain ⟨j, hj, e⟩ := List.mem_iff_getElem.mp h
    have hg : xs.getD j (.fin 0) = .nan := by rw [List.getD_eq_getElem _ _ hj, e]
    by_cases h0 : j = 0
    · subst h0
      refine ⟨0, List.mem_range'_1.mpr (by omega), ?_⟩
      have : Spec.width (Arith.ieee R M) xs 0 = .nan := by
        rw [Spec.width, if_pos rfl]
        show Ext.sub R M _ (xs.getD 0 (.fin 0)) = _
        rw [hg, sub_nan]
      rw [this, mul_nan]
    · refine ⟨j - 1, List.mem_range'_1.mpr (by omega), ?_⟩
      have : Spec.width (Arith.ieee R M) xs (j - 1) = .nan := by
        rw [Spec.width]
        by_cases h1 : j - 1 = 0
        · rw [if_pos h1]
          show Ext.sub R M (xs.getD 1 (.fin 0)) _ = _
          rw [show 1 = j by omega, hg, nan_sub]
        · rw [if_neg h1, if_neg (by omega)]
          show Ext.div R M (Ext.sub R M (xs.getD (j - 1 + 1) (.fin 0)) _) _ = _
          rw [show j - 1 + 1 = j by omega, hg, nan_sub]
          rfl
      rw [this, mul_nan]
  · obtain ⟨j, hj, e⟩ := List.mem_iff_getElem.mp h
    refine ⟨j, List.mem_range'_1.mpr (by omega), ?_⟩
    rw [List.getD_eq_getElem _ _ hj, e, nan_mul]

/-- **C173 (NaN).** If any abscissa or value is not a number, `extractNBigestModes` does not notice when it is done and always makes all `3 n + 2` extractions. -/
theorem C173_nan (R : Rounding K) (M : K) (xs ys : List (Ext K)) (hl : xs.length = ys.length) (hn : 3 ≤ xs.length) (h : .nan ∈ xs ∨ .nan ∈ ys) (mr : Ext K) (n : Nat)
    (h1n : 1 ≤ n) (fuel : Nat) (hf : 3 * n + 2 ≤ fuel) :
    ∃ (ms hs dropped : List (Mode (Ext K))), biggestModes (Arith.ieee R M) fuel xs ys mr n = .ok (some ms) ∧ n ≤ ms.length ∧
      highestModes (Arith.ieee R M) xs mr (3 * n + 2) ys = .ok hs ∧ (ms ++ dropped).Perm hs := by
  obtain ⟨ms, hs, dropped, last, h1, h2, h3, _, h5, _, h7⟩ := C173_biggest (Arith.ieee R M) xs ys hl hn mr n h1n fuel hf
  have e : hs.length = 3 * n + 2 := by
    rcases h7 with h7 | h7
    · exfalso
      have t := total_nan (R := R) (M := M) xs ys hl hn h
      have t' : Spec.total (Arith.ieee R M) (fun j => (Arith.ieee R M).mul (ys.getD j (Arith.ieee R M).zero) (Spec.width (Arith.ieee R M) xs j)) 0 (xs.length - 1) = .nan := t
      rw [t'] at h7
      have f : (hs.map Mode.area).foldl (Arith.ieee R M).sub .nan = .nan := foldl_sub_nan _
      rw [f] at h7
      change Ext.lt .nan last.area = true at h7
      simp at h7
    · exact h7
  rw [e] at h3
  exact ⟨ms, hs, dropped, h1, h2, h3, h5⟩

end

/-! ## Finite numbers -/

section
variable {K : Type} [Field K] [LinearOrder K] {R : Rounding K}

theorem findMaximumIndex_rounded (l : List K) : findMaximumIndex (Arith.rounded R) l = MathUtils.findMaximumIndex l := by
  have : ∀ (l : List K) (mx : K) (i j : Nat), maxIndexLoop (Arith.rounded R) l mx i j = MathUtils.maxIndexLoop l mx i j := by
    intro l
    induction l with
    | nil => intros; rfl
    | cons y l ih =>
      intro mx i j
      rw [maxIndexLoop, MathUtils.maxIndexLoop]
      by_cases h : mx < y
      · rw [if_pos (show (Arith.rounded R).lt mx y = true from decide_eq_true h), if_pos h, ih]
      · rw [if_neg (show ¬ (Arith.rounded R).lt mx y = true from by simpa [Arith.rounded] using h), if_neg h, ih]
  exact this _ _ _ _

variable [IsStrictOrderedRing K] {u : K}

theorem width_close (hu : 0 ≤ u) (hr : ∀ x, |R.rnd x - x| ≤ u * |x|) (xs : List K) (j : Nat) :
    Close u 2 |MathUtils.Spec.width xs j| (Spec.width (Arith.rounded R) xs j) (MathUtils.Spec.width xs j) := by
  rw [MathUtils.Spec.width, Spec.width]
  by_cases h0 : j = 0
  · rw [if_pos h0, if_pos h0]
    exact ((Close.refl u _).rnd hu hr).mono hu (by omega)
  · rw [if_neg h0, if_neg h0]
    by_cases h1 : j + 1 = xs.length
    · rw [if_pos h1, if_pos h1]
      exact ((Close.refl u _).rnd hu hr).mono hu (by omega)
    · rw [if_neg h1, if_neg h1]
      have := ((((Close.refl u (xs.getD (j + 1) 0 - xs.getD (j - 1) 0)).rnd hu hr).div hu 2).rnd hu hr)
      rwa [← abs_div] at this

/-- **C173 (areas).** The area of a mode of finite numbers is that of its samples up to three roundings of each and one for each sum; the first moment, by which its mean is
computed, up to four. -/
theorem C173_area (hu : 0 ≤ u) (hr : ∀ x, |R.rnd x - x| ≤ u * |x|) (xs : List K) (mr : K) (f : Nat → K) (m : Mode K) (p : Spec.Peak)
    (h : Spec.IsMode (Arith.rounded R) xs mr f m p) :
    |m.area - ((List.range' p.lo (p.hi + 1 - p.lo)).map fun j => f j * MathUtils.Spec.width xs j).sum| ≤
      ((1 + u) ^ (3 + (p.hi + 1 - p.lo)) - 1) * ((List.range' p.lo (p.hi + 1 - p.lo)).map fun j => |f j * MathUtils.Spec.width xs j|).sum ∧
    ∃ moment, m.mean = R.rnd (moment / m.area) ∧
      |moment - ((List.range' p.lo (p.hi + 1 - p.lo)).map fun j => xs.getD j 0 * f j * MathUtils.Spec.width xs j).sum| ≤
        ((1 + u) ^ (4 + (p.hi + 1 - p.lo)) - 1) * ((List.range' p.lo (p.hi + 1 - p.lo)).map fun j => |xs.getD j 0 * f j * MathUtils.Spec.width xs j|).sum := by
  constructor
  · have := NdArray.foldl_zero_close (R := R) hu hr 3 (fun j => R.rnd (f j * Spec.width (Arith.rounded R) xs j)) (fun j => f j * MathUtils.Spec.width xs j)
      (fun j => |f j * MathUtils.Spec.width xs j|) (List.range' p.lo (p.hi + 1 - p.lo)) (by
        intro j _
        have := ((Close.refl u (f j)).mul hu (width_close hu hr xs j)).rnd hu hr
        rwa [← abs_mul] at this)
    rw [List.length_range'] at this
    rw [h.area]
    exact this.1
  · refine ⟨_, h.mean, ?_⟩
    have := NdArray.foldl_zero_close (R := R) hu hr 4 (fun j => R.rnd (R.rnd (xs.getD j 0 * f j) * Spec.width (Arith.rounded R) xs j))
      (fun j => xs.getD j 0 * f j * MathUtils.Spec.width xs j)
      (fun j => |xs.getD j 0 * f j * MathUtils.Spec.width xs j|) (List.range' p.lo (p.hi + 1 - p.lo)) (by
        intro j _
        have := (((Close.refl u (xs.getD j 0 * f j)).rnd hu hr).mul hu (width_close hu hr xs j)).rnd hu hr
        rwa [← abs_mul] at this)
    rw [List.length_range'] at this
    exact this.1

theorem foldl_nonneg (g : Nat → K) (l : List Nat) (h : ∀ j ∈ l, 0 ≤ g j) : ∀ s, 0 ≤ s → 0 ≤ l.foldl (fun s j => R.rnd (s + g j)) s := by
  induction l with
  | nil => intro s hs; exact hs
  | cons i l ih =>
    intro s hs
    rw [List.foldl_cons]
    exact ih (fun j hj => h j (List.mem_cons_of_mem _ hj)) _ (R.nonneg (add_nonneg hs (h i List.mem_cons_self)))

theorem width_nonneg (xs : List K) (hs : xs.Pairwise (· ≤ ·)) (j : Nat) (hj : j < xs.length) (hn : 2 ≤ xs.length) : 0 ≤ Spec.width (Arith.rounded R) xs j := by
  have get : ∀ a b, a ≤ b → b < xs.length → 0 ≤ xs.getD b 0 - xs.getD a 0 := by
    intro a b hab hb
    rw [List.getD_eq_getElem _ _ hb, List.getD_eq_getElem _ _ (show a < xs.length by omega), sub_nonneg]
    exact sorted_get hs hab (List.getElem?_eq_getElem (by omega)) (List.getElem?_eq_getElem hb)
  rw [Spec.width]
  by_cases h0 : j = 0
  · rw [if_pos h0]
    exact R.nonneg (get 0 1 (by omega) (by omega))
  · rw [if_neg h0]
    by_cases h1 : j + 1 = xs.length
    · rw [if_pos h1]
      exact R.nonneg (get _ _ (by omega) (by omega))
    · rw [if_neg h1]
      exact R.nonneg (div_nonneg (R.nonneg (get _ _ (by omega) (by omega))) (by norm_num [Arith.rounded]))

/-- **C173 (order).** For finite numbers that are not negative, rounding changes nothing about which samples are chosen: the top of each mode is a highest sample of what
the modes before it leave, and the heights do not increase. For ascending abscissas no area is negative, and every interpolated maximum is between the first and
the last abscissa. -/
theorem C173_order (R : Rounding K) (xs ys : List K) (hl : xs.length = ys.length) (hn : 3 ≤ xs.length) (hpos : ∀ y ∈ ys, 0 ≤ y) (mr : K) (n : Nat) :
    ∃ (ms : List (Mode K)) (peaks : List Spec.Peak), highestModes (Arith.rounded R) xs mr n ys = .ok ms ∧ ms.length = n ∧ peaks.length = n ∧
      (∀ (k : Nat) m p, ms[k]? = some m → peaks[k]? = some p →
        Spec.IsMode (Arith.rounded R) xs mr (Spec.residual (Arith.rounded R) (ys.getD · 0) (peaks.take k)) m p ∧
        (∀ j, j < xs.length → Spec.residual (Arith.rounded R) (ys.getD · 0) (peaks.take k) j ≤ Spec.residual (Arith.rounded R) (ys.getD · 0) (peaks.take k) p.top) ∧
        (xs.Pairwise (· ≤ ·) → 0 ≤ m.area ∧ xs.getD 0 0 ≤ m.interp ∧ m.interp ≤ xs.getD (xs.length - 1) 0)) ∧
      (∀ (k l : Nat) p q, k ≤ l → peaks[k]? = some p → peaks[l]? = some q →
        Spec.residual (Arith.rounded R) (ys.getD · 0) (peaks.take l) q.top ≤ Spec.residual (Arith.rounded R) (ys.getD · 0) (peaks.take k) p.top) := by
  obtain ⟨ms, peaks, h1, h2, h3, h4, h5, h6⟩ := highest_ok (Arith.rounded R) xs ys hl hn mr n
  have rnn : ∀ (ps : List Spec.Peak) j, 0 ≤ Spec.residual (Arith.rounded R) (ys.getD · 0) ps j := by
    intro ps j
    rw [Spec.residual]
    split_ifs
    · exact le_refl _
    · exact getD_nonneg hpos j
  have top : ∀ (k : Nat) p, peaks[k]? = some p → ∀ j, j < xs.length →
      Spec.residual (Arith.rounded R) (ys.getD · 0) (peaks.take k) j ≤ Spec.residual (Arith.rounded R) (ys.getD · 0) (peaks.take k) p.top := by
    intro k p hp j hj
    obtain ⟨l, e1, e2, e3⟩ := h6 k p hp
    rw [findMaximumIndex_rounded] at e3
    have e4 : ∀ j, l.getD j 0 = Spec.residual (Arith.rounded R) (ys.getD · 0) (peaks.take k) j := fun j => congrFun e2 j
    have hp' : ∀ y ∈ l, 0 ≤ y := by
      intro y hy
      obtain ⟨i, hi, rfl⟩ := List.mem_iff_getElem.mp hy
      rw [← List.getD_eq_getElem _ 0 hi, e4]
      exact rnn _ _
    have := (findMaximumIndex_spec (ys := l) (by rintro rfl; simp at e1; omega) hp').2 j (by omega)
    rw [e4, e4, ← e3] at this
    exact this
  refine ⟨ms, peaks, h1, h2, h3, ?_, ?_⟩
  · intro k m p hm hp
    have im := h4 k m p hm hp
    refine ⟨im, top k p hp, fun hs => ⟨?_, ?_⟩⟩
    · rw [im.area]
      refine foldl_nonneg _ _ (fun j hj => ?_) _ (le_refl _)
      have hj' := List.mem_range'_1.mp hj
      have := im.hi_lt
      exact R.nonneg (mul_nonneg (rnn _ _) (width_nonneg xs hs j (by omega) (by omega)))
    · have hle : xs.getD 0 0 ≤ xs.getD (xs.length - 1) 0 := by
        rw [List.getD_eq_getElem _ _ (by omega), List.getD_eq_getElem _ _ (by omega)]
        exact sorted_get hs (Nat.zero_le _) (List.getElem?_eq_getElem (by omega)) (List.getElem?_eq_getElem (by omega))
      rcases h5 m (List.mem_of_getElem? hm) with h | h | h
      · change m.interp = xs.getD 0 0 at h
        rw [h]; exact ⟨le_refl _, hle⟩
      · change m.interp = xs.getD (xs.length - 1) 0 at h
        rw [h]; exact ⟨hle, le_refl _⟩
      · exact ⟨not_lt.mp (of_decide_eq_false h.1), not_lt.mp (of_decide_eq_false h.2)⟩
  · intro k l p q hkl hp hq
    have hlt := (List.getElem?_eq_some_iff.mp hq).1
    have ml := h4 l (ms[l]'(by omega)) q (List.getElem?_eq_getElem (by omega)) hq
    refine le_trans ?_ (top k p hp q.top (lt_of_le_of_lt ml.le_hi ml.hi_lt))
    rw [Spec.residual, Spec.residual]
    by_cases hc : ∃ p ∈ peaks.take l, p.lo ≤ q.top ∧ q.top ≤ p.hi
    · rw [if_pos hc]
      split_ifs
      · exact le_refl _
      · exact getD_nonneg hpos _
    · rw [if_neg hc, if_neg]
      rintro ⟨r, hr, h⟩
      exact hc ⟨r, (List.take_prefix_take_left hkl).subset hr, h⟩

end

/-! ## Exact arithmetic -/

section
variable {K : Type} [Field K] [LinearOrder K]

/-- A mode of exact numbers, where a mean that is not defined is 0 (what dividing by 0 gives in the model). -/
def Spec.plain (m : ModeInfo K) : Mode K := ⟨m.sample, m.mean.getD 0, m.interp, m.area⟩

local notation "E" => Arith.rounded (Rounding.exact K)

theorem elem_same (l : List K) (i : Nat) : elem l i = MathUtils.elem l i := rfl
theorem eq_exact (a b : K) : (E).eq a b = decide (a = b) := rfl
theorem lt_exact (a b : K) : (E).lt a b = decide (a < b) := rfl
theorem le_exact (a b : K) : (E).le a b = decide (a ≤ b) := rfl
theorem zero_exact : (E).zero = 0 := rfl
theorem two_exact : (E).two = 2 := rfl
theorem add_exact (a b : K) : (E).add a b = a + b := rfl
theorem sub_exact (a b : K) : (E).sub a b = a - b := rfl
theorem mul_exact (a b : K) : (E).mul a b = a * b := rfl
theorem div_exact (a b : K) : (E).div a b = a / b := rfl

theorem leftLoop_exact (ys : List K) (t : K) : ∀ p mn, leftLoop E ys t p mn = MathUtils.leftLoop ys t p mn := by
  intro p
  induction p with
  | zero => intro mn; rfl
  | succ p ih =>
    intro mn
    rw [leftLoop, MathUtils.leftLoop]
    simp only [ih, elem_same, eq_exact, lt_exact, le_exact, zero_exact, Bool.and_eq_true, decide_eq_true_eq, ge_iff_le]

theorem rightLoop_exact (ys : List K) (t : K) : ∀ fuel p mx, rightLoop E ys t fuel p mx = MathUtils.rightLoop ys t fuel p mx := by
  intro fuel
  induction fuel with
  | zero => intro p mx; rfl
  | succ fuel ih =>
    intro p mx
    rw [rightLoop, MathUtils.rightLoop]
    simp only [ih, elem_same, eq_exact, lt_exact, le_exact, zero_exact, Bool.and_eq_true, decide_eq_true_eq, ge_iff_le]

theorem areaLoop_exact (xs ys : List K) : ∀ fuel i a b, areaLoop E xs ys fuel i a b = MathUtils.areaLoop xs ys fuel i a b := by
  intro fuel
  induction fuel with
  | zero => intro i a b; rfl
  | succ fuel ih =>
    intro i a b
    rw [areaLoop, MathUtils.areaLoop]
    simp only [ih]
    rfl

theorem extractMode_exact (xs ys : List K) (mr : K) :
    extractMode E xs ys mr = (MathUtils.extractMode xs ys mr).bind fun r => .ok (Spec.plain r.1, r.2) := by
  have hc : ∀ c, catchPeak E ys c mr = MathUtils.catchPeak ys c mr := by
    intro c
    unfold catchPeak MathUtils.catchPeak
    simp only [leftLoop_exact, rightLoop_exact]
    rfl
  have hi : ∀ i, interpolationAround E xs ys i = MathUtils.interpolationAround xs ys i := by
    intro i
    unfold interpolationAround MathUtils.interpolationAround
    simp only [elem_same, eq_exact, lt_exact, zero_exact, two_exact, add_exact, sub_exact, mul_exact, div_exact, Bool.not_eq_true', decide_eq_true_eq, decide_eq_false_iff_not, ge_iff_le,
      gt_iff_lt, ne_eq]
  have ha : ∀ a b, avgArea E xs ys a b = (MathUtils.avgArea xs ys a b).bind fun r => .ok (r.1.getD 0, r.2) := by
    intro a b
    unfold avgArea MathUtils.avgArea
    have z : (E).zero = 0 := rfl
    rw [z, areaLoop_exact]
    cases MathUtils.areaLoop xs ys (b + 1 - a) a 0 0 with
    | ok r =>
      show Outcome.ok (r.1 / r.2, r.2) = Outcome.ok (Option.getD (if r.2 = 0 then none else some (r.1 / r.2)) 0, r.2)
      by_cases h : r.2 = 0
      · rw [if_pos h, h, div_zero]; rfl
      · rw [if_neg h]; rfl
    | throw e => rfl
    | ub => rfl
  unfold extractMode MathUtils.extractMode
  simp only [hc, hi, ha, findMaximumIndex_rounded]
  cases MathUtils.catchPeak ys (MathUtils.findMaximumIndex ys) mr with
  | ok mm =>
    simp only [Outcome.bind_ok]
    cases MathUtils.avgArea xs ys mm.1 mm.2 with
    | ok ma =>
      simp only [Outcome.bind_ok]
      cases MathUtils.interpolationAround xs ys (MathUtils.findMaximumIndex ys) with
      | ok v =>
        simp only [Outcome.bind_ok]
        have e : elem xs (MathUtils.findMaximumIndex ys) = MathUtils.elem xs (MathUtils.findMaximumIndex ys) := rfl
        rw [e]
        cases MathUtils.elem xs (MathUtils.findMaximumIndex ys) <;> rfl
      | throw e => rfl
      | ub => rfl
    | throw e => rfl
    | ub => rfl
  | throw e => rfl
  | ub => rfl

/-- **C173 (exact).** Without rounding these are the functions of which C40 speaks. -/
theorem C173_exact (xs ys : List K) (mr : K) (n : Nat) :
    highestModes (Arith.rounded (Rounding.exact K)) xs mr n ys = (MathUtils.highestModes xs mr n ys).bind fun ms => .ok (ms.map Spec.plain) := by
  induction n generalizing ys with
  | zero => rfl
  | succ n ih =>
    rw [highestModes, MathUtils.highestModes, extractMode_exact]
    cases MathUtils.extractMode xs ys mr with
    | ok r =>
      show (highestModes E xs mr n r.2).bind _ = ((MathUtils.highestModes xs mr n r.2).bind _).bind _
      rw [ih]
      cases MathUtils.highestModes xs mr n r.2 <;> rfl
    | throw e => rfl
    | ub => rfl

end

/-! ## Witnesses -/

/-- Two modes in double precision. -/
example : highestModes (Arith.rounded Binary.double) [0, 1, 2, 3] 0 2 [0, 4, 2, 1] = .ok [⟨1, Binary.double.rnd (4 / 3), Binary.double.rnd (7 / 6), 6⟩, ⟨3, 3, 3 / 2, 1⟩] := by decide +kernel

/-- A NaN among the values: it belongs to the peak, whose area and mean it is. -/
example : highestModes (Arith.ieee Binary.double Binary.doubleMax) [.fin 0, .fin 1, .fin 2, .fin 3] (.fin 0) 1 [.fin 1, .fin 4, .nan, .fin 1] = .ok [⟨.fin 1, .nan, .nan, .nan⟩] := by
  decide +kernel

/-- An infinite value: after the first mode the area that is left is not a number, and all extractions are made. -/
example : biggestModes (Arith.ieee Binary.double Binary.doubleMax) 5 [.fin 0, .fin 1, .fin 2, .fin 3] [.fin 0, .pinf, .fin 1, .fin 0] (.fin 0) 1 =
    .ok (some [⟨.fin 1, .nan, .nan, .pinf⟩]) := by
  decide +kernel

/-- Values whose area overflows: the mean is not a number. -/
example : highestModes (Arith.ieee Binary.double Binary.doubleMax) [.fin 0, .fin 1, .fin 2, .fin 3] (.fin 0) 1 [.fin 0, .fin (2 ^ 1023), .fin (2 ^ 1023), .fin 0] =
    .ok [⟨.fin 1, .nan, .nan, .pinf⟩] := by
  decide +kernel

/-- Double precision rounds as `C173_area` asks for, and a mode of a density that is neither on a line nor representable in sums is described. -/
example : (∀ x : ℚ, |(Binary.rounding 53 (by decide)).rnd x - x| ≤ (1 / 2) ^ 53 * |x|) ∧
    ∃ m p, highestModes (Arith.rounded (Binary.rounding 53 (by decide))) ([0, 1, 2, 3, 4] : List ℚ) 0 1 [0, 2 ^ 53, 3, 1, 0] = .ok [m] ∧
      Spec.IsMode (Arith.rounded (Binary.rounding 53 (by decide))) [0, 1, 2, 3, 4] 0 (([0, 2 ^ 53, 3, 1, 0] : List ℚ).getD · 0) m p ∧ m.area = 2 ^ 53 + 4 := by
  refine ⟨fun x => (Binary.rnd_err 53 x).trans (le_of_eq (mul_comm _ _)), ?_⟩
  obtain ⟨ms, peaks, h1, h2, h3, h4, _⟩ := C173_highest (Arith.rounded (Binary.rounding 53 (by decide))) ([0, 1, 2, 3, 4] : List ℚ) [0, 2 ^ 53, 3, 1, 0] rfl (by decide) 0 1
  match ms, peaks, h2, h3 with
  | [m], [p], _, _ =>
    have := h4 0 m p rfl rfl
    rw [List.take_zero, residual_nil] at this
    refine ⟨m, p, h1, this, ?_⟩
    have e : (highestModes (Arith.rounded (Binary.rounding 53 (by decide))) ([0, 1, 2, 3, 4] : List ℚ) 0 1 [0, 2 ^ 53, 3, 1, 0]).bind (fun l => .ok (l.map Mode.area)) =
      .ok [2 ^ 53 + 4] := by decide +kernel
    rw [h1] at e
    change Outcome.ok [m.area] = Outcome.ok [2 ^ 53 + 4] at e
    simpa using e

end Alexandria.MathUtils.FloatModes
