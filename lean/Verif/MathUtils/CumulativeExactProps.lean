import Verif.MathUtils.CumulativeProps

/-! # The centred interval when no sample lies between its bounds (C92) -/

namespace Alexandria.MathUtils

section
variable {K : Type} [Field K] [LinearOrder K]

/-- The tray of a value is unique. -/
theorem isTray_unique {c : List (K × K)} {v : K} {a b a' b' : Nat} (h : Spec.IsTray c v a b) (h' : Spec.IsTray c v a' b') : a = a' ∧ b = b' := by
  obtain ⟨hab, p, hp, hv, hbef, hsame, hend⟩ := h
  obtain ⟨hab', p', hp', hv', hbef', hsame', hend'⟩ := h'
  have ea : a = a' := by
    rcases Nat.lt_trichotomy a a' with hlt | he | hlt
    · exact absurd (hbef' a p hlt hp) (not_lt.mpr hv)
    · exact he
    · exact absurd (hbef a' p' hlt hp') (not_lt.mpr hv')
  subst ea
  rw [hp] at hp'
  cases hp'
  refine ⟨rfl, ?_⟩
  rcases Nat.lt_trichotomy b b' with hlt | he | hlt
  · obtain ⟨q, hq, hq2⟩ := hsame' (b + 1) (by omega) (by omega)
    exact absurd hq2 (hend q hq)
  · exact he
  · obtain ⟨q, hq, hq2⟩ := hsame (b' + 1) (by omega) (by omega)
    exact absurd hq2 (hend' q hq)

/-- If no sample has a value from `lo` to below `up`, the tray of `lo` is that of `up`. -/
theorem isTray_of_gap {c : List (K × K)} {lo up : K} {a b : Nat} (hle : lo ≤ up) (hgap : ∀ p ∈ c, p.2 < lo ∨ up ≤ p.2) (h : Spec.IsTray c lo a b) :
    Spec.IsTray c up a b := by
  obtain ⟨hab, p, hp, hv, hbef, hsame, hend⟩ := h
  refine ⟨hab, p, hp, ?_, fun i q hi hq => lt_of_lt_of_le (hbef i q hi hq) hle, hsame, hend⟩
  rcases hgap p (List.mem_of_getElem? hp) with h1 | h1
  · exact absurd h1 (not_lt.mpr hv)
  · exact h1

variable [IsStrictOrderedRing K]

/-- **C92 (both bounds on one tray).** If no sample has a value from the lower to below the upper bound, both bounds have the same tray, and the interval goes
from the last sample of the tray back to its first.  The samples need not be in any order. -/
theorem C92_same_tray (c : List (K × K)) (last : K × K) (hlast : c.getLast? = some last) (hpos : 0 ≤ last.2) (rate : K) (h0 : 0 < rate) (h1 : rate ≤ 1)
    (hgap : ∀ p ∈ c, p.2 < last.2 * (1 / 2 - rate / 2) ∨ last.2 * (1 / 2 + rate / 2) ≤ p.2) :
    ∃ (a b : Nat) (pa pb : K × K), Spec.IsTray c (last.2 * (1 / 2 - rate / 2)) a b ∧ Spec.IsTray c (last.2 * (1 / 2 + rate / 2)) a b ∧
      c[a]? = some pa ∧ c[b]? = some pb ∧ findCenteredInterval c rate = .ok (pb.1, pa.1) := by
  obtain ⟨a, a', _, pa, ta, _, hpa, _, va, _⟩ := C91_findValue c last hlast hpos (1 / 2 - rate / 2) (by linarith) (by linarith)
  obtain ⟨b, b', pb, _, tb, hpb, _, vb, _, _⟩ := C91_findValue c last hlast hpos (1 / 2 + rate / 2) (by linarith) (by linarith)
  have hle : last.2 * (1 / 2 - rate / 2) ≤ last.2 * (1 / 2 + rate / 2) := mul_le_mul_of_nonneg_left (by linarith) hpos
  have tt := isTray_of_gap hle hgap ta
  obtain ⟨rfl, rfl⟩ := isTray_unique tt tb
  refine ⟨a, a', pb, pa, ta, tt, hpb, hpa, ?_⟩
  rw [findCenteredInterval, if_neg (by push Not; exact ⟨h1, h0⟩), va, vb]
  rfl

/-- **C92 (exactly when the ends are in order).** For strictly ascending abscissas and values that do not descend: the ends of the centred interval are in order
if and only if some sample has a value from the lower to below the upper bound, or the tray of the lower bound is a single sample. -/
theorem C92_in_order_iff (c : List (K × K)) (hs : (c.map Prod.fst).Pairwise (· < ·)) (hm : (c.map Prod.snd).Pairwise (· ≤ ·))
    (last : K × K) (hlast : c.getLast? = some last) (hpos : 0 ≤ last.2) (rate : K) (h0 : 0 < rate) (h1 : rate ≤ 1) :
    ∃ x y, findCenteredInterval c rate = .ok (x, y) ∧
      (x ≤ y ↔ (∃ p ∈ c, last.2 * (1 / 2 - rate / 2) ≤ p.2 ∧ p.2 < last.2 * (1 / 2 + rate / 2)) ∨
        ∃ a, Spec.IsTray c (last.2 * (1 / 2 - rate / 2)) a a) := by
  by_cases hex : ∃ p ∈ c, last.2 * (1 / 2 - rate / 2) ≤ p.2 ∧ p.2 < last.2 * (1 / 2 + rate / 2)
  · obtain ⟨_, _, _, _, pa, pb, _, _, _, _, hf, ho⟩ := C92_centered_partial c (hs.imp le_of_lt) hm last hlast hpos rate h0 h1
    exact ⟨_, _, hf, fun _ => .inl hex, fun _ => ho hex⟩
  · obtain ⟨a, b, pa, pb, ta, _, hpa, hpb, hf⟩ := C92_same_tray c last hlast hpos rate h0 h1 (by
      intro p hp
      by_contra hc
      push Not at hc
      exact hex ⟨p, hp, hc.1, hc.2⟩)
    refine ⟨_, _, hf, ?_, ?_⟩
    · intro hxy
      right
      have hab := ta.1
      rcases Nat.eq_or_lt_of_le hab with he | hlt
      · exact ⟨a, he ▸ ta⟩
      · exfalso
        obtain ⟨hal, ea⟩ := List.getElem?_eq_some_iff.mp hpa
        obtain ⟨hbl, eb⟩ := List.getElem?_eq_some_iff.mp hpb
        have := List.pairwise_iff_getElem.mp hs a b (by simpa using hal) (by simpa using hbl) hlt
        simp only [List.getElem_map, ea, eb] at this
        exact absurd hxy (not_le.mpr this)
    · rintro (h | ⟨a', ha'⟩)
      · exact absurd h hex
      · obtain ⟨rfl, rfl⟩ := isTray_unique ta ha'
        rw [hpa] at hpb
        cases hpb
        exact le_refl _

end

/-- The samples at 1, 2 and 3 have the value 9; no sample has a value from 5 / 2 to below 15 / 2. -/
example : findCenteredInterval [((0 : ℚ), 1), (1, 9), (2, 9), (3, 9), (4, 10)] (1 / 2) = .ok (3, 1) ∧
    ∀ p ∈ [((0 : ℚ), (1 : ℚ)), (1, 9), (2, 9), (3, 9), (4, 10)], p.2 < 10 * (1 / 2 - (1 / 2) / 2) ∨ 10 * (1 / 2 + (1 / 2) / 2) ≤ p.2 := by
  refine ⟨by decide +kernel, by decide +kernel⟩

/-- A step on a single sample: the interval is that sample. -/
example : findCenteredInterval [((0 : ℚ), 1), (1, 9), (2, 10)] (1 / 2) = .ok (1, 1) := by decide +kernel

end Alexandria.MathUtils
