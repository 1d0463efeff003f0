import Verif.MathUtils.SimpleProps

/-! # `simple_interpolation` of every table of increasing abscissae (C36) -/

namespace Alexandria.MathUtils

section
variable {K : Type} [Field K] [LinearOrder K] [IsStrictOrderedRing K]

/-- What the function gives for the two points `p` and `q` that it selects: the value of their line, or, if they have the same abscissa, half the sum of that abscissa and the
ordinate of `q`. -/
def Spec.Selected (p q : K × K) (x v : K) : Prop :=
  (p.1 ≠ q.1 → Spec.OnLine p q x v) ∧ (p.1 = q.1 → v = (q.1 + q.2) / 2)

omit [IsStrictOrderedRing K] in
theorem lineThrough_selected (x x1 x0 y1 y0 : K) : ∃ v, lineThrough x x1 x0 y1 y0 = .ok v ∧ Spec.Selected (x0, y0) (x1, y1) x v := by
  by_cases h : x0 = x1
  · exact ⟨_, by rw [lineThrough, if_pos h.symm], fun hn => absurd h hn, fun _ => rfl⟩
  · obtain ⟨v, hv, hl⟩ := lineThrough_line (x := x) (y1 := y1) (y0 := y0) h
    exact ⟨v, hv, fun _ => hl, fun he => absurd he h⟩

/-- **C36 (every table).** Abscissae that do not decrease, at least two: outside the range the value is 0, or, when extrapolating, that of the outer two points;
at the last abscissa it is that of the last two points; between two neighbouring points, or at the first of them, it is on their line.  Two points of the same abscissa
matter only at the ends of the table: there the value is half the sum of an abscissa and an ordinate. -/
theorem C36_exact (x : K) (xp yp : List K) (e : Bool) (hl : xp.length = yp.length) (hs : xp.Pairwise (· ≤ ·)) (n : Nat)
    (hn : n + 2 = xp.length) (a a1 z1 z b b1 w1 w : K) (ha : xp[0]? = some a) (ha1 : xp[1]? = some a1) (hz1 : xp[n]? = some z1)
    (hz : xp[n + 1]? = some z) (hb : yp[0]? = some b) (hb1 : yp[1]? = some b1) (hw1 : yp[n]? = some w1) (hw : yp[n + 1]? = some w) :
    (e = false → x < a ∨ z < x → simpleInterpolation x xp yp e = .ok 0) ∧
    (e = true → x < a → ∃ v, simpleInterpolation x xp yp e = .ok v ∧ Spec.Selected (a, b) (a1, b1) x v) ∧
    (x = z ∨ (e = true ∧ z ≤ x) → ∃ v, simpleInterpolation x xp yp e = .ok v ∧ Spec.Selected (z1, w1) (z, w) x v) ∧
    (∀ (i : Nat) c d c' d', xp[i]? = some c → yp[i]? = some d → xp[i + 1]? = some c' → yp[i + 1]? = some d' → c ≤ x → x < c' →
      ∃ v, simpleInterpolation x xp yp e = .ok v ∧ Spec.OnLine (c, d) (c', d') x v) := by
  have hle : ∀ c ∈ xp, c ≤ z := by
    intro c hc
    obtain ⟨j, hj, rfl⟩ := List.mem_iff_getElem.mp hc
    exact sorted_get hs (by omega) (List.getElem?_eq_getElem hj) hz
  rw [simple_eq hl (by omega)]
  refine ⟨?_, ?_, ?_, ?_⟩
  · rintro rfl (hx | hx)
    · simp only
      rw [upper_zero ha hx, if_pos ⟨rfl, rfl, by rw [headD_get ha]; exact hx⟩]
    · have hu := upper_all (xp := xp) (x := x) (fun c hc => (hle c hc).trans hx.le)
      simp only
      rw [hu, if_neg (by omega), if_neg (by omega : ¬ xp.length = 0), if_pos ⟨rfl, rfl, by rw [getLastD_get (by omega) hz]; exact hx⟩]
  · rintro rfl hx
    simp only
    rw [upper_zero ha hx, if_neg (by simp), if_pos rfl, if_neg (by simp)]
    rw [if_neg (by omega), ha1, hb1]
    simp only [Nat.sub_self]
    rw [ha, hb]
    exact lineThrough_selected _ _ _ _ _
  · intro hx
    have hzx : z ≤ x := by
      rcases hx with rfl | ⟨_, h⟩
      · exact le_refl _
      · exact h
    have hu := upper_all (xp := xp) (x := x) (fun c hc => (hle c hc).trans hzx)
    simp only
    rw [hu, if_neg (by omega), if_neg (by omega : ¬ xp.length = 0), if_neg, if_pos rfl, show xp.length - 1 = n + 1 by omega, hz, hw, Nat.add_sub_cancel, hz1, hw1]
    · exact lineThrough_selected _ _ _ _ _
    · rintro ⟨_, h1, h2⟩
      rw [getLastD_get (by omega) hz] at h2
      rcases hx with rfl | ⟨h, _⟩
      · exact lt_irrefl _ h2
      · rw [h] at h1
        cases h1
  · intro i c d c' d' hc hd hc' hd' h1 h2
    have hi := (List.getElem?_eq_some_iff.mp hc').1
    have hu := upper_index hs hc hc' h1 h2
    simp only
    rw [hu, if_neg (by omega), if_neg (by omega : ¬ i + 1 = 0), if_neg (by omega), if_neg (by omega), hc', hd', Nat.add_sub_cancel, hc, hd]
    exact lineThrough_line (ne_of_lt (lt_of_le_of_lt h1 h2))

/-- **C36 (repeated abscissae).** At an abscissa of the table below the last one, the value is the ordinate of the last point that has this abscissa. -/
theorem C36_last_of_equal (xp yp : List K) (e : Bool) (hl : xp.length = yp.length) (hs : xp.Pairwise (· ≤ ·)) (i : Nat) (a b a' : K)
    (ha : xp[i]? = some a) (hb : yp[i]? = some b) (ha' : xp[i + 1]? = some a') (hlt : a < a') : simpleInterpolation a xp yp e = .ok b := by
  have hi := (List.getElem?_eq_some_iff.mp ha').1
  obtain ⟨n, hn⟩ : ∃ n, n + 2 = xp.length := ⟨xp.length - 2, by omega⟩
  obtain ⟨_, _, _, h⟩ := C36_exact a xp yp e hl hs n hn _ _ _ _ _ _ _ _ (List.getElem?_eq_getElem (by omega)) (List.getElem?_eq_getElem (by omega))
    (List.getElem?_eq_getElem (by omega)) (List.getElem?_eq_getElem (by omega)) (List.getElem?_eq_getElem (by omega)) (List.getElem?_eq_getElem (by omega))
    (List.getElem?_eq_getElem (by omega)) (List.getElem?_eq_getElem (by omega))
  obtain ⟨v, hv, hline⟩ := h i a b a' _ ha hb ha' (List.getElem?_eq_getElem (by omega)) (le_refl _) hlt
  rw [hv]
  simp only [Spec.OnLine, sub_self, mul_zero, add_zero] at hline
  have h0 : a' - a ≠ 0 := sub_ne_zero.mpr (ne_of_gt hlt)
  congr 1
  apply mul_right_cancel₀ h0
  linear_combination hline

end

/-- A table with a step at 1 and one at its end, 2. -/
example : simpleInterpolation (1 : ℚ) [0, 1, 1, 2, 2] [5, 6, 8, 9, 10] false = .ok 8 ∧ simpleInterpolation (2 : ℚ) [0, 1, 1, 2, 2] [5, 6, 8, 9, 10] false = .ok 6 ∧
    simpleInterpolation (3 / 2 : ℚ) [0, 1, 1, 2, 2] [5, 6, 8, 9, 10] false = .ok (17 / 2) := by
  refine ⟨by decide +kernel, by decide +kernel, by decide +kernel⟩

end Alexandria.MathUtils
