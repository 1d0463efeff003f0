import Verif.MathUtils.LinearProps

/-! # `simple_interpolation` (C36) -/

namespace Alexandria.MathUtils

section
variable {K : Type} [Field K] [LinearOrder K]

/-! ## Lemmas -/

/-- The last part of the function: the line through two points. -/
def lineThrough (x x1 x0 y1 y0 : K) : Res K :=
  if x1 = x0 then .ok ((x1 + y1) / 2)
  else do
    let coef1 ← div? (y1 - y0) (x1 - x0)
    return y0 - coef1 * x0 + coef1 * x

theorem lineThrough_line {x x1 x0 y1 y0 : K} (h : x0 ≠ x1) : ∃ v, lineThrough x x1 x0 y1 y0 = .ok v ∧ Spec.OnLine (x0, y0) (x1, y1) x v := by
  have h' : x1 - x0 ≠ 0 := sub_ne_zero.mpr (Ne.symm h)
  refine ⟨_, by rw [lineThrough, if_neg (Ne.symm h), div?, if_neg h']; rfl, ?_⟩
  simp only [Spec.OnLine]
  field_simp
  ring

/-- Which segment is used: `i` is the index of its end. -/
theorem simple_eq {x : K} {xp yp : List K} {e : Bool} (hl : xp.length = yp.length) (hn : 2 ≤ xp.length) :
    simpleInterpolation x xp yp e =
      (let i := (xp.takeWhile (· ≤ x)).length
      if i = 0 ∧ !e ∧ x < xp.headD 0 then .ok 0
      else
        let i := if i = 0 then 1 else i
        if i = xp.length ∧ !e ∧ xp.getLastD 0 < x then .ok 0
        else
          let i := if i = xp.length then i - 1 else i
          match xp[i]?, xp[i - 1]?, yp[i]?, yp[i - 1]? with
          | some x1, some x0, some y1, some y0 => lineThrough x x1 x0 y1 y0
          | _, _, _, _ => .ub) := by
  unfold simpleInterpolation
  rw [if_neg (by rintro rfl; simp at hn), if_neg (not_not.mpr hl)]
  match xp, yp, hl, hn with
  | [_], _, _, hn => simp at hn
  | _ :: _ :: _, [], hl, _ => simp at hl
  | _ :: _ :: _, [_], hl, _ => simp at hl
  | _ :: _ :: _, _ :: _ :: _, _, _ => rfl

theorem upper_index {xp : List K} (hs : xp.Pairwise (· ≤ ·)) {x a b : K} {i : Nat} (ha : xp[i]? = some a) (hb : xp[i + 1]? = some b) (h1 : a ≤ x)
    (h2 : x < b) : (xp.takeWhile fun c => decide (c ≤ x)).length = i + 1 := by
  have hi := (List.getElem?_eq_some_iff.mp hb).1
  apply takeWhile_length_eq
  · intro j c hj hc
    simp only [decide_eq_true_eq]
    exact (sorted_get hs (by omega) hc ha).trans h1
  · intro c hc
    rw [hb] at hc
    cases hc
    simpa using h2
  · omega

theorem upper_zero {xp : List K} {x a : K} (ha : xp[0]? = some a) (h : x < a) : (xp.takeWhile fun c => decide (c ≤ x)).length = 0 := by
  cases xp with
  | nil => cases ha
  | cons b l =>
    simp only [List.getElem?_cons_zero, Option.some.injEq] at ha
    subst ha
    rw [List.takeWhile_cons, if_neg (by simpa using h)]
    rfl

theorem upper_all {xp : List K} {x : K} (h : ∀ c ∈ xp, c ≤ x) : (xp.takeWhile fun c => decide (c ≤ x)).length = xp.length := by
  apply takeWhile_length_eq
  · intro j c _ hc
    simpa using h c (List.mem_of_getElem? hc)
  · intro c hc
    rw [List.getElem?_eq_none (le_refl _)] at hc
    cases hc
  · exact le_refl _

theorem headD_get {l : List K} {a : K} (h : l[0]? = some a) : l.headD 0 = a := by
  cases l with
  | nil => cases h
  | cons b l => simpa using h

theorem getLastD_get {l : List K} {a : K} {n : Nat} (hn : n + 1 = l.length) (h : l[n]? = some a) : l.getLastD 0 = a := by
  rw [List.getLastD_eq_getLast?, List.getLast?_eq_getElem?, ← hn, Nat.add_sub_cancel, h]
  rfl

/-! ## C36 -/

/-- Empty tables and tables of different sizes are refused. -/
theorem C36_throws (x : K) (xp yp : List K) (e : Bool) (h : xp = [] ∨ xp.length ≠ yp.length) : simpleInterpolation x xp yp e = .throw .elements := by
  unfold simpleInterpolation
  by_cases h1 : xp = []
  · rw [if_pos h1]
  · rw [if_neg h1, if_pos (h.resolve_left h1)]

/-- A single point. -/
theorem C36_single (x a b : K) : simpleInterpolation x [a] [b] true = .ok b ∧ simpleInterpolation a [a] [b] false = .ok b ∧
    (x ≠ a → simpleInterpolation x [a] [b] false = .ok 0) := by
  refine ⟨by simp [simpleInterpolation], by simp [simpleInterpolation], fun h => ?_⟩
  simp [simpleInterpolation, Ne.symm h]

/-- Increasing abscissae, equal neighbours allowed unless they are the last two (or the first two when extrapolating): the value is on the
line through the two points around the argument, zero outside or on the line of the outer segment when extrapolating. -/
theorem C36_segments_partial (x : K) (xp yp : List K) (e : Bool) (hl : xp.length = yp.length) (hs : xp.Pairwise (· ≤ ·)) (n : Nat)
    (hn : n + 2 = xp.length) (a a1 z1 z b b1 w1 w : K) (ha : xp[0]? = some a) (ha1 : xp[1]? = some a1) (hz1 : xp[n]? = some z1)
    (hz : xp[n + 1]? = some z) (hb : yp[0]? = some b) (hb1 : yp[1]? = some b1) (hw1 : yp[n]? = some w1) (hw : yp[n + 1]? = some w)
    (hlast : z1 ≠ z) (hfirst : e = true → a ≠ a1) :
    (e = false → x < a ∨ z < x → simpleInterpolation x xp yp e = .ok 0) ∧
    (e = true → x < a → ∃ v, simpleInterpolation x xp yp e = .ok v ∧ Spec.OnLine (a, b) (a1, b1) x v) ∧
    (x = z ∨ (e = true ∧ z ≤ x) → ∃ v, simpleInterpolation x xp yp e = .ok v ∧ Spec.OnLine (z1, w1) (z, w) x v) ∧
    (∀ (i : Nat) c d c' d', xp[i]? = some c → yp[i]? = some d → xp[i + 1]? = some c' → yp[i + 1]? = some d' → c ≤ x → x < c' →
      ∃ v, simpleInterpolation x xp yp e = .ok v ∧ Spec.OnLine (c, d) (c', d') x v) := by
  have hle : ∀ c ∈ xp, c ≤ z := by
    intro c hc
    obtain ⟨j, hj, rfl⟩ := List.mem_iff_getElem.mp hc
    exact sorted_get hs (by omega) (List.getElem?_eq_getElem hj) hz
  have hge : ∀ c ∈ xp, a ≤ c := by
    intro c hc
    obtain ⟨j, hj, rfl⟩ := List.mem_iff_getElem.mp hc
    exact sorted_get hs (Nat.zero_le j) ha (List.getElem?_eq_getElem hj)
  rw [simple_eq hl (by omega)]
  refine ⟨?_, ?_, ?_, ?_⟩
  · rintro rfl (hx | hx)
    · simp only
      rw [upper_zero ha hx, if_pos ⟨rfl, rfl, by rw [headD_get ha]; exact hx⟩]
    · have hu := upper_all (xp := xp) (x := x) (fun c hc => (hle c hc).trans hx.le)
      simp only
      rw [hu, if_neg (by omega), if_neg (by omega : ¬ xp.length = 0), if_pos ⟨rfl, rfl, by rw [getLastD_get (by omega) hz]; exact hx⟩]
  · rintro rfl hx
    simp only
    rw [upper_zero ha hx, if_neg (by simp), if_pos rfl, if_neg (by simp), if_neg (by omega), ha1, hb1]
    simp only [Nat.sub_self]
    rw [ha, hb]
    exact lineThrough_line (hfirst rfl)
  · intro hx
    have hzx : z ≤ x := by
      rcases hx with rfl | ⟨_, h⟩
      · exact le_refl _
      · exact h
    have hu := upper_all (xp := xp) (x := x) (fun c hc => (hle c hc).trans hzx)
    simp only
    rw [hu, if_neg (by omega), if_neg (by omega : ¬ xp.length = 0), if_neg, if_pos rfl, show xp.length - 1 = n + 1 by omega, hz, hw, Nat.add_sub_cancel, hz1, hw1]
    · exact lineThrough_line hlast
    · rintro ⟨_, h1, h2⟩
      rw [getLastD_get (by omega) hz] at h2
      rcases hx with rfl | ⟨h, _⟩
      · exact lt_irrefl _ h2
      · rw [h] at h1
        cases h1
  · intro i c d c' d' hc hd hc' hd' h1 h2
    have hi := (List.getElem?_eq_some_iff.mp hc').1
    have hu := upper_index hs hc hc' h1 h2
    simp only
    rw [hu, if_neg (by omega), if_neg (by omega : ¬ i + 1 = 0), if_neg (by omega), if_neg (by omega), hc', hd', Nat.add_sub_cancel, hc, hd]
    exact lineThrough_line (ne_of_lt (lt_of_le_of_lt h1 h2))

/-- Strictly increasing abscissae: the data are reproduced. -/
theorem C36_nodes_partial (xp yp : List K) (e : Bool) (hl : xp.length = yp.length) (hs : xp.Pairwise (· < ·)) (i : Nat) (a b : K)
    (ha : xp[i]? = some a) (hb : yp[i]? = some b) : simpleInterpolation a xp yp e = .ok b := by
  have hi := (List.getElem?_eq_some_iff.mp ha).1
  match hlen : xp.length with
  | 0 => omega
  | 1 =>
    obtain ⟨c, rfl⟩ := List.length_eq_one_iff.mp hlen
    obtain ⟨d, rfl⟩ := List.length_eq_one_iff.mp (hl.symm.trans hlen)
    simp only [List.length_singleton, Nat.lt_one_iff] at hi
    subst hi
    simp only [List.getElem?_cons_zero, Option.some.injEq] at ha hb
    subst ha hb
    cases e with
    | false => exact (C36_single c c d).2.1
    | true => exact (C36_single c c d).1
  | n + 2 =>
    have hs' : xp.Pairwise (· ≤ ·) := hs.imp fun h => le_of_lt h
    have inc : ∀ (i j : Nat) (hij : i < j) (hj : j < xp.length), xp[i] < xp[j] := fun i j hij hj => List.pairwise_iff_getElem.mp hs i j (by omega) hj hij
    obtain ⟨_, _, h3, h4⟩ := C36_segments_partial a xp yp e hl hs' n hlen.symm _ _ _ _ _ _ _ _ (List.getElem?_eq_getElem (by omega))
      (List.getElem?_eq_getElem (by omega)) (List.getElem?_eq_getElem (by omega)) (List.getElem?_eq_getElem (by omega)) (List.getElem?_eq_getElem (by omega))
      (List.getElem?_eq_getElem (by omega)) (List.getElem?_eq_getElem (by omega)) (List.getElem?_eq_getElem (by omega))
      (ne_of_lt (inc n (n + 1) (by omega) (by omega))) (fun _ => ne_of_lt (inc 0 1 (by omega) (by omega)))
    obtain ⟨_, hae⟩ := List.getElem?_eq_some_iff.mp ha
    obtain ⟨_, hbe⟩ := List.getElem?_eq_some_iff.mp hb
    by_cases hlast : i = n + 1
    · subst hlast
      obtain ⟨v, hv, hline⟩ := h3 (Or.inl hae.symm)
      rw [hv, OnLine.unique (q := (_, _)) (ne_of_lt (inc n (n + 1) (by omega) (by omega))) hline (w := b) (by simp [Spec.OnLine, hae, hbe])]
    · have h1 : xp[i + 1]? = some (xp[i + 1]'(by omega)) := List.getElem?_eq_getElem (by omega)
      have h2 : yp[i + 1]? = some (yp[i + 1]'(by omega)) := List.getElem?_eq_getElem (by omega)
      have hlt : a < xp[i + 1]'(by omega) := by rw [← hae]; exact inc i (i + 1) (by omega) (by omega)
      obtain ⟨v, hv, hline⟩ := h4 i a b _ _ ha hb h1 h2 (le_refl _) hlt
      rw [hv, OnLine.unique (p := (a, b)) (ne_of_lt hlt) hline (w := b) (by simp [Spec.OnLine])]

end

/-- The full claim for equal neighbours: where all values are the same, so is the interpolated one. -/
def C36_full : Prop := ∀ (xp : List ℚ) (c x a z : ℚ), xp.Pairwise (· ≤ ·) → xp.head? = some a → xp.getLast? = some z → a ≤ x → x ≤ z →
  simpleInterpolation x xp (xp.map fun _ => c) false = .ok c

/-- Line 125 adds the abscissa to the ordinate. -/
theorem C36_violated : ¬ C36_full := by
  intro h
  have h1 := h [0, 1, 1] 5 1 0 1 (by decide +kernel) rfl rfl (by decide +kernel) (by decide +kernel)
  have h2 : simpleInterpolation (1 : ℚ) [0, 1, 1] [5, 5, 5] false = .ok 3 := by decide +kernel
  simp only [List.map_cons, List.map_nil] at h1
  rw [h1] at h2
  revert h2
  decide +kernel

example : simpleInterpolation (2 : ℚ) [0, 1, 3] [5, 7, 1] false = .ok 4 ∧ simpleInterpolation (4 : ℚ) [0, 1, 3] [5, 7, 1] false = .ok 0 ∧
    simpleInterpolation (4 : ℚ) [0, 1, 3] [5, 7, 1] true = .ok (-2) ∧ simpleInterpolation (-1 : ℚ) [0, 1, 1, 3] [5, 7, 9, 1] true = .ok 3 ∧
    simpleInterpolation (1 : ℚ) [0, 1, 1, 3] [5, 7, 9, 1] true = .ok 9 := by decide +kernel

end Alexandria.MathUtils
