import Verif.MathUtils.LinearProps

/-! # Cubic splines (C35) -/

namespace Alexandria.MathUtils

section
variable {K : Type} [Field K] [LinearOrder K]

/-! ## Specification -/

/-- Value, first and second derivative of a polynomial. -/
def Spec.value0 (c : List K) (t : K) : K := polyEval c t
def Spec.value1 (c : List K) (t : K) : K := polyEval (polyDeriv c) t
def Spec.value2 (c : List K) (t : K) : K := polyEval (polyDeriv (polyDeriv c)) t

/-- The polynomials `cs`, one between every two neighbouring points, form a natural cubic spline. -/
structure Spec.NaturalSpline (pts : List (K × K)) (cs : List (List K)) : Prop where
  /-- One polynomial less than points, of degree three at most. -/
  length : pts.length = cs.length + 1
  degree : ∀ c ∈ cs, c.length = 4
  /-- The data are reproduced at both ends of every piece. -/
  left : ∀ (i : Nat) p c, pts[i]? = some p → cs[i]? = some c → Spec.value0 c p.1 = p.2
  right : ∀ (i : Nat) p c, pts[i + 1]? = some p → cs[i]? = some c → Spec.value0 c p.1 = p.2
  /-- Neighbouring pieces agree in the first two derivatives. -/
  first : ∀ (i : Nat) p c c', pts[i + 1]? = some p → cs[i]? = some c → cs[i + 1]? = some c' → Spec.value1 c p.1 = Spec.value1 c' p.1
  second : ∀ (i : Nat) p c c', pts[i + 1]? = some p → cs[i]? = some c → cs[i + 1]? = some c' → Spec.value2 c p.1 = Spec.value2 c' p.1
  /-- No curvature at the ends. -/
  begins : ∀ p c, pts[0]? = some p → cs[0]? = some c → Spec.value2 c p.1 = 0
  ends : ∀ (i : Nat) p c, i + 2 = pts.length → pts[i + 1]? = some p → cs[i]? = some c → Spec.value2 c p.1 = 0

/-! ## Lemmas -/

theorem value0_shifted (u a b c d t : K) : Spec.value0 (shifted u a b c d) t = a + b * (t - u) + c * (t - u) ^ 2 + d * (t - u) ^ 3 := by
  simp only [Spec.value0, shifted, polyEval, polyLoop]
  ring

theorem value1_shifted (u a b c d t : K) : Spec.value1 (shifted u a b c d) t = b + 2 * c * (t - u) + 3 * d * (t - u) ^ 2 := by
  simp [Spec.value1, shifted, polyDeriv, polyEval, polyLoop, List.zipIdx]
  ring

theorem value2_shifted (u a b c d t : K) : Spec.value2 (shifted u a b c d) t = 2 * c + 6 * d * (t - u) := by
  simp [Spec.value2, shifted, polyDeriv, polyEval, polyLoop, List.zipIdx]
  ring

variable [IsStrictOrderedRing K]

/-- The coefficients of a piece with the quadratic coefficients `c` at its beginning and `c1` at its end. -/
def pieceOf (p q : K × K) (c c1 : K) : List K :=
  shifted p.1 p.2 ((q.2 - p.2) / (q.1 - p.1) - (q.1 - p.1) * (c1 + 2 * c) / 3) c ((c1 - c) / (3 * (q.1 - p.1)))

theorem splinePiece_eq {p q : K × K} (h : p.1 < q.1) (c c1 : K) : splinePiece p q c c1 = .ok (pieceOf p q c c1) := by
  have h1 : q.1 - p.1 ≠ 0 := sub_ne_zero.mpr (ne_of_gt h)
  have h2 : 3 * (q.1 - p.1) ≠ 0 := mul_ne_zero three_ne_zero h1
  simp only [splinePiece, div?, if_neg h1, if_neg h2]
  rfl

theorem pieceOf_values {p q : K × K} (h : p.1 < q.1) (c c1 : K) :
    Spec.value0 (pieceOf p q c c1) p.1 = p.2 ∧ Spec.value0 (pieceOf p q c c1) q.1 = q.2 ∧
    Spec.value1 (pieceOf p q c c1) p.1 = (q.2 - p.2) / (q.1 - p.1) - (q.1 - p.1) * (c1 + 2 * c) / 3 ∧
    Spec.value1 (pieceOf p q c c1) q.1 = (q.2 - p.2) / (q.1 - p.1) + (q.1 - p.1) * (c + 2 * c1) / 3 ∧
    Spec.value2 (pieceOf p q c c1) p.1 = 2 * c ∧ Spec.value2 (pieceOf p q c c1) q.1 = 2 * c1 := by
  have h1 : q.1 - p.1 ≠ 0 := sub_ne_zero.mpr (ne_of_gt h)
  have h3 : (3 : K) ≠ 0 := three_ne_zero
  unfold pieceOf
  rw [value0_shifted, value0_shifted, value1_shifted, value1_shifted, value2_shifted, value2_shifted]
  refine ⟨by ring, ?_, by ring, ?_, by ring, ?_⟩ <;> field_simp <;> ring

/-- The pivots of the forward loop are positive. -/
theorem pivot_pos {h0 h1 mu : K} (a0 : 0 < h0) (a1 : 0 < h1) (m0 : 0 ≤ mu) (m1 : mu < 1) :
    0 < 2 * (h0 + h1) - h0 * mu ∧ 0 ≤ h1 / (2 * (h0 + h1) - h0 * mu) ∧ h1 / (2 * (h0 + h1) - h0 * mu) < 1 := by
  have hm : h0 * mu ≤ h0 := by nlinarith
  have hg : 0 < 2 * (h0 + h1) - h0 * mu := by linarith
  exact ⟨hg, div_nonneg a1.le hg.le, by rw [div_lt_one hg]; linarith⟩

/-- The two loops, from a point `p` on. -/
theorem spline_loops (l : List (K × K)) : ∀ (p q : K × K) (mu z : K), (p :: q :: l).Pairwise (fun a b => a.1 < b.1) → 0 ≤ mu → mu < 1 →
    ∃ ms c1 cs, splineForward mu z (p :: q :: l) = .ok ms ∧
      splineBack (p :: q :: l) ((mu, z) :: ms) = .ok (z - mu * c1, pieceOf p q (z - mu * c1) c1 :: cs) ∧ (l = [] → c1 = 0) ∧
      l.length = cs.length ∧ (∀ c ∈ cs, c.length = 4) ∧
      (∀ (i : Nat) a c, (q :: l)[i]? = some a → cs[i]? = some c → Spec.value0 c a.1 = a.2) ∧
      (∀ (i : Nat) a c, l[i]? = some a → cs[i]? = some c → Spec.value0 c a.1 = a.2) ∧
      (∀ (i : Nat) a c c', (q :: l)[i]? = some a → (pieceOf p q (z - mu * c1) c1 :: cs)[i]? = some c → cs[i]? = some c' →
        Spec.value1 c a.1 = Spec.value1 c' a.1 ∧ Spec.value2 c a.1 = Spec.value2 c' a.1) ∧
      (∀ a c, (q :: l)[l.length]? = some a → (pieceOf p q (z - mu * c1) c1 :: cs)[l.length]? = some c → Spec.value2 c a.1 = 0) := by
  induction l with
  | nil =>
    intro p q mu z hs m0 m1
    have hpq : p.1 < q.1 := (List.pairwise_cons.mp hs).1 q List.mem_cons_self
    refine ⟨[], 0, [], rfl, ?_, fun _ => rfl, rfl, by simp, by simp, by simp, by simp, ?_⟩
    · rw [splineBack, splineBack, Outcome.bind_ok]
      simp only
      rw [splinePiece_eq hpq]
      rfl
    · intro a c ha hc
      simp at ha hc
      subst ha hc
      rw [(pieceOf_values hpq _ _).2.2.2.2.2]
      ring
  | cons r l ih =>
    intro p q mu z hs m0 m1
    obtain ⟨hp, hs'⟩ := List.pairwise_cons.mp hs
    have hpq : p.1 < q.1 := hp q List.mem_cons_self
    have hqr : q.1 < r.1 := (List.pairwise_cons.mp hs').1 r List.mem_cons_self
    have a0 : 0 < q.1 - p.1 := sub_pos.mpr hpq
    have a1 : 0 < r.1 - q.1 := sub_pos.mpr hqr
    have hge : 2 * (r.1 - p.1) - (q.1 - p.1) * mu = 2 * ((q.1 - p.1) + (r.1 - q.1)) - (q.1 - p.1) * mu := by ring
    obtain ⟨g0, g1, g2⟩ := pivot_pos a0 a1 m0 m1
    rw [← hge] at g0 g1 g2
    generalize hmu : (r.1 - q.1) / (2 * (r.1 - p.1) - (q.1 - p.1) * mu) = mu' at g1 g2
    generalize hz : (3 * (r.2 * (q.1 - p.1) - q.2 * (r.1 - p.1) + p.2 * (r.1 - q.1)) / ((q.1 - p.1) * (r.1 - q.1)) - (q.1 - p.1) * z) /
      (2 * (r.1 - p.1) - (q.1 - p.1) * mu) = z'
    obtain ⟨ms, c2, cs, hf, hb, hl, hlen, hdeg, hleft, hright, hjoin, hend⟩ := ih q r mu' z' hs' g1 g2
    have hc1 : z' - mu' * c2 = z' - mu' * c2 := rfl
    refine ⟨(mu', z') :: ms, z' - mu' * c2, pieceOf q r (z' - mu' * c2) c2 :: cs, ?_, ?_, by simp, by simp [hlen], ?_, ?_, ?_, ?_, ?_⟩
    · rw [splineForward]
      simp only [div?, if_neg (ne_of_gt g0), if_neg (mul_ne_zero (ne_of_gt a0) (ne_of_gt a1)), Outcome.bind_ok, hmu, hz, hf]
      rfl
    · rw [splineBack, hb, Outcome.bind_ok]
      simp only
      rw [splinePiece_eq hpq]
      rfl
    · intro c hc
      rcases List.mem_cons.mp hc with rfl | hc
      · rfl
      · exact hdeg c hc
    · intro i a c ha hc
      cases i with
      | zero =>
        simp at ha hc
        subst ha hc
        exact (pieceOf_values hqr _ _).1
      | succ i => exact hleft i a c (by simpa using ha) (by simpa using hc)
    · intro i a c ha hc
      cases i with
      | zero =>
        simp at ha hc
        subst ha hc
        exact (pieceOf_values hqr _ _).2.1
      | succ i => exact hright i a c (by simpa using ha) (by simpa using hc)
    · intro i a c c' ha hc hc'
      cases i with
      | zero =>
        simp only [List.getElem?_cons_zero, Option.some.injEq] at ha hc hc'
        subst ha hc hc'
        obtain ⟨_, _, _, v1, _, v2⟩ := pieceOf_values hpq (z - mu * (z' - mu' * c2)) (z' - mu' * c2)
        obtain ⟨_, _, w1, _, w2, _⟩ := pieceOf_values hqr (z' - mu' * c2) c2
        refine ⟨?_, by rw [v2, w2]⟩
        rw [v1, w1]
        have e1 : mu' * (2 * (r.1 - p.1) - (q.1 - p.1) * mu) = r.1 - q.1 := by rw [← hmu]; field_simp
        have e2 : z' * (2 * (r.1 - p.1) - (q.1 - p.1) * mu) = 3 * ((r.2 - q.2) / (r.1 - q.1) - (q.2 - p.2) / (q.1 - p.1)) - (q.1 - p.1) * z := by
          rw [← hz, div_mul_cancel₀ _ (ne_of_gt g0)]
          have b0 := ne_of_gt a0
          have b1 := ne_of_gt a1
          field_simp
          ring
        have e3 : (q.1 - p.1) * ((z - mu * (z' - mu' * c2)) + 2 * (z' - mu' * c2)) + (r.1 - q.1) * (c2 + 2 * (z' - mu' * c2)) =
            3 * ((r.2 - q.2) / (r.1 - q.1) - (q.2 - p.2) / (q.1 - p.1)) := by
          linear_combination e2 - c2 * e1
        linear_combination e3 / 3
      | succ i => exact hjoin i a c c' (by simpa using ha) (by simpa using hc) (by simpa using hc')
    · intro a c ha hc
      exact hend a c (by simpa using ha) (by simpa using hc)

/-! ## C35 -/

/-- For strictly increasing abscissae the result is a natural cubic spline: polynomials that satisfy `Spec.NaturalSpline`, each used between
its two points (and beyond the outer ones when extrapolating); elsewhere the function is zero. -/
theorem C35_spline (lo hi : K) (x y : List K) (e : Bool) (hl : x.length = y.length) (hs : x.Pairwise (· < ·)) (hn : 2 ≤ x.length)
    (hb : e = true → ∀ a ∈ x, lo ≤ a ∧ a ≤ hi) :
    ∃ F cs, interpolate lo hi x y .cubicSpline e = .ok F ∧ Spec.NaturalSpline (x.zip y) cs ∧
      (∀ (i : Nat) p q c, (x.zip y)[i]? = some p → (x.zip y)[i + 1]? = some q → cs[i]? = some c → ∀ t, Spec.Inside lo hi e x.length i p q t →
        eval F t = .ok (Spec.value0 c t)) ∧
      (e = false → ∀ t, ((∀ a ∈ x, t < a) ∨ ∀ a ∈ x, a < t) → eval F t = .ok 0) := by
  have hs' : x.Pairwise (· ≤ ·) := hs.imp fun h => le_of_lt h
  have hz : x = (x.zip y).map Prod.fst := by rw [List.map_fst_zip (le_of_eq hl)]
  have hlen : (x.zip y).length = x.length := by rw [List.length_zip]; omega
  rw [interpolate, if_neg (not_not.mpr hl)]
  match hc : x.zip y with
  | [] => rw [hc] at hlen; simp at hlen; omega
  | [p] => rw [hc] at hlen; simp at hlen; omega
  | p :: q :: l =>
    have hs2 : (p :: q :: l).Pairwise (fun a b => a.1 < b.1) := by
      rw [← hc, ← List.pairwise_map (f := Prod.fst) (R := (· < ·)), ← hz]; exact hs
    obtain ⟨r, hr, hd⟩ := dedup_sorted (q :: l) p (hs2.imp fun h => le_of_lt h)
    have hd' : p :: r = p :: q :: l := by rw [hd]; exact destutter_ne_sorted _ hs2
    obtain ⟨ms, c1, cs, hf, hbk, hl1, hl2, hdeg, hleft, hright, hjoin, hend⟩ := spline_loops l p q 0 0 hs2 (le_refl _) zero_lt_one
    have hpq : p.1 < q.1 := (List.pairwise_cons.mp hs2).1 q List.mem_cons_self
    have hmk : mkPiecewise (finalKnots lo hi e ((p :: q :: l).map Prod.fst)) ((pieceOf p q (0 - 0 * c1) c1 :: cs).map .poly) = .ok _ :=
      (C32_constructor _ _).1 ⟨by rw [length_finalKnots]; simp [hl2], sorted_finalKnots (by rw [← hc, ← hz]; exact hs')
        (fun he => by
          rw [← hc, ← hz]
          refine ⟨?_, hb he⟩
          obtain ⟨a, ha⟩ : ∃ a, a ∈ x := List.exists_mem_of_length_pos (by omega)
          exact (hb he a ha).1.trans (hb he a ha).2)⟩
    refine ⟨.piecewise (finalKnots lo hi e ((p :: q :: l).map Prod.fst)) ((pieceOf p q (0 - 0 * c1) c1 :: cs).map .poly),
      pieceOf p q (0 - 0 * c1) c1 :: cs, ?_, ?_, ?_, ?_⟩
    · simp only
      rw [if_neg (by simp), hr, Outcome.bind_ok, hd']
      show splineInterp lo hi e (p :: q :: l) = _
      rw [splineInterp, hf, Outcome.bind_ok, hbk, Outcome.bind_ok]
      exact hmk
    · obtain ⟨v0, v1, _, _, v2, v3⟩ := pieceOf_values hpq (0 - 0 * c1) c1
      refine ⟨by simp [hl2], ?_, ?_, ?_, ?_, ?_, ?_, ?_⟩
      · intro c hc
        rcases List.mem_cons.mp hc with rfl | hc
        · rfl
        · exact hdeg c hc
      · intro i a c ha hc
        cases i with
        | zero => simp at ha hc; subst ha hc; simpa using v0
        | succ i => exact hleft i a c (by simpa using ha) (by simpa using hc)
      · intro i a c ha hc
        cases i with
        | zero => simp at ha hc; subst ha hc; simpa using v1
        | succ i => exact hright i a c (by simpa using ha) (by simpa using hc)
      · intro i a c c' ha hc hc'
        exact (hjoin i a c c' (by simpa using ha) hc (by simpa using hc')).1
      · intro i a c c' ha hc hc'
        exact (hjoin i a c c' (by simpa using ha) hc (by simpa using hc')).2
      · intro a c ha hc
        simp at ha hc
        subst ha hc
        rw [show (0 : K) - 0 * c1 = 0 by ring] at v2
        simpa using v2
      · intro i a c hi' ha hc
        simp only [List.length_cons, Nat.add_right_cancel_iff] at hi'
        subst hi'
        exact hend a c (by simpa using ha) hc
    · intro i a b c ha hb' hci t ht
      have hab : a.1 < b.1 := by
        obtain ⟨h1, rfl⟩ := List.getElem?_eq_some_iff.mp ha
        obtain ⟨h2, rfl⟩ := List.getElem?_eq_some_iff.mp hb'
        exact List.pairwise_iff_getElem.mp hs2 i (i + 1) h1 h2 (Nat.lt_succ_self i)
      rw [finalKnots_eval hmk ha hb' hab (g := .poly c) (by rw [List.getElem?_map, hci]; rfl) (by rw [← hc, hlen]; exact ht), eval]
      rfl
    · rintro rfl t ht
      exact (C32_eval _ _ _ hmk t).2 (by
        simp only [finalKnots]
        rw [if_neg (by simp), ← hc, ← hz]
        exact ht)

/-- In particular it reproduces the data. -/
theorem C35_nodes (lo hi : K) (x y : List K) (e : Bool) (hl : x.length = y.length) (hs : x.Pairwise (· < ·)) (hn : 2 ≤ x.length)
    (hb : e = true → ∀ a ∈ x, lo ≤ a ∧ a ≤ hi) (F : Fn K) (hF : interpolate lo hi x y .cubicSpline e = .ok F) (i : Nat) (a b : K)
    (ha : x[i]? = some a) (hb' : y[i]? = some b) : eval F a = .ok b := by
  obtain ⟨G, cs, hG, hN, hev, _⟩ := C35_spline lo hi x y e hl hs hn hb
  rw [hF] at hG
  cases hG
  have hget : ∀ (i : Nat) (h : i < x.length), (x.zip y)[i]? = some (x[i], y[i]'(by omega)) := by
    intro i h
    rw [List.getElem?_zip_eq_some]
    exact ⟨List.getElem?_eq_getElem h, List.getElem?_eq_getElem (by omega)⟩
  obtain ⟨hi1, rfl⟩ := List.getElem?_eq_some_iff.mp ha
  obtain ⟨hi2, rfl⟩ := List.getElem?_eq_some_iff.mp hb'
  have hlen : cs.length + 1 = x.length := by rw [← hN.length, List.length_zip]; omega
  have hbd : e = true → ∀ (i : Nat) (h : i < x.length), lo ≤ x[i] ∧ x[i] ≤ hi := fun he i h => hb he _ (List.getElem_mem _)
  have hinc : ∀ (i : Nat) (h : i + 1 < x.length), x[i] < x[i + 1] := fun i h => List.pairwise_iff_getElem.mp hs i (i + 1) (by omega) h (Nat.lt_succ_self i)
  cases i with
  | zero =>
    have hc : cs[0]? = some (cs[0]'(by omega)) := List.getElem?_eq_getElem (by omega)
    rw [hev 0 _ _ _ (hget 0 (by omega)) (hget 1 (by omega)) hc _ ?_, hN.left 0 _ _ (hget 0 (by omega)) hc]
    cases he : e with
    | false => exact ⟨Or.inr ⟨rfl, rfl⟩, (hinc 0 (by omega)).le⟩
    | true => exact ⟨(hbd he 0 hi1).1, (hbd he 0 hi1).2, Or.inl rfl, Or.inr (hinc 0 (by omega)).le⟩
  | succ i =>
    have hc : cs[i]? = some (cs[i]'(by omega)) := List.getElem?_eq_getElem (by omega)
    rw [hev i _ _ _ (hget i (by omega)) (hget (i + 1) (by omega)) hc _ ?_, hN.right i _ _ (hget (i + 1) (by omega)) hc]
    cases he : e with
    | false => exact ⟨Or.inl (hinc i (by omega)), le_refl _⟩
    | true => exact ⟨(hbd he (i + 1) hi1).1, (hbd he (i + 1) hi1).2, Or.inr (hinc i (by omega)), Or.inr (le_refl _)⟩

end

/-- `Spec.value1` and `Spec.value2` are the derivatives. -/
theorem C35_derivatives (c : List ℝ) (t : ℝ) : HasDerivAt (Spec.value0 c) (Spec.value1 c t) t ∧ HasDerivAt (Spec.value1 c) (Spec.value2 c t) t :=
  ⟨C31_derivative c t, C31_derivative (polyDeriv c) t⟩

/-- The function made of the polynomials of a spline. -/
theorem polys_join {c c' : List ℝ} {u : ℝ} (h0 : Spec.value0 c u = Spec.value0 c' u) (h1 : Spec.value1 c u = Spec.value1 c' u) {f : ℝ → ℝ}
    {a b : ℝ} (hau : a < u) (hub : u < b) (hf : ∀ t, a < t → t ≤ u → f t = Spec.value0 c t) (hg : ∀ t, u < t → t ≤ b → f t = Spec.value0 c' t) :
    HasDerivAt f (Spec.value1 c u) u := by
  have d1 : HasDerivWithinAt f (Spec.value1 c u) (Set.Iic u) u := by
    refine ((C35_derivatives c u).1.hasDerivWithinAt).congr_of_eventuallyEq ?_ (hf u hau (le_refl _))
    filter_upwards [self_mem_nhdsWithin, mem_nhdsWithin_of_mem_nhds (Ioi_mem_nhds hau)] with t ht ht'
    exact hf t ht' ht
  have d2 : HasDerivWithinAt f (Spec.value1 c u) (Set.Ici u) u := by
    rw [h1]
    refine ((C35_derivatives c' u).1.hasDerivWithinAt).congr_of_eventuallyEq ?_ (by rw [hf u hau (le_refl _), h0])
    filter_upwards [self_mem_nhdsWithin, mem_nhdsWithin_of_mem_nhds (Iio_mem_nhds hub)] with t ht ht'
    rcases lt_or_eq_of_le (show u ≤ t from ht) with h | h
    · exact hg t h (le_of_lt ht')
    · rw [← h, hf u hau (le_refl _), h0]
  have := d1.union d2
  rwa [Set.Iic_union_Ici, hasDerivWithinAt_univ] at this

/-- Polynomials between neighbouring knots that agree in value and derivative at the inner knots make a differentiable function. -/
theorem pieces_differentiable {ks : List ℝ} {cs : List (List ℝ)} (hs : ks.Pairwise (· < ·)) (hlen : ks.length = cs.length + 1) {f f' : ℝ → ℝ}
    (hf : ∀ (i : Nat) k l c, ks[i]? = some k → ks[i + 1]? = some l → cs[i]? = some c → ∀ t, k < t → t ≤ l → f t = Spec.value0 c t ∧ f' t = Spec.value1 c t)
    (hj : ∀ (i : Nat) k c c', ks[i + 1]? = some k → cs[i]? = some c → cs[i + 1]? = some c' →
      Spec.value0 c k = Spec.value0 c' k ∧ Spec.value1 c k = Spec.value1 c' k)
    (t : ℝ) (h1 : ∃ k ∈ ks, k < t) (h2 : ∃ k ∈ ks, t < k) : HasDerivAt f (f' t) t := by
  have hmk := (C32_constructor ks (cs.map Fn.poly)).1 ⟨by simpa using hlen, hs.imp fun h => le_of_lt h⟩
  have hne : cs.map Fn.poly ≠ [] := by
    rintro h
    rw [List.map_eq_nil_iff] at h
    subst h
    obtain ⟨z, hz⟩ := List.length_eq_one_iff.mp (by simpa using hlen)
    obtain ⟨a, ha, ha'⟩ := h1
    obtain ⟨b, hb, hb'⟩ := h2
    rw [hz] at ha hb
    simp at ha hb
    subst ha hb
    exact lt_irrefl _ (ha'.trans hb')
  obtain ⟨k0, hk0, hk0'⟩ := h1
  obtain ⟨kn, hkn, hkn'⟩ := h2
  rcases C32_cases _ _ _ hmk hne t with ⟨i, g, hg, k, l, hk, hl, hin⟩ | h | h
  · have hi := (List.getElem?_eq_some_iff.mp hg).1
    simp only [List.length_map] at hi
    have hc : cs[i]? = some cs[i] := List.getElem?_eq_getElem hi
    have hkt : k < t ∧ t ≤ l := by
      rcases hin with h | ⟨rfl, rfl⟩
      · exact h
      · exfalso
        obtain ⟨j, hj', rfl⟩ := List.mem_iff_getElem.mp hk0
        have := sorted_get (hs.imp fun h => le_of_lt h) (Nat.zero_le j) hk (List.getElem?_eq_getElem hj')
        exact absurd hk0' (not_lt.mpr this)
    rw [(hf i k l _ hk hl hc t hkt.1 hkt.2).2]
    rcases lt_or_eq_of_le hkt.2 with htl | rfl
    · refine (C35_derivatives _ t).1.congr_of_eventuallyEq ?_
      filter_upwards [Ioo_mem_nhds hkt.1 htl] with u hu
      exact (hf i k l _ hk hl hc u hu.1 hu.2.le).1
    · have hi2 : i + 1 < cs.length := by
        by_contra hn
        obtain ⟨j, hj', rfl⟩ := List.mem_iff_getElem.mp hkn
        have := sorted_get (hs.imp fun h => le_of_lt h) (by omega : j ≤ i + 1) (List.getElem?_eq_getElem hj') hl
        exact absurd hkn' (not_lt.mpr this)
      have hc' : cs[i + 1]? = some cs[i + 1] := List.getElem?_eq_getElem hi2
      have hl2 : ks[i + 2]? = some (ks[i + 2]'(by omega)) := List.getElem?_eq_getElem (by omega)
      obtain ⟨j0, j1⟩ := hj i t _ _ hl hc hc'
      have hlt : t < ks[i + 2]'(by omega) := by
        obtain ⟨p1, p2⟩ := List.getElem?_eq_some_iff.mp hl
        rw [← p2]
        exact List.pairwise_iff_getElem.mp hs (i + 1) (i + 2) p1 (by omega) (by omega)
      exact polys_join j0 j1 hkt.1 hlt (fun u hu hu' => (hf i k t _ hk hl hc u hu hu').1) (fun u hu hu' => (hf (i + 1) t _ _ hl hl2 hc' u hu hu').1)
  · exact absurd (hk0'.trans (h k0 hk0)) (lt_irrefl _)
  · exact absurd (hkn'.trans (h kn hkn)) (lt_irrefl _)

/-- Over the reals: between the first and the last point the interpolation is twice differentiable, and its second derivative is
continuous. -/
theorem C35_smooth (lo hi : ℝ) (x y : List ℝ) (hl : x.length = y.length) (hs : x.Pairwise (· < ·)) (hn : 2 ≤ x.length) :
    ∃ F, interpolate lo hi x y .cubicSpline false = .ok F ∧ ∃ f f' f'' : ℝ → ℝ, (∀ t, eval F t = .ok (f t)) ∧
      ∀ t, (∃ k ∈ x, k < t) → (∃ k ∈ x, t < k) → HasDerivAt f (f' t) t ∧ HasDerivAt f' (f'' t) t ∧ ContinuousAt f'' t := by
  obtain ⟨F, cs, hF, hN, hev, hout⟩ := C35_spline lo hi x y false hl hs hn (by simp)
  have hlen : x.length = cs.length + 1 := by rw [← hN.length, List.length_zip]; omega
  have hs' : x.Pairwise (· ≤ ·) := hs.imp fun h => le_of_lt h
  have hget : ∀ (i : Nat) k, x[i]? = some k → ∃ b, (x.zip y)[i]? = some (k, b) := by
    intro i k hk
    obtain ⟨hi1, rfl⟩ := List.getElem?_eq_some_iff.mp hk
    exact ⟨y[i]'(by omega), by rw [List.getElem?_zip_eq_some]; exact ⟨hk, List.getElem?_eq_getElem (by omega)⟩⟩
  -- a function with given polynomials as pieces
  have pw : ∀ ds : List (List ℝ), ds.length = cs.length → ∃ g : ℝ → ℝ, (∀ (i : Nat) k l c, x[i]? = some k → x[i + 1]? = some l → ds[i]? = some c →
      ∀ t, (k < t ∨ i = 0 ∧ t = k) → t ≤ l → g t = Spec.value0 c t) ∧ ∀ t, ((∀ a ∈ x, t < a) ∨ ∀ a ∈ x, a < t) → g t = 0 := by
    intro ds hds
    have hmk := (C32_constructor x (ds.map Fn.poly)).1 ⟨by simp only [List.length_map]; omega, hs'⟩
    refine ⟨fun t => match eval (.piecewise x (ds.map Fn.poly)) t with | .ok v => v | _ => 0, ?_, ?_⟩
    · intro i k l c hk hl' hc t h1 h2
      simp only
      rw [(C32_eval _ _ _ hmk t).1 i (.poly c) (by rw [List.getElem?_map, hc]; rfl) ⟨k, l, hk, hl', by tauto⟩, eval]
      rfl
    · intro t ht
      simp only
      rw [(C32_eval _ _ _ hmk t).2 ht]
  obtain ⟨f, hf, hf0⟩ := pw cs rfl
  obtain ⟨f1, hf1, _⟩ := pw (cs.map polyDeriv) (by simp)
  obtain ⟨f2, hf2, _⟩ := pw ((cs.map polyDeriv).map polyDeriv) (by simp)
  refine ⟨F, hF, f, f1, f2, ?_, ?_⟩
  · intro t
    have hmk := (C32_constructor x (cs.map Fn.poly)).1 ⟨by simpa using hlen, hs'⟩
    have hne : cs.map Fn.poly ≠ [] := by
      intro h
      rw [List.map_eq_nil_iff] at h
      subst h
      simp at hlen
      omega
    rcases C32_cases _ _ _ hmk hne t with ⟨i, g, hg, k, l, hk, hl', hin⟩ | ho
    · have hi := (List.getElem?_eq_some_iff.mp hg).1
      simp only [List.length_map] at hi
      have hc : cs[i]? = some cs[i] := List.getElem?_eq_getElem hi
      have hkl : k < l := by
        obtain ⟨p1, rfl⟩ := List.getElem?_eq_some_iff.mp hk
        obtain ⟨p2, rfl⟩ := List.getElem?_eq_some_iff.mp hl'
        exact List.pairwise_iff_getElem.mp hs i (i + 1) p1 p2 (Nat.lt_succ_self i)
      have h1 : k < t ∨ i = 0 ∧ t = k := by tauto
      have h2 : t ≤ l := by
        rcases hin with h | ⟨_, rfl⟩
        · exact h.2
        · exact hkl.le
      obtain ⟨b, hb⟩ := hget i k hk
      obtain ⟨b', hb'⟩ := hget (i + 1) l hl'
      rw [hev i _ _ _ hb hb' hc t ⟨h1, h2⟩, hf i k l _ hk hl' hc t h1 h2]
    · rw [hout rfl t ho, hf0 t ho]
  · intro t h1 h2
    have join0 : ∀ (i : Nat) k c c', x[i + 1]? = some k → cs[i]? = some c → cs[i + 1]? = some c' → Spec.value0 c k = Spec.value0 c' k := by
      intro i k c c' hk hc hc'
      obtain ⟨b, hb⟩ := hget (i + 1) k hk
      exact (hN.right i _ c hb hc).trans (hN.left (i + 1) _ c' hb hc').symm
    have join1 : ∀ (i : Nat) k c c', x[i + 1]? = some k → cs[i]? = some c → cs[i + 1]? = some c' → Spec.value1 c k = Spec.value1 c' k := by
      intro i k c c' hk hc hc'
      obtain ⟨b, hb⟩ := hget (i + 1) k hk
      exact hN.first i _ c c' hb hc hc'
    have join2 : ∀ (i : Nat) k c c', x[i + 1]? = some k → cs[i]? = some c → cs[i + 1]? = some c' → Spec.value2 c k = Spec.value2 c' k := by
      intro i k c c' hk hc hc'
      obtain ⟨b, hb⟩ := hget (i + 1) k hk
      exact hN.second i _ c c' hb hc hc'
    refine ⟨?_, ?_, ?_⟩
    · refine pieces_differentiable hs hlen ?_ (fun i k c c' hk hc hc' => ⟨join0 i k c c' hk hc hc', join1 i k c c' hk hc hc'⟩) t h1 h2
      intro i k l c hk hl' hc u hu hu'
      exact ⟨hf i k l c hk hl' hc u (Or.inl hu) hu', hf1 i k l _ hk hl' (by rw [List.getElem?_map, hc]; rfl) u (Or.inl hu) hu'⟩
    · refine pieces_differentiable (cs := cs.map polyDeriv) hs (by simpa using hlen) ?_ ?_ t h1 h2
      · intro i k l c hk hl' hc u hu hu'
        exact ⟨hf1 i k l c hk hl' hc u (Or.inl hu) hu', hf2 i k l _ hk hl' (by rw [List.getElem?_map, hc]; rfl) u (Or.inl hu) hu'⟩
      · intro i k c c' hk hc hc'
        rw [List.getElem?_map, Option.map_eq_some_iff] at hc hc'
        obtain ⟨d, hd, rfl⟩ := hc
        obtain ⟨d', hd', rfl⟩ := hc'
        exact ⟨join1 i k d d' hk hd hd', join2 i k d d' hk hd hd'⟩
    · -- the second derivative is made of linear functions that agree at the knots
      have hmk := (C32_constructor x (cs.map Fn.poly)).1 ⟨by simpa using hlen, hs'⟩
      have hne : cs.map Fn.poly ≠ [] := by
        intro h
        rw [List.map_eq_nil_iff] at h
        subst h
        simp at hlen
        omega
      have hf2' : ∀ (i : Nat) k l c, x[i]? = some k → x[i + 1]? = some l → cs[i]? = some c → ∀ u, k < u → u ≤ l → f2 u = Spec.value2 c u := by
        intro i k l c hk hl' hc u hu hu'
        exact hf2 i k l _ hk hl' (by rw [List.getElem?_map, List.getElem?_map, hc]; rfl) u (Or.inl hu) hu'
      have cont : ∀ c : List ℝ, Continuous (Spec.value2 c) := fun c => continuous_polyEval _
      obtain ⟨k0, hk0, hk0'⟩ := h1
      obtain ⟨kn, hkn, hkn'⟩ := h2
      rcases C32_cases _ _ _ hmk hne t with ⟨i, g, hg, k, l, hk, hl', hin⟩ | h | h
      · have hi := (List.getElem?_eq_some_iff.mp hg).1
        simp only [List.length_map] at hi
        have hc : cs[i]? = some cs[i] := List.getElem?_eq_getElem hi
        have hkt : k < t ∧ t ≤ l := by
          rcases hin with h | ⟨rfl, rfl⟩
          · exact h
          · exfalso
            obtain ⟨j, hj', rfl⟩ := List.mem_iff_getElem.mp hk0
            have := sorted_get hs' (Nat.zero_le j) hk (List.getElem?_eq_getElem hj')
            exact absurd hk0' (not_lt.mpr this)
        rcases lt_or_eq_of_le hkt.2 with htl | rfl
        · refine (cont cs[i]).continuousAt.congr ?_
          filter_upwards [Ioo_mem_nhds hkt.1 htl] with u hu
          exact (hf2' i k l _ hk hl' hc u hu.1 hu.2.le).symm
        · have hi2 : i + 1 < cs.length := by
            by_contra hn
            obtain ⟨j, hj', rfl⟩ := List.mem_iff_getElem.mp hkn
            have := sorted_get hs' (by omega : j ≤ i + 1) (List.getElem?_eq_getElem hj') hl'
            exact absurd hkn' (not_lt.mpr this)
          have hc' : cs[i + 1]? = some cs[i + 1] := List.getElem?_eq_getElem hi2
          have hl2 : x[i + 2]? = some (x[i + 2]'(by omega)) := List.getElem?_eq_getElem (by omega)
          have hlt : t < x[i + 2]'(by omega) := by
            obtain ⟨p1, p2⟩ := List.getElem?_eq_some_iff.mp hl'
            rw [← p2]
            exact List.pairwise_iff_getElem.mp hs (i + 1) (i + 2) p1 (by omega) (by omega)
          have ht := hf2' i k t _ hk hl' hc t hkt.1 (le_refl _)
          rw [continuousAt_iff_continuous_left_right]
          constructor
          · refine (cont cs[i]).continuousWithinAt.congr_of_eventuallyEq ?_ ht
            filter_upwards [self_mem_nhdsWithin, mem_nhdsWithin_of_mem_nhds (Ioi_mem_nhds hkt.1)] with u hu hu'
            exact hf2' i k t _ hk hl' hc u hu' hu
          · refine (cont cs[i + 1]).continuousWithinAt.congr_of_eventuallyEq ?_ (by rw [ht, join2 i t _ _ hl' hc hc'])
            filter_upwards [self_mem_nhdsWithin, mem_nhdsWithin_of_mem_nhds (Iio_mem_nhds hlt)] with u hu hu'
            rcases lt_or_eq_of_le (show t ≤ u from hu) with h | h
            · exact hf2' (i + 1) t _ _ hl' hl2 hc' u h (le_of_lt hu')
            · rw [← h, ht, join2 i t _ _ hl' hc hc']
      · exact absurd (hk0'.trans (h k0 hk0)) (lt_irrefl _)
      · exact absurd (hkn'.trans (h kn hkn)) (lt_irrefl _)

example : interpolated [0, 1, 3] [0, 2, 0] .cubicSpline false 1 = .ok 2 ∧ interpolated [0, 1, 3] [0, 2, 0] .cubicSpline false 2 = .ok (7 / 4) ∧
    interpolated [0, 1, 3] [0, 2, 0] .cubicSpline false 4 = .ok 0 := by decide +kernel

/-- Equal abscissae: the values are not numbers. -/
theorem C35_step : interpolated [0, 1, 1] [0, 2, 0] .cubicSpline false (1 / 2) = .throw .notFinite := by decide +kernel

end Alexandria.MathUtils
