import Verif.MathUtils.SplineRoundLemmas
import Verif.MathUtils.LinearRoundProps

/-!
# C146: cubic splines in doubles

The spline that is made and evaluated with rounded operations is close to the one of exact arithmetic. The distance grows with the third power of the ratio of the largest abscissa to the smallest
distance of two abscissae, for the polynomials are expanded about zero; where the ratio is large nothing is left of the data, not even at the points given.
-/

namespace Alexandria.MathUtils

section
variable {K : Type} [Field K] [LinearOrder K] [IsStrictOrderedRing K] {u : K} {R : Rounding K}

/-! ## Specification -/

/-- Abscissae that increase by `h` or more and are `X` in magnitude at most, and ordinates that are `Y` in magnitude at most. -/
structure Spec.Table (x y : List K) (X Y h : K) : Prop where
  length : x.length = y.length
  two : 2 ≤ x.length
  pos : 0 < h
  gap : ∀ (i : Nat) a a', x[i]? = some a → x[i + 1]? = some a' → h ≤ a' - a
  xs : ∀ a ∈ x, |a| ≤ X
  ys : ∀ b ∈ y, |b| ≤ Y

/-! ## Lemmas -/

theorem Spec.Table.sorted {x y : List K} {X Y h : K} (H : Spec.Table x y X Y h) : x.Pairwise (· < ·) := by
  rw [← List.isChain_iff_pairwise, List.isChain_iff_getElem]
  intro i hi
  have := H.gap i _ _ (List.getElem?_eq_getElem (by omega)) (List.getElem?_eq_getElem hi)
  have := H.pos
  linarith

theorem rhsTerms_le {p q r : K × K} {h Y : K} (hh : 0 < h) (h1 : h ≤ q.1 - p.1) (h2 : h ≤ r.1 - q.1) (p2 : |p.2| ≤ Y) (q2 : |q.2| ≤ Y) (r2 : |r.2| ≤ Y) :
    rhsTerms p q r ≤ 6 * Y / h ^ 2 * (r.1 - p.1) := by
  have hY : 0 ≤ Y := (abs_nonneg _).trans p2
  have t1 := mul_le_mul_of_nonneg_right r2 (hh.le.trans h1)
  have t2 := mul_le_mul_of_nonneg_right q2 (by linarith : 0 ≤ r.1 - p.1)
  have t3 := mul_le_mul_of_nonneg_right p2 (hh.le.trans h2)
  unfold rhsTerms
  calc _ ≤ 6 * Y * (r.1 - p.1) / h ^ 2 := by
        refine div_le_div₀ ?_ (by linarith) (by positivity) ?_
        · exact mul_nonneg (by positivity) (by linarith)
        · rw [sq]; exact mul_le_mul h1 h2 hh.le (hh.le.trans h1)
    _ = _ := by ring

/-- The values of one piece. -/
theorem piece_error (hu : 0 ≤ u) (hu1 : u ≤ 1 / 1000) (hr : ∀ x, |R.rnd x - x| ≤ u * |x|) {p q : K × K} {X Y h c c1 d d1 t : K} (hh : 0 < h) (hgap : h ≤ q.1 - p.1) (p1 : |p.1| ≤ X)
    (q1 : |q.1| ≤ X) (p2 : |p.2| ≤ Y) (q2 : |q.2| ≤ Y) (hc : |c| ≤ 6 * Y / h ^ 2) (hc1 : |c1| ≤ 6 * Y / h ^ 2) (hd : |d - c| ≤ 90 * u * (6 * Y / h ^ 2))
    (hd1 : |d1 - c1| ≤ 90 * u * (6 * Y / h ^ 2)) (t0 : p.1 ≤ t) (t1 : t ≤ q.1) :
    |machinePolyEval R (mPiece R p q d d1) t - Spec.value0 (pieceOf p q c c1) t| ≤ 4200 * u * Y * (X / h) ^ 3 := by
  have a0 : 0 < q.1 - p.1 := lt_of_lt_of_le hh hgap
  have hY : 0 ≤ Y := (abs_nonneg _).trans p2
  obtain ⟨k, rfl⟩ : ∃ k, X = k * h := ⟨X / h, by field_simp⟩
  rw [mul_div_cancel_right₀ _ hh.ne']
  have g2 : q.1 - p.1 ≤ 2 * (k * h) := by linarith [(abs_le.mp p1).1, (abs_le.mp q1).2]
  have hk : 1 / 2 ≤ k := by
    have : h * 1 ≤ h * (2 * k) := by linarith
    have := le_of_mul_le_mul_left this hh
    linarith
  have ht : |t| ≤ k * h := abs_le.mpr ⟨by linarith [(abs_le.mp p1).1], by linarith [(abs_le.mp q1).2]⟩
  have hZ0 : 0 ≤ 6 * Y / h ^ 2 := by positivity
  have big : ∀ v w : K, |w| ≤ 6 * Y / h ^ 2 → |v - w| ≤ 90 * u * (6 * Y / h ^ 2) → |v| ≤ 109 / 100 * (6 * Y / h ^ 2) := by
    intro v w hw hvw
    have := abs_add_le (v - w) w
    rw [sub_add_cancel] at this
    have h3 := mul_le_mul_of_nonneg_right hu1 hZ0
    linarith
  have e1 := (mPiece_close hu hu1 hr (sub_pos.mp a0) d d1 t).1
  have e2 := valueTerms_le hh hk hY hgap p1 q1 ht p2 q2 (big d c hc hd) (big d1 c1 hc1 hd1)
  have e3 := pieceOf_diff (sub_pos.mp a0) hd hd1 t0 t1
  have e4 := pow_le_of_small hu 15 (by push_cast; linarith)
  push_cast at e4
  have e5 : ((1 + u) ^ 15 - 1) * valueTerms p q d d1 t ≤ (16 * u) * (167 * (Y * k ^ 3)) :=
    mul_le_mul (e4.trans (by linarith)) e2 (mPiece_close hu hu1 hr (sub_pos.mp a0) d d1 t).nonneg (by positivity)
  have e6 : 90 * u * (6 * Y / h ^ 2) * (q.1 - p.1) ^ 2 / 3 ≤ 720 * u * (Y * k ^ 2) := by
    calc _ ≤ 90 * u * (6 * Y / h ^ 2) * (2 * (k * h)) ^ 2 / 3 := by
          refine div_le_div_of_nonneg_right (mul_le_mul_of_nonneg_left (pow_le_pow_left₀ a0.le g2 2) (by positivity)) (by norm_num)
      _ = _ := by field_simp; ring
  have e7 : u * (Y * k ^ 2) ≤ 2 * (u * (Y * k ^ 3)) := by
    have := mul_le_mul_of_nonneg_left hk (by positivity : 0 ≤ u * (Y * k ^ 2))
    linarith [show u * (Y * k ^ 2) * k = u * (Y * k ^ 3) by ring]
  have e8 : 0 ≤ u * (Y * k ^ 3) := by positivity
  have e9 := abs_add_le (machinePolyEval R (mPiece R p q d d1) t - Spec.value0 (pieceOf p q d d1) t) (Spec.value0 (pieceOf p q d d1) t - Spec.value0 (pieceOf p q c c1) t)
  rw [sub_add_sub_cancel] at e9
  linarith [show 4200 * u * Y * k ^ 3 = 4200 * (u * (Y * k ^ 3)) by ring]

/-! ## C146 -/

/-- **C146 (values).** Cubic interpolation with rounded operations succeeds for every table with increasing abscissae. Between two points the value differs from that of the spline in exact
arithmetic by not more than `4200 u Y (X / h)³`; outside of the points it is zero if the function is not extrapolated. -/
theorem C146_values_partial (hu : 0 ≤ u) (hu1 : u ≤ 1 / 1000) (hr : ∀ x, |R.rnd x - x| ≤ u * |x|) (lo hi : K) (x y : List K) (e : Bool) {X Y h : K} (H : Spec.Table x y X Y h)
    (hb : e = true → ∀ a ∈ x, lo ≤ a ∧ a ≤ hi) :
    ∃ F G, machineSpline R lo hi x y e = .ok F ∧ interpolate lo hi x y .cubicSpline e = .ok G ∧
      (∀ (i : Nat) a a', x[i]? = some a → x[i + 1]? = some a' → ∀ t, a ≤ t → t ≤ a' →
        ∃ v w, eval F t = .ok v ∧ eval G t = .ok w ∧ |v - w| ≤ 4200 * u * Y * (X / h) ^ 3) ∧
      (e = false → ∀ t, ((∀ a ∈ x, t < a) ∨ ∀ a ∈ x, a < t) → eval F t = .ok 0) := by
  have hs := H.sorted
  have hl := H.length
  have hn := H.two
  have hs' : x.Pairwise (· ≤ ·) := hs.imp fun h => le_of_lt h
  have hz : x = (x.zip y).map Prod.fst := by rw [List.map_fst_zip (le_of_eq hl)]
  have hlen : (x.zip y).length = x.length := by rw [List.length_zip]; omega
  rw [machineSpline, interpolate, if_neg (not_not.mpr hl), if_neg (not_not.mpr hl)]
  match hc : x.zip y with
  | [] => rw [hc] at hlen; simp at hlen; omega
  | [p] => rw [hc] at hlen; simp at hlen; omega
  | p :: q :: l =>
    have hs2 : (p :: q :: l).Pairwise (fun a b => a.1 < b.1) := by
      rw [← hc, ← List.pairwise_map (f := Prod.fst) (R := (· < ·)), ← hz]; exact hs
    obtain ⟨r, hr', hd⟩ := dedup_sorted (q :: l) p (hs2.imp fun h => le_of_lt h)
    have hd' : p :: r = p :: q :: l := by rw [hd]; exact destutter_ne_sorted _ hs2
    have hpt : ∀ (i : Nat) a, (p :: q :: l)[i]? = some a → x[i]? = some a.1 ∧ |a.1| ≤ X ∧ |a.2| ≤ Y := by
      intro i a ha
      rw [← hc, List.getElem?_zip_eq_some] at ha
      exact ⟨ha.1, H.xs _ (List.mem_of_getElem? ha.1), H.ys _ (List.mem_of_getElem? ha.2)⟩
    have hY : 0 ≤ Y := (abs_nonneg _).trans (hpt 0 p rfl).2.2
    have hQ : 0 ≤ 6 * Y / h ^ 2 := by have := H.pos; positivity
    obtain ⟨ms, d0, fs, ms', c0, cs, f1, f2, f3, g1, g2, g3, hpieces⟩ := both_loops hu hu1 hr hQ p q l hs2 (by
      intro i a b c ha hb' hc'
      obtain ⟨a1, a2, a3⟩ := hpt i a ha
      obtain ⟨b1, b2, b3⟩ := hpt (i + 1) b (by simpa using hb')
      obtain ⟨c1, c2, c3⟩ := hpt (i + 2) c (by simpa using hc')
      exact rhsTerms_le H.pos (H.gap i _ _ a1 b1) (H.gap (i + 1) _ _ b1 c1) a3 b3 c3)
    have hkn : (finalKnots lo hi e ((p :: q :: l).map Prod.fst)).Pairwise (· ≤ ·) := sorted_finalKnots (by rw [← hc, ← hz]; exact hs')
        (fun he => by
          rw [← hc, ← hz]
          refine ⟨?_, hb he⟩
          obtain ⟨a, ha⟩ : ∃ a, a ∈ x := List.exists_mem_of_length_pos (by omega)
          exact (hb he a ha).1.trans (hb he a ha).2)
    have mkF := (C32_constructor (finalKnots lo hi e ((p :: q :: l).map Prod.fst)) (fs.map fun c => .generic fun t => .ok (machinePolyEval R c t))).1
      ⟨by rw [length_finalKnots]; simp [f3], hkn⟩
    have mkG := (C32_constructor (finalKnots lo hi e ((p :: q :: l).map Prod.fst)) (cs.map .poly)).1 ⟨by rw [length_finalKnots]; simp [g3], hkn⟩
    refine ⟨.piecewise (finalKnots lo hi e ((p :: q :: l).map Prod.fst)) (fs.map fun c => .generic fun t => .ok (machinePolyEval R c t)),
      .piecewise (finalKnots lo hi e ((p :: q :: l).map Prod.fst)) (cs.map .poly), ?_, ?_, ?_, ?_⟩
    · simp only
      rw [if_neg (by simp), hr', Outcome.bind_ok, hd', f1, Outcome.bind_ok, f2, Outcome.bind_ok]
      exact mkF
    · simp only
      rw [if_neg (by simp), hr', Outcome.bind_ok, hd']
      show splineInterp lo hi e (p :: q :: l) = _
      rw [splineInterp, g1, Outcome.bind_ok, g2, Outcome.bind_ok]
      exact mkG
    · have main : ∀ (i : Nat) a b, (p :: q :: l)[i]? = some a → (p :: q :: l)[i + 1]? = some b → ∀ t, a.1 ≤ t → t ≤ b.1 → (i = 0 ∨ a.1 < t) →
          ∃ v w, eval (.piecewise (finalKnots lo hi e ((p :: q :: l).map Prod.fst)) (fs.map fun c => .generic fun t => .ok (machinePolyEval R c t))) t = .ok v ∧
            eval (.piecewise (finalKnots lo hi e ((p :: q :: l).map Prod.fst)) (cs.map .poly)) t = .ok w ∧ |v - w| ≤ 4200 * u * Y * (X / h) ^ 3 := by
        intro i a b ha hb' t t0 t1 t2
        obtain ⟨a1, a2, a3⟩ := hpt i a ha
        obtain ⟨b1, b2, b3⟩ := hpt (i + 1) b hb'
        have hg := H.gap i _ _ a1 b1
        have hab : a.1 < b.1 := by have := H.pos; linarith
        obtain ⟨d, d1, c, c1, k1, k2, k3, k4, k5, k6⟩ := hpieces i a b ha (by simpa using hb')
        have hin : Spec.Inside lo hi e (p :: q :: l).length i a b t := by
          cases he : e with
          | false =>
            refine ⟨?_, t1⟩
            rcases t2 with rfl | t2
            · rcases lt_or_eq_of_le t0 with h | h
              · exact Or.inl h
              · exact Or.inr ⟨rfl, h.symm⟩
            · exact Or.inl t2
          | true => exact ⟨((hb he _ (List.mem_of_getElem? a1)).1).trans t0, t1.trans (hb he _ (List.mem_of_getElem? b1)).2, t2, Or.inr t1⟩
        refine ⟨machinePolyEval R (mPiece R a b d d1) t, Spec.value0 (pieceOf a b c c1) t, ?_, ?_, piece_error hu hu1 hr H.pos hg a2 b2 a3 b3 k3 k4 k5 k6 t0 t1⟩
        · rw [finalKnots_eval mkF ha hb' hab (g := .generic fun t => .ok (machinePolyEval R (mPiece R a b d d1) t)) (by rw [List.getElem?_map, k1]; rfl) hin, eval]
        · rw [finalKnots_eval mkG ha hb' hab (g := .poly (pieceOf a b c c1)) (by rw [List.getElem?_map, k2]; rfl) hin, eval]
          rfl
      intro i a a' ha ha' t t0 t1
      have hpe : ∀ (i : Nat) a, x[i]? = some a → ∃ b, (p :: q :: l)[i]? = some (a, b) := by
        intro i a ha
        have hi := (List.getElem?_eq_some_iff.mp ha).1
        exact ⟨y[i], by rw [← hc, List.getElem?_zip_eq_some]; exact ⟨ha, List.getElem?_eq_getElem (by omega)⟩⟩
      obtain ⟨b, hb1⟩ := hpe i a ha
      obtain ⟨b', hb2⟩ := hpe (i + 1) a' ha'
      rcases lt_or_eq_of_le t0 with h1 | h1
      · exact main i _ _ hb1 hb2 t t0 t1 (Or.inr h1)
      cases i with
      | zero => exact main 0 _ _ hb1 hb2 t t0 t1 (Or.inl rfl)
      | succ i =>
        have hi := (List.getElem?_eq_some_iff.mp ha).1
        obtain ⟨b0, hb0⟩ := hpe i _ (List.getElem?_eq_getElem (by omega))
        have hg := H.gap i _ _ (List.getElem?_eq_getElem (by omega)) ha
        have hlt : x[i] < t := by have := H.pos; rw [← h1]; linarith
        exact main i _ _ hb0 hb1 t hlt.le h1.symm.le (Or.inr hlt)
    · rintro rfl t ht
      exact (C32_eval _ _ _ mkF t).2 (by
        simp only [finalKnots]
        rw [if_neg (by simp), ← hc, ← hz]
        exact ht)

omit [IsStrictOrderedRing K] in
/-- **C146 (one point).** For a single point there is nothing to be rounded: with extrapolation it is the constant, otherwise what the exact
interpolation gives. -/
theorem C146_one_point (R : Rounding K) (lo hi a b : K) (e : Bool) :
    machineSpline R lo hi [a] [b] e = interpolate lo hi [a] [b] .cubicSpline e ∧
      (e = true → ∃ F, interpolate lo hi [a] [b] .cubicSpline e = .ok F ∧ ∀ t, eval F t = .ok b) := by
  cases e
  · exact ⟨rfl, by simp⟩
  · exact ⟨rfl, fun _ => ⟨_, rfl, fun t => by simp [eval]⟩⟩

example : (do let F ← machineSpline (Rounding.exact ℚ) (-1000) 1000 [2] [7] false; eval F 3) = .ok 0 ∧
    (do let F ← machineSpline (Rounding.exact ℚ) (-1000) 1000 [2] [7] true; eval F 3) = .ok 7 := by decide +kernel

/-- **C146 (data).** In particular the data are reproduced up to this. -/
theorem C146_nodes_partial (hu : 0 ≤ u) (hu1 : u ≤ 1 / 1000) (hr : ∀ x, |R.rnd x - x| ≤ u * |x|) (lo hi : K) (x y : List K) (e : Bool) {X Y h : K} (H : Spec.Table x y X Y h)
    (hb : e = true → ∀ a ∈ x, lo ≤ a ∧ a ≤ hi) :
    ∃ F, machineSpline R lo hi x y e = .ok F ∧ ∀ (i : Nat) a b, x[i]? = some a → y[i]? = some b → ∃ v, eval F a = .ok v ∧ |v - b| ≤ 4200 * u * Y * (X / h) ^ 3 := by
  obtain ⟨F, G, hF, hG, hv, -⟩ := C146_values_partial hu hu1 hr lo hi x y e H hb
  refine ⟨F, hF, ?_⟩
  intro i a b ha hb'
  have hix := (List.getElem?_eq_some_iff.mp ha).1
  have hnode := C35_nodes lo hi x y e H.length H.sorted H.two hb G hG i a b ha hb'
  have hn := H.two
  obtain ⟨v, w, e1, e2, e3⟩ : ∃ v w, eval F a = .ok v ∧ eval G a = .ok w ∧ |v - w| ≤ 4200 * u * Y * (X / h) ^ 3 := by
    by_cases hlast : i + 1 < x.length
    · have hg := H.gap i _ _ ha (List.getElem?_eq_getElem hlast)
      exact hv i _ _ ha (List.getElem?_eq_getElem hlast) a (le_refl _) (by have := H.pos; linarith)
    · obtain ⟨j, rfl⟩ : ∃ j, i = j + 1 := ⟨i - 1, by omega⟩
      have hg := H.gap j _ _ (List.getElem?_eq_getElem (by omega)) ha
      exact hv j _ _ (List.getElem?_eq_getElem (by omega)) ha a (by have := H.pos; linarith) (le_refl _)
  rw [hnode] at e2
  cases e2
  exact ⟨v, e1, e3⟩

end

/-- **C146 (doubles).** With `p` bits, ten or more, `u` is `(1/2)^p`. -/
theorem C146_double_partial (p : Nat) (hp : 10 ≤ p) (lo hi : ℚ) (x y : List ℚ) (e : Bool) {X Y h : ℚ} (H : Spec.Table x y X Y h) (hb : e = true → ∀ a ∈ x, lo ≤ a ∧ a ≤ hi) :
    ∃ F, machineSpline (Binary.rounding p (by omega)) lo hi x y e = .ok F ∧
      ∀ (i : Nat) a b, x[i]? = some a → y[i]? = some b → ∃ v, eval F a = .ok v ∧ |v - b| ≤ 4200 * (1 / 2) ^ p * Y * (X / h) ^ 3 := by
  have hu : ((1 : ℚ) / 2) ^ p ≤ 1 / 1000 := by
    calc ((1 : ℚ) / 2) ^ p ≤ (1 / 2) ^ 10 := pow_le_pow_of_le_one (by norm_num) (by norm_num) hp
      _ ≤ 1 / 1000 := by norm_num
  exact C146_nodes_partial (R := Binary.rounding p (by omega)) (by positivity) hu (fun v => by rw [mul_comm]; exact Binary.rnd_err p v) lo hi x y e H hb

/-! ## What does not hold for doubles -/

/-- The value of the interpolated function for doubles. -/
def doubleSpline (x y : List ℚ) (t : ℚ) : Res ℚ := do
  let F ← machineSpline (Binary.rounding 53 (by decide)) 0 0 x y false
  eval F t

/-- The data would be reproduced with an error that is not larger than the largest ordinate. -/
def C146_full : Prop := ∀ (x y : List ℚ) (Y : ℚ) (i : Nat) a b v, Spec.DoubleTable x y → (∀ c ∈ y, |c| ≤ Y) → x[i]? = some a → y[i]? = some b → doubleSpline x y a = .ok v → |v - b| ≤ Y

/-- **C146 (violated).** The abscissae a million, and one, two and three more, with the ordinates 0, 1, 0, 0: at the third point the function is 256. -/
theorem C146_violated : ¬ C146_full := by
  intro h
  have rep : ∀ n : Nat, n ≤ 2000000 → Binary.Rep 53 (n : ℚ) := fun n hn => Binary.rep_nat (hn.trans (by decide))
  have h1 := h [1000000, 1000001, 1000002, 1000003] [0, 1, 0, 0] 1 2 1000002 0 256
    ⟨rfl, by decide, by decide +kernel, by
      intro v hv
      simp only [List.mem_cons, List.not_mem_nil, or_false] at hv
      rcases hv with rfl | rfl | rfl | rfl
      · exact_mod_cast rep 1000000 (by decide)
      · exact_mod_cast rep 1000001 (by decide)
      · exact_mod_cast rep 1000002 (by decide)
      · exact_mod_cast rep 1000003 (by decide), by
      intro v hv
      simp only [List.mem_cons, List.not_mem_nil, or_false] at hv
      rcases hv with rfl | rfl | rfl | rfl
      · exact_mod_cast rep 0 (by decide)
      · exact_mod_cast rep 1 (by decide)
      · exact_mod_cast rep 0 (by decide)
      · exact_mod_cast rep 0 (by decide)⟩ (by decide +kernel) rfl rfl (by decide +kernel)
  revert h1
  decide +kernel

/-- A table as it could be a filter given in Ångström: eight points an eighth apart from ten thousand on with ordinates between one and two; the spline is 1/4 where it should be 1. -/
example : doubleSpline [10000, 10000 + 1 / 8, 10000 + 1 / 4, 10000 + 3 / 8, 10000 + 1 / 2, 10000 + 5 / 8, 10000 + 3 / 4, 10000 + 7 / 8] [1, 2, 1, 2, 1, 2, 1, 2] (10000 + 3 / 4) = .ok (1 / 4) := by
  decide +kernel

/-- A table with small abscissae: three points, values at the second and between. -/
example : Spec.Table [(1 : ℚ), 2, 4] [1, 3, 2] 4 3 1 ∧ doubleSpline [1, 2, 4] [1, 3, 2] 2 = .ok (3 - (1 / 2) ^ 51) ∧ doubleSpline [1, 2, 4] [1, 3, 2] (3 / 2) = .ok (69 / 32) :=
  ⟨⟨rfl, by decide, by norm_num, by
    intro i a a' h1 h2
    match i with
    | 0 => simp at h1 h2; subst h1 h2; norm_num
    | 1 => simp at h1 h2; subst h1 h2; norm_num
    | i + 2 => simp at h2, by decide +kernel, by decide +kernel⟩, by decide +kernel, by decide +kernel⟩

end Alexandria.MathUtils
