import Verif.MathUtils.SplineProps
import Mathlib.Analysis.Convex.Deriv
import Mathlib.Analysis.Calculus.Deriv.Pow

/-!
# C142: what interpolations tell about the function that was tabulated

Linear interpolation: the distance from a Lipschitz continuous function, from a function with a bounded second derivative, and the side on which a convex one lies. Splines: there is only one
natural cubic spline through the points.
-/

namespace Alexandria.MathUtils

section
variable {K : Type} [Field K] [LinearOrder K] [IsStrictOrderedRing K]

/-! ## Linear interpolation -/

/-- The value on the line as a weighted mean of the two ordinates. -/
theorem OnLine.mean {a a' b b' t v : K} (h : a < a') (hv : Spec.OnLine (a, b) (a', b') t v) : v * (a' - a) = (a' - t) * b + (t - a) * b' := by
  unfold Spec.OnLine at hv
  simp only at hv
  linear_combination hv

theorem parabola_le (a a' t : K) : (t - a) * (a' - t) ≤ (a' - a) ^ 2 / 4 := by
  have := sq_nonneg (t - a - (a' - t))
  nlinarith

/-- A function whose differences are bounded. -/
theorem line_lipschitz {g : K → K} {a a' t v L : K} (h : a < a') (h1 : a ≤ t) (h2 : t ≤ a') (hv : Spec.OnLine (a, g a) (a', g a') t v)
    (hg : ∀ s, a ≤ s → s ≤ a' → ∀ u, a ≤ u → u ≤ a' → |g s - g u| ≤ L * |s - u|) : |v - g t| ≤ L * (a' - a) / 2 := by
  have hm := OnLine.mean h hv
  have hh : 0 < a' - a := sub_pos.mpr h
  have hL : 0 ≤ L := by
    have := (abs_nonneg _).trans (hg a le_rfl h.le a' h.le le_rfl)
    exact nonneg_of_mul_nonneg_left this (abs_pos.mpr (by linarith))
  have e1 := hg a le_rfl h.le t h1 h2
  have e2 := hg a' h.le le_rfl t h1 h2
  rw [abs_sub_comm a t, abs_of_nonneg (by linarith : 0 ≤ t - a)] at e1
  rw [abs_of_nonneg (by linarith : 0 ≤ a' - t)] at e2
  have e3 : |v - g t| * (a' - a) ≤ (a' - t) * (L * (t - a)) + (t - a) * (L * (a' - t)) := by
    rw [← abs_of_pos hh, ← abs_mul, show (v - g t) * (a' - a) = (a' - t) * (g a - g t) + (t - a) * (g a' - g t) by linear_combination hm]
    refine (abs_add_le _ _).trans (add_le_add ?_ ?_)
    · rw [abs_mul, abs_of_nonneg (by linarith : 0 ≤ a' - t)]
      exact mul_le_mul_of_nonneg_left e1 (by linarith)
    · rw [abs_mul, abs_of_nonneg (by linarith : 0 ≤ t - a)]
      exact mul_le_mul_of_nonneg_left e2 (by linarith)
  have e4 := mul_le_mul_of_nonneg_left (parabola_le a a' t) hL
  refine le_of_mul_le_mul_right ?_ hh
  calc |v - g t| * (a' - a) ≤ 2 * (L * ((t - a) * (a' - t))) := by linarith
    _ ≤ 2 * (L * ((a' - a) ^ 2 / 4)) := by linarith
    _ = L * (a' - a) / 2 * (a' - a) := by ring

/-- A convex function lies below its chords. -/
theorem line_convex {g : K → K} {a a' t v : K} (h : a < a') (h1 : a ≤ t) (h2 : t ≤ a') (hv : Spec.OnLine (a, g a) (a', g a') t v)
    (hg : ConvexOn K (Set.Icc a a') g) : g t ≤ v := by
  have hm := OnLine.mean h hv
  have hh : 0 < a' - a := sub_pos.mpr h
  have := hg.2 (Set.left_mem_Icc.mpr h.le) (Set.right_mem_Icc.mpr h.le) (div_nonneg (by linarith : 0 ≤ a' - t) hh.le) (div_nonneg (by linarith : 0 ≤ t - a) hh.le)
    (by field_simp; ring)
  simp only [smul_eq_mul] at this
  have e : (a' - t) / (a' - a) * a + (t - a) / (a' - a) * a' = t := by field_simp; ring
  rw [e] at this
  refine le_of_mul_le_mul_right ?_ hh
  rw [hm]
  calc g t * (a' - a) ≤ ((a' - t) / (a' - a) * g a + (t - a) / (a' - a) * g a') * (a' - a) := mul_le_mul_of_nonneg_right this hh.le
    _ = _ := by field_simp

/-- A function that becomes convex when a parabola of curvature `M` is added lies less than `M (a' - a)² / 8` above its chords. -/
theorem line_semiconvex {g : K → K} {a a' t v M : K} (hM : 0 ≤ M) (h : a < a') (h1 : a ≤ t) (h2 : t ≤ a') (hv : Spec.OnLine (a, g a) (a', g a') t v)
    (hg : ConvexOn K (Set.Icc a a') fun s => g s + M / 2 * s ^ 2) : g t ≤ v + M * (a' - a) ^ 2 / 8 := by
  have hline : Spec.OnLine (a, g a + M / 2 * a ^ 2) (a', g a' + M / 2 * a' ^ 2) t (v + M / 2 * (t ^ 2 + (t - a) * (a' - t))) := by
    unfold Spec.OnLine at hv ⊢
    simp only at hv ⊢
    linear_combination hv
  have := line_convex (g := fun s => g s + M / 2 * s ^ 2) h h1 h2 hline hg
  have e4 := mul_le_mul_of_nonneg_left (parabola_le a a' t) hM
  linarith

/-- **C142 (linear).** Interpolating the values of a function at increasing abscissae: between two neighbours the value is off by not more than half the Lipschitz constant times their distance;
not more than an eighth of a bound of the curvature times the squared distance; and not below a convex function. -/
theorem C142_linear (lo hi : K) (x : List K) (g : K → K) (e : Bool) (hs : x.Pairwise (· < ·)) (hn : 2 ≤ x.length)
    (hb : e = true → ∀ a ∈ x, lo ≤ a ∧ a ≤ hi) :
    ∃ F, interpolate lo hi x (x.map g) .linear e = .ok F ∧ ∀ (i : Nat) a a', x[i]? = some a → x[i + 1]? = some a' → ∀ t, a ≤ t → t ≤ a' → ∃ v, eval F t = .ok v ∧
      (∀ L, (∀ s, a ≤ s → s ≤ a' → ∀ u, a ≤ u → u ≤ a' → |g s - g u| ≤ L * |s - u|) → |v - g t| ≤ L * (a' - a) / 2) ∧
      (∀ M, 0 ≤ M → ConvexOn K (Set.Icc a a') (fun s => g s + M / 2 * s ^ 2) → ConvexOn K (Set.Icc a a') (fun s => -g s + M / 2 * s ^ 2) →
        |v - g t| ≤ M * (a' - a) ^ 2 / 8) ∧
      (ConvexOn K (Set.Icc a a') g → g t ≤ v) := by
  obtain ⟨F, hF, _, hseg, _⟩ := C34_linear lo hi x (x.map g) e (by simp) hs hn hb
  refine ⟨F, hF, ?_⟩
  intro i a a' ha ha' t h1 h2
  obtain ⟨v, hv, hline, _⟩ := hseg i a (g a) a' (g a') ha (by rw [List.getElem?_map, ha]; rfl) ha' (by rw [List.getElem?_map, ha']; rfl) t h1 h2
  have haa : a < a' := by
    obtain ⟨p1, rfl⟩ := List.getElem?_eq_some_iff.mp ha
    obtain ⟨p2, rfl⟩ := List.getElem?_eq_some_iff.mp ha'
    exact List.pairwise_iff_getElem.mp hs i (i + 1) p1 p2 (Nat.lt_succ_self i)
  refine ⟨v, hv, fun L hL => line_lipschitz haa h1 h2 hline hL, fun M hM c1 c2 => ?_, fun hc => line_convex haa h1 h2 hline hc⟩
  have l2 : Spec.OnLine (a, -g a) (a', -g a') t (-v) := by
    unfold Spec.OnLine at hline ⊢
    simp only at hline ⊢
    linear_combination -hline
  have e1 := line_semiconvex hM haa h1 h2 hline c1
  have e2 := line_semiconvex (g := fun s => -g s) hM haa h1 h2 l2 c2
  rw [abs_le]
  constructor <;> linarith

/-! ## Splines -/

/-- Polynomials of degree three at most, and what is left of a difference of two that agree at both ends. -/
theorem cubic_energy {c d : List K} (hc : c.length = 4) (hd : d.length = 4) {l r : K} (hl : Spec.value0 c l = Spec.value0 d l) (hr : Spec.value0 c r = Spec.value0 d r) :
    (Spec.value1 c r - Spec.value1 d r) * (Spec.value2 c r - Spec.value2 d r) - (Spec.value1 c l - Spec.value1 d l) * (Spec.value2 c l - Spec.value2 d l) =
      (r - l) * ((Spec.value2 c l - Spec.value2 d l) ^ 2 + (Spec.value2 c l - Spec.value2 d l) * (Spec.value2 c r - Spec.value2 d r) + (Spec.value2 c r - Spec.value2 d r) ^ 2) / 3 := by
  match c, hc, d, hd with
  | [c0, c1, c2, c3], _, [d0, d1, d2, d3], _ =>
    simp [Spec.value0, Spec.value1, Spec.value2, polyDeriv, polyEval, polyLoop, List.zipIdx] at hl hr ⊢
    linear_combination 6 * (c3 - d3) * (hr - hl)

/-- If the second derivatives of two such polynomials agree at both ends, the polynomials agree. -/
theorem cubic_eq {c d : List K} (hc : c.length = 4) (hd : d.length = 4) {l r : K} (hlr : l < r) (hl : Spec.value0 c l = Spec.value0 d l) (hr : Spec.value0 c r = Spec.value0 d r)
    (hl2 : Spec.value2 c l = Spec.value2 d l) (hr2 : Spec.value2 c r = Spec.value2 d r) : c = d := by
  match c, hc, d, hd with
  | [c0, c1, c2, c3], _, [d0, d1, d2, d3], _ =>
    have hne : r - l ≠ 0 := sub_ne_zero.mpr (ne_of_gt hlr)
    simp [Spec.value0, Spec.value2, polyDeriv, polyEval, polyLoop, List.zipIdx] at hl hr hl2 hr2
    have e3 : c3 = d3 := by
      have : (c3 - d3) * (r - l) = 0 := by linear_combination (hr2 - hl2) / 6
      exact sub_eq_zero.mp ((mul_eq_zero.mp this).resolve_right hne)
    subst e3
    have e2 : c2 = d2 := by linear_combination hl2 / 2
    subst e2
    have e1 : c1 = d1 := by
      have : (c1 - d1) * (r - l) = 0 := by linear_combination hr - hl
      exact sub_eq_zero.mp ((mul_eq_zero.mp this).resolve_right hne)
    subst e1
    have e0 : c0 = d0 := by linear_combination hl
    rw [e0]

/-- **C142 (splines).** There is only one natural cubic spline through points with increasing abscissae. -/
theorem C142_unique {pts : List (K × K)} (hs : (pts.map Prod.fst).Pairwise (· < ·)) {cs ds : List (List K)} (hc : Spec.NaturalSpline pts cs) (hd : Spec.NaturalSpline pts ds) : cs = ds := by
  have hlen : cs.length = ds.length := by have := hc.length; have := hd.length; omega
  have hp : ∀ (i : Nat) (h : i ≤ cs.length), i < pts.length := fun i h => by have := hc.length; omega
  -- abscissae and pieces by index
  let X : Nat → K := fun i => (pts.getD i 0).1
  let C : Nat → List K := fun i => cs.getD i []
  let D : Nat → List K := fun i => ds.getD i []
  have gp : ∀ i, i ≤ cs.length → pts[i]? = some (X i, (pts.getD i 0).2) := fun i h => by
    simp only [X]
    rw [List.getD_eq_getElem _ _ (hp i h), List.getElem?_eq_getElem (hp i h)]
  have gc : ∀ i, i < cs.length → cs[i]? = some (C i) := fun i h => by
    simp only [C]
    rw [List.getD_eq_getElem _ _ h, List.getElem?_eq_getElem h]
  have gd : ∀ i, i < cs.length → ds[i]? = some (D i) := fun i h => by
    simp only [D]
    rw [List.getD_eq_getElem _ _ (by omega), List.getElem?_eq_getElem (by omega)]
  have hX : ∀ i, i < cs.length → X i < X (i + 1) := fun i h => by
    have := List.pairwise_iff_getElem.mp hs i (i + 1) (by simpa using hp i (by omega)) (by simpa using hp (i + 1) (by omega)) (Nat.lt_succ_self i)
    simp only [List.getElem_map] at this
    simp only [X]
    rw [List.getD_eq_getElem _ _ (hp i (by omega)), List.getD_eq_getElem _ _ (hp (i + 1) (by omega))]
    exact this
  have hl : ∀ i, i < cs.length → Spec.value0 (C i) (X i) = Spec.value0 (D i) (X i) := fun i h =>
    (hc.left i _ _ (gp i (by omega)) (gc i h)).trans (hd.left i _ _ (gp i (by omega)) (gd i h)).symm
  have hr : ∀ i, i < cs.length → Spec.value0 (C i) (X (i + 1)) = Spec.value0 (D i) (X (i + 1)) := fun i h =>
    (hc.right i _ _ (gp (i + 1) (by omega)) (gc i h)).trans (hd.right i _ _ (gp (i + 1) (by omega)) (gd i h)).symm
  have c4 : ∀ i, i < cs.length → (C i).length = 4 := fun i h => hc.degree _ (List.mem_of_getElem? (gc i h))
  have d4 : ∀ i, i < cs.length → (D i).length = 4 := fun i h => hd.degree _ (List.mem_of_getElem? (gd i h))
  -- the product of the differences of the derivatives at the left ends never falls
  let T : Nat → K := fun i => if i < cs.length then (Spec.value1 (C i) (X i) - Spec.value1 (D i) (X i)) * (Spec.value2 (C i) (X i) - Spec.value2 (D i) (X i)) else 0
  have hT : ∀ i, i < cs.length → T (i + 1) - T i = (X (i + 1) - X i) * ((Spec.value2 (C i) (X i) - Spec.value2 (D i) (X i)) ^ 2 +
      (Spec.value2 (C i) (X i) - Spec.value2 (D i) (X i)) * (Spec.value2 (C i) (X (i + 1)) - Spec.value2 (D i) (X (i + 1))) +
      (Spec.value2 (C i) (X (i + 1)) - Spec.value2 (D i) (X (i + 1))) ^ 2) / 3 := by
    intro i h
    rw [← cubic_energy (c4 i h) (d4 i h) (hl i h) (hr i h)]
    simp only [T]
    rw [if_pos h]
    congr 1
    by_cases h' : i + 1 < cs.length
    · rw [if_pos h', hc.first i _ _ _ (gp (i + 1) (by omega)) (gc i h) (gc (i + 1) h'), hc.second i _ _ _ (gp (i + 1) (by omega)) (gc i h) (gc (i + 1) h'),
        hd.first i _ _ _ (gp (i + 1) (by omega)) (gd i h) (gd (i + 1) h'), hd.second i _ _ _ (gp (i + 1) (by omega)) (gd i h) (gd (i + 1) h')]
    · have hi : i + 2 = pts.length := by have := hc.length; omega
      rw [if_neg h', hc.ends i _ _ hi (gp (i + 1) (by omega)) (gc i h), hd.ends i _ _ hi (gp (i + 1) (by omega)) (gd i h), sub_self, mul_zero]
  have quad : ∀ a b : K, 0 ≤ a ^ 2 + a * b + b ^ 2 := fun a b => by nlinarith [sq_nonneg (a + b), sq_nonneg a, sq_nonneg b]
  have hT1 : ∀ i, i < cs.length → T i ≤ T (i + 1) := fun i h => by
    have := hT i h
    have h2 := mul_nonneg (sub_nonneg.mpr (hX i h).le) (quad (Spec.value2 (C i) (X i) - Spec.value2 (D i) (X i)) (Spec.value2 (C i) (X (i + 1)) - Spec.value2 (D i) (X (i + 1))))
    linarith
  have hT0 : T 0 = 0 := by
    simp only [T]
    by_cases h : 0 < cs.length
    · rw [if_pos h, hc.begins _ _ (gp 0 (by omega)) (gc 0 h), hd.begins _ _ (gp 0 (by omega)) (gd 0 h), sub_self, mul_zero]
    · rw [if_neg h]
  have hTn : T cs.length = 0 := if_neg (lt_irrefl _)
  have up : ∀ i, i ≤ cs.length → 0 ≤ T i := by
    intro i
    induction i with
    | zero => intro _; rw [hT0]
    | succ i ih => intro h; exact (ih (by omega)).trans (hT1 i (by omega))
  have down : ∀ k, k ≤ cs.length → T (cs.length - k) ≤ 0 := by
    intro k
    induction k with
    | zero => intro _; rw [Nat.sub_zero, hTn]
    | succ k ih =>
      intro h
      have := hT1 (cs.length - (k + 1)) (by omega)
      rw [show cs.length - (k + 1) + 1 = cs.length - k by omega] at this
      exact this.trans (ih (by omega))
  have zero : ∀ i, i ≤ cs.length → T i = 0 := fun i h => le_antisymm (by have := down (cs.length - i) (by omega); rwa [show cs.length - (cs.length - i) = i by omega] at this) (up i h)
  refine List.ext_getElem? fun i => ?_
  by_cases h : i < cs.length
  · rw [gc i h, gd i h]
    have e := hT i h
    rw [zero i (by omega), zero (i + 1) (by omega), sub_self] at e
    have hpos : X (i + 1) - X i ≠ 0 := sub_ne_zero.mpr (ne_of_gt (hX i h))
    generalize ha : Spec.value2 (C i) (X i) - Spec.value2 (D i) (X i) = a at e
    generalize hb : Spec.value2 (C i) (X (i + 1)) - Spec.value2 (D i) (X (i + 1)) = b at e
    have e' : a ^ 2 + a * b + b ^ 2 = 0 := by
      have : (X (i + 1) - X i) * (a ^ 2 + a * b + b ^ 2) = 0 := by linarith
      exact (mul_eq_zero.mp this).resolve_left hpos
    have a0 : a = 0 := by
      have : a ^ 2 = 0 := le_antisymm (by nlinarith [sq_nonneg (a + b), sq_nonneg b]) (sq_nonneg a)
      exact pow_eq_zero_iff (two_ne_zero) |>.mp this
    have b0 : b = 0 := by
      have : b ^ 2 = 0 := le_antisymm (by nlinarith [sq_nonneg (a + b), sq_nonneg a]) (sq_nonneg b)
      exact pow_eq_zero_iff (two_ne_zero) |>.mp this
    rw [a0] at ha
    rw [b0] at hb
    rw [cubic_eq (c4 i h) (d4 i h) (hX i h) (hl i h) (hr i h) (sub_eq_zero.mp ha) (sub_eq_zero.mp hb)]
  · rw [List.getElem?_eq_none (by omega), List.getElem?_eq_none (by omega)]

/-- **C142 (straight lines).** The spline through points on a straight line is the line, also where it is extrapolated. -/
theorem C142_line (lo hi : K) (x : List K) (α β : K) (e : Bool) (hs : x.Pairwise (· < ·)) (hn : 2 ≤ x.length) (hb : e = true → ∀ a ∈ x, lo ≤ a ∧ a ≤ hi) :
    ∃ F, interpolate lo hi x (x.map fun t => α + β * t) .cubicSpline e = .ok F ∧
      ∀ (i : Nat) p q, (x.zip (x.map fun t => α + β * t))[i]? = some p → (x.zip (x.map fun t => α + β * t))[i + 1]? = some q → ∀ t, Spec.Inside lo hi e x.length i p q t →
        eval F t = .ok (α + β * t) := by
  obtain ⟨F, cs, hF, hN, hev, _⟩ := C35_spline lo hi x (x.map fun t => α + β * t) e (by simp) hs hn hb
  refine ⟨F, hF, ?_⟩
  have hz : (x.zip (x.map fun t => α + β * t)).map Prod.fst = x := List.map_fst_zip (by simp)
  have hval : ∀ p ∈ x.zip (x.map fun t => α + β * t), p.2 = α + β * p.1 := by
    intro p hp
    obtain ⟨k, hk, rfl⟩ := List.mem_iff_getElem.mp hp
    simp
  have v0 : ∀ t, Spec.value0 [α, β, 0, 0] t = α + β * t := fun t => by simp [Spec.value0, polyEval, polyLoop]
  have v2 : ∀ t, Spec.value2 [α, β, 0, 0] t = 0 := fun t => by simp [Spec.value2, polyDeriv, polyEval, polyLoop, List.zipIdx]
  have hrep : ∀ {n i : Nat} {c : List K}, (List.replicate n [α, β, 0, 0])[i]? = some c → c = [α, β, 0, 0] := fun {n i c} h => List.eq_of_mem_replicate (List.mem_of_getElem? h)
  have hw : Spec.NaturalSpline (x.zip (x.map fun t => α + β * t)) (List.replicate (x.length - 1) [α, β, 0, 0]) := by
    refine ⟨by simp; omega, fun c hc => by rw [List.eq_of_mem_replicate hc]; rfl, ?_, ?_, ?_, ?_, ?_, ?_⟩
    · intro i p c hp hc
      rw [hrep hc, v0, hval p (List.mem_of_getElem? hp)]
    · intro i p c hp hc
      rw [hrep hc, v0, hval p (List.mem_of_getElem? hp)]
    · intro i p c c' _ hc hc'
      rw [hrep hc, hrep hc']
    · intro i p c c' _ hc hc'
      rw [hrep hc, hrep hc']
    · intro p c _ hc
      rw [hrep hc, v2]
    · intro i p c _ _ hc
      rw [hrep hc, v2]
  have hcs := C142_unique (by rw [hz]; exact hs) hN hw
  intro i p q hp hq t ht
  have hi := (List.getElem?_eq_some_iff.mp hq).1
  have hc : cs[i]? = some [α, β, 0, 0] := by
    rw [hcs, List.getElem?_replicate, if_pos (by simp at hi; omega)]
  rw [hev i p q _ hp hq hc t ht, v0]

/-- The combination of two polynomials. -/
def comb (a b : K) (c d : List K) : List K := c.zipWith (fun u v => a * u + b * v) d

theorem comb_values {a b : K} {c d : List K} (hc : c.length = 4) (hd : d.length = 4) (t : K) :
    Spec.value0 (comb a b c d) t = a * Spec.value0 c t + b * Spec.value0 d t ∧ Spec.value1 (comb a b c d) t = a * Spec.value1 c t + b * Spec.value1 d t ∧
    Spec.value2 (comb a b c d) t = a * Spec.value2 c t + b * Spec.value2 d t := by
  match c, hc, d, hd with
  | [c0, c1, c2, c3], _, [d0, d1, d2, d3], _ =>
    simp [comb, Spec.value0, Spec.value1, Spec.value2, polyDeriv, polyEval, polyLoop, List.zipIdx]
    refine ⟨by ring, by ring, by ring⟩

/-- **C142 (superposition).** The spline through combined ordinates is the combination of the splines. -/
theorem C142_superposition (lo hi : K) (x y z : List K) (a b : K) (e : Bool) (hy : x.length = y.length) (hzl : x.length = z.length) (hs : x.Pairwise (· < ·)) (hn : 2 ≤ x.length)
    (hb : e = true → ∀ u ∈ x, lo ≤ u ∧ u ≤ hi) :
    ∃ F G H, interpolate lo hi x y .cubicSpline e = .ok F ∧ interpolate lo hi x z .cubicSpline e = .ok G ∧
      interpolate lo hi x (y.zipWith (fun u v => a * u + b * v) z) .cubicSpline e = .ok H ∧
      ∀ (i : Nat) p q, x[i]? = some p → x[i + 1]? = some q → ∀ t, Spec.Inside lo hi e x.length i (p, (0 : K)) (q, 0) t →
        ∃ u v, eval F t = .ok u ∧ eval G t = .ok v ∧ eval H t = .ok (a * u + b * v) := by
  have hw : x.length = (y.zipWith (fun u v => a * u + b * v) z).length := by rw [List.length_zipWith]; omega
  obtain ⟨F, cs, hF, hN, hev, _⟩ := C35_spline lo hi x y e hy hs hn hb
  obtain ⟨G, ds, hG, hN', hev', _⟩ := C35_spline lo hi x z e hzl hs hn hb
  obtain ⟨H, es, hH, hN'', hev'', _⟩ := C35_spline lo hi x _ e hw hs hn hb
  refine ⟨F, G, H, hF, hG, hH, ?_⟩
  have hc1 : x.length = cs.length + 1 := by rw [← hN.length, List.length_zip]; omega
  have hd1 : x.length = ds.length + 1 := by rw [← hN'.length, List.length_zip]; omega
  have split : ∀ (i : Nat) p, (x.zip (y.zipWith (fun u v => a * u + b * v) z))[i]? = some p →
      ∃ u v, (x.zip y)[i]? = some (p.1, u) ∧ (x.zip z)[i]? = some (p.1, v) ∧ p.2 = a * u + b * v := by
    intro i p hp
    have hi := (List.getElem?_eq_some_iff.mp hp).1
    rw [List.length_zip] at hi
    have e1 : x[i]? = some p.1 ∧ (y.zipWith (fun u v => a * u + b * v) z)[i]? = some p.2 := List.getElem?_zip_eq_some.mp hp
    obtain ⟨e1, e2⟩ := e1
    rw [List.getElem?_eq_getElem (by omega), List.getElem_zipWith, Option.some.injEq] at e2
    refine ⟨y[i]'(by omega), z[i]'(by omega), ?_, ?_, e2.symm⟩
    · rw [List.getElem?_zip_eq_some]; exact ⟨e1, List.getElem?_eq_getElem (by omega)⟩
    · rw [List.getElem?_zip_eq_some]; exact ⟨e1, List.getElem?_eq_getElem (by omega)⟩
  have pieces : ∀ (i : Nat) f, (cs.zipWith (comb a b) ds)[i]? = some f → ∃ c d, cs[i]? = some c ∧ ds[i]? = some d ∧ f = comb a b c d ∧ c.length = 4 ∧ d.length = 4 := by
    intro i f hf
    have hi := (List.getElem?_eq_some_iff.mp hf).1
    rw [List.length_zipWith] at hi
    rw [List.getElem?_eq_getElem (by rw [List.length_zipWith]; exact hi), List.getElem_zipWith, Option.some.injEq] at hf
    exact ⟨cs[i]'(by omega), ds[i]'(by omega), List.getElem?_eq_getElem (by omega), List.getElem?_eq_getElem (by omega), hf.symm,
      hN.degree _ (List.getElem_mem _), hN'.degree _ (List.getElem_mem _)⟩
  have hsum : Spec.NaturalSpline (x.zip (y.zipWith (fun u v => a * u + b * v) z)) (cs.zipWith (comb a b) ds) := by
    refine ⟨by rw [List.length_zip, List.length_zipWith, List.length_zipWith]; omega, ?_, ?_, ?_, ?_, ?_, ?_, ?_⟩
    · intro f hf
      obtain ⟨i, hi⟩ := List.getElem?_of_mem hf
      obtain ⟨c, d, _, _, rfl, hc, hd⟩ := pieces i f hi
      simp [comb, hc, hd]
    · intro i p f hp hf
      obtain ⟨c, d, h1, h2, rfl, hc, hd⟩ := pieces i f hf
      obtain ⟨u, v, h3, h4, h5⟩ := split i p hp
      rw [(comb_values hc hd _).1, hN.left i _ _ h3 h1, hN'.left i _ _ h4 h2, h5]
    · intro i p f hp hf
      obtain ⟨c, d, h1, h2, rfl, hc, hd⟩ := pieces i f hf
      obtain ⟨u, v, h3, h4, h5⟩ := split (i + 1) p hp
      rw [(comb_values hc hd _).1, hN.right i _ _ h3 h1, hN'.right i _ _ h4 h2, h5]
    · intro i p f f' hp hf hf'
      obtain ⟨c, d, h1, h2, rfl, hc, hd⟩ := pieces i f hf
      obtain ⟨c', d', h1', h2', rfl, hc', hd'⟩ := pieces (i + 1) f' hf'
      obtain ⟨u, v, h3, h4, h5⟩ := split (i + 1) p hp
      rw [(comb_values hc hd _).2.1, (comb_values hc' hd' _).2.1, hN.first i _ _ _ h3 h1 h1', hN'.first i _ _ _ h4 h2 h2']
    · intro i p f f' hp hf hf'
      obtain ⟨c, d, h1, h2, rfl, hc, hd⟩ := pieces i f hf
      obtain ⟨c', d', h1', h2', rfl, hc', hd'⟩ := pieces (i + 1) f' hf'
      obtain ⟨u, v, h3, h4, h5⟩ := split (i + 1) p hp
      rw [(comb_values hc hd _).2.2, (comb_values hc' hd' _).2.2, hN.second i _ _ _ h3 h1 h1', hN'.second i _ _ _ h4 h2 h2']
    · intro p f hp hf
      obtain ⟨c, d, h1, h2, rfl, hc, hd⟩ := pieces 0 f hf
      obtain ⟨u, v, h3, h4, h5⟩ := split 0 p hp
      rw [(comb_values hc hd _).2.2, hN.begins _ _ h3 h1, hN'.begins _ _ h4 h2, mul_zero, mul_zero, add_zero]
    · intro i p f hi hp hf
      obtain ⟨c, d, h1, h2, rfl, hc, hd⟩ := pieces i f hf
      obtain ⟨u, v, h3, h4, h5⟩ := split (i + 1) p hp
      rw [List.length_zip] at hi
      rw [(comb_values hc hd _).2.2, hN.ends i _ _ (by rw [List.length_zip]; omega) h3 h1, hN'.ends i _ _ (by rw [List.length_zip]; omega) h4 h2, mul_zero, mul_zero, add_zero]
  have hes := C142_unique (by rw [List.map_fst_zip (le_of_eq hw)]; exact hs) hN'' hsum
  intro i p q hp hq t ht
  have hi := (List.getElem?_eq_some_iff.mp hq).1
  have gz : ∀ (w : List K), x.length = w.length → ∀ (k : Nat) r, x[k]? = some r → ∃ u, (x.zip w)[k]? = some (r, u) := by
    intro w hw k r hr
    have hk := (List.getElem?_eq_some_iff.mp hr).1
    exact ⟨w[k]'(by omega), by rw [List.getElem?_zip_eq_some]; exact ⟨hr, List.getElem?_eq_getElem (by omega)⟩⟩
  have hc : cs[i]? = some (cs[i]'(by omega)) := List.getElem?_eq_getElem (by omega)
  have hd : ds[i]? = some (ds[i]'(by omega)) := List.getElem?_eq_getElem (by omega)
  have he : es[i]? = some (comb a b (cs[i]'(by omega)) (ds[i]'(by omega))) := by
    rw [hes, List.getElem?_eq_getElem (by rw [List.length_zipWith]; omega), List.getElem_zipWith]
  obtain ⟨u1, g1⟩ := gz y hy i p hp
  obtain ⟨u2, g2⟩ := gz y hy (i + 1) q hq
  obtain ⟨v1, g3⟩ := gz z hzl i p hp
  obtain ⟨v2, g4⟩ := gz z hzl (i + 1) q hq
  obtain ⟨w1, g5⟩ := gz _ hw i p hp
  obtain ⟨w2, g6⟩ := gz _ hw (i + 1) q hq
  refine ⟨_, _, hev i _ _ _ g1 g2 hc t ht, hev' i _ _ _ g3 g4 hd t ht, ?_⟩
  rw [hev'' i _ _ _ g5 g6 he t ht, (comb_values (hN.degree _ (List.getElem_mem _)) (hN'.degree _ (List.getElem_mem _)) t).1]

end

/-- **C142 (second derivative).** Over the reals: a function whose second derivative is bounded by `M` between the neighbours. -/
theorem C142_second (lo hi : ℝ) (x : List ℝ) (g g1 g2 : ℝ → ℝ) (e : Bool) (hs : x.Pairwise (· < ·)) (hn : 2 ≤ x.length)
    (hb : e = true → ∀ a ∈ x, lo ≤ a ∧ a ≤ hi) :
    ∃ F, interpolate lo hi x (x.map g) .linear e = .ok F ∧ ∀ (i : Nat) a a', x[i]? = some a → x[i + 1]? = some a' → ∀ M, ContinuousOn g (Set.Icc a a') →
      (∀ s ∈ Set.Ioo a a', HasDerivAt g (g1 s) s ∧ HasDerivAt g1 (g2 s) s ∧ |g2 s| ≤ M) → ∀ t, a ≤ t → t ≤ a' → ∃ v, eval F t = .ok v ∧ |v - g t| ≤ M * (a' - a) ^ 2 / 8 := by
  obtain ⟨F, hF, h⟩ := C142_linear lo hi x g e hs hn hb
  refine ⟨F, hF, ?_⟩
  intro i a a' ha ha' M hcont hM t h1 h2
  obtain ⟨v, hv, _, hsm, _⟩ := h i a a' ha ha' t h1 h2
  refine ⟨v, hv, ?_⟩
  have haa : a < a' := by
    obtain ⟨p1, rfl⟩ := List.getElem?_eq_some_iff.mp ha
    obtain ⟨p2, rfl⟩ := List.getElem?_eq_some_iff.mp ha'
    exact List.pairwise_iff_getElem.mp hs i (i + 1) p1 p2 (Nat.lt_succ_self i)
  have hM0 : 0 ≤ M := by
    obtain ⟨s, hs⟩ : (Set.Ioo a a').Nonempty := Set.nonempty_Ioo.mpr haa
    exact (abs_nonneg _).trans (hM s hs).2.2
  have key : ∀ (f f1 f2 : ℝ → ℝ), ContinuousOn f (Set.Icc a a') → (∀ s ∈ Set.Ioo a a', HasDerivAt f (f1 s) s ∧ HasDerivAt f1 (f2 s) s ∧ -M ≤ f2 s) →
      ConvexOn ℝ (Set.Icc a a') (fun s => f s + M / 2 * s ^ 2) := by
    intro f f1 f2 hc hd
    refine convexOn_of_hasDerivWithinAt2_nonneg (f' := fun s => f1 s + M * s) (f'' := fun s => f2 s + M) (convex_Icc a a') (hc.add (by fun_prop)) ?_ ?_ ?_
    · intro s hs
      rw [interior_Icc] at hs ⊢
      have h2 : HasDerivAt (fun s : ℝ => M / 2 * s ^ 2) (M * s) s := by
        refine ((hasDerivAt_pow 2 s).const_mul (M / 2)).congr_deriv ?_
        norm_num
        ring
      exact ((hd s hs).1.add h2).hasDerivWithinAt
    · intro s hs
      rw [interior_Icc] at hs ⊢
      have h2 : HasDerivAt (fun s : ℝ => M * s) M s := by simpa using (hasDerivAt_id s).const_mul M
      exact ((hd s hs).2.1.add h2).hasDerivWithinAt
    · intro s hs
      rw [interior_Icc] at hs
      have := (hd s hs).2.2
      linarith
  refine hsm M hM0 (key g g1 g2 hcont fun s hs => ⟨(hM s hs).1, (hM s hs).2.1, (abs_le.mp (hM s hs).2.2).1⟩)
    (key (fun s => -g s) (fun s => -g1 s) (fun s => -g2 s) hcont.neg fun s hs => ⟨(hM s hs).1.neg, (hM s hs).2.1.neg, ?_⟩)
  have := (abs_le.mp (hM s hs).2.2).2
  linarith

/-! ## Examples -/

/-- Squares tabulated at 0, 1 and 3: the line is above the square, by one at most between 1 and 3. -/
example : ∃ F, interpolate 0 3 [(0 : ℝ), 1, 3] ([(0 : ℝ), 1, 3].map fun t => t ^ 2) .linear false = .ok F ∧ ∀ t, 1 ≤ t → t ≤ 3 → ∃ v, eval F t = .ok v ∧ |v - t ^ 2| ≤ 1 := by
  obtain ⟨F, hF, h⟩ := C142_second 0 3 [0, 1, 3] (fun t => t ^ 2) (fun t => 2 * t) (fun _ => 2) false (by norm_num) (by simp) (by simp)
  refine ⟨F, hF, fun t h1 h2 => ?_⟩
  obtain ⟨v, hv, hle⟩ := h 1 1 3 rfl rfl 2 (by fun_prop) (fun s _ => by
    refine ⟨?_, ?_, by norm_num⟩
    · simpa using hasDerivAt_pow 2 s
    · simpa using (hasDerivAt_id s).const_mul 2) t h1 h2
  exact ⟨v, hv, hle.trans (by norm_num)⟩

/-- The spline through points on the line `1 + 2 t`. -/
example : interpolated [(0 : ℚ), 1, 3] [1, 3, 7] .cubicSpline false (3 / 2) = .ok 4 := by decide +kernel

/-- Two splines and their sum with weights two and three. -/
example : interpolated [(0 : ℚ), 1, 3] [1, 0, 2] .cubicSpline false (1 / 2) = .ok (3 / 8) ∧ interpolated [(0 : ℚ), 1, 3] [0, 1, 0] .cubicSpline false (1 / 2) = .ok (19 / 32) ∧
    interpolated [(0 : ℚ), 1, 3] [2, 3, 4] .cubicSpline false (1 / 2) = .ok (81 / 32) := by decide +kernel

end Alexandria.MathUtils
