import Verif.SOM.Props2
import Mathlib.Algebra.BigOperators.Intervals

/-! # C164: training draws the cells towards the objects -/

namespace Alexandria.SOM

open scoped BigOperators

/-- The update scales the distance to the object. -/
theorem l2_update {nd : Nat} (nf lf : ℝ) (s w : Fin nd → ℝ) : l2 (updateCell nf lf s w) s = |1 - nf * lf| * l2 w s := by
  have he : ∀ j, updateCell nf lf s w j - s j = (1 - nf * lf) * (w j - s j) := by
    intro j
    unfold updateCell
    split
    · ring
    · rename_i h; simp only [ne_eq, not_not] at h; rw [h]; ring
  unfold l2
  rw [← Real.sqrt_sq_eq_abs, ← Real.sqrt_mul (sq_nonneg _), Finset.mul_sum]
  congr 1
  refine Finset.sum_congr rfl fun j _ => ?_
  rw [he j]; ring

theorem l2_nonneg {nd : Nat} (s w : Fin nd → ℝ) : 0 ≤ l2 w s := Real.sqrt_nonneg _

section
variable {nd : Nat}

theorem sample_at {big : ℝ} {neigh : Neigh ℝ} {i n : Nat} {lf : ℝ} {m m' : Map nd ℝ} {s : Fin nd → ℝ} (hw : m.WF) {bx by' : Nat} {d : ℝ}
    (hb : findBMU m (fun w => l2 w s) big = .ok (bx, by', d)) (ht : trainSample l2 big neigh i n lf m s = .ok m') :
    m'.sx = m.sx ∧ m'.sy = m.sy ∧ m'.WF ∧ ∀ x y w, x < m.sx → y < m.sy → m.at x y = .ok w →
      m'.at x y = .ok (updateCell (neigh (bx, by') (x, y) i n) lf s w) := by
  obtain ⟨bx', by'', d', hb', rfl⟩ := trainSample_ok ht
  rw [hb, Outcome.ok.injEq] at hb'
  obtain ⟨rfl, rfl, rfl⟩ := hb'
  refine ⟨rfl, rfl, by unfold Map.WF at hw ⊢; simpa using hw, ?_⟩
  intro x y w hx hy ha
  obtain ⟨w', h1, h2⟩ := at_eq hw hx hy
  rw [ha, Outcome.ok.injEq] at h2
  subst h2
  simp only [Map.at, List.getElem?_mapIdx, h1, Option.map_some, coords_of hx hy]

/-- **C164** An object draws every cell of the map towards itself: the distance between object and cell is multiplied by `|1 - nf * lf|`, for any neighbourhood function, any learning factor
and any map. -/
theorem C164_cell (big : ℝ) (neigh : Neigh ℝ) (i n : Nat) (lf : ℝ) (m m' : Map nd ℝ) (s : Fin nd → ℝ) (hw : m.WF) (ht : trainSample l2 big neigh i n lf m s = .ok m') :
    ∃ bx by' d, findBMU m (fun w => l2 w s) big = .ok (bx, by', d) ∧ ∀ x y w, x < m.sx → y < m.sy → m.at x y = .ok w →
      ∃ w', m'.at x y = .ok w' ∧ l2 w' s = |1 - neigh (bx, by') (x, y) i n * lf| * l2 w s := by
  obtain ⟨bx, by', d, hb, _⟩ := trainSample_ok ht
  exact ⟨bx, by', d, hb, fun x y w hx hy ha => ⟨_, (sample_at hw hb ht).2.2.2 x y w hx hy ha, l2_update _ _ _ _⟩⟩

/-- The neighbourhood function is between zero and one and largest at the best matching unit itself. -/
def Spec.Peaked (neigh : Neigh ℝ) (i n : Nat) : Prop := ∀ b c, 0 ≤ neigh b c i n ∧ neigh b c i n ≤ neigh b b i n ∧ neigh b b i n ≤ 1

/-- The weights of the cells as a function of the coordinates. -/
theorem weights_of (m : Map nd ℝ) (hw : m.WF) : ∃ wt : Nat → Nat → Fin nd → ℝ, ∀ x y, x < m.sx → y < m.sy → m.at x y = .ok (wt x y) := by
  refine ⟨fun x y => (m.cells[x + y * m.sx]?).getD 0, fun x y hx hy => ?_⟩
  obtain ⟨w, h1, h2⟩ := at_eq hw hx hy
  rw [h2]; simp only [h1, Option.getD_some]

theorem mem_at {m : Map nd ℝ} (hw : m.WF) {w : Fin nd → ℝ} (h : w ∈ m.cells) : ∃ x y, x < m.sx ∧ y < m.sy ∧ m.at x y = .ok w := by
  obtain ⟨k, hk⟩ := List.getElem?_of_mem h
  have hl : k < m.sx * m.sy := by rw [← hw]; exact (List.getElem?_eq_some_iff.mp hk).1
  refine ⟨_, _, (coords_lt hl).1, (coords_lt hl).2, ?_⟩
  rw [Map.at, coords_index hl, hk]

/-- **C164** Processing an object makes its distance to the map smaller by the factor `1 - nf * lf`, where `nf` is the value of the neighbourhood function at the best matching unit; and
the cell that was the best matching unit has this distance: no other cell gets closer to the object than it. -/
theorem C164_winner (big : ℝ) (neigh : Neigh ℝ) (i n : Nat) (lf : ℝ) (hlf : 0 ≤ lf ∧ lf ≤ 1) (hp : Spec.Peaked neigh i n) (m : Map nd ℝ) (s : Fin nd → ℝ) (hw : m.WF) (hx : 0 < m.sx)
    (hy : 0 < m.sy) (hbig : ∀ w ∈ m.cells, l2 w s ≤ big) :
    ∃ bx by' d m' cx cy w, findBMU m (fun w => l2 w s) big = .ok (bx, by', d) ∧ trainSample l2 big neigh i n lf m s = .ok m' ∧
      findBMU m' (fun w => l2 w s) big = .ok (cx, cy, (1 - neigh (bx, by') (bx, by') i n * lf) * d) ∧
      m'.at bx by' = .ok w ∧ l2 w s = (1 - neigh (bx, by') (bx, by') i n * lf) * d ∧
      m'.sx = m.sx ∧ m'.sy = m.sy ∧ m'.WF ∧ ∀ w ∈ m'.cells, l2 w s ≤ big := by
  obtain ⟨wt, hwt⟩ := weights_of m hw
  obtain ⟨bx, by', d, hb, bmu⟩ := C55_bmu m hw hx hy (fun w => l2 w s) big hbig wt hwt
  have ht : ∃ m', trainSample l2 big neigh i n lf m s = .ok m' := by
    unfold trainSample
    rw [hb]
    exact ⟨_, rfl⟩
  obtain ⟨m', ht⟩ := ht
  obtain ⟨e1, e2, hw', hat⟩ := sample_at hw hb ht
  have hwt' : ∀ x y, x < m'.sx → y < m'.sy → m'.at x y = .ok (updateCell (neigh (bx, by') (x, y) i n) lf s (wt x y)) := by
    intro x y h1 h2
    rw [e1] at h1; rw [e2] at h2
    exact hat x y _ h1 h2 (hwt x y h1 h2)
  have fac : ∀ c, 0 ≤ 1 - neigh (bx, by') (bx, by') i n * lf ∧ 1 - neigh (bx, by') (bx, by') i n * lf ≤ 1 - neigh (bx, by') c i n * lf ∧ 1 - neigh (bx, by') c i n * lf ≤ 1 := by
    intro c
    obtain ⟨h1, h2, h3⟩ := hp (bx, by') c
    have a1 : neigh (bx, by') (bx, by') i n * lf ≤ 1 := mul_le_one₀ h3 hlf.1 hlf.2
    have a2 : neigh (bx, by') c i n * lf ≤ neigh (bx, by') (bx, by') i n * lf := mul_le_mul_of_nonneg_right h2 hlf.1
    have a3 : 0 ≤ neigh (bx, by') c i n * lf := mul_nonneg h1 hlf.1
    exact ⟨by linarith, by linarith, by linarith⟩
  have dist' : ∀ x y, l2 (updateCell (neigh (bx, by') (x, y) i n) lf s (wt x y)) s = (1 - neigh (bx, by') (x, y) i n * lf) * l2 (wt x y) s := by
    intro x y
    rw [l2_update, abs_of_nonneg]
    exact le_trans (fac (x, y)).1 (fac (x, y)).2.1
  have hbig' : ∀ w ∈ m'.cells, l2 w s ≤ big := by
    intro w hm
    obtain ⟨x, y, h1, h2, h3⟩ := mem_at hw' hm
    have h4 := hwt' x y h1 h2
    rw [h3, Outcome.ok.injEq] at h4
    rw [h4, dist']
    rw [e1] at h1; rw [e2] at h2
    have h5 : l2 (wt x y) s ≤ big := by
      obtain ⟨v, h6, h7⟩ := at_eq hw h1 h2
      rw [hwt x y h1 h2, Outcome.ok.injEq] at h7
      rw [h7]; exact hbig v (List.mem_of_getElem? h6)
    exact le_trans (mul_le_of_le_one_left (l2_nonneg _ _) (fac (x, y)).2.2) h5
  obtain ⟨cx, cy, d', hb', bmu'⟩ := C55_bmu m' hw' (by omega) (by omega) (fun w => l2 w s) big hbig' (fun x y => updateCell (neigh (bx, by') (x, y) i n) lf s (wt x y)) hwt'
  have own : d = l2 (wt bx by') s := bmu.own
  have wd := dist' bx by'
  rw [← own] at wd
  have dd : d' = (1 - neigh (bx, by') (bx, by') i n * lf) * d := by
    apply le_antisymm
    · have : d' ≤ l2 (updateCell (neigh (bx, by') (bx, by') i n) lf s (wt bx by')) s := bmu'.least bx by' (by rw [e1]; exact bmu.inX) (by rw [e2]; exact bmu.inY)
      rw [wd] at this; exact this
    · have h1 : d' = l2 (updateCell (neigh (bx, by') (cx, cy) i n) lf s (wt cx cy)) s := bmu'.own
      rw [h1, dist']
      have h2 : d ≤ l2 (wt cx cy) s := bmu.least cx cy (by rw [← e1]; exact bmu'.inX) (by rw [← e2]; exact bmu'.inY)
      have dn : 0 ≤ d := by rw [own]; exact l2_nonneg _ _
      exact mul_le_mul (fac (cx, cy)).2.1 h2 dn (le_trans (fac (cx, cy)).1 (fac (cx, cy)).2.1)
  rw [dd] at hb'
  exact ⟨bx, by', d, m', cx, cy, _, hb, ht, hb', hwt' bx by' (by rw [e1]; exact bmu.inX) (by rw [e2]; exact bmu.inY), wd, e1, e2, hw', hbig'⟩

/-- **C164** Training on a single object: the distance of the map to it is multiplied by the factor of each iteration. -/
theorem C164_single (big : ℝ) (neigh : Neigh ℝ) (learn : Nat → Nat → ℝ) (n : Nat) (peak : Nat → ℝ) (hlf : ∀ i < n, 0 ≤ learn i n ∧ learn i n ≤ 1) (hp : ∀ i < n, Spec.Peaked neigh i n)
    (hpk : ∀ i < n, ∀ b, neigh b b i n = peak i) (m : Map nd ℝ) (s : Fin nd → ℝ) (hw : m.WF) (hx : 0 < m.sx) (hy : 0 < m.sy) (hbig : ∀ w ∈ m.cells, l2 w s ≤ big) (bx by' : Nat) (d : ℝ)
    (hb : findBMU m (fun w => l2 w s) big = .ok (bx, by', d)) :
    ∃ m' cx cy, train l2 big neigh learn n (fun _ => [s]) m = .ok m' ∧ findBMU m' (fun w => l2 w s) big = .ok (cx, cy, (∏ i ∈ Finset.range n, (1 - peak i * learn i n)) * d) := by
  have gen : ∀ (left i : Nat), i + left = n → ∀ (m : Map nd ℝ), m.WF → 0 < m.sx → 0 < m.sy → (∀ w ∈ m.cells, l2 w s ≤ big) → ∀ bx by' d,
      findBMU m (fun w => l2 w s) big = .ok (bx, by', d) →
      ∃ m' cx cy, trainFrom l2 big neigh learn n (fun _ => [s]) i left m = .ok m' ∧
        findBMU m' (fun w => l2 w s) big = .ok (cx, cy, (∏ j ∈ Finset.Ico i n, (1 - peak j * learn j n)) * d) := by
    intro left
    induction left with
    | zero =>
      intro i hi m hw hx hy hbig bx by' d hb
      refine ⟨m, bx, by', rfl, ?_⟩
      rw [show i = n by omega, Finset.Ico_self, Finset.prod_empty, one_mul]; exact hb
    | succ left ih =>
      intro i hi m hw hx hy hbig bx by' d hb
      have hin : i < n := by omega
      rw [Finset.prod_eq_prod_Ico_succ_bot hin]
      rw [trainFrom]
      by_cases hz : learn i n = 0
      · simp only [if_pos hz]
        obtain ⟨m', cx, cy, h1, h2⟩ := ih (i + 1) (by omega) m hw hx hy hbig bx by' d hb
        exact ⟨m', cx, cy, h1, by rw [h2, hz, mul_zero, sub_zero, one_mul]⟩
      · simp only [if_neg hz]
        obtain ⟨bx2, by2, d2, m2, cx, cy, w, g1, g2, g3, _, _, e1, e2, hw2, hbig2⟩ := C164_winner big neigh i n (learn i n) (hlf i hin) (hp i hin) m s hw hx hy hbig
        rw [hb, Outcome.ok.injEq] at g1
        obtain ⟨rfl, rfl, rfl⟩ := g1
        rw [hpk i hin] at g3
        obtain ⟨m', c1, c2, h1, h2⟩ := ih (i + 1) (by omega) m2 hw2 (by omega) (by omega) hbig2 cx cy _ g3
        refine ⟨m', c1, c2, ?_, ?_⟩
        · show (trainList l2 big neigh i n (learn i n) m [s] >>= fun m => trainFrom l2 big neigh learn n (fun _ => [s]) (i + 1) left m) = .ok m'
          have : trainList l2 big neigh i n (learn i n) m [s] = .ok m2 := by
            simp only [trainList]; rw [g2]; rfl
          rw [this]; exact h1
        · rw [h2]; congr 3; ring
  obtain ⟨m', cx, cy, h1, h2⟩ := gen n 0 (by omega) m hw hx hy hbig bx by' d hb
  refine ⟨m', cx, cy, h1, ?_⟩
  rw [Finset.range_eq_Ico]; exact h2

theorem trainList_append {K : Type} [Field K] [LinearOrder K] (dist : (Fin nd → K) → (Fin nd → K) → K) (big : K) (neigh : Neigh K) (i n : Nat) (lf : K) (s : Fin nd → K) :
    ∀ (ss : List (Fin nd → K)) (m m' : Map nd K), trainList dist big neigh i n lf m (ss ++ [s]) = .ok m' →
      ∃ m1, trainList dist big neigh i n lf m ss = .ok m1 ∧ trainSample dist big neigh i n lf m1 s = .ok m'
  | [], m, m', h => by
    refine ⟨m, rfl, ?_⟩
    simp only [List.nil_append, trainList] at h
    cases ht : trainSample dist big neigh i n lf m s with
    | ok m1 => rw [ht] at h; exact h
    | throw e => rw [ht] at h; cases h
    | ub => rw [ht] at h; cases h
  | t :: ss, m, m', h => by
    simp only [List.cons_append, trainList] at h
    cases ht : trainSample dist big neigh i n lf m t with
    | ok m1 =>
      rw [ht] at h
      obtain ⟨m2, h1, h2⟩ := trainList_append dist big neigh i n lf s ss m1 m' h
      refine ⟨m2, ?_, h2⟩
      simp only [trainList]; rw [ht]; exact h1
    | throw e => rw [ht] at h; cases h
    | ub => rw [ht] at h; cases h

theorem sample_wf {big : ℝ} {neigh : Neigh ℝ} {i n : Nat} {lf : ℝ} {m m' : Map nd ℝ} {s : Fin nd → ℝ} (hw : m.WF) (h : trainSample l2 big neigh i n lf m s = .ok m') :
    m'.sx = m.sx ∧ m'.sy = m.sy ∧ m'.WF := by
  obtain ⟨_, _, _, hb, _⟩ := trainSample_ok h
  have := sample_at hw hb h
  exact ⟨this.1, this.2.1, this.2.2.1⟩

theorem trainList_wf {big : ℝ} {neigh : Neigh ℝ} {i n : Nat} {lf : ℝ} : ∀ (ss : List (Fin nd → ℝ)) (m m' : Map nd ℝ), m.WF → trainList l2 big neigh i n lf m ss = .ok m' →
    m'.sx = m.sx ∧ m'.sy = m.sy ∧ m'.WF
  | [], m, m', hw, h => by cases h; exact ⟨rfl, rfl, hw⟩
  | t :: ss, m, m', hw, h => by
    simp only [trainList] at h
    cases ht : trainSample l2 big neigh i n lf m t with
    | ok m1 =>
      rw [ht] at h
      have a := sample_wf hw ht
      have b := trainList_wf ss m1 m' a.2.2 h
      exact ⟨b.1.trans a.1, b.2.1.trans a.2.1, b.2.2⟩
    | throw e => rw [ht] at h; cases h
    | ub => rw [ht] at h; cases h

theorem findBMU_in {K : Type} [LinearOrder K] {m : Map nd K} (hw : m.WF) {dist : (Fin nd → K) → K} {big d : K} {x y : Nat} (h : findBMU m dist big = .ok (x, y, d)) : x < m.sx ∧ y < m.sy := by
  unfold findBMU at h
  by_cases hz : m.sx = 0 ∨ m.sx * m.sy = 0
  · rw [if_pos hz] at h; cases h
  · rw [if_neg hz] at h
    rw [Outcome.ok.injEq] at h
    simp only [Prod.mk.injEq] at h
    obtain ⟨rfl, rfl, _⟩ := h
    apply coords_lt
    rcases bmuLoop_spec dist m.cells 0 0 big with ⟨hr, _⟩ | ⟨k, w, hk, hr, _⟩
    · rw [hr]; simp only; omega
    · rw [hr]
      have := (List.getElem?_eq_some_iff.mp hk).1
      rw [hw] at this
      simpa using this

theorem linear_first {n : Nat} (h0 : 0 < n) (hn : n < 2 ^ 64) : (linear 0 n : ℝ) = 1 := by
  have : (n : ℝ) ≠ 0 := by exact_mod_cast (by omega : n ≠ 0)
  unfold linear
  rw [show (n + 2 ^ 64 - 0) % 2 ^ 64 = n by omega, one_mul, div_self this]

/-- **C164** The linear restraint begins with one, so that the first iteration does not move the cells towards the objects but puts the objects in their place: whatever the map was and
whatever objects came before, after the first iteration every cell where the neighbourhood of the last object is one holds exactly this object. -/
theorem C164_overwrite (big : ℝ) (neigh : Neigh ℝ) (n : Nat) (h0 : 0 < n) (hn : n < 2 ^ 64) (m m' : Map nd ℝ) (hw : m.WF) (ss : List (Fin nd → ℝ)) (s : Fin nd → ℝ)
    (h : trainList l2 big neigh 0 n (linear 0 n) m (ss ++ [s]) = .ok m') :
    ∃ bx by', bx < m.sx ∧ by' < m.sy ∧ ∀ x y, x < m.sx → y < m.sy → neigh (bx, by') (x, y) 0 n = 1 → m'.at x y = .ok s := by
  obtain ⟨m1, h1, h2⟩ := trainList_append l2 big neigh 0 n (linear 0 n) s ss m m' h
  obtain ⟨e1, e2, hw1⟩ := trainList_wf ss m m1 hw h1
  obtain ⟨bx, by', d, hb, _⟩ := trainSample_ok h2
  obtain ⟨i1, i2⟩ := findBMU_in hw1 hb
  refine ⟨bx, by', by omega, by omega, fun x y hx hy hone => ?_⟩
  obtain ⟨wt, hwt⟩ := weights_of m1 hw1
  have := (sample_at hw1 hb h2).2.2.2 x y _ (by omega) (by omega) (hwt x y (by omega) (by omega))
  rw [this, hone, linear_first h0 hn]
  congr 1
  unfold updateCell
  rw [if_pos one_ne_zero]
  funext j; ring

end

/-- **C164** The shipped neighbourhood functions are between zero and one and largest, namely one, at the best matching unit. -/
theorem C164_shipped (i n : Nat) (hi : i < n) (hn : n < 2 ^ 64) :
    (∀ r : ℝ, r ≠ 0 → Spec.Peaked (linearUnitDisk r) i n ∧ ∀ b, linearUnitDisk r b b i n = 1) ∧
    (∀ (sx sy : Nat) (mult : ℝ), 0 < max sx sy → mult ≠ 0 →
      Spec.Peaked (fun b c i n => Spec.gauss mult (Spec.width sx sy i n) (Spec.cellDist2 b c)) i n ∧
      ∀ b, Spec.gauss mult (Spec.width sx sy i n) (Spec.cellDist2 b b) = 1) := by
  refine ⟨fun r hr => ?_, fun sx sy mult hs hm => ?_⟩
  · have hone : ∀ b, linearUnitDisk r b b i n = 1 := by
      intro b
      unfold linearUnitDisk
      simp only
      rw [if_pos]
      rw [show (b.1 + 2 ^ 64 - b.1) % 2 ^ 64 = 0 by omega, show (b.2 + 2 ^ 64 - b.2) % 2 ^ 64 = 0 by omega]
      have h1 := (C56_shipped (K := ℝ) hi hn r b b).1.1
      unfold linear at h1
      have : 0 < r * r := mul_self_pos.mpr hr
      simp only [Nat.cast_zero, mul_zero, add_zero]
      positivity
    refine ⟨fun b c => ?_, hone⟩
    have := (C56_shipped (K := ℝ) hi hn r b c).2
    rw [hone b]
    exact ⟨this.1, this.2, le_refl _⟩
  · have hwd : Spec.width sx sy i n ≠ 0 := by
      unfold Spec.width
      have : (0 : ℝ) < ((max sx sy : Nat) : ℝ) := by exact_mod_cast hs
      simp only
      positivity
    have z : ∀ b : Nat × Nat, Spec.cellDist2 (K := ℝ) b b = 0 := by intro b; simp [Spec.cellDist2]
    have hone : ∀ b, Spec.gauss mult (Spec.width sx sy i n) (Spec.cellDist2 b b) = 1 := by
      intro b; rw [z]; exact (C81_kohonen_shape mult _).2.1 hm hwd
    refine ⟨fun b c => ?_, hone⟩
    have := C81_factor_range sx sy mult b c i n
    simp only
    rw [hone b]
    exact ⟨this.1, this.2, le_refl _⟩

/-- **C164** In particular a map trained on a single object with the shipped functions has this object as one of its cells. -/
theorem C164_learned {nd : Nat} (big : ℝ) (n : Nat) (h0 : 0 < n) (hn : n < 2 ^ 64) (r : ℝ) (hr : r ≠ 0) (m : Map nd ℝ) (s : Fin nd → ℝ) (hw : m.WF) (hx : 0 < m.sx) (hy : 0 < m.sy)
    (hbig : ∀ w ∈ m.cells, l2 w s ≤ big) :
    ∃ m' cx cy, train l2 big (linearUnitDisk r) linear n (fun _ => [s]) m = .ok m' ∧ findBMU m' (fun w => l2 w s) big = .ok (cx, cy, 0) := by
  obtain ⟨wt, hwt⟩ := weights_of m hw
  obtain ⟨bx, by', d, hb, _⟩ := C55_bmu m hw hx hy (fun w => l2 w s) big hbig wt hwt
  obtain ⟨m', cx, cy, h1, h2⟩ := C164_single big (linearUnitDisk r) linear n (fun _ => 1) (fun i hi => ⟨(C56_shipped hi hn r (0, 0) (0, 0)).1.1.le, (C56_shipped hi hn r (0, 0) (0, 0)).1.2⟩)
    (fun i hi => ((C164_shipped i n hi hn).1 r hr).1) (fun i hi => ((C164_shipped i n hi hn).1 r hr).2) m s hw hx hy hbig bx by' d hb
  refine ⟨m', cx, cy, h1, ?_⟩
  rw [h2, Finset.prod_eq_zero (Finset.mem_range.mpr h0) (by rw [linear_first h0 hn]; ring), zero_mul]

/-- Two cells and the object `3`: in the first iteration (of two) the best matching unit `(1, 0)` becomes the object, and so does the cell left of it. -/
example : findBMU (K := ℚ) (nd := 1) ⟨2, 1, [![7], ![1]]⟩ (fun w => |w 0 - 3|) 100 = .ok (1, 0, 2) ∧ linearUnitDisk (2 : ℚ) (1, 0) (0, 0) 0 2 = 1 := by decide +kernel

example : ∃ m' cx cy, train l2 100 (linearUnitDisk 2) linear 2 (fun _ => [![3]]) (⟨2, 1, [![7], ![1]]⟩ : Map 1 ℝ) = .ok m' ∧ findBMU m' (fun w => l2 w ![3]) 100 = .ok (cx, cy, 0) := by
  refine C164_learned 100 2 (by norm_num) (by norm_num) 2 (by norm_num) _ _ rfl (by decide) (by decide) ?_
  intro w hw
  simp only [List.mem_cons, List.not_mem_nil, or_false] at hw
  unfold l2
  rw [Real.sqrt_le_left (by norm_num)]
  rcases hw with rfl | rfl <;> simp <;> norm_num

end Alexandria.SOM
