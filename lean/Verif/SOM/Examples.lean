import Verif.SOM.DrawProps
import Verif.SOM.FactorRoundProps
import Verif.SOM.InitProps
import Verif.SOM.Props
import Verif.SOM.Props2
import Verif.SOM.RoundProps
import Verif.SOM.UMatrixProps
import Mathlib.Analysis.Convex.Basic
import Mathlib.Tactic.IntervalCases
import Mathlib.Tactic.FinCases

/-! # Cases that meet all hypotheses of the theorems about self-organizing maps -/

namespace Alexandria.SOM.Examples

/-- Rounding to `double`. -/
def R : Rounding ℚ := Binary.rounding 53 (by decide)

/-- A map of 2×2 cells with one weight each. -/
def m : Map 1 ℚ := ⟨2, 2, [![4], ![1], ![3], ![8]]⟩

def wt (x y : Nat) : Fin 1 → ℚ := m.cells.getD (x + 2 * y) ![0]

theorem at_eq (x y : Nat) (hx : x < m.sx) (hy : y < m.sy) : m.at x y = .ok (wt x y) := by
  have hx' : x < 2 := hx
  have hy' : y < 2 := hy
  interval_cases x <;> interval_cases y <;> rfl

def dist (a b : Fin 1 → ℚ) : ℚ := |a 0 - b 0|

example := C55_bmu m rfl (by decide) (by decide) (fun w => dist w ![1]) 100 (by decide +kernel) wt at_eq
example := C55_overflow m (by decide) (by decide) (fun w => dist w ![-200]) 100 (by decide +kernel)
example := C56_step (1 / 2 : ℚ) (1 / 3) (by norm_num) (by norm_num) ![1, 2] ![3, 7] 1
example := C56_total dist 100 (linearUnitDisk 2) linear 2 (fun _ => [![1], ![5]]) m rfl (by decide) (by decide)
example := C56_shipped (K := ℚ) (i := 1) (n := 4) (by decide) (by decide) 2 (1, 1) (0, 1)
example : ∃ m', train dist 100 (linearUnitDisk 2) linear 2 (fun _ => [![1], ![5]]) m = .ok m' ∧ ∀ w ∈ m'.cells, w ∈ {w : Fin 1 → ℚ | 0 ≤ w 0 ∧ w 0 ≤ 9} := by
  obtain ⟨m', h, -⟩ := C56_total dist 100 (linearUnitDisk 2) linear 2 (fun _ => [![1], ![5]]) m rfl (by decide) (by decide)
  refine ⟨m', h, C56_hull dist 100 (linearUnitDisk 2) linear 2 (fun _ => [![1], ![5]]) (fun b c i hi => (C56_shipped hi (by decide) 2 b c).2)
    (fun i hi => ⟨(C56_shipped hi (by decide) 2 (0, 0) (0, 0)).1.1.le, (C56_shipped hi (by decide) 2 (0, 0) (0, 0)).1.2⟩) _ ?_ m m' ?_ ?_ h⟩
  · intro a ha b hb s t hs ht hst
    constructor
    · show 0 ≤ s * a 0 + t * b 0
      nlinarith [ha.1, hb.1, mul_nonneg hs ha.1, mul_nonneg ht hb.1]
    · show s * a 0 + t * b 0 ≤ 9
      nlinarith [mul_le_mul_of_nonneg_left ha.2 hs, mul_le_mul_of_nonneg_left hb.2 ht]
  · intro w hw
    simp only [m, List.mem_cons, List.not_mem_nil, or_false] at hw
    rcases hw with rfl | rfl | rfl | rfl <;> constructor <;> norm_num
  · intro i _ s hs
    simp only [List.mem_cons, List.not_mem_nil, or_false] at hs
    rcases hs with rfl | rfl <;> constructor <;> norm_num
example := C57_partial (2 : ℚ) (3, 4) (2, 4) 1 4 (by decide) (by decide) (by decide) (by decide) (by decide) (by decide)
example := C57_beyond (2 : ℚ) (by norm_num [abs_le]) (3, 4) (4, 4) 1 4 (by decide) (by decide) (by decide) (by decide) (.inl (by decide))
example := C58_jackknife 5 3 (by decide) (by decide) (fun j => 4 - j) (by decide)
example := C58_jackknife_all 5 3 [4, 0, 2] (by decide) (by decide) (by decide) (by decide)
example := C59_fits_layout "L2" m rfl 1 0 0 (by decide) (by decide)
example := C79_umatrix_partial m rfl (by decide) dist .mean 1 0 (by decide) (by decide) wt at_eq
example := C82_linear (K := ℚ) (n := 7) (by decide) (by decide)

/-! ## Rounding -/

theorem root_ex : ∃ root, Spec.Root ((1 / 2) ^ 53) root := Root_exists _ (by norm_num) (by norm_num)

theorem big_ex (root : ℚ → ℚ) (sq : (Fin 1 → ℚ) → ℚ) : ∃ big, ∀ w ∈ m.cells, root (sq w) ≤ big := by
  refine ⟨(m.cells.map fun w => |root (sq w)|).sum, fun w hw => (le_abs_self _).trans ?_⟩
  exact List.single_le_sum (fun x hx => by obtain ⟨v, -, rfl⟩ := List.mem_map.1 hx; exact abs_nonneg _) _ (List.mem_map.2 ⟨w, hw, rfl⟩)

example : ∃ root big x y d, machineBMU (Binary.rounding 53 (by decide)) root big m ![1] = .ok (x, y, d) ∧ Spec.NearlyBMU m (fun w => ∑ i, (w i - ![1] i) ^ 2) ((1 / 2) ^ 53) (1 + 5) x y := by
  obtain ⟨root, hr⟩ := root_ex
  obtain ⟨big, hb⟩ := big_ex root (fun w => machineSquares (Binary.rounding 53 (by decide)) w ![1])
  obtain ⟨x, y, d, h⟩ := C124_bmu 53 (by decide) m rfl (by decide) (by decide) root hr big ![1] hb
  exact ⟨root, big, x, y, d, h⟩

example : ∃ root big x y d, machineBMUU (Binary.rounding 53 (by decide)) root big m ![1] ![2] = .ok (x, y, d) ∧
    Spec.NearlyBMU m (fun w => ∑ i, ((w i - ![1] i) / ![2] i) ^ 2) ((1 / 2) ^ 53) (1 + 8) x y := by
  obtain ⟨root, hr⟩ := root_ex
  obtain ⟨big, hb⟩ := big_ex root (fun w => machineSquaresU (Binary.rounding 53 (by decide)) w ![1] ![2])
  obtain ⟨x, y, d, h⟩ := C124_bmu_uncertain 53 (by decide) m rfl (by decide) (by decide) root hr big ![1] ![2] (by decide +kernel) hb
  exact ⟨root, big, x, y, d, h⟩

example := C124_towards R (1 / 2) (1 / 3) (by norm_num) (by norm_num) ![1, 2] ![3, 7] (by decide +kernel) 1
example := C124_step_partial 53 (by decide) (1 / 2) (1 / 3) (by norm_num) (by norm_num) (by norm_num) ![1] ![3]
  (fun j => by fin_cases j; exact ⟨1, 0, by decide, by norm_num⟩) (fun j => by fin_cases j; exact ⟨3, 0, by decide, by norm_num⟩) 0
example := C124_range 53 (by decide) id 100 (linearUnitDisk 2) linear 2 (fun _ => [![1], ![5]]) (fun b c i hi => (C56_shipped hi (by decide) 2 b c).2)
  (fun i hi => ⟨(C56_shipped hi (by decide) 2 (0, 0) (0, 0)).1.1.le, (C56_shipped hi (by decide) 2 (0, 0) (0, 0)).1.2⟩) 3 m rfl (by decide) (by decide)
  (by decide +kernel) (by decide +kernel)

def exp' (x : ℚ) : ℚ := if x ≤ 0 then 1 / (1 - x) else 1 + x

theorem exp_like : Spec.ExpLike exp' := by
  refine ⟨by norm_num [exp'], fun x hx => ?_⟩
  unfold exp'
  simp only [if_pos hx]
  exact ⟨by apply div_nonneg <;> linarith, by rw [div_le_one (by linarith)]; linarith⟩

theorem exp_mono : Spec.ExpMono exp' := by
  intro x y hxy hy
  unfold exp'
  rw [if_pos hy, if_pos (hxy.trans hy)]
  exact one_div_le_one_div_of_le (by linarith) (by linarith)

theorem exp_pos (x : ℚ) : 0 < exp' x := by
  unfold exp'
  by_cases hx : x ≤ 0
  · rw [if_pos hx]
    apply div_pos <;> linarith
  · rw [if_neg hx]
    linarith

theorem nat (k : Nat) (hk : k ≤ 9) : R.rnd (k : ℚ) = k := Binary.rnd_of_rep (by decide) (Binary.rep_nat (hk.trans (by decide)))

theorem one : R.rnd (1 : ℚ) = 1 := by decide +kernel

example := C175_linear R one (n := 3) (by decide) (by decide)
example := C175_exponential R one exp' exp_like (1 / 2) (by norm_num) (by decide +kernel) (n := 3) (by decide)
example := C175_disk R one 2 (1, 1) (0, 1) (n := 3) (by decide) (by decide)
example := C175_kohonen_farther R exp' id exp_like exp_mono 4 4 3 (3, 3) (2, 4) (5, 1) 1 2 9 nat (by decide) (by decide) (by decide) (by unfold Spec.Farther; decide)
example := C175_linear_pos 53 (by decide) (i := 2) (n := 3) (by decide) (by decide)
example := C175_kohonen_bmu 53 (by decide) exp' id exp_like exp_pos 4 4 (by decide) 3 (by norm_num) (1, 2) 1 2 (by decide)

end Alexandria.SOM.Examples
