import Verif.Histogram.Props
import Mathlib.Tactic.IntervalCases

/-! # Cases that meet all hypotheses of the theorems about histograms -/

namespace Alexandria.Histogram.Examples

/-- Bins with the edges 0, 2, 5, 6 and 8 with the weights 3, 1, 4 and 2, of which the second and third are left. -/
def h : Histo ℚ ℚ := ⟨edgeVector [0, 2, 5, 6, 8], [3, 1, 4, 2], 1, 2⟩

/-- The same with other weights outside of what is left. -/
def h' : Histo ℚ ℚ := ⟨edgeVector [0, 2, 5, 6, 8], [9, 1, 4, 0], 1, 2⟩

def edges (i : Nat) : ℚ := [0, 2, 5, 6, 8].getD i 0

def centers (i : Nat) : ℚ := [1, 7 / 2, 11 / 2, 7].getD i 0

example : (histogram (edgeVector [0, 2, 5, 6, (8 : ℚ)]) [((1 : ℚ), (3 : ℚ)), (3, 1), (5, 4), (7, 2)]).bind (fun h0 => (clips h0 [(3, 5)]).bind fun h1 => .ok (h1.left, h1.right, h1.getCounts)) =
    .ok (1, 2, [1, 4]) := by decide +kernel

example (h0 h1 : Histo ℚ ℚ) (e0 : histogram (edgeVector [0, 2, 5, 6, (8 : ℚ)]) [((1 : ℚ), (3 : ℚ)), (3, 1), (5, 4), (7, 2)] = .ok h0) (e1 : clips h0 [(3, 5)] = .ok h1) :=
  C23_clip_shrinks (edgeVector [0, 2, 5, 6, (8 : ℚ)]) (by decide) _ h0 h1 [(3, 5)] e0 e1

theorem center_eq : ∀ i, i < 3 → h.binning.center i = some (centers i) := by
  intro i hi; interval_cases i <;> decide +kernel

example : (h.getStats (fun x => x)).isOk ∧ (h'.getStats (fun x => x)).isOk := by decide +kernel

example (m d s : ℚ) (e : h.getStats (fun x => x) = .ok (m, d, s)) :=
  C69_mean_sigma (fun x => x) h centers 1 3 rfl rfl (by decide) (by decide) center_eq m d s e

example (m d s m' d' s' : ℚ) (e : h.getStats (fun x => x) = .ok (m, d, s)) (e' : h'.getStats (fun x => x) = .ok (m', d', s')) :=
  C23_stats_partial (fun x => x) h h' centers 1 3 rfl rfl rfl rfl rfl (by decide) rfl (by decide) center_eq (by decide +kernel)
    (by intro i h1 h2; interval_cases i <;> rfl) m d s m' d' s' e e'

example := C68_median_partial h edges 1 3 rfl rfl (by decide) (by decide) (by intro i hi; interval_cases i <;> decide +kernel)
  (by intro i hi; interval_cases i <;> decide +kernel) (by decide +kernel) (by decide +kernel)

end Alexandria.Histogram.Examples
