import Mathlib.Algebra.Order.Field.Basic
import Mathlib.Algebra.BigOperators.Intervals

/-!
# Specification for histograms
-/

namespace Alexandria.Histogram.Spec

open Classical

/-- `v` lies in bin `i` of `nbins` bins with the given edges: closed on the left, open on the right, except that the last bin is
closed. -/
def InBin {V : Type} [LinearOrder V] (edge : Nat → Option V) (nbins i : Nat) (v : V) : Prop :=
  ∃ lo hi, edge i = some lo ∧ edge (i + 1) = some hi ∧ lo ≤ v ∧ (v < hi ∨ (i + 1 = nbins ∧ v = hi))

/-- The total weight of the data whose value satisfies `p`. -/
noncomputable def weightWhere {V W : Type} [AddCommMonoid W] (p : V → Prop) (data : List (V × W)) : W :=
  ((data.filter fun d => decide (p d.1)).map Prod.snd).sum

/-- The weight below `x` if the content of each bin is spread evenly over the bin. -/
def weightBelow {K : Type} [Field K] [LinearOrder K] (edges counts : List K) (x : K) : K :=
  ∑ i ∈ Finset.range counts.length,
    counts.getD i 0 * max 0 (min 1 ((x - edges.getD i 0) / (edges.getD (i + 1) 0 - edges.getD i 0)))

end Alexandria.Histogram.Spec
