import Verif.MathUtils.GridApproxProps
import Verif.MathUtils.GridInterpProps
import Verif.MathUtils.GridRoundProps
import Verif.MathUtils.ModesProps
import Verif.MathUtils.ModesFloatProps
import Verif.MathUtils.MulExactProps
import Verif.MathUtils.MulProps
import Verif.MathUtils.NumericProps
import Verif.MathUtils.NumericRoundProps
import Verif.MathUtils.PiecewiseProps

/-! # Cases that meet all hypotheses of the theorems: grids, modes and products -/

namespace Alexandria.MathUtils.Examples2

open Alexandria.NdArray (Heap Nd)

/-- Rounding to `double`. -/
def R : Rounding ℚ := Binary.rounding 53 (by decide)

theorem pos (v : ℚ) (hv : 0 < v) : 0 < R.rnd v := by
  show 0 < Binary.rnd 53 v
  rw [Binary.rnd_of_pos hv]; exact Binary.rndPos_pos (by decide) hv

/-! ## A grid with a continuous and a discrete axis -/

def heap : Heap ℚ := [[1, 2, 3, 4, 5, 6]]
def nd : Nd := ⟨0, 0, [2, 3], [3, 1], [], 6⟩
def axes : List (Axis ℚ String) := [Axis.cont [0, 1, 3], Axis.disc ["a", "b"]]

theorem setup : Spec.Setup [] heap [2, 3] [1, 2, 3, 4, 5, 6] nd axes := by
  refine ⟨rfl, by decide, by simp [axes], ?_, rfl⟩
  intro ax hax
  simp only [axes, List.mem_cons, List.not_mem_nil, or_false] at hax
  rcases hax with rfl | rfl
  · exact ⟨by simp, by decide +kernel⟩
  · exact ⟨by simp, by decide⟩

def interp : Interp ℚ String := match build heap axes nd with | .ok I => I | _ => .last (.disc []) []

theorem built : build heap axes nd = .ok interp := rfl

example := C37_node _ _ _ _ _ _ setup
example : Spec.AtNode axes [2, 1] [.inl 3, .inr "b"] := by
  first | exact ⟨rfl, rfl⟩ | (simp [axes]; done) | exact .cons rfl (.cons rfl .nil)
example := C37_returns _ _ _ _ _ _ setup interp built false [.inl 2, .inr "a"] (.cons (by trivial) (.cons (show "a" ∈ ["a", "b"] by decide) .nil))
example := C37_affine _ _ _ _ _ [] [0, 1, 3] [Axis.disc ["a", "b"]] setup interp built false [] [.inr "a"] .nil (.cons (show "a" ∈ ["a", "b"] by decide) .nil) 1 1 3 2 rfl rfl (.inl (by norm_num)) (.inl (by norm_num))
example := C37_outside _ _ _ _ _ _ setup interp built [.inl 4, .inr "a"] (.cons (by trivial) (.cons (show "a" ∈ ["a", "b"] by decide) .nil)) 0 [0, 1, 3] 4 rfl rfl (.inr (by decide +kernel))
example := C37_decreasing heap [0, 3, 1] (Axis.disc ["a", "b"]) [] nd 1 3 1 rfl rfl (by norm_num)
example := C37_interpn (D := String) [] heap [2, 3] [1, 2, 3, 4, 5, 6] nd [[0, 1], [0, 1, 3]] rfl (by decide) (by simp) (by decide +kernel) rfl
example := C37_unknown false ["a", "b"] [1, (2 : ℚ)] [] [] "c" (by decide)
example := C143_range _ _ _ _ _ _ setup interp built false [.inl 2, .inr "a"]
example := C149_outside R pos _ _ _ _ _ _ setup interp built [.inl 4, .inr "a"] (.cons (by trivial) (.cons (show "a" ∈ ["a", "b"] by decide) .nil)) ⟨0, [0, 1, 3], 4, rfl, rfl, .inr (by decide +kernel)⟩

/-! ## Modes -/

def xs : List ℚ := [0, 1, 2, 3, 4, 5, 6, 7]
def ys : List ℚ := [0, 5, 0, 3, 4, 3, 1, 0]

example := C40_catchPeak ys 4 (1 / 2) (by decide)
example := C40_highest xs ys rfl (by decide) (by decide +kernel) 0 3
example := C40_biggest_partial xs ys rfl (by decide) (by decide +kernel) 0 2 (by decide) 9 (by decide)
example : ∃ hs later : List (ModeInfo ℚ), highestModes xs 0 (hs ++ later).length ys = .ok (hs ++ later) ∧ hs.length = 1 ∧ later.length = 1 := by
  obtain ⟨ms, peaks, h1, h2, -⟩ := C40_highest xs ys rfl (by decide) (by decide +kernel) 0 2
  match ms, h2 with
  | [a, b], _ => exact ⟨[a], [b], h1, rfl, rfl⟩
example := C40_vertex xs [0, 1, 4, 9, 0, 0, 0, 0] 2 (by decide) (by decide) rfl (by decide +kernel) (by decide +kernel) 1 0 0 one_ne_zero
  (by intro j h1 h2; interval_cases j <;> decide +kernel) (by decide +kernel)
example := C40_flat xs [0, 1, 2, 3, 0, 0, 0, 0] 2 (by decide) (by decide) rfl (by decide +kernel) 1 0
  (by intro j h1 h2; interval_cases j <;> decide +kernel)
example := FloatModes.C173_biggest (FloatModes.Arith.rounded R) xs ys rfl (by decide) 0 2 (by decide) 9 (by decide)
example := FloatModes.C173_nan R Binary.doubleMax [.fin 0, .fin 1, .fin 2, .fin 3] [.fin 1, .fin 4, .nan, .fin 1] rfl (by decide) (.inr (by simp)) (.fin 0) 1 (by decide) 5 (by decide)
example := FloatModes.C173_order R xs ys rfl (by decide) (by decide +kernel) 0 3

/-! ## Products -/

theorem overlap : Spec.Overlap [(0 : ℚ), 1, 2] [-1, 1, 3] 0 2 := ⟨⟨0, -1, rfl, rfl, by decide +kernel⟩, 2, 3, rfl, rfl, by decide +kernel⟩

example := C33_knots_partial [(0 : ℚ), 1, 2] [-1, 1, 3] (by decide +kernel) (by decide +kernel) 0 2 overlap (by norm_num)
example := C33_knots_exact [(0 : ℚ), 1, 2] [-1, 1, 3] (by decide +kernel) (by decide +kernel) 0 2 overlap
example := C33_apart 0 [(0 : ℚ), 1] [.poly [1]] [1, 1, 2] [.poly [2], .poly [3]] _ _ rfl rfl 1 1
  ⟨⟨0, 1, rfl, rfl, by decide +kernel⟩, 1, 2, rfl, rfl, by decide +kernel⟩ le_rfl
example := C33_simple 0 (.poly [1, (2 : ℚ)]) (.poly [0, 0, 3]) (by simp [Spec.Simple]) (by simp [Spec.Simple])
example := C33_with_simple 0 [(0 : ℚ), 1, 2] [.poly [1], .poly [0, 1]] _ (.poly [3, 4]) rfl (by simp) (by simp [Spec.Simple]) (by simp [Spec.Simple])
example := C33_piecewise_partial 0 [(0 : ℚ), 1, 2] [.poly [1], .poly [0, 1]] [-1, 1, 3] [.poly [3], .poly [0, 4]] _ _ rfl rfl (by simp [Spec.Simple]) (by simp [Spec.Simple]) 0 2 overlap (by norm_num)

/-! ## Numbers and pieces -/

example := C41_refine (fun x : ℚ => x ^ 5) 0 2 3 le_rfl (by decide)
example := C94_cubic (1 : ℚ) 2 3 4 0 5 (1 / 100) (by norm_num) 4 (by decide) (by decide)
example := C95_step R.rnd (fun x => x + 1 / 2 ^ 20) R.mono (by decide +kernel) 0 3 le_rfl (by decide +kernel) (by decide +kernel)
example := C95_exact (1 : ℚ) 2 3 4 5 (1 / 2) (by norm_num)
example := C134_direct (R := R) (by positivity : (0 : ℚ) ≤ (1 / 2) ^ 53) (fun x => (Binary.rnd_err 53 x).trans (le_of_eq (mul_comm _ _))) (fun x => x ^ 5) 0 (1 / 3) 4 (by decide) (by decide)
example := C32_eval [(0 : ℚ), 1, 3] [.poly [1], .poly [0, 1]] _ rfl 2
example := C32_cases [(0 : ℚ), 1, 3] [.poly [1], .poly [0, 1]] _ rfl (by simp) 2
example := C32_antisymmetric [(0 : ℚ), 1, 3] [.poly [1], .poly [0, 1]] _ rfl (-1) 2 (5 / 2) (by decide +kernel)

end Alexandria.MathUtils.Examples2
