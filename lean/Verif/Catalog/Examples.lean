import Verif.Catalog.CatProps
import Verif.Catalog.PhotProps
import Verif.Catalog.RowProps

/-! # Cases that meet all hypotheses of the theorems about catalogs -/

namespace Alexandria.Catalog.Examples

open Alexandria.Str Alexandria.Table

example := C52_transitive_partial (⟨.num 2, .num 3, true, false⟩ : FluxError ℚ) ⟨.num 1, .num 1, true, false⟩ ⟨.num 5, .num 0, true, true⟩ (by decide +kernel) (by decide +kernel) (fun _ => rfl)

example (conv : Conv Unit Nat) := C101_pdf conv [("p".toList, "col".toList)] ⟨[.vec .f64 [4, 5]], [⟨"col".toList, .vec .f64, [], []⟩]⟩ [("p".toList, [true, false])] (by decide) _ rfl
  "p".toList [true, false] (by decide)

/-- A magnitude with a negative error, which is an upper limit. -/
example := C51_magnitude_sign exLib exSettings (.num 3) (.num (-2)) _ _ 1 2 rfl (by decide +kernel) rfl (by decide +kernel) (by decide +kernel) (by decide +kernel) rfl

/-- The first filter as a magnitude, the second as a flux. -/
example := C51_photometry_partial exConv exLib exInfo exMapping exSettings [("a".toList, .num 2), ("b".toList, .num 4)] [("a".toList, true), ("b".toList, false)] _ rfl (by decide) rfl rfl
  (by simp) (exRow (.num 8) (.num 1) (.num 6) (.num 5)) (by
    intro name f e thr c i j fe h1 h2 h3 h4 h5 ⟨a, b, x, y, ha, hb, hx, hy, ho⟩
    simp only [exMapping, List.mem_cons, List.not_mem_nil, or_false, Prod.mk.injEq] at h1 h3
    rw [observed_iff] at ho
    rcases h1 with ⟨rfl, rfl, rfl⟩ | ⟨rfl, rfl, rfl⟩
    · cases h4; cases h5; cases ha; cases hb; cases hx; cases hy
      subst ho
      rcases h3 with ⟨_, rfl⟩ | ⟨_, rfl⟩ <;> dsimp only <;> first | (rw [if_pos rfl]; decide +kernel) | (rw [if_neg (by simp)]; decide +kernel)
    · cases h4; cases h5; cases ha; cases hb; cases hx; cases hy
      subst ho
      rcases h3 with ⟨_, rfl⟩ | ⟨_, rfl⟩ <;> dsimp only <;> first | (rw [if_pos rfl]; decide +kernel) | (rw [if_neg (by simp)]; decide +kernel))

end Alexandria.Catalog.Examples
