import Verif.SOM.Model
import Verif.MathUtils.ModesFloatModel

/-!
# Model of `SOM/SOM/_impl/UMatrix.icpp` on floating point numbers

The u-matrix for the arithmetic of `double`: the operations and comparisons are those of an `Arith` (rounded arithmetic on finite numbers, or the arithmetic with infinities
and NaN).  Operations are not contracted to fused ones.
-/

namespace Alexandria.SOM.FloatU

open MathUtils.FloatModes (Arith)

variable {F : Type} (A : Arith F)

/-- `L2::distance` without uncertainties (`Distance.h` 56-62); `root` is `std::sqrt`. -/
def l2 {nd : Nat} (root : F → F) (left right : Fin nd → F) : F :=
  root ((List.finRange nd).foldl (fun result i => A.add result (A.mul (A.sub (left i) (right i)) (A.sub (left i) (right i)))) A.zero)

/-- The reduction of the distances (`UMatrix.icpp` 34-39): dereferencing `min_element` or `max_element` of an empty vector is undefined, the division by its size is not;
`count` is the conversion of the size to `double`. -/
def reduceF (count : Nat → F) (t : UType) (l : List F) : Res F :=
  match t with
  | .min => match l with
    | [] => .ub
    | a :: as => .ok (as.foldl (fun b x => if A.lt x b = true then x else b) a)
  | .max => match l with
    | [] => .ub
    | a :: as => .ok (as.foldl (fun b x => if A.lt b x = true then x else b) a)
  | .mean => .ok (A.div (l.foldl A.add A.zero) (count l.length))

/-- The distances to the neighbours (`UMatrix.icpp` 59-74). -/
def distances {nd : Nat} (m : Map nd F) (dist : (Fin nd → F) → (Fin nd → F) → F) (w : Fin nd → F) : List (Nat × Nat) → Res (List F)
  | [] => .ok []
  | p :: ps => do
    let v ← m.at p.1 p.2
    let r ← distances m dist w ps
    return dist w v :: r

/-- A cell of the u-matrix (`UMatrix.icpp` 55-79). -/
def uCellF {nd : Nat} (count : Nat → F) (m : Map nd F) (dist : (Fin nd → F) → (Fin nd → F) → F) (t : UType) (x y : Nat) : Res F := do
  let w ← m.at x y
  let l ← distances m dist w (neighbours m.sx m.sy x y)
  reduceF A count t l

end Alexandria.SOM.FloatU
