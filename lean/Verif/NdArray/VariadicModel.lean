import Verif.NdArray.Model

/-!
# Model of the members of `NdArray` that take coordinates and dimensions one by one

`at(i, rest...)` and `reshape(i, rest...)` (`NdArray.icpp` 235-240, 266-278) gather their arguments in a vector with the recursive helpers
`at_helper` and `reshape_helper` (450-489). Calls without any argument do not compile, so that the first argument is given apart here.
-/

namespace Alexandria.NdArray

variable {T : Type}

/-- `at_helper` (`NdArray.icpp` 450-465, and for constant arrays 467-477): `acc` are the coordinates gathered so far, `rest` those to come and `attr` the name that may follow
them (for an array that is not constant). -/
def atHelper (h : Heap T) (a : Nd) (acc : List Nat) (attr : Option String) : List Nat → Res T
  | i :: rest => atHelper h a (acc ++ [i]) attr rest
  | [] => match attr with
    | none => at' h a acc
    | some name => atAttr h a acc name

/-- `at(i, rest...)` and `at(i, rest..., attr)` (`NdArray.icpp` 266-278). -/
def atArgs (h : Heap T) (a : Nd) (i : Nat) (rest : List Nat) (attr : Option String) : Res T := atHelper h a [i] attr rest

/-- `reshape_helper` (`NdArray.icpp` 479-489). -/
def reshapeHelper (a : Nd) (acc : List Nat) : List Nat → Res Nd
  | i :: rest => reshapeHelper a (acc ++ [i]) rest
  | [] => reshape a acc

/-- `reshape(i, rest...)` (`NdArray.icpp` 235-240). -/
def reshapeArgs (a : Nd) (i : Nat) (rest : List Nat) : Res Nd := reshapeHelper a [i] rest

end Alexandria.NdArray
