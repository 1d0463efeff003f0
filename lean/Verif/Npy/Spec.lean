import Verif.Common.Strings
import Mathlib.Data.List.Infix

/-!
# Specification of npy files: which attribute names are safe, and what numpy itself writes
-/

namespace Alexandria.Npy.Spec

open Alexandria.Str

/-- A name that the header parser cannot mistake for something else. -/
structure SafeName (n : Bytes) : Prop where
  noQuote : '\'' ∉ n
  noBracket : ']' ∉ n
  noFortran : ¬ "fortran_order".toList <:+: n
  noShape : ¬ "shape".toList <:+: n

/-- The text of a Python tuple: `(3,)`, `(3, 4)`, `(2, 3, 4)`. -/
def pyTuple : List Nat → Bytes
  | [] => "()".toList
  | [n] => ['('] ++ showNat n ++ [',', ')']
  | l => ['('] ++ ", ".toList.intercalate (l.map showNat) ++ [')']

/-- The dictionary that numpy writes for an array of a plain type (of more than one byte; see `Npy/NumpySpec.lean` for the others). -/
def numpyDict (ty : Bytes) (shape : List Nat) : Bytes :=
  "{'descr': '<".toList ++ ty ++ "', 'fortran_order': False, 'shape': ".toList ++ pyTuple shape ++ ", }".toList

end Alexandria.Npy.Spec
