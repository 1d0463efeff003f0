import Verif.Common.Strings

/-! # Specification for data sets and providers -/

namespace Alexandria.XYDataset.Spec

open Str

/-- A part of a qualified name: not empty, no slash. -/
def Part (s : Bytes) : Prop := s ≠ [] ∧ '/' ∉ s

/-- The text of a qualified name: the parts separated by slashes. -/
def text (groups : List Bytes) (name : Bytes) : Bytes := ['/'].intercalate (groups ++ [name])

/-- `core` is `s` without the slashes at both ends. -/
def Stripped (s core : Bytes) : Prop :=
  ∃ m n, s = List.replicate m '/' ++ core ++ List.replicate n '/' ∧ core.head? ≠ some '/' ∧ core.getLast? ≠ some '/'

end Alexandria.XYDataset.Spec
