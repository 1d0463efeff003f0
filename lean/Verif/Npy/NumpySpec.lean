import Verif.Npy.Spec

/-!
# What `numpy.save` writes

The dictionary of a file is the text of a Python dictionary with sorted keys; the type is either a string (`'<f8'`, `'|u1'`) or, for
structured arrays, a list of fields: a name, a type and, for fields that are arrays themselves, their shape.
-/

namespace Alexandria.Npy.Spec

open Alexandria.Str

/-- A type of numpy: `<`, `>` or `|`, and a code like `f8`. -/
structure PyType where
  order : Char
  code : Bytes
  deriving DecidableEq, Repr

/-- A field of a structured type.  `sub` is the shape of the field; it is empty for a number. -/
structure PyField where
  name : Bytes
  ty : PyType
  sub : List Nat := []
  deriving DecidableEq, Repr

inductive PyDescr where
  | plain (t : PyType)
  | record (fs : List PyField)
  deriving DecidableEq, Repr

def PyType.text (t : PyType) : Bytes := ['\''] ++ (t.order :: t.code) ++ ['\'']

def PyField.text (f : PyField) : Bytes :=
  "('".toList ++ f.name ++ "', ".toList ++ f.ty.text ++ (if f.sub = [] then [] else ", ".toList ++ pyTuple f.sub) ++ ")".toList

def PyDescr.text : PyDescr → Bytes
  | .plain t => t.text
  | .record fs => ['['] ++ ", ".toList.intercalate (fs.map PyField.text) ++ [']']

/-- A file written by `numpy.save`: format 1.0 (`short`) or 2.0, any padding. -/
structure Saved where
  short : Bool
  descr : PyDescr
  fortran : Bool
  shape : List Nat
  padding : Nat
  deriving DecidableEq, Repr

def Saved.dict (s : Saved) : Bytes :=
  "{'descr': ".toList ++ s.descr.text ++ ", 'fortran_order': ".toList ++ (if s.fortran then "True".toList else "False".toList) ++
    ", 'shape': ".toList ++ pyTuple s.shape ++ ", }".toList

def Saved.header (s : Saved) : Bytes := s.dict ++ List.replicate s.padding ' ' ++ ['\n']

/-- The `k`-th byte of a number. -/
def byteOf (n k : Nat) : Char := Char.ofNat (n / 256 ^ k % 256)

/-- The whole file, up to the data. -/
def Saved.start (s : Saved) : Bytes :=
  ['\x93', 'N', 'U', 'M', 'P', 'Y'] ++ (if s.short then ['\x01', '\x00'] else ['\x02', '\x00']) ++
    (if s.short then [byteOf s.header.length 0, byteOf s.header.length 1]
     else [byteOf s.header.length 0, byteOf s.header.length 1, byteOf s.header.length 2, byteOf s.header.length 3]) ++ s.header

/-- Types whose text cannot be mistaken for something else (all those of numpy with a code). -/
structure PyType.Safe (t : PyType) : Prop where
  order : t.order = '<' ∨ t.order = '>' ∨ t.order = '|'
  name : SafeName (t.order :: t.code)
  noParen : '(' ∉ t.order :: t.code
  code : t.code ≠ []

def PyDescr.Safe : PyDescr → Prop
  | .plain t => t.Safe
  | .record fs => ∀ f ∈ fs, SafeName f.name ∧ f.ty.Safe

/-- The numbers of a structured array that a reader without arrays in fields can see: those of the plain fields. -/
def scalars (fs : List PyField) : List PyField := fs.filter (·.sub = [])

end Alexandria.Npy.Spec
