import Verif.Table.AsciiModel

/-!
# Model of `CastVisitor`

`Table/Table/CastVisitor.h`. Floating point conversions and `strtod`, `strtof` are parameters.
-/

namespace Alexandria.Table

open Alexandria.Str

variable {F D : Type}

/-- The floating point conversions of the language and of the C library; `strtof` and `strtod` give nothing if no number begins the text, `hugeF` and `hugeD` tell the two infinities. -/
structure Conv (F D : Type) where
  f32OfInt : Int → F
  f64OfInt : Int → D
  widen : F → D
  strtof : Bytes → Option F
  strtod : Bytes → Option D
  hugeF : F → Bool
  hugeD : D → Bool

/-- The text seen through `c_str()`. -/
def cstr (s : Bytes) : Bytes := s.takeWhile fun c => c ≠ '\x00'

/-- A sign. -/
def signOf : Bytes → Bool × Bytes
  | '-' :: t => (true, t)
  | '+' :: t => (false, t)
  | t => (false, t)

/-- `std::strtoll` in base 10: spaces, a sign and digits, limited to the range of the type; `none` if there are no digits. -/
def strtoll (s : Bytes) : Option Int :=
  let t := signOf (s.dropWhile isSpace)
  match digits? (t.2.takeWhile Char.isDigit) with
  | none => none
  | some n => some (if t.1 then max (-2 ^ 63) (-(n : Int)) else min (2 ^ 63 - 1) (n : Int))

/-- A boolean as a number. -/
def ofBool (b : Bool) : Int := if b then 1 else 0

/-- `CastVisitor<T>` for `bool` (`CastVisitor.h` 40-53), `double` (67-97), `float` (99-130), `int64_t` (132-159) and `int32_t` (161-192). -/
def castScalar (conv : Conv F D) : (t : Scalar) → Cell F D → Res (Val F D t)
  | .bool, .scalar .bool v => .ok v
  | .bool, _ => .throw .elements
  | .f64, .scalar .bool v => .ok (conv.f64OfInt (ofBool v))
  | .f64, .scalar .i32 v => .ok (conv.f64OfInt (Int32.toInt v))
  | .f64, .scalar .i64 v => .ok (conv.f64OfInt (Int64.toInt v))
  | .f64, .scalar .f32 v => .ok (conv.widen v)
  | .f64, .scalar .f64 v => .ok v
  | .f64, .str s => match conv.strtod (cstr s) with
    | none => .throw .elements
    | some v => if conv.hugeD v then .throw .elements else .ok v
  | .f64, _ => .throw .elements
  | .f32, .scalar .bool v => .ok (conv.f32OfInt (ofBool v))
  | .f32, .scalar .i32 v => .ok (conv.f32OfInt (Int32.toInt v))
  | .f32, .scalar .i64 v => .ok (conv.f32OfInt (Int64.toInt v))
  | .f32, .scalar .f32 v => .ok v
  | .f32, .str s => match conv.strtof (cstr s) with
    | none => .throw .elements
    | some v => if conv.hugeF v then .throw .elements else .ok v
  | .f32, _ => .throw .elements
  | .i64, .scalar .bool v => .ok (Int64.ofInt (ofBool v))
  | .i64, .scalar .i32 v => .ok (Int32.toInt64 v)
  | .i64, .scalar .i64 v => .ok v
  | .i64, .str s => match strtoll (cstr s) with
    | none => .throw .elements
    | some v => .ok (Int64.ofInt v)
  | .i64, _ => .throw .elements
  | .i32, .scalar .bool v => .ok (Int32.ofInt (ofBool v))
  | .i32, .scalar .i32 v => .ok v
  | .i32, .str s => match strtoll (cstr s) with
    | none => .throw .elements
    | some v => if v > 2 ^ 31 - 1 ∨ v < -2 ^ 31 then .throw .elements else .ok (Int32.ofInt v)
  | .i32, _ => .throw .elements

/-- The loops of `CastVisitor<std::vector<T>>` (`CastVisitor.h` 208-210, 218-220). -/
def castLoop (conv : Conv F D) (t : Scalar) : List (Cell F D) → Res (List (Val F D t))
  | [] => .ok []
  | c :: cs => do
    let v ← castScalar conv t c
    let vs ← castLoop conv t cs
    return v :: vs

/-- `CastVisitor<std::vector<T>>` (`CastVisitor.h` 194-228); the elements of a constant `std::vector<bool>` are of type `bool`. -/
def castVec (conv : Conv F D) (t : Scalar) : Cell F D → Res (List (Val F D t))
  | .vec s v => if h : s = t then .ok (h ▸ v) else castLoop conv t (v.map (.scalar s))
  | .str s => castLoop conv t ((commaTokens s).map .str)
  | c => do
    let v ← castScalar conv t c
    return [v]

/-- `CastVisitor<std::string>` (`CastVisitor.h` 55-65): the output of a cell to a stream, which is that of `printCell` except for strings. -/
def castStr (fmt : Fmt F D) : Cell F D → Res Bytes
  | .str s => .ok s
  | c => printCell fmt c

/-- `boost::apply_visitor(CastVisitor<T>{}, cell)` for the type `T` given. -/
def castTo (conv : Conv F D) (fmt : Fmt F D) (t : CType) (c : Cell F D) : Res (Cell F D) :=
  match t with
  | .scalar t => do
    let v ← castScalar conv t c
    return .scalar t v
  | .vec t => do
    let v ← castVec conv t c
    return .vec t v
  | .str => do
    let s ← castStr fmt c
    return .str s
  | .nd _ | .other _ => if c.type = t then .ok c else .throw .elements

end Alexandria.Table
