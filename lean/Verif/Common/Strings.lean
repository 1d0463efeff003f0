/-!
# Byte strings and the library string functions used by several components

A `std::string` is a list of characters, one per byte (a byte is the `Char` with the same code).  The functions here model
library code (libstdc++ and Boost), not code of the repository.
-/

namespace Alexandria.Str

abbrev Bytes := List Char

/-- The index of the first occurrence of `pat` in `s`, counted from `i`. -/
def findAux (pat : Bytes) : Bytes → Nat → Option Nat
  | [], i => if pat.isPrefixOf [] then some i else none
  | c :: t, i => if pat.isPrefixOf (c :: t) then some i else findAux pat t (i + 1)

/-- `std::string::find(pat, pos)`; `none` is `npos`. -/
def find (pat s : Bytes) (pos : Nat := 0) : Option Nat :=
  if pos ≤ s.length then findAux pat (s.drop pos) pos else none

/-- The value of a position: `npos` is `2^64 - 1`. -/
def posVal (p : Option Nat) : Nat := p.getD (2 ^ 64 - 1)

/-- `isspace` in the "C" locale. -/
def isSpace (c : Char) : Bool := c == ' ' || (c.toNat ≥ 9 && c.toNat ≤ 13)

/-- `boost::trim`. -/
def trim (s : Bytes) : Bytes := ((s.dropWhile isSpace).reverse.dropWhile isSpace).reverse

/-- The loop of `boost::split` with `token_compress_on`: `cur` is the current token, reversed. -/
def splitGo (sep : Char → Bool) : Bytes → Bytes → Bool → List Bytes
  | [], cur, _ => [cur.reverse]
  | c :: t, cur, inSep =>
    if sep c then (if inSep then splitGo sep t [] true else cur.reverse :: splitGo sep t [] true)
    else splitGo sep t (c :: cur) false

/-- `boost::split(parts, s, sep, token_compress_on)`: a run of separators counts as one; the empty string gives one empty
token, and a leading or trailing run gives an empty token. -/
def splitCompress (sep : Char → Bool) (s : Bytes) : List Bytes := splitGo sep s [] false

/-- A non-empty list of decimal digits, as a number. -/
def digits? (s : Bytes) : Option Nat :=
  if s ≠ [] ∧ s.all Char.isDigit then some (Nat.ofDigitChars 10 s 0) else none

/-- `boost::lexical_cast<size_t>` (64 bit): an optional sign and digits; a minus sign negates modulo `2^64`; a number that
does not fit is rejected. -/
def lexSize (s : Bytes) : Option Nat :=
  match s with
  | '-' :: t => match digits? t with
    | some n => if n < 2 ^ 64 then some ((2 ^ 64 - n) % 2 ^ 64) else none
    | none => none
  | '+' :: t => match digits? t with
    | some n => if n < 2 ^ 64 then some n else none
    | none => none
  | t => match digits? t with
    | some n => if n < 2 ^ 64 then some n else none
    | none => none

/-- `stream << n` for an unsigned integer. -/
def showNat (n : Nat) : Bytes := Nat.toDigits 10 n

/-- Apply a conversion to all the elements of a list, failing if one fails. -/
def mapAll {α β : Type} (f : α → Option β) : List α → Option (List β)
  | [] => some []
  | a :: as => match f a, mapAll f as with
    | some b, some bs => some (b :: bs)
    | _, _ => none

/-- `stringToVector<size_t>` (`AlexandriaKernel/AlexandriaKernel/StringUtils.h` 43-55) with the default separators ", "; `none`
is the `Elements::Exception` of line 52. -/
def stringToSizes (s : Bytes) : Option (List Nat) :=
  mapAll lexSize (splitCompress (fun c => c == ',' || c == ' ') (trim s))

end Alexandria.Str
