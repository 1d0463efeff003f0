import Verif.Common.Binary
import Verif.Common.Strings

/-!
# Floating point numbers as text

The standard library that the code uses: `stream << x` with the default format, which is `%g` with a precision of `n` digits (6 by default), and
`boost::lexical_cast` to a floating point type of `p` bits.

Numbers are rational. Infinities, NaN and the sign of zero are not modelled. The exponent is unbounded as in `Binary`.
-/

namespace Alexandria.FloatText

open Alexandria.Str

/-- The digits and the decimal exponent of a positive number, rounded to `n` digits (ties to even): `(m, e)` stands for `m * 10 ^ (e + 1 - n)`. -/
def sig (n : Nat) (x : Rat) : Nat × Int :=
  let e := Int.log 10 x
  let m := (Binary.toInt (x * 10 ^ ((n : Int) - 1 - e))).toNat
  if m = 10 ^ n then (10 ^ (n - 1), e + 1) else (m, e)

/-- `%g` removes the zeros at the end of the fraction. -/
def strip (s : Bytes) : Bytes := (s.reverse.dropWhile fun c => c == '0').reverse

/-- There is no point without a fraction. -/
def withFraction (ip fp : Bytes) : Bytes := ip ++ if fp = [] then [] else '.' :: fp

/-- The exponent has a sign and at least two digits. -/
def expText (e : Int) : Bytes :=
  (if e < 0 then '-' else '+') :: ((if e.natAbs < 10 then ['0'] else []) ++ showNat e.natAbs)

/-- `m * 10 ^ (e + 1 - n)` where `m` has `n` digits: without an exponent if `-4 ≤ e < n`. -/
def posText (n m : Nat) (e : Int) : Bytes :=
  let ds := showNat m
  if -4 ≤ e ∧ e < n then
    if 0 ≤ e then withFraction (ds.take (e.toNat + 1)) (strip (ds.drop (e.toNat + 1)))
    else withFraction ['0'] (List.replicate (e.natAbs - 1) '0' ++ strip ds)
  else withFraction (ds.take 1) (strip (ds.drop 1)) ++ 'e' :: expText e

/-- `stream << x` with a precision of `n` digits. -/
def print (n : Nat) (x : Rat) : Bytes :=
  if x = 0 then ['0']
  else if x < 0 then '-' :: posText n (sig n (-x)).1 (sig n (-x)).2
  else posText n (sig n x).1 (sig n x).2

/-- An integer with an optional sign. -/
def exponent? : Bytes → Option Int
  | '-' :: t => (digits? t).map fun (k : Nat) => -(k : Int)
  | '+' :: t => (digits? t).map fun (k : Nat) => (k : Int)
  | t => (digits? t).map fun (k : Nat) => (k : Int)

/-- A text without an exponent: digits, of which some can follow a point. -/
def mantissa? (s : Bytes) : Option (Nat × Nat) :=
  let fp := (s.dropWhile fun c => c != '.').drop 1
  (digits? ((s.takeWhile fun c => c != '.') ++ fp)).map fun k => (k, fp.length)

def isExp (c : Char) : Bool := c == 'e' || c == 'E'

/-- The value of a decimal text without a sign. -/
def unsigned? (s : Bytes) : Option Rat :=
  match mantissa? (s.takeWhile fun c => !isExp c) with
  | none => none
  | some (k, l) =>
    match s.dropWhile fun c => !isExp c with
    | [] => some ((k : Rat) * 10 ^ (-(l : Int)))
    | _ :: t => (exponent? t).map fun e => (k : Rat) * 10 ^ (e - (l : Int))

/-- The value of a decimal text. -/
def decimal? : Bytes → Option Rat
  | '-' :: t => (unsigned? t).map fun v => -v
  | '+' :: t => unsigned? t
  | t => unsigned? t

/-- `boost::lexical_cast` to a floating point type of `p` bits, for decimal texts: the nearest number. Hexadecimal texts, infinities and NaN are not modelled. -/
def parse (p : Nat) (s : Bytes) : Option Rat := (decimal? s).map (Binary.rnd p)

example : print 6 (1 / 2) = "0.5".toList := by decide +kernel
example : print 6 1234567 = "1.23457e+06".toList := by decide +kernel
example : print 6 (-123456) = "-123456".toList := by decide +kernel
example : print 6 (9999996 / 10) = "1e+06".toList := by decide +kernel
example : print 6 (1 / 8192) = "0.00012207".toList := by decide +kernel
example : print 6 (1 / 65536) = "1.52588e-05".toList := by decide +kernel
example : print 6 (2469135 / 2) = "1.23457e+06".toList := by decide +kernel
example : print 6 (5 / 2) = "2.5".toList := by decide +kernel
example : decimal? "-12.50e-3".toList = some (-1 / 80) := by decide +kernel
example : decimal? "12x".toList = none := by decide +kernel

end Alexandria.FloatText
