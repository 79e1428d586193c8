/-
The text that `operator<<` writes: `os << cell << ' ' << conn.neighbour << ' ' << conn.weight << '\n'`
(AssembledConnections.cpp:478), as the standard library formats it: `std::num_put` in the "C" locale prints an `int` as
`printf` does with `%d` and a `double` with `std::ios_base::scientific` as with `%.*e`, the precision being that of the stream.
Decimal digits are rounded to nearest, ties to even, as in glibc.

Simplified: field width is 0 (as it is after every output) and the locale is "C".  Only the formats listed in `plainFlags` have a text here.
-/
import Verif.Model.AssembledConnections
import Verif.Model.Double
import Mathlib.Data.Nat.Digits.Defs

namespace Verif.Text

/-- Decimal digits.  `os << cell`, AssembledConnections.cpp:478. -/
def natText (n : Nat) : List Char := if n = 0 then ['0'] else ((Nat.digits 10 n).map Nat.digitChar).reverse

/-- `%d`.  `os << cell` and `os << conn.neighbour`, AssembledConnections.cpp:478. -/
def intText (i : Int) : List Char := if i < 0 then '-' :: natText i.natAbs else natText i.natAbs

/-- At least two digits, as exponents are printed.  `os << conn.weight`, AssembledConnections.cpp:478. -/
def twoDigits (n : Nat) : List Char := if n < 10 then '0' :: natText n else natText n

/-- The number `d` with `p + 1` digits and the exponent `E` such that `d * 10^(E - p)` is nearest to `x`, which is positive.
    `os << conn.weight`, AssembledConnections.cpp:478. -/
def decimalOf (p : Nat) (x : ℚ) : Nat × Int :=
  let E := Int.log 10 x
  let d := (Double.roundEven (x / 10 ^ (E - p))).toNat
  if d = 10 ^ (p + 1) then (10 ^ p, E + 1) else (d, E)

/-- `%.*e` of a number that is not negative, with `p > 0` digits after the point.
    `os << conn.weight`, AssembledConnections.cpp:478. -/
def magnitudeText (p : Nat) (x : ℚ) : List Char :=
  if x = 0 then '0' :: '.' :: List.replicate p '0' ++ ['e', '+', '0', '0'] else
  let t := decimalOf p x
  let s := natText t.1
  s.take 1 ++ '.' :: s.drop 1 ++ 'e' :: (if t.2 < 0 then '-' else '+') :: twoDigits t.2.natAbs

/-- A sign.  `os << conn.weight`, AssembledConnections.cpp:478. -/
def signText (neg : Bool) : List Char := if neg then ['-'] else []

/-- `%.*e`.  `os << conn.weight`, AssembledConnections.cpp:478. -/
def doubleText (p : Nat) : Double → List Char
  | .finite neg m e _ => signText neg ++ magnitudeText p (m * 2 ^ e)
  | .infinite neg => signText neg ++ ['i', 'n', 'f']
  | .nan => ['n', 'a', 'n']

/-- Format flags with which numbers are printed as above (libstdc++): `scientific` (bit 8) is set and none of `fixed` (2), `hex` (3),
    `oct` (6), `showpos` (11) and `uppercase` (14).  With both `fixed` and `scientific` the format is hexadecimal.
    AssembledConnections.cpp:471 and 478. -/
def plainFlags (flags : Nat) : Bool :=
  flags.testBit 8 && !flags.testBit 2 && !flags.testBit 3 && !flags.testBit 6 && !flags.testBit 11 && !flags.testBit 14

/-- One line, with the precision and the flags in force when it was written.  AssembledConnections.cpp:478. -/
def lineText (l : Int × Int × Double × Int × Nat) : Option (List Char) :=
  if 0 < l.2.2.2.1 ∧ plainFlags l.2.2.2.2 then
    some (intText l.1 ++ ' ' :: intText l.2.1 ++ ' ' :: doubleText l.2.2.2.1.toNat l.2.2.1 ++ ['\n'])
  else none

/-- All lines written to a stream, one after the other.  AssembledConnections.cpp:475-480. -/
def linesText : List (Int × Int × Double × Int × Nat) → Option (List Char)
  | [] => some []
  | l :: ls => do
    let s ← lineText l
    let t ← linesText ls
    pure (s ++ t)

end Verif.Text
