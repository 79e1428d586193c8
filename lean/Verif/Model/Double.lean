/-
`double`: IEEE 754 binary64 with rounding to nearest, ties to even.

The sources use no other floating-point type, do not change the rounding mode and do not read the exception flags.
There is one NaN: payloads and signs of NaNs are not modelled, and nothing in the sources can see them.
The operations are those of the standard, each rounded once (no extended precision, no contraction to fused operations).
-/
import Verif.Model.Arith
import Mathlib.Data.Int.Log
import Mathlib.Data.Rat.Floor

namespace Verif

/-- Significand and exponent of a finite number `m * 2^e`: normal numbers have 53 significant bits, subnormal numbers have
    the least exponent.  Part of the arithmetic at TracerTofSolver.cpp:332-424. -/
def IsDouble (m : Nat) (e : Int) : Prop :=
  m < 2 ^ 53 ∧ -1074 ≤ e ∧ e ≤ 971 ∧ (2 ^ 52 ≤ m ∨ e = -1074)

/-- Part of the arithmetic at TracerTofSolver.cpp:332-424. -/
instance (m : Nat) (e : Int) : Decidable (IsDouble m e) := by unfold IsDouble; infer_instance

/-- The values of type `double`; `neg` is the sign bit.
    Every `double` of TracerTofSolver.cpp:38-424 and DerivedQuantities.cpp:37-285. -/
inductive Double where
  | finite (neg : Bool) (m : Nat) (e : Int) (h : IsDouble m e)
  | infinite (neg : Bool)
  | nan

namespace Double

/-- A zero.  Part of the arithmetic at TracerTofSolver.cpp:332-424. -/
def zero (neg : Bool) : Double := finite neg 0 (-1074) (by decide)

/-- `x` with the sign given by the sign bit.  Part of the arithmetic at TracerTofSolver.cpp:332-424. -/
def signed (neg : Bool) (x : ℚ) : ℚ := if neg then -x else x

/-- The number a value stands for.  Part of the arithmetic at TracerTofSolver.cpp:332-424. -/
def val : Double → X ℚ
  | finite neg m e _ => X.fin (signed neg (m * 2 ^ e))
  | infinite neg => if neg then X.ninf else X.pinf
  | nan => X.nan

/-- The sign bit.  Part of the arithmetic at TracerTofSolver.cpp:332-424. -/
def sign : Double → Bool
  | finite neg _ _ _ => neg
  | infinite neg => neg
  | nan => false

/-- The integer next to `x`; of two, the even one.
    Part of the arithmetic at TracerTofSolver.cpp:332-424. -/
def roundEven (x : ℚ) : ℤ :=
  if x - ⌊x⌋ < 1 / 2 then ⌊x⌋
  else if 1 / 2 < x - ⌊x⌋ then ⌊x⌋ + 1
  else if ⌊x⌋ % 2 = 0 then ⌊x⌋ else ⌊x⌋ + 1

/-- Exponent of the last of the 53 bits of a number of magnitude `x`, or of the last bit of subnormal numbers.
    Part of the arithmetic at TracerTofSolver.cpp:332-424. -/
def expOf (x : ℚ) : ℤ := max (Int.log 2 x - 52) (-1074)

/-- The significand: `x` in units of the last bit, rounded.
    Part of the arithmetic at TracerTofSolver.cpp:332-424. -/
def sigOf (x : ℚ) : ℕ := (roundEven (x / 2 ^ expOf x)).toNat

/-- The finite number `m * 2^e`, or an infinity if it is too large.  `m` may have carried into a 54th bit.
    Part of the arithmetic at TracerTofSolver.cpp:332-424. -/
def make (neg : Bool) (m : Nat) (e : Int) : Double :=
  if h : IsDouble m e then finite neg m e h
  else if h : m = 2 ^ 53 ∧ IsDouble (2 ^ 52) (e + 1) then finite neg (2 ^ 52) (e + 1) h.2
  else infinite neg

/-- The result of an operation with sign `neg` and exact magnitude `x`.
    Part of the arithmetic at TracerTofSolver.cpp:332-424. -/
def round (neg : Bool) (x : ℚ) : Double := make neg (sigOf x) (expOf x)

/-- The result of an operation with exact value `x`, where `neg` is the sign if this is zero.
    Part of the arithmetic at TracerTofSolver.cpp:332-424. -/
def ofRat (neg : Bool) (x : ℚ) : Double := if x = 0 then zero neg else round (decide (x < 0)) |x|

/-- Negation.  `-x`, Toolbox.cpp:127-128 and 235-236. -/
def neg : Double → Double
  | finite s m e h => finite (!s) m e h
  | infinite s => infinite (!s)
  | nan => nan

/-- The absolute value.  `std::fabs(x)`, TracerTofSolver.cpp:417-419. -/
def fabs : Double → Double
  | finite _ m e h => finite false m e h
  | infinite _ => infinite false
  | nan => nan

/-- Sum.  A zero sum is negative if both summands are negative (zeros).
    `x + y`, TracerTofSolver.cpp:339-355 and 375; `x - y`, TracerTofSolver.cpp:417-419. -/
def add : Double → Double → Double
  | finite s m e _, finite t k f _ => ofRat (s && t) (signed s (m * 2 ^ e) + signed t (k * 2 ^ f))
  | nan, _ => nan
  | _, nan => nan
  | infinite s, infinite t => if s = t then infinite s else nan
  | infinite s, finite .. => infinite s
  | finite .., infinite t => infinite t

/-- Product.  `x * y`, TracerTofSolver.cpp:347-348 and 375-376. -/
def mul : Double → Double → Double
  | finite s m e _, finite t k f _ => ofRat (s ^^ t) (signed s (m * 2 ^ e) * signed t (k * 2 ^ f))
  | nan, _ => nan
  | _, nan => nan
  | infinite s, infinite t => infinite (s ^^ t)
  | infinite s, finite t k _ _ => if k = 0 then nan else infinite (s ^^ t)
  | finite s m _ _, infinite t => if m = 0 then nan else infinite (s ^^ t)

/-- Quotient.  `x / y`, TracerTofSolver.cpp:370, 375-376 and 389, DerivedQuantities.cpp:54 and 122. -/
def div : Double → Double → Double
  | finite s m e _, finite t k f _ =>
    if k = 0 then if m = 0 then nan else infinite (s ^^ t)
    else ofRat (s ^^ t) (signed s (m * 2 ^ e) / signed t (k * 2 ^ f))
  | nan, _ => nan
  | _, nan => nan
  | infinite _, infinite _ => nan
  | infinite s, finite t _ _ _ => infinite (s ^^ t)
  | finite s _ _ _, infinite t => zero (s ^^ t)

/-- Part of the arithmetic at TracerTofSolver.cpp:332-424. -/
instance : Arith Double where
  add := add
  sub a b := add a (neg b)
  mul := mul
  div := div
  neg := neg
  fabs := fabs
  lt a b := X.lt (val a) (val b)
  le a b := X.le (val a) (val b)
  eq a b := X.eq (val a) (val b)
  inf := infinite false
  lit q := ofRat false q

/-- Rounding of exact results, as numbers.  Part of the arithmetic at TracerTofSolver.cpp:332-424. -/
def rnd : X ℚ → X ℚ
  | X.fin x => val (ofRat false x)
  | y => y

end Double
end Verif
