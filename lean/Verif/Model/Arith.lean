/-
Arithmetic on `double`.

The sources compute with `double`.  The model is written over any type with the
operations below; `Arith` has no laws, so whatever is proved for an arbitrary
instance also holds for IEEE arithmetic.  `X K` is the instance used for the
numerical theorems: exact arithmetic on an ordered field `K` together with the
IEEE special values.
-/
import Mathlib.Algebra.Order.Field.Basic
import Mathlib.Data.Rat.Cast.Defs

namespace Verif

/-- The operations of `double` used by the sources.
    Used at TracerTofSolver.cpp:53-72 and 309-424, DerivedQuantities.cpp:37-285,
    Toolbox.cpp:113-132 and 222-238, AssembledConnections.cpp:239-256. -/
class Arith (R : Type) where
  add : R → R → R
  sub : R → R → R
  mul : R → R → R
  div : R → R → R
  neg : R → R
  /-- `std::fabs` -/
  fabs : R → R
  /-- `<` -/
  lt : R → R → Bool
  /-- `<=` -/
  le : R → R → Bool
  /-- `==` -/
  eq : R → R → Bool
  /-- `std::numeric_limits<double>::infinity()` -/
  inf : R
  /-- a floating-point literal of the given value -/
  lit : Rat → R

namespace Arith
variable {R : Type} [Arith R]

/-- literal `0.0`.
    For example TracerTofSolver.cpp:43, DerivedQuantities.cpp:45, Toolbox.cpp:123. -/
def zero : R := lit 0

/-- `std::max(a, b)` : `(a < b) ? b : a`.  TracerTofSolver.cpp:417-420. -/
def max (a b : R) : R := if lt a b then b else a

/-- `std::min(a, b)` : `(b < a) ? b : a`.  TracerTofSolver.cpp:324. -/
def min (a b : R) : R := if lt b a then b else a

end Arith

/-- An ordered field with the IEEE special values; finite arithmetic is exact.
    One of the interpretations of `double`, see `Arith`.  Infinity enters at TracerTofSolver.cpp:337. -/
inductive X (K : Type) where
  | fin (k : K)
  | pinf
  | ninf
  | nan
  deriving DecidableEq, Repr

namespace X
variable {K : Type} [Field K] [LinearOrder K]

/-- `-x`, Toolbox.cpp:127-128 and 235-236. -/
def neg : X K → X K
  | fin a => fin (-a)
  | pinf => ninf
  | ninf => pinf
  | nan => nan

/-- `x + y`, TracerTofSolver.cpp:339-355 and 375. -/
def add : X K → X K → X K
  | fin a, fin b => fin (a + b)
  | nan, _ => nan
  | _, nan => nan
  | pinf, ninf => nan
  | ninf, pinf => nan
  | pinf, _ => pinf
  | ninf, _ => ninf
  | fin _, pinf => pinf
  | fin _, ninf => ninf

/-- `x - y`, TracerTofSolver.cpp:417-419, DerivedQuantities.cpp:154-157. -/
def sub (x y : X K) : X K := add x (neg y)

/-- infinity with the sign of `a`; `NaN` for `a = 0`.
    Products and quotients in TracerTofSolver.cpp:347-348 and 370-389. -/
def infSign (a : K) : X K := if 0 < a then pinf else if a < 0 then ninf else nan

/-- `x * y`, TracerTofSolver.cpp:347-348 and 375-376. -/
def mul : X K → X K → X K
  | fin a, fin b => fin (a * b)
  | nan, _ => nan
  | _, nan => nan
  | fin a, pinf => infSign a
  | fin a, ninf => infSign (-a)
  | pinf, fin b => infSign b
  | ninf, fin b => infSign (-b)
  | pinf, pinf => pinf
  | pinf, ninf => ninf
  | ninf, pinf => ninf
  | ninf, ninf => pinf

/-- Division.  A zero divisor counts as `+0.0` (there is one zero).
    `x / y`, TracerTofSolver.cpp:370, 375-376 and 389, DerivedQuantities.cpp:54 and 122. -/
def div : X K → X K → X K
  | fin a, fin b => if b = 0 then infSign a else fin (a / b)
  | nan, _ => nan
  | _, nan => nan
  | fin _, pinf => fin 0
  | fin _, ninf => fin 0
  | pinf, fin b => if 0 ≤ b then pinf else ninf
  | ninf, fin b => if 0 ≤ b then ninf else pinf
  | _, _ => nan

/-- `std::fabs(x)`, TracerTofSolver.cpp:417-419. -/
def fabs : X K → X K
  | fin a => fin (if a < 0 then -a else a)
  | pinf => pinf
  | ninf => pinf
  | nan => nan

/-- `x < y`, TracerTofSolver.cpp:287, 324. -/
def lt : X K → X K → Bool
  | fin a, fin b => decide (a < b)
  | nan, _ => false
  | _, nan => false
  | ninf, ninf => false
  | ninf, _ => true
  | _, ninf => false
  | pinf, _ => false
  | fin _, pinf => true

/-- `x == y`, TracerTofSolver.cpp:336, 365, 418. -/
def eq : X K → X K → Bool
  | fin a, fin b => decide (a = b)
  | pinf, pinf => true
  | ninf, ninf => true
  | _, _ => false

/-- `x <= y`, TracerTofSolver.cpp:152. -/
def le (x y : X K) : Bool := lt x y || eq x y

/-- The operations together, as used at TracerTofSolver.cpp:332-392. -/
instance : Arith (X K) where
  add := add
  sub := sub
  mul := mul
  div := div
  neg := neg
  fabs := fabs
  lt := lt
  le := le
  eq := eq
  inf := pinf
  lit q := fin (q : K)

end X
end Verif
