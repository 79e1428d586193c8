/-
`BOOST_CHECK_CLOSE(x, y, 1.0e-10)`, in which the tolerance is a percentage: two numbers agree if their
difference is at most 1e-12 times the magnitude of each.  (So a number is close to zero only if it is zero.)
-/
import Verif.Model.Double

namespace Verif.Tests

/-- Both values are finite and agree. -/
def close (x : Double) (y : ℚ) : Bool :=
  match x.val with
  | .fin a => decide (|a - y| ≤ |a| / 10 ^ 12) && decide (|a - y| ≤ |y| / 10 ^ 12)
  | _ => false

/-- `check_is_close` of the test files: as many elements, and close ones. -/
def allClose : List Double → List ℚ → Bool
  | [], [] => true
  | x :: xs, y :: ys => close x y && allClose xs ys
  | _, _ => false

/-- The same for maps from cells to numbers, in the order of iteration. -/
def mapClose : List (Int × Double) → List (Int × ℚ) → Bool
  | [], [] => true
  | x :: xs, y :: ys => x.1 == y.1 && close x.2 y.2 && mapClose xs ys
  | _, _ => false

/-- A decimal literal in the source. -/
def d (x : ℚ) : Double := Arith.lit x

end Verif.Tests
