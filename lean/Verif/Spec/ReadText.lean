/-
Reading a list of connections from text: one line `row column weight` for each.
-/
import Verif.Model.Double

namespace Verif.Spec

/-- A number from its decimal digits. -/
def readNat (s : List Char) : Option Nat :=
  if s ≠ [] ∧ s.all Char.isDigit then some (s.foldl (fun n c => 10 * n + (c.toNat - '0'.toNat)) 0) else none

/-- The same, after a sign if there is one. -/
def readInt : List Char → Option Int
  | '-' :: s => (readNat s).map fun n => -(n : Int)
  | '+' :: s => (readNat s).map fun n => (n : Int)
  | s => (readNat s).map fun n => (n : Int)

/-- The value of `1.25e-03` and the like. -/
def readScientific (s : List Char) : Option ℚ :=
  match s.splitOn 'e' with
  | [mantissa, exponent] =>
    match mantissa.splitOn '.' with
    | [whole, fraction] => do
      let d ← readNat (whole ++ fraction)
      let E ← readInt exponent
      pure (d * 10 ^ (E - fraction.length))
    | _ => none
  | _ => none

/-- `strtod`: the `double` nearest to the number in the text. -/
def readUnsigned (neg : Bool) (s : List Char) : Option Double :=
  if s = ['i', 'n', 'f'] then some (.infinite neg)
  else (readScientific s).map fun x => Double.ofRat neg (Double.signed neg x)

/-- The same, after a sign if there is one. -/
def readDouble : List Char → Option Double
  | '-' :: s => readUnsigned true s
  | s => readUnsigned false s

/-- Row, column and weight. -/
def readLine (s : List Char) : Option (Int × Int × Double) :=
  match s.splitOn ' ' with
  | [row, column, weight] => do
    let i ← readInt row
    let j ← readInt column
    let w ← readDouble weight
    pure (i, j, w)
  | _ => none

/-- All connections in a text whose last line is complete. -/
def readConnections (s : List Char) : Option (List (Int × Int × Double)) :=
  let lines := s.splitOn '\n'
  if lines.getLast? = some [] then lines.dropLast.mapM readLine else none

end Verif.Spec
