/-
The cases of tests/test_assembledconnections.cpp, evaluated on the model: a check of the model, not a proof
about it.  The expected values are those in the file.
-/
import Verif.Model.AssembledConnections
import Verif.Tests.Close

namespace Verif.Tests.AssembledConnections
open Verif.AssembledConnections

abbrev Graph := Verif.AssembledConnections Double

/-- Unweighted connections. -/
def plain (es : List (Int × Int)) : Graph := es.foldl (fun g e => g.addConnection e.1 e.2) {}

/-- Weighted connections. -/
def weighted (es : List (Int × Int × ℚ)) : Graph := es.foldl (fun g e => g.addConnectionW e.1 e.2.1 (d e.2.2)) {}

/-- Number of rows, start pointers and neighbours after `compress(n)`. -/
def shape (g : Graph) (n : Nat) : Option (Nat × List Nat × List Int) :=
  match g.compress n with
  | .ok g => some (g.numRows, g.startPointers, g.neighbourhood)
  | _ => none

/-- The weights after `compress(n)` are close to the given ones. -/
def weightsClose (g : Graph) (n : Nat) (w : List ℚ) : Bool :=
  match g.compress n with
  | .ok g => allClose g.connectionWeight w
  | _ => false

/-- The number of connections, and their weights added up cell by cell. -/
def total (g : Graph) (n : Nat) : Res (Nat × Double) := do
  let g ← g.compress n
  forEach (List.range (g.startPointers.length - 1)) (0, d 0) fun s cell => do
    let cs ← g.cellNeighbourhood cell
    pure (cs.foldl (fun s c => (s.1 + 1, Arith.add s.2 c.2)) s)

def totalClose (g : Graph) (n num : Nat) (sum : ℚ) : Bool :=
  match total g n with
  | .ok s => s.1 == num && close s.2 sum
  | _ => false

def throws (e : Exc) (g : Graph) (n : Nat) : Bool :=
  match g.compress n with
  | .throw e' => decide (e = e')
  | _ => false

/-- Zero_To_One -/
example : shape (plain [(0, 1)]) 4 = some (4, [0, 1, 1, 1, 1], [1]) := by decide +kernel

/-- Zero_To_One_Two -/
example : shape (plain [(0, 2), (0, 1)]) 4 = some (4, [0, 2, 2, 2, 2], [1, 2]) := by decide +kernel

/-- Zero_To_One_Two_Duplicate -/
example : shape (plain [(0, 2), (0, 2), (0, 2), (0, 1), (0, 2), (0, 2), (0, 2), (0, 1), (0, 1), (0, 1)]) 4 =
    some (4, [0, 2, 2, 2, 2], [1, 2]) := by decide +kernel

/-- No_Out_Edge_From_High_Vertex -/
def highVertex : Graph := weighted [(0, 1, 1), (0, 2, 1), (1, 3, 1), (2, 3, 1)]
example : shape highVertex 4 = some (4, [0, 2, 3, 4, 4], [1, 2, 3, 3]) := by decide +kernel
example : weightsClose highVertex 4 [1, 1, 1, 1] = true := by decide +kernel

/-- Unexpected_Vertex_ID -/
example : throws .invalidArgument (plain [(0, 1), (0, 2), (1, 3), (3, 2)]) 3 = true := by decide +kernel

/-- Isolated_Node -/
example : shape (plain [(2, 0), (0, 2), (0, 0)]) 3 = some (3, [0, 2, 2, 3], [0, 2, 0]) := by decide +kernel

/-- All_To_All -/
example : shape (plain ((List.range 4).flatMap fun i => (List.range 4).map fun j => ((j : Int), (i : Int)))) 4 =
    some (4, [0, 4, 8, 12, 16], [0, 1, 2, 3, 0, 1, 2, 3, 0, 1, 2, 3, 0, 1, 2, 3]) := by decide +kernel

/-- All_To_All_Duplicate -/
example : shape (plain ((List.range 4).flatMap fun _ => (List.range 4).flatMap fun i => (List.range 4).flatMap fun j =>
      [((i : Int), (i : Int)), (i, j), (j, i), (j, j)])) 4 =
    some (4, [0, 4, 8, 12, 16], [0, 1, 2, 3, 0, 1, 2, 3, 0, 1, 2, 3, 0, 1, 2, 3]) := by decide +kernel

/-- Weighted_Graph_Single -/
def single : List (Int × Int × ℚ) := [(0, 2, 2 / 10), (0, 1, -1 / 10), (1, 3, 13), (2, 3, -23)]
example : shape (weighted single) 4 = some (4, [0, 2, 3, 4, 4], [1, 2, 3, 3]) := by decide +kernel
example : weightsClose (weighted single) 4 [-1 / 10, 2 / 10, 13, -23] = true := by decide +kernel
example : totalClose (weighted single) 4 4 (-99 / 10) = true := by decide +kernel

/-- Weighted_Graph_Multiple -/
def multiple : List (Int × Int × ℚ) := single ++ single ++ single ++ single
example : shape (weighted multiple) 4 = some (4, [0, 2, 3, 4, 4], [1, 2, 3, 3]) := by decide +kernel
example : weightsClose (weighted multiple) 4 [-4 / 10, 8 / 10, 52, -92] = true := by decide +kernel
example : totalClose (weighted multiple) 4 4 (-396 / 10) = true := by decide +kernel

/-- Compress_Invalid_Throw -/
example : throws .logicError ((plain [(0, 1)]).addConnectionW 0 2 (d 1)) 3 = true := by decide +kernel

end Verif.Tests.AssembledConnections
