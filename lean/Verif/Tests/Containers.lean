/-
The cases of tests/test_cellset.cpp, tests/test_connectionvalues.cpp and tests/test_connectivitygraph.cpp,
evaluated on the model: a check of the model, not a proof about it.  The expected values are those in the files.
-/
import Verif.Model.CellSet
import Verif.Model.ConnectivityGraph
import Verif.Tests.Close

namespace Verif.Tests.Containers

/-! ### test_cellset.cpp -/

/-- The bytes of an ASCII string literal. -/
def str (s : List Nat) : Str := s.map UInt8.ofNat

/-- "I-1" and "I-2" -/
def i1 : Str := str [73, 45, 49]
def i2 : Str := str [73, 45, 50]

/-- CellSetIDTest: Construct -/
example : CellSetID.toString {} = [] := by decide +kernel
example : CellSetID.toString ⟨i1⟩ = i1 := by decide +kernel
example : CellSetID.lt ⟨i1⟩ ⟨i2⟩ = true := by decide +kernel

/-- CellSetTest: Constructor -/
example : (CellSet.empty ⟨i1⟩).id.toString = i1 := by decide +kernel

def cells : List Int := [0, 1, 2, 5, 10, 20, 50, 100, 200, 500, 1000]

/-- Put an element in its place. -/
def place (x : Int) : List Int → List Int
  | [] => [x]
  | y :: ys => if x ≤ y then x :: y :: ys else y :: place x ys

/-- `std::sort` of the visited cells. -/
def sorted (s : CellSet) : List Int := s.cells.foldr place []

/-- AssignCells -/
example : sorted (cells.foldl CellSet.insert (CellSet.empty ⟨i1⟩)) = cells := by decide +kernel
example : sorted (CellSet.ofCells ⟨i1⟩ cells) = cells := by decide +kernel

/-- Duplicates -/
example : sorted ((cells ++ cells).foldl CellSet.insert (CellSet.empty ⟨i1⟩)) = cells := by decide +kernel

/-- DuplicatesDirectConstruction -/
example : sorted (CellSet.ofCells ⟨i1⟩ [0, 100, 100, 100, 2, 1, 2, 5, 10, 20, 50, 100, 200, 500, 1000]) = cells := by
  decide +kernel

/-! ### test_connectionvalues.cpp -/

/-- Constructor -/
example : (ConnectionValues.create 4 2 : ConnectionValues Double).numPhases = 2 ∧
    (ConnectionValues.create 4 2 : ConnectionValues Double).numConnections = 4 := by decide +kernel

/-- AssignValues: the assignments. -/
def assigned : Res (ConnectionValues Double) :=
  forEach (List.range 4) (ConnectionValues.create 4 2) fun v conn =>
    forEach (List.range 2) v fun v phas => v.put conn phas (d (conn * 2 + phas : Nat))

def valueClose (conn phas : Nat) (x : ℚ) : Bool :=
  match assigned.bind fun v => v.get conn phas with
  | .ok y => close y x
  | _ => false

/-- AssignValues: the checks. -/
example : valueClose 0 0 0 = true := by decide +kernel
example : valueClose 3 0 6 = true := by decide +kernel

/-! ### test_connectivitygraph.cpp -/

def pairs : List Int := [0, 1, 0, 2, 1, 3, 2, 3]

/-- Numbers of cells and connections, and the first connections. -/
def contents (n : Nat) : Option (Nat × Nat × List (Int × Int)) :=
  match ConnectivityGraph.create 4 pairs with
  | .ok g =>
    match (List.range n).mapM (m := Option) fun k => match g.connection k with | .ok c => some c | _ => none with
    | some cs => some (g.numCells, g.numConnections, cs)
    | none => none
  | _ => none

/-- Constructor and ConnectionList -/
example : contents 4 = some (4, 4, [(0, 1), (0, 2), (1, 3), (2, 3)]) := by decide +kernel

end Verif.Tests.Containers
