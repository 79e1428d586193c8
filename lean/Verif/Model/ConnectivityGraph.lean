/-
Model of opm/flowdiagnostics/ConnectivityGraph.{hpp,cpp} and
opm/flowdiagnostics/ConnectionValues.{hpp,cpp}.
-/
import Verif.Model.Res
import Verif.Model.Arith

namespace Verif

/-- ConnectivityGraph.hpp:30-58, class `ConnectivityGraph`. -/
structure ConnectivityGraph where
  numCells_ : Nat
  connCells : List Int
  deriving Repr

namespace ConnectivityGraph

/-- `*std::max_element(first, last)` of a non-empty range starting with `m`.
    ConnectivityGraph.cpp:48-49. -/
def maxElement (m : Int) : List Int → Int
  | [] => m
  | x :: xs => maxElement (if m < x then x else m) xs

/-- ConnectivityGraph.cpp:47-50: the condition of the second check. -/
def hasTooLarge (num_cells : Int) : List Int → Bool
  | [] => false
  | x :: xs => decide (maxElement x xs ≥ num_cells)

/-- ConnectivityGraph.cpp:38-54, constructor.  `numCells_` is a `size_t`, so a
    negative number of cells wraps around. -/
def create (num_cells : Int) (connection_to_cell : List Int) : Res ConnectivityGraph :=
  if connection_to_cell.length % 2 ≠ 0 then .throw .logicError
  else if hasTooLarge num_cells connection_to_cell then .throw .logicError
  else .ok { numCells_ := sizeOfInt num_cells, connCells := connection_to_cell }

/-- ConnectivityGraph.cpp:56-60 -/
def numCells (g : ConnectivityGraph) : Nat := g.numCells_

/-- ConnectivityGraph.cpp:62-66 -/
def numConnections (g : ConnectivityGraph) : Nat := g.connCells.length / 2

/-- ConnectivityGraph.cpp:68-76 -/
def connection (g : ConnectivityGraph) (i : Nat) : Res (Int × Int) := do
  assertThat (decide (i < g.numConnections))
  let a ← rd g.connCells (2 * i + 0)
  let b ← rd g.connCells (2 * i + 1)
  pure (a, b)

end ConnectivityGraph

/-- 2^64; `size_t` arithmetic is modulo this number.  ConnectionValues.cpp:41, 66 and 79. -/
def SIZE_MOD : Nat := 18446744073709551616

/-- ConnectionValues.hpp:33-73, class `ConnectionValues`. -/
structure ConnectionValues (R : Type) where
  nconn : Nat
  nphase : Nat
  data : List R
  deriving Repr

namespace ConnectionValues
variable {R : Type}

/-- ConnectionValues.cpp:36-42, constructor.  The product of the sizes is taken
    in `size_t`. -/
def create [Arith R] (nconn nphase : Nat) : ConnectionValues R :=
  { nconn := nconn, nphase := nphase
    data := List.replicate ((nconn * nphase) % SIZE_MOD) Arith.zero }

/-- ConnectionValues.cpp:44-54 -/
def numConnections (c : ConnectionValues R) : Nat := c.nconn
/-- ConnectionValues.cpp:50-54. -/
def numPhases (c : ConnectionValues R) : Nat := c.nphase

/-- `conn.id*nphase_.total + phase.id` in `size_t`, ConnectionValues.cpp:66 and 79 -/
def slot (c : ConnectionValues R) (conn phase : Nat) : Nat := (conn * c.nphase + phase) % SIZE_MOD

/-- ConnectionValues.cpp:56-67, reading through `operator()`. -/
def get (c : ConnectionValues R) (conn phase : Nat) : Res R :=
  if conn ≥ c.nconn ∨ phase ≥ c.nphase then .throw .logicError
  else rd c.data (c.slot conn phase)

/-- ConnectionValues.cpp:69-80, assigning through the reference that
    `operator()` returns. -/
def put (c : ConnectionValues R) (conn phase : Nat) (x : R) : Res (ConnectionValues R) :=
  if conn ≥ c.nconn ∨ phase ≥ c.nphase then .throw .logicError
  else (wr c.data (c.slot conn phase) x).bind fun d => .ok { c with data := d }

end ConnectionValues

end Verif
