/-
The cases of tests/test_flowdiagnosticstool.cpp, evaluated on the model with double-precision numbers: a check of the
model, not a proof about it.  The expected values are those in the file.  (The case Constructor uses random fluxes.)
-/
import Verif.Model.Toolbox
import Verif.Tests.Containers

namespace Verif.Tests.Toolbox
open Verif.Toolbox
open Verif.Tests.Containers (str)

/-! ### Common set-up -/

/-- `internalConnections(nx, ny)` -/
def internalConnections (nx ny : Nat) : List Int :=
  ((List.range ny).flatMap fun j => ((List.range nx).drop 1).flatMap fun i =>
    [((j * nx + (i - 1) : Nat) : Int), ((j * nx + i : Nat) : Int)]) ++
  (((List.range ny).drop 1).flatMap fun j => (List.range nx).flatMap fun i =>
    [(((j - 1) * nx + i : Nat) : Int), (((j - 1) * nx + i + nx : Nat) : Int)])

/-- A flux of one phase on each connection. -/
def fluxes (xs : List Double) : ConnectionValues Double := { nconn := xs.length, nphase := 1, data := xs }

/-- A toolbox for the grid, with pore volumes 0.3. -/
def toolbox (nx ny : Nat) (flux : List Double) (wells : InflowFlux Double) : Res (Verif.Toolbox Double) := do
  let g ← ConnectivityGraph.create (nx * ny : Nat) (internalConnections nx ny)
  let t := Verif.Toolbox.create g
  let a := t.assignPoreVolume (List.replicate g.numCells (d (3 / 10)))
  a.2
  let b := a.1.assignConnectionFlux (fluxes flux)
  b.2
  pure (b.1.assignInflowFlux wells)

/-- The solution of a diagnostics call. -/
def forward (t : Res (Verif.Toolbox Double)) (start : List CellSet) : Res (Solution Double) :=
  t.bind fun t => (t.injDiag (fun _ => .good) 1000 start).2
def backward (t : Res (Verif.Toolbox Double)) (start : List CellSet) : Res (Solution Double) :=
  t.bind fun t => (t.prodDiag (fun _ => .good) 1000 start).2

/-- Start set, given as the name and one cell. -/
def start (id : CellSetID) (cell : Int) : CellSet := CellSet.ofCells id [cell]

/-- "I-1", "I-2", "P-1", "Middle", "BogusID" -/
def I1 : CellSetID := ⟨str [73, 45, 49]⟩
def I2 : CellSetID := ⟨str [73, 45, 50]⟩
def P1 : CellSetID := ⟨str [80, 45, 49]⟩
def Middle : CellSetID := ⟨str [77, 105, 100, 100, 108, 101]⟩
def BogusID : CellSetID := ⟨str [66, 111, 103, 117, 115, 73, 68]⟩

def throwsRuntime (r : Res (Solution Double)) : Bool :=
  match r with
  | .throw .runtimeError => true
  | _ => false

/-- A check of the solution. -/
def checks (r : Res (Solution Double)) (p : Solution Double → Bool) : Bool :=
  match r with
  | .ok s => p s
  | _ => false

/-- The start points are those given. -/
def startPointsAre (s : Solution Double) (ids : List CellSetID) : Bool :=
  s.startPoints.length == ids.length && s.startPoints.all fun i => ids.any fun j => i.toString == j.toString

/-! ### OneDimCase -/

def oneDim : Res (Verif.Toolbox Double) :=
  toolbox 5 1 (List.replicate 4 (d (3 / 10))) [(I1, [(0, d (3 / 10))]), (P1, [(4, d (-3 / 10))])]

example : throwsRuntime (forward oneDim [start I1 0, start P1 4]) = true := by decide +kernel
example : throwsRuntime (backward oneDim [start I1 0, start P1 4]) = true := by decide +kernel

example : (checks (forward oneDim [start I1 0]) fun s =>
    allClose s.timeOfFlight [1, 2, 3, 4, 5] &&
    startPointsAre s [I1] &&
    (s.timeOfFlightOf BogusID).isEmpty && (s.concentration BogusID).isEmpty &&
    mapClose (s.timeOfFlightOf I1) [(0, 1), (1, 2), (2, 3), (3, 4), (4, 5)] &&
    mapClose (s.concentration I1) [(0, 1), (1, 1), (2, 1), (3, 1), (4, 1)]) = true := by decide +kernel

example : (checks (backward oneDim [start P1 4]) fun s =>
    allClose s.timeOfFlight [5, 4, 3, 2, 1]) = true := by decide +kernel

/-- A start point in the middle. -/
example : throwsRuntime (forward oneDim [start I1 0, start Middle 2]) = true := by decide +kernel

/-! ### LocalSolutions -/

def localSolutions : Res (Verif.Toolbox Double) :=
  toolbox 3 2 [d (3 / 10), d 0, d (3 / 10), d (6 / 10), d 0, d (3 / 10), d (-6 / 10)]
    [(I1, [(0, d (3 / 10))]), (I2, [(3, d (3 / 10))]), (P1, [(2, d (-6 / 10))])]

example : (checks (forward localSolutions [start I1 0, start I2 3]) fun s =>
    allClose s.timeOfFlight [1, 2, 3, 1, 2, 5 / 2] &&
    startPointsAre s [I1, I2] &&
    mapClose (s.concentration I1) [(0, 1), (1, 1), (2, 1 / 2), (4, 1 / 2), (5, 1 / 2)] &&
    mapClose (s.timeOfFlightOf I1) [(0, 1), (1, 2), (2, 7 / 2), (4, 5 / 2), (5, 3)] &&
    mapClose (s.concentration I2) [(2, 1 / 2), (3, 1), (4, 1 / 2), (5, 1 / 2)] &&
    mapClose (s.timeOfFlightOf I2) [(2, 5 / 2), (3, 1), (4, 3 / 2), (5, 2)]) = true := by decide +kernel

example : (checks (backward localSolutions [start P1 2]) fun s =>
    allClose s.timeOfFlight [7 / 2, 5 / 2, 1 / 2, 5 / 2, 3 / 2, 1] &&
    startPointsAre s [P1]) = true := by decide +kernel

/-! ### LocalSolutionsWithMidflowSource -/

def midflow : Res (Verif.Toolbox Double) :=
  toolbox 3 1 [d (3 / 10), d (6 / 10)]
    [(I1, [(0, d (3 / 10))]), (I2, [(1, d (3 / 10))]), (P1, [(2, d (-6 / 10))])]

example : (checks (forward midflow [start I1 0, start I2 1]) fun s =>
    allClose s.timeOfFlight [1, 1, 3 / 2] &&
    startPointsAre s [I1, I2] &&
    mapClose (s.concentration I1) [(0, 1), (1, 1 / 2), (2, 1 / 2)] &&
    mapClose (s.timeOfFlightOf I1) [(0, 1), (1, 3 / 2), (2, 2)] &&
    mapClose (s.concentration I2) [(1, 1 / 2), (2, 1 / 2)] &&
    mapClose (s.timeOfFlightOf I2) [(1, 1 / 2), (2, 1)]) = true := by decide +kernel

example : (checks (backward midflow [start P1 2]) fun s =>
    allClose s.timeOfFlight [2, 1, 1 / 2] && startPointsAre s [P1]) = true := by decide +kernel

/-! ### LocalSolutionsPerfSameCell -/

def sameCell : Res (Verif.Toolbox Double) :=
  toolbox 2 1 [d (6 / 10)] [(I1, [(0, d (3 / 10))]), (I2, [(0, d (3 / 10))]), (P1, [(1, d (-6 / 10))])]

example : (checks (forward sameCell [start I1 0, start I2 0]) fun s =>
    allClose s.timeOfFlight [1 / 2, 1] &&
    startPointsAre s [I1, I2] &&
    mapClose (s.concentration I1) [(0, 1 / 2), (1, 1 / 2)] &&
    mapClose (s.timeOfFlightOf I1) [(0, 1 / 2), (1, 1)] &&
    mapClose (s.concentration I2) [(0, 1 / 2), (1, 1 / 2)] &&
    mapClose (s.timeOfFlightOf I2) [(0, 1 / 2), (1, 1)]) = true := by decide +kernel

example : (checks (backward sameCell [start P1 1]) fun s =>
    allClose s.timeOfFlight [1, 1 / 2] && startPointsAre s [P1]) = true := by decide +kernel

end Verif.Tests.Toolbox
