/-
opm/flowdiagnostics/Toolbox.cpp with the C heap that the solves of a diagnostics call
use.  Everything else is as in `Verif.Toolbox`; in particular the C++ containers are not on
this heap.
-/
import Verif.Model.TarjanHeap
import Verif.Model.Toolbox

namespace Verif.Heap
open Verif.Solver Verif.Toolbox

variable {R : Type} [Arith R]

/-- Toolbox.cpp:165-169, respectively 205-209: one local solve per start set. -/
def solveSets (d : SolverData R) (fuel : Nat) (byId : InflowFlux R) :
    List CellSet → SolverState R → Solution R → H (Solution R)
  | [], _, sol => pure sol
  | start :: rest, s, sol => fun h =>
    match solveLocal d fuel (byId.at_ start.id []) s h with
    | none => none
    | some (h', s', .ok l) =>
      solveSets d fuel byId rest s'
        ((sol.assignTimeOfFlight start.id l.tof).assignConcentration start.id l.concentration) h'
    | some (h', _, .throw e) => some (h', .throw e)
    | some (h', _, .ub u) => some (h', .ub u)
    | some (h', _, .diverge) => some (h', .diverge)

/-- Toolbox.cpp:158-171, respectively 198-211. -/
def computeSolution (g gReverse : AssembledConnections R) (pvol : List R) (only : CellSetValues R)
    (byId : InflowFlux R) (fuel : Nat) (startSets : List CellSet) : H (Solution R) := do
  let solver ← lift (Solver.create g gReverse pvol only)
  fun h =>
    match solveGlobal solver.1 fuel solver.2 h with
    | none => none
    | some (h', s', .ok tof) =>
      solveSets solver.1 fuel byId startSets s' ((({} : Solution R)).assignToF tof) h'
    | some (h', _, .throw e) => some (h', .throw e)
    | some (h', _, .ub u) => some (h', .ub u)
    | some (h', _, .diverge) => some (h', .diverge)

/-- Toolbox.cpp:134-172, `injDiag`. -/
def injDiag (t : Toolbox R) (fuel : Nat) (startSets : List CellSet) :
    Heap → Option (Heap × Toolbox R × Res (Solution R)) := fun h =>
  if t.pvol.isEmpty || t.flux.numConnections == 0 then some (h, t, .throw .logicError) else
  finish t (lift (checkStartSets t.injById t.onlyInflow startSets)) (fun _ =>
  let b := t.ensureBuilt
  let t := b.1
  finish t (lift b.2) fun _ =>
  finish t (computeSolution t.downstream t.upstream t.pvol t.onlyInflow t.injById fuel startSets)
    fun sol h => some (h, t, .ok sol)) h

/-- Toolbox.cpp:174-212, `prodDiag`. -/
def prodDiag (t : Toolbox R) (fuel : Nat) (startSets : List CellSet) :
    Heap → Option (Heap × Toolbox R × Res (Solution R)) := fun h =>
  if t.pvol.isEmpty || t.flux.numConnections == 0 then some (h, t, .throw .logicError) else
  finish t (lift (checkStartSets t.prodById t.onlyOutflow startSets)) (fun _ =>
  let b := t.ensureBuilt
  let t := b.1
  finish t (lift b.2) fun _ =>
  finish t (computeSolution t.upstream t.downstream t.pvol t.onlyOutflow t.prodById fuel startSets)
    fun sol h => some (h, t, .ok sol)) h

end Verif.Heap
