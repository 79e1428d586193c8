/-
`TracerTofSolver` in builds that define `NDEBUG`, in which `assert` does nothing.

Three assertions of TracerTofSolver.cpp are about computed numbers: lines 361, 362 and 366.
The functions below are those of Model/TracerTofSolver.lean without these three.  The other
assertions of the library are about sizes and indices and are kept; that none of them fails is
part of the theorems about these functions.
Line numbers refer to TracerTofSolver.cpp.
-/
import Verif.Model.SweepCounter

namespace Verif.Solver

variable {R : Type} [Arith R]

/-- TracerTofSolver.cpp:364-371, the tracer value, without the assertion in line 366. -/
def cellTracerRelease (total contrib : R) : R :=
  if Arith.eq total Arith.zero then Arith.zero else Arith.div contrib total

/-- TracerTofSolver.cpp:332-392, `solveSingleCell` without the assertions in lines 361-362. -/
def solveSingleCellRelease (d : SolverData R) (isStart : List Bool) (localSource : List R)
    (s : List R × List R) (cell : Int) : Res (List R × List R) := do
  let i := sizeOfInt cell
  let src ← rd d.sourceTerm i
  let start ← rd isStart i
  let inflx ← rd d.influx i
  let total := Arith.add inflx (cellSource src start)
  let nb ← d.gReverse.cellNeighbourhood cell
  let up ← forEach nb (Arith.zero, Arith.zero) (addUpwind s.1 s.2)
  let contrib ← withLocalSource start localSource i up.2
  let c := cellTracerRelease total contrib
  let tracer ← wr s.2 i c
  let pv ← rd d.pv i
  let tof ← wr s.1 i (cellTof pv total c up.1)
  pure (tof, tracer)

/-- TracerTofSolver.cpp:413-420, one cell of a sweep. -/
def sweepCellRelease (d : SolverData R) (isStart : List Bool) (localSource : List R)
    (s : (List R × List R) × (R × R)) (cell : Int) : Res ((List R × List R) × (R × R)) := do
  let i := sizeOfInt cell
  let tofBefore ← rd s.1.1 i
  let tracerBefore ← rd s.1.2 i
  let f ← solveSingleCellRelease d isStart localSource s.1 cell
  let tofAfter ← rd f.1 i
  let tracerAfter ← rd f.2 i
  pure (f, (Arith.max s.2.1 (Arith.fabs (Arith.sub tofAfter tofBefore)),
            Arith.max s.2.2 (tracerChange tracerBefore tracerAfter)))

/-- TracerTofSolver.cpp:408-422, the Gauss-Seidel loop. -/
def gaussSeidelRelease (d : SolverData R) (isStart : List Bool) (localSource : List R) (cells : List Int) :
    Nat → (List R × List R) × (R × R) → Res (List R × List R)
  | fuel, s =>
    if Arith.lt tofTol s.2.1 || Arith.lt tracerTol s.2.2 then
      match fuel with
      | 0 => .diverge
      | fuel + 1 => do
        let s ← forEach cells (s.1, (Arith.zero, Arith.zero)) (sweepCellRelease d isStart localSource)
        gaussSeidelRelease d isStart localSource cells fuel s
    else .ok s.1

/-- TracerTofSolver.cpp:398-424, `solveMultiCell`. -/
def solveMultiCellRelease (d : SolverData R) (isStart : List Bool) (localSource : List R) (fuel : Nat)
    (s : List R × List R) (cells : List Int) : Res (List R × List R) :=
  gaussSeidelRelease d isStart localSource cells fuel (s, (huge, huge))

/-- TracerTofSolver.cpp:313-320: one component. -/
def solveComponentRelease (d : SolverData R) (isStart : List Bool) (localSource : List R)
    (sequence : List Int) (componentStarts : List Nat) (fuel : Nat)
    (s : List R × List R) (comp : Nat) : Res (List R × List R) := do
  let e ← rd componentStarts (comp + 1)
  let b ← rd componentStarts comp
  let cells ← readCells sequence b (e - b)
  match cells with
  | [cell] => solveSingleCellRelease d isStart localSource s cell
  | cells => solveMultiCellRelease d isStart localSource fuel s cells

/-- TracerTofSolver.cpp:309-326, `solve`, at most `sweeps` sweeps per component. -/
def release (sweeps : Nat) : SolveFn R := fun d isStart localSource sequence componentStarts s => do
  let s ← forEach (List.range (componentStarts.length - 1)) s
    (solveComponentRelease d isStart localSource sequence componentStarts sweeps)
  pure (s.1.map fun t => Arith.min t maxTof, s.2)

end Verif.Solver
