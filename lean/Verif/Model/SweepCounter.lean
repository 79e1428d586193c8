/-
The statistics that `TracerTofSolver` keeps while it iterates: the `int` counters
`num_iter`, `num_multicell_`, `max_size_multicell_` and `max_iter_multicell_`.

Model/TracerTofSolver.lean leaves them out, because nothing reads them.  But they are
`int`s, and incrementing one past `INT_MAX` is undefined behaviour.  This file adds them.
The functions below that have the suffix `With` are those of Model/TracerTofSolver.lean
and Model/Toolbox.lean, with the function `solve` (TracerTofSolver.cpp:309-326) as a
parameter, so that it can be the one with the statistics or the one without.
Line numbers refer to TracerTofSolver.cpp unless stated otherwise.
-/
import Verif.Model.Toolbox

namespace Verif.Solver

variable {R : Type}

/-- TracerTofSolver.hpp:96-98, the statistics. -/
structure Stats where
  numMulticell : Int := 0
  maxSizeMulticell : Int := 0
  maxIterMulticell : Int := 0

section
variable [Arith R]

/-- TracerTofSolver.cpp:407-422, the Gauss-Seidel loop with the counter `num_iter`; the counter is returned. -/
def gaussSeidelCounted (d : SolverData R) (isStart : List Bool) (localSource : List R) (cells : List Int) :
    Nat → Int → (List R × List R) × (R × R) → Res ((List R × List R) × Int)
  | fuel, num_iter, s =>
    if Arith.lt tofTol s.2.1 || Arith.lt tracerTol s.2.2 then
      match fuel with
      | 0 => .diverge
      | fuel + 1 => do
        let num_iter ← intSucc num_iter
        let s ← forEach cells (s.1, (Arith.zero, Arith.zero)) (sweepCell d isStart localSource)
        gaussSeidelCounted d isStart localSource cells fuel num_iter s
    else .ok (s.1, num_iter)

/-- TracerTofSolver.cpp:398-424, `solveMultiCell` with the statistics. -/
def solveMultiCellCounted (d : SolverData R) (isStart : List Bool) (localSource : List R) (fuel : Nat)
    (s : (List R × List R) × Stats) (cells : List Int) : Res ((List R × List R) × Stats) := do
  let num_multicell ← intSucc s.2.numMulticell
  let r ← gaussSeidelCounted d isStart localSource cells fuel 0 (s.1, (huge, huge))
  pure (r.1, {
    numMulticell := num_multicell
    maxSizeMulticell := max s.2.maxSizeMulticell cells.length
    maxIterMulticell := max s.2.maxIterMulticell r.2 })

/-- TracerTofSolver.cpp:313-320: one component, with the statistics. -/
def solveComponentCounted (d : SolverData R) (isStart : List Bool) (localSource : List R)
    (sequence : List Int) (componentStarts : List Nat) (fuel : Nat)
    (s : (List R × List R) × Stats) (comp : Nat) : Res ((List R × List R) × Stats) := do
  let e ← rd componentStarts (comp + 1)
  let b ← rd componentStarts comp
  let cells ← readCells sequence b (e - b)
  match cells with
  | [cell] => (solveSingleCell d isStart localSource s.1 cell).bind fun f => .ok (f, s.2)
  | cells => solveMultiCellCounted d isStart localSource fuel s cells

/-- TracerTofSolver.cpp:309-326, `solve` with the statistics, which `prepareForSolve` (173-175) has set to 0. -/
def solveCounted (d : SolverData R) (isStart : List Bool) (localSource : List R) (sequence : List Int)
    (componentStarts : List Nat) (fuel : Nat) (s : List R × List R) : Res (List R × List R) := do
  let s ← forEach (List.range (componentStarts.length - 1)) (s, {})
    (solveComponentCounted d isStart localSource sequence componentStarts fuel)
  pure (s.1.1.map fun t => Arith.min t maxTof, s.1.2)

/-- What `solve` computes from the data, the start array, the local source, the sequence, the
    component starts, and (`tof_`, `tracer_`).  TracerTofSolver.cpp:309-326. -/
abbrev SolveFn (R : Type) :=
  SolverData R → List Bool → List R → List Int → List Nat → List R × List R → Res (List R × List R)

/-- Without statistics, at most `sweeps` sweeps per component.  TracerTofSolver.cpp:309-326. -/
def uncounted (sweeps : Nat) : SolveFn R := fun d b ls sq cs s => solve d b ls sq cs sweeps s

/-- With statistics.  TracerTofSolver.cpp:309-326 and 400-423. -/
def counted (sweeps : Nat) : SolveFn R := fun d b ls sq cs s => solveCounted d b ls sq cs sweeps s

/-- TracerTofSolver.cpp:111-125, `solveGlobal`. -/
def solveGlobalWith (slv : SolveFn R) (d : SolverData R) (al : Alloc) (fuel : Nat) (s : SolverState R) :
    SolverState R × Res (List R) :=
  let s := prepareForSolve d s
  finish s (setupStartArrayFromSource d s.isStart) fun isStart =>
  let s := { s with isStart := isStart, localSource := d.sourceTerm }
  finish s (computeOrdering d.g d.pv.length al fuel (s.sequence, s.componentStarts)) fun o =>
  let s := { s with sequence := o.1, componentStarts := o.2 }
  finish s (slv d s.isStart s.localSource s.sequence s.componentStarts (s.tof, s.tracer)) fun f =>
  let s := { s with
    tof := f.1
    tracer := f.2
    localSource := List.replicate s.localSource.length Arith.zero }
  (s, .ok s.tof)

/-- TracerTofSolver.cpp:131-157, `solveLocal`. -/
def solveLocalWith (slv : SolveFn R) (d : SolverData R) (al : Alloc) (fuel : Nat) (startset : CellSetValues R)
    (s : SolverState R) : SolverState R × Res (LocalSolution R) :=
  let s := prepareForSolve d s
  finish s (setupStartArray s.isStart startset) fun isStart =>
  let s := { s with isStart := isStart }
  finish s (computeLocalOrdering d.g d.pv.length (startset.map fun p => p.1) al fuel
    (s.sequence, s.componentStarts)) fun o =>
  let ls := setupLocalSource s.localSource startset
  let s := { s with
    sequence := o.1
    componentStarts := o.2
    localSource := ls.1 }
  finish s ls.2 fun _ =>
  finish s (slv d s.isStart s.localSource s.sequence s.componentStarts (s.tof, s.tracer)) fun f =>
  let s := { s with
    tof := f.1
    tracer := f.2 }
  finish s (cleanupLocalSource s.localSource startset) fun ls =>
  let s := { s with localSource := ls }
  finish s (collect s.tof s.tracer s.sequence s.componentStarts) fun r =>
  (s, .ok r)

end
end Verif.Solver

namespace Verif.Toolbox
open Verif.Solver
variable {R : Type} [Arith R]

/-- Toolbox.cpp:165-169, respectively 205-209: one local solve per start set. -/
def solveSetsWith (slv : SolveFn R) (d : SolverData R) (al : Nat → Alloc) (fuel : Nat) (byId : InflowFlux R) :
    List CellSet → Nat → SolverState R → Solution R → Res (Solution R)
  | [], _, _, sol => .ok sol
  | start :: rest, k, s, sol =>
    let r := solveLocalWith slv d (al k) fuel (byId.at_ start.id []) s
    r.2.bind fun l =>
      solveSetsWith slv d al fuel byId rest (k + 1) r.1
        ((sol.assignTimeOfFlight start.id l.tof).assignConcentration start.id l.concentration)

/-- Toolbox.cpp:158-171, respectively 198-211: the solves and the solution object. -/
def computeSolutionWith (slv : SolveFn R) (g gReverse : AssembledConnections R) (pvol : List R)
    (only : CellSetValues R) (byId : InflowFlux R) (al : Nat → Alloc) (fuel : Nat) (startSets : List CellSet) :
    Res (Solution R) := do
  let solver ← Solver.create g gReverse pvol only
  let r := solveGlobalWith slv solver.1 (al 0) fuel solver.2
  let tof ← r.2
  solveSetsWith slv solver.1 al fuel byId startSets 1 r.1 ((({} : Solution R)).assignToF tof)

/-- Toolbox.cpp:134-172, `injDiag`. -/
def injDiagWith (slv : SolveFn R) (t : Toolbox R) (al : Nat → Alloc) (fuel : Nat) (startSets : List CellSet) :
    Toolbox R × Res (Solution R) :=
  if t.pvol.isEmpty || t.flux.numConnections == 0 then (t, .throw .logicError) else
  finish t (checkStartSets t.injById t.onlyInflow startSets) fun _ =>
  let b := t.ensureBuilt
  let t := b.1
  finish t b.2 fun _ =>
  (t, computeSolutionWith slv t.downstream t.upstream t.pvol t.onlyInflow t.injById al fuel startSets)

/-- Toolbox.cpp:174-212, `prodDiag`. -/
def prodDiagWith (slv : SolveFn R) (t : Toolbox R) (al : Nat → Alloc) (fuel : Nat) (startSets : List CellSet) :
    Toolbox R × Res (Solution R) :=
  if t.pvol.isEmpty || t.flux.numConnections == 0 then (t, .throw .logicError) else
  finish t (checkStartSets t.prodById t.onlyOutflow startSets) fun _ =>
  let b := t.ensureBuilt
  let t := b.1
  finish t b.2 fun _ =>
  (t, computeSolutionWith slv t.upstream t.downstream t.pvol t.onlyOutflow t.prodById al fuel startSets)

end Verif.Toolbox
