/-
Model of opm/flowdiagnostics/TracerTofSolver.{hpp,cpp}.
Line numbers refer to TracerTofSolver.cpp unless stated otherwise.

The members of the class are split into the data fixed by the constructor
(`SolverData`) and the members that calls modify (`SolverState`).  The
statistics `num_multicell_`, `max_size_multicell_` and `max_iter_multicell_`
are never read and are left out, with the counter `num_iter`; SweepCounter.lean adds
them.  The conversions of `pv_.size()` to `int` are not
modelled: the theorems are about at most 2^31 - 1 cells, for which they are exact.
-/
import Verif.Model.AssembledConnections
import Verif.Model.Tarjan
import Verif.Model.CellSet

namespace Verif.Solver
open Verif.Tarjan

variable {R : Type}

/-- TracerTofSolver.hpp:84-89: what the constructor fixes.  `outflux_` is computed
    but never used. -/
structure SolverData (R : Type) where
  g : AssembledConnections R
  gReverse : AssembledConnections R
  pv : List R
  influx : List R
  outflux : List R
  sourceTerm : List R

/-- TracerTofSolver.hpp:90-95: what calls modify.  `component_starts_` holds
    non-negative `int`s. -/
structure SolverState (R : Type) where
  localSource : List R
  isStart : List Bool := []
  sequence : List Int := []
  componentStarts : List Nat := []
  tof : List R := []
  tracer : List R := []

/-- Outcomes of the allocations a solve makes in tarjan.c: the workspace (two
    blocks), the result, and the result of the reversal.
    TracerTofSolver.cpp:215, 218, 256-258 and 262. -/
structure Alloc where
  workspace : Bool
  status : Bool
  result : AllocSCC
  reverse : AllocSCC

/-- Every allocation succeeds.  TracerTofSolver.cpp:215-218 and 256-262. -/
def Alloc.good : Alloc := ⟨true, true, ⟨true, true, true⟩, ⟨true, true, true⟩⟩

section
variable [Arith R]

/-- TracerTofSolver.hpp:99, `200.0 * 365.0 * 24.0 * 60.0 * 60.0`. -/
def maxTof : R :=
  Arith.mul (Arith.mul (Arith.mul (Arith.mul (Arith.lit 200) (Arith.lit 365)) (Arith.lit 24))
    (Arith.lit 60)) (Arith.lit 60)

/-- TracerTofSolver.hpp:100, `max_tof_ / 1e12`. -/
def tofTol : R := Arith.div maxTof (Arith.lit 1000000000000)

/-- TracerTofSolver.hpp:101, `1e-9`. -/
def tracerTol : R := Arith.lit (1 / 1000000000)

/-- TracerTofSolver.cpp:1e100, lines 405-406 -/
def huge : R := Arith.lit (10 ^ 100)

/-- TracerTofSolver.cpp:41-48, `expandSparse`. -/
def expandSparse (n : Nat) (v : CellSetValues R) : Res (List R) :=
  forEach v (List.replicate n Arith.zero) fun r data => wr r (sizeOfInt data.1) data.2

/-- TracerTofSolver.cpp:62-66: one connection of row `cell`. -/
def addFlux (cell : Nat) (s : List R × List R) (conn : Int × R) : Res (List R × List R) := do
  let a ← rd s.1 (sizeOfInt conn.1)
  let influx ← wr s.1 (sizeOfInt conn.1) (Arith.add a conn.2)
  let b ← rd s.2 cell
  let outflux ← wr s.2 cell (Arith.add b conn.2)
  pure (influx, outflux)

/-- TracerTofSolver.cpp:53-72, `InOutFluxComputer`.  A negative (overflowed) number of rows makes
    `resize` throw `std::length_error`, which is a `std::logic_error`. -/
def inOutFlux (graph : AssembledConnections R) : Res (List R × List R) :=
  let num_cells := narrowInt graph.numRows
  if num_cells < 0 then .throw .logicError else
  forEach (List.range num_cells.toNat)
    (List.replicate num_cells.toNat Arith.zero, List.replicate num_cells.toNat Arith.zero)
    fun s cell => do
      let nb ← graph.cellNeighbourhood cell
      forEach nb s (addFlux cell)

/-- TracerTofSolver.cpp:78-105, the constructors. -/
def create (g gReverse : AssembledConnections R) (pv : List R) (source : CellSetValues R) :
    Res (SolverData R × SolverState R) := do
  let io ← inOutFlux g
  let src ← expandSparse pv.length source
  pure ({ g := g, gReverse := gReverse, pv := pv, influx := io.1, outflux := io.2, sourceTerm := src },
        { localSource := List.replicate pv.length Arith.zero })

/-- TracerTofSolver.cpp:344-349: contribution of one upwind connection to the pair
    (`upwind_tof_contrib`, `upwind_tracer_contrib`). -/
def addUpwind (tof tracer : List R) (s : R × R) (conn : Int × R) : Res (R × R) := do
  let t ← rd tof (sizeOfInt conn.1)
  let c ← rd tracer (sizeOfInt conn.1)
  pure (Arith.add s.1 (Arith.mul (Arith.mul t c) conn.2), Arith.add s.2 (Arith.mul c conn.2))

/-- TracerTofSolver.cpp:335-338: the source term, infinite in a start cell without source. -/
def cellSource (source : R) (start : Bool) : R :=
  if Arith.eq source Arith.zero && start then Arith.inf else source

/-- TracerTofSolver.cpp:350-356: start cells also receive the local source. -/
def withLocalSource (start : Bool) (localSource : List R) (i : Nat) (contrib : R) : Res R :=
  if start then do
    let ls ← rd localSource i
    pure (Arith.add contrib ls)
  else .ok contrib

/-- TracerTofSolver.cpp:364-371: the tracer value. -/
def cellTracer (total contrib : R) : Res R :=
  if Arith.eq total Arith.zero then do
    assertThat (Arith.eq contrib Arith.zero)
    pure Arith.zero
  else .ok (Arith.div contrib total)

/-- TracerTofSolver.cpp:373-391: the time-of-flight, with the cap for cells that take too long to fill. -/
def cellTof (pv total tracer upTof : R) : R :=
  let t := if Arith.lt Arith.zero tracer then
      Arith.div (Arith.add (Arith.mul pv tracer) upTof) (Arith.mul total tracer)
    else maxTof
  if Arith.lt total (Arith.div pv maxTof) then maxTof else t

/-- TracerTofSolver.cpp:332-392, `solveSingleCell`; the state is (`tof_`, `tracer_`). -/
def solveSingleCell (d : SolverData R) (isStart : List Bool) (localSource : List R)
    (s : List R × List R) (cell : Int) : Res (List R × List R) := do
  let i := sizeOfInt cell
  let src ← rd d.sourceTerm i
  let start ← rd isStart i
  let inflx ← rd d.influx i
  let total := Arith.add inflx (cellSource src start)
  let nb ← d.gReverse.cellNeighbourhood cell
  let up ← forEach nb (Arith.zero, Arith.zero) (addUpwind s.1 s.2)
  let contrib ← withLocalSource start localSource i up.2
  assertThat (Arith.le Arith.zero total)
  assertThat (Arith.le Arith.zero contrib)
  let c ← cellTracer total contrib
  let tracer ← wr s.2 i c
  let pv ← rd d.pv i
  let tof ← wr s.1 i (cellTof pv total c up.1)
  pure (tof, tracer)

/-- TracerTofSolver.cpp:418-419: change of the tracer value, counting a change from or to zero as 1. -/
def tracerChange (before after : R) : R :=
  if Arith.eq before Arith.zero != Arith.eq after Arith.zero then Arith.lit 1
  else Arith.fabs (Arith.sub after before)

/-- TracerTofSolver.cpp:413-420, one cell of a sweep; the state is
    ((`tof_`, `tracer_`), (`max_tof_delta`, `max_tracer_delta`)). -/
def sweepCell (d : SolverData R) (isStart : List Bool) (localSource : List R)
    (s : (List R × List R) × (R × R)) (cell : Int) : Res ((List R × List R) × (R × R)) := do
  let i := sizeOfInt cell
  let tofBefore ← rd s.1.1 i
  let tracerBefore ← rd s.1.2 i
  let f ← solveSingleCell d isStart localSource s.1 cell
  let tofAfter ← rd f.1 i
  let tracerAfter ← rd f.2 i
  pure (f, (Arith.max s.2.1 (Arith.fabs (Arith.sub tofAfter tofBefore)),
            Arith.max s.2.2 (tracerChange tracerBefore tracerAfter)))

/-- TracerTofSolver.cpp:408-422, the Gauss-Seidel loop. -/
def gaussSeidel (d : SolverData R) (isStart : List Bool) (localSource : List R) (cells : List Int) :
    Nat → (List R × List R) × (R × R) → Res (List R × List R)
  | fuel, s =>
    if Arith.lt tofTol s.2.1 || Arith.lt tracerTol s.2.2 then
      match fuel with
      | 0 => .diverge
      | fuel + 1 => do
        let s ← forEach cells (s.1, (Arith.zero, Arith.zero)) (sweepCell d isStart localSource)
        gaussSeidel d isStart localSource cells fuel s
    else .ok s.1

/-- TracerTofSolver.cpp:398-424, `solveMultiCell`. -/
def solveMultiCell (d : SolverData R) (isStart : List Bool) (localSource : List R) (fuel : Nat)
    (s : List R × List R) (cells : List Int) : Res (List R × List R) :=
  gaussSeidel d isStart localSource cells fuel (s, (huge, huge))

/-- `sequence_[b], ..., sequence_[b + n - 1]`.  TracerTofSolver.cpp:400-414. -/
def readCells (sequence : List Int) (b n : Nat) : Res (List Int) :=
  if b + n ≤ sequence.length then .ok ((sequence.drop b).take n) else .ub .outOfBounds

/-- TracerTofSolver.cpp:313-320: one component. -/
def solveComponent (d : SolverData R) (isStart : List Bool) (localSource : List R)
    (sequence : List Int) (componentStarts : List Nat) (fuel : Nat)
    (s : List R × List R) (comp : Nat) : Res (List R × List R) := do
  let e ← rd componentStarts (comp + 1)
  let b ← rd componentStarts comp
  let cells ← readCells sequence b (e - b)
  match cells with
  | [cell] => solveSingleCell d isStart localSource s cell
  | cells => solveMultiCell d isStart localSource fuel s cells

/-- TracerTofSolver.cpp:309-326, `solve`. -/
def solve (d : SolverData R) (isStart : List Bool) (localSource : List R) (sequence : List Int)
    (componentStarts : List Nat) (fuel : Nat) (s : List R × List R) : Res (List R × List R) := do
  let s ← forEach (List.range (componentStarts.length - 1)) s
    (solveComponent d isStart localSource sequence componentStarts fuel)
  pure (s.1.map fun t => Arith.min t maxTof, s.2)

end

/-- `std::copy(tc.vertex, tc.vertex + tc.size, sequence_.begin() + at)`.
    TracerTofSolver.cpp:230 and 274. -/
def copyInto (sequence : List Int) (at_ : Nat) : List Int → Res (List Int)
  | [] => .ok sequence
  | x :: xs => (wr sequence at_ x).bind fun s => copyInto s (at_ + 1) xs

/-- TracerTofSolver.cpp:228-232 and 272-276: copy one component. -/
def extractComponent (scc : SCCResult) (s : List Int × List Nat) (comp : Nat) :
    Res (List Int × List Nat) := do
  let tc ← getStrongComponent scc comp
  let b ← rd s.2 comp
  let sequence ← copyInto s.1 b tc
  let e ← intOfSize (b + tc.length)
  let starts ← wr s.2 (comp + 1) e.toNat
  pure (sequence, starts)

/-- TracerTofSolver.cpp:224-232 and 268-276: copy the components out of a result. -/
def extractOrdering (scc : SCCResult) (num_cells : Nat) (s : List Int × List Nat) :
    Res (List Int × List Nat) := do
  let sequence := resize s.1 num_cells 0
  let num_comp ← intOfSize (getNumComponents scc)
  let starts := resize s.2 (num_comp.toNat + 1) 0
  let starts ← wr starts 0 0
  forEach (List.range num_comp.toNat) (sequence, starts) (extractComponent scc)

/-- `component_starts_.back()`.  TracerTofSolver.cpp:146, 233 and 277. -/
def back (l : List Nat) : Res Nat := rd l (l.length - 1)

/-- TracerTofSolver.cpp:217-222 and 262-266: reverse the order; a failed reversal throws. -/
def reverseOrThrow (a : AllocSCC) (scc : Option SCCResult) : Res SCCResult := do
  let r ← reverseSccResult a scc
  match r with
  | (true, some scc) => .ok scc
  | _ => .throw .runtimeError

/-- TracerTofSolver.cpp:208-234, `computeOrdering`; the state is (`sequence_`, `component_starts_`). -/
def computeOrdering (g : AssembledConnections R) (num_cells : Nat) (al : Alloc) (fuel : Nat)
    (s : List Int × List Nat) : Res (List Int × List Nat) := do
  assertThat (g.startPointers.length == num_cells + 1)
  let result ← tarjan al.workspace al.status al.result num_cells g.startPointers g.neighbourhood fuel
  let scc ← reverseOrThrow al.reverse result
  let s ← extractOrdering scc num_cells s
  let last ← back s.2
  assertThat (last == num_cells)
  pure s

/-- TracerTofSolver.cpp:240-278, `computeLocalOrdering`. -/
def computeLocalOrdering (g : AssembledConnections R) (num_cells : Nat) (startcells : List Int)
    (al : Alloc) (fuel : Nat) (s : List Int × List Nat) : Res (List Int × List Nat) := do
  assertThat (g.startPointers.length == num_cells + 1)
  let result ← reachableSccs al.result num_cells g.startPointers g.neighbourhood startcells
    (createWorkspace al.workspace al.status num_cells) fuel
  let scc ← reverseOrThrow al.reverse result.1
  let s ← extractOrdering scc num_cells s
  let last ← back s.2
  pure (resize s.1 last 0, s.2)

variable [Arith R]

/-- TracerTofSolver.cpp:163-176, `prepareForSolve`. -/
def prepareForSolve (d : SolverData R) (s : SolverState R) : SolverState R :=
  { s with
    isStart := List.replicate d.pv.length false
    tof := List.replicate d.pv.length Arith.zero
    tracer := List.replicate d.pv.length Arith.zero }

/-- TracerTofSolver.cpp:182-188, `setupStartArray`. -/
def setupStartArray (isStart : List Bool) (startset : CellSetValues R) : Res (List Bool) :=
  forEach startset isStart fun b p => wr b (sizeOfInt p.1) true

/-- TracerTofSolver.cpp:194-202, `setupStartArrayFromSource`. -/
def setupStartArrayFromSource (d : SolverData R) (isStart : List Bool) : Res (List Bool) :=
  forEach (List.range d.pv.length) isStart fun b cell => do
    let x ← rd d.sourceTerm cell
    if Arith.lt Arith.zero x then wr b cell true else pure b

/-- TracerTofSolver.cpp:284-292, `setupLocalSource`: the local source term after the call and how the
    call ends; values stored before an exception stay stored. -/
def setupLocalSource (ls : List R) : CellSetValues R → List R × Res Unit
  | [] => (ls, .ok ())
  | p :: ps =>
    if Arith.lt p.2 Arith.zero then (ls, .throw .logicError)
    else match wr ls (sizeOfInt p.1) p.2 with
      | .ok ls => setupLocalSource ls ps
      | .throw e => (ls, .throw e)
      | .ub u => (ls, .ub u)
      | .diverge => (ls, .diverge)

/-- TracerTofSolver.cpp:298-303, `cleanupLocalSource`. -/
def cleanupLocalSource (ls : List R) (startset : CellSetValues R) : Res (List R) :=
  forEach startset ls fun ls p => wr ls (sizeOfInt p.1) Arith.zero

/-- A call ends with its result, or exceptionally; in the second case `s` is what
    the object is left with (meaningless after undefined behaviour).
    TracerTofSolver.cpp:111-157. -/
def finish {S α β : Type} (s : S) (r : Res α) (k : α → S × Res β) : S × Res β :=
  match r with
  | .ok a => k a
  | .throw e => (s, .throw e)
  | .ub u => (s, .ub u)
  | .diverge => (s, .diverge)

/-- TracerTofSolver.cpp:111-125, `solveGlobal`. -/
def solveGlobal (d : SolverData R) (al : Alloc) (fuel : Nat) (s : SolverState R) :
    SolverState R × Res (List R) :=
  let s := prepareForSolve d s
  finish s (setupStartArrayFromSource d s.isStart) fun isStart =>
  let s := { s with isStart := isStart, localSource := d.sourceTerm }
  finish s (computeOrdering d.g d.pv.length al fuel (s.sequence, s.componentStarts)) fun o =>
  let s := { s with sequence := o.1, componentStarts := o.2 }
  finish s (solve d s.isStart s.localSource s.sequence s.componentStarts fuel (s.tof, s.tracer)) fun f =>
  let s := { s with
    tof := f.1
    tracer := f.2
    localSource := List.replicate s.localSource.length Arith.zero }
  (s, .ok s.tof)

/-- TracerTofSolver.hpp:67-70, `LocalSolution`. -/
structure LocalSolution (R : Type) where
  tof : CellSetValues R
  concentration : CellSetValues R

/-- TracerTofSolver.cpp:147-155: one element of the sequence. -/
def collectCell (tof tracer : List R) (s : LocalSolution R) (cell : Int) : Res (LocalSolution R) := do
  let t ← rd tof (sizeOfInt cell)
  let c ← rd tracer (sizeOfInt cell)
  if Arith.le c Arith.zero then .throw .logicError
  else pure { tof := s.tof.assign cell t, concentration := s.concentration.assign cell c }

/-- TracerTofSolver.cpp:143-156: collect the values of the cells in the sequence. -/
def collect (tof tracer : List R) (sequence : List Int) (componentStarts : List Nat) :
    Res (LocalSolution R) := do
  let num_elements ← back componentStarts
  let cells ← readCells sequence 0 num_elements
  forEach cells { tof := [], concentration := [] } (collectCell tof tracer)

/-- TracerTofSolver.cpp:131-157, `solveLocal`. -/
def solveLocal (d : SolverData R) (al : Alloc) (fuel : Nat) (startset : CellSetValues R)
    (s : SolverState R) : SolverState R × Res (LocalSolution R) :=
  let s := prepareForSolve d s
  finish s (setupStartArray s.isStart startset) fun isStart =>
  let s := { s with isStart := isStart }
  finish s (computeLocalOrdering d.g d.pv.length (startset.map fun p => p.1) al fuel
    (s.sequence, s.componentStarts)) fun o =>
  let ls := setupLocalSource s.localSource startset
  let s := { s with
    sequence := o.1
    componentStarts := o.2
    localSource := ls.1 }
  finish s ls.2 fun _ =>
  finish s (solve d s.isStart s.localSource s.sequence s.componentStarts fuel (s.tof, s.tracer)) fun f =>
  let s := { s with
    tof := f.1
    tracer := f.2 }
  finish s (cleanupLocalSource s.localSource startset) fun ls =>
  let s := { s with localSource := ls }
  finish s (collect s.tof s.tracer s.sequence s.componentStarts) fun r =>
  (s, .ok r)

end Verif.Solver
