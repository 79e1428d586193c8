/-
Calls that run out of memory: `std::bad_alloc` thrown by a container.

`RunsOut t c t'` says that the call `c` on the object `t` may throw `std::bad_alloc`
and leave the object in the state `t'`.  Which allocation fails is left open.
Line numbers refer to opm/flowdiagnostics/Toolbox.cpp unless stated otherwise.
-/
import Verif.Model.Toolbox

namespace Verif.Toolbox
open Verif.Solver

variable {R : Type} [Arith R]

/-- Where Toolbox.cpp:124-125, respectively 127-128, run out of memory. -/
inductive PutStage where
  /-- inserting the cell into the sums -/
  | sum
  /-- inserting the id -/
  | id
  /-- inserting the cell into the set of the id -/
  | cell

/-- Toolbox.cpp:124-125, respectively 127-128, up to the failing insertion.  `operator[]` and `insert` of
    `std::map` change nothing when they throw. -/
def Split.putUpTo (s : Split R) (stage : PutStage) (id : CellSetID) (cell : Int) (x : R) : Split R :=
  match stage with
  | .sum => s
  | .id => { s with only := s.only.assign cell (Arith.add (s.only.at_ cell Arith.zero) x) }
  | .cell =>
    { only := s.only.assign cell (Arith.add (s.only.at_ cell Arith.zero) x)
      byId := s.byId.assign id (s.byId.at_ id []) }

/-- Toolbox.cpp:122-130: one entry of one inflow set up to the failing insertion.  (For an entry that is
    neither positive nor negative nothing is inserted.) -/
def splitEntryUpTo (stage : PutStage) (id : CellSetID) (s : Split R × Split R) (data : Int × R) : Split R × Split R :=
  if Arith.lt Arith.zero data.2 then (s.1.putUpTo stage id data.1 data.2, s.2)
  else if Arith.lt data.2 Arith.zero then (s.1, s.2.putUpTo stage id data.1 (Arith.neg data.2))
  else s

/-- Toolbox.cpp:120-131: the entries before the failing one (`before`, `done` of its set), and the failing
    one (`data` of the set of `id`) up to the failing insertion. -/
def splitInflowUpTo (before : InflowFlux R) (id : CellSetID) (done : CellSetValues R) (data : Int × R)
    (stage : PutStage) : Split R × Split R :=
  splitEntryUpTo stage id (done.foldl (splitEntry id) (splitInflow before)) data

/-- Toolbox.cpp:134-156: injection diagnostics come past the checks. -/
def InjectionChecked (t : Toolbox R) (startSets : List CellSet) : Prop :=
  (t.pvol.isEmpty || t.flux.numConnections == 0) = false ∧ checkStartSets t.injById t.onlyInflow startSets = .ok ()

/-- Toolbox.cpp:174-196: production diagnostics come past the checks. -/
def ProductionChecked (t : Toolbox R) (startSets : List CellSet) : Prop :=
  (t.pvol.isEmpty || t.flux.numConnections == 0) = false ∧ checkStartSets t.prodById t.onlyOutflow startSets = .ok ()

/-- Toolbox.cpp:90-132, 154-171 and 194-211. -/
inductive RunsOut (t : Toolbox R) : Call R → Toolbox R → Prop
  /-- 98: the copy assignment of `std::vector` (libstdc++) obtains memory before it changes anything. -/
  | poreVolume (pvol : List R) (h : pvol.length = t.g.numCells) : RunsOut t (.assignPoreVolume pvol) t
  /-- 109: the implicit copy assignment of `ConnectionValues` (ConnectionValues.hpp:69-72) assigns member by
      member; the two sizes have been assigned when the copy of the values fails.  110 is not reached. -/
  | connectionFlux (flux : ConnectionValues R) (h : flux.numConnections = t.g.numConnections) :
      RunsOut t (.assignConnectionFlux flux) { t with flux := { flux with data := t.flux.data } }
  /-- 113-132: the maps have been cleared and hold what was inserted so far. -/
  | inflow (before : InflowFlux R) (id : CellSetID) (done : CellSetValues R) (data : Int × R) (rest : CellSetValues R)
      (after : InflowFlux R) (stage : PutStage) :
      RunsOut t (.assignInflowFlux (before ++ (id, done ++ data :: rest) :: after))
        { t with
          onlyInflow := (splitInflowUpTo before id done data stage).1.only
          injById := (splitInflowUpTo before id done data stage).1.byId
          onlyOutflow := (splitInflowUpTo before id done data stage).2.only
          prodById := (splitInflowUpTo before id done data stage).2.byId }
  /-- 154-156, 214-241: while the graphs are built.  What they hold then is left open. -/
  | buildInj (al : Nat → Alloc) (fuel : Nat) (s : List CellSet) (h : InjectionChecked t s) (hb : t.connBuilt = false)
      (d u : AssembledConnections R) :
      RunsOut t (.computeInjectionDiagnostics al fuel s) { t with downstream := d, upstream := u }
  | buildProd (al : Nat → Alloc) (fuel : Nat) (s : List CellSet) (h : ProductionChecked t s) (hb : t.connBuilt = false)
      (d u : AssembledConnections R) :
      RunsOut t (.computeProductionDiagnostics al fuel s) { t with downstream := d, upstream := u }
  /-- 158-171: in the solves or while the solution is made.  Solver and solution are local. -/
  | solveInj (al : Nat → Alloc) (fuel : Nat) (s : List CellSet) (h : InjectionChecked t s) (hb : t.ensureBuilt.2 = .ok ()) :
      RunsOut t (.computeInjectionDiagnostics al fuel s) t.ensureBuilt.1
  /-- 198-211 -/
  | solveProd (al : Nat → Alloc) (fuel : Nat) (s : List CellSet) (h : ProductionChecked t s) (hb : t.ensureBuilt.2 = .ok ()) :
      RunsOut t (.computeProductionDiagnostics al fuel s) t.ensureBuilt.1

end Verif.Toolbox
