/-
Model of opm/flowdiagnostics/Toolbox.{hpp,cpp}.
Line numbers refer to Toolbox.cpp.
-/
import Verif.Model.TracerTofSolver
import Verif.Model.ConnectivityGraph
import Verif.Model.Solution

namespace Verif
open Verif.Solver

/-- The argument of `assignInflowFlux`: `std::map<CellSetID, CellSetValues>`.  Toolbox.cpp:114. -/
abbrev InflowFlux (R : Type) := OMap CellSetID (CellSetValues R)

/-- Toolbox.cpp:65-76, the members of `Toolbox::Impl`. -/
structure Toolbox (R : Type) where
  g : ConnectivityGraph
  pvol : List R
  flux : ConnectionValues R
  injById : InflowFlux R
  prodById : InflowFlux R
  onlyInflow : CellSetValues R
  onlyOutflow : CellSetValues R
  downstream : AssembledConnections R
  upstream : AssembledConnections R
  connBuilt : Bool

namespace Toolbox
variable {R : Type} [Arith R]

/-- Toolbox.cpp:81-88 and 255-258, the constructor. -/
def create (g : ConnectivityGraph) : Toolbox R :=
  { g := g
    pvol := []
    flux := ConnectionValues.create 0 0
    injById := []
    prodById := []
    onlyInflow := []
    onlyOutflow := []
    downstream := {}
    upstream := {}
    connBuilt := false }

/-- Toolbox.cpp:90-99, `assignPoreVolume`: the object after the call and how the call ends. -/
def assignPoreVolume (t : Toolbox R) (pvol : List R) : Toolbox R × Res Unit :=
  if pvol.length ≠ t.g.numCells then (t, .throw .logicError)
  else ({ t with pvol := pvol }, .ok ())

/-- Toolbox.cpp:101-111, `assignConnectionFlux`. -/
def assignConnectionFlux (t : Toolbox R) (flux : ConnectionValues R) : Toolbox R × Res Unit :=
  if flux.numConnections ≠ t.g.numConnections then (t, .throw .logicError)
  else ({ t with flux := flux, connBuilt := false }, .ok ())

/-- What Toolbox.cpp:122-130 accumulate: the values per cell and the values per id. -/
structure Split (R : Type) where
  only : CellSetValues R := []
  byId : InflowFlux R := []

/-- Toolbox.cpp:124-125, respectively 127-128: add to the sum of the cell; insert into the set of the id. -/
def Split.put (s : Split R) (id : CellSetID) (cell : Int) (x : R) : Split R :=
  { only := s.only.assign cell (Arith.add (s.only.at_ cell Arith.zero) x)
    byId := s.byId.assign id ((s.byId.at_ id []).insert cell x) }

/-- Toolbox.cpp:122-130: one entry of one inflow set; the state is (inflow, outflow). -/
def splitEntry (id : CellSetID) (s : Split R × Split R) (data : Int × R) : Split R × Split R :=
  if Arith.lt Arith.zero data.2 then (s.1.put id data.1 data.2, s.2)
  else if Arith.lt data.2 Arith.zero then (s.1, s.2.put id data.1 (Arith.neg data.2))
  else s

/-- Toolbox.cpp:120-131, the loops of `assignInflowFlux`. -/
def splitInflow (inflow : InflowFlux R) : Split R × Split R :=
  inflow.foldl (fun s set => set.2.foldl (splitEntry set.1) s) ({}, {})

/-- Toolbox.cpp:113-132, `assignInflowFlux`. -/
def assignInflowFlux (t : Toolbox R) (inflow : InflowFlux R) : Toolbox R :=
  let s := splitInflow inflow
  { t with
    onlyInflow := s.1.only
    injById := s.1.byId
    onlyOutflow := s.2.only
    prodById := s.2.byId }

/-- Toolbox.cpp:226-230: sum of the phase fluxes of a connection. -/
def connectionFlux (flux : ConnectionValues R) (conn : Nat) : Res R :=
  forEach (List.range flux.numPhases) Arith.zero fun sum phase => do
    let x ← flux.get conn phase
    pure (Arith.add sum x)

/-- Toolbox.cpp:222-238, body: one connection; the state is (downstream, upstream). -/
def addFluxOf (g : ConnectivityGraph) (flux : ConnectionValues R)
    (s : AssembledConnections R × AssembledConnections R) (conn : Nat) :
    Res (AssembledConnections R × AssembledConnections R) := do
  let cells ← g.connection conn
  let x ← connectionFlux flux conn
  if Arith.lt Arith.zero x then
    pure (s.1.addConnectionW cells.1 cells.2 x, s.2.addConnectionW cells.2 cells.1 x)
  else if Arith.lt x Arith.zero then
    pure (s.1.addConnectionW cells.2 cells.1 (Arith.neg x), s.2.addConnectionW cells.1 cells.2 (Arith.neg x))
  else pure s

/-- Toolbox.cpp:222-238, the loop.  An exception leaves the graphs with the connections added so far. -/
def addFluxes (g : ConnectivityGraph) (flux : ConnectionValues R) :
    List Nat → AssembledConnections R × AssembledConnections R →
    (AssembledConnections R × AssembledConnections R) × Res Unit
  | [], s => (s, .ok ())
  | conn :: conns, s => finish s (addFluxOf g flux s conn) (addFluxes g flux conns)

/-- Toolbox.cpp:214-245, `buildAssembledConnections`.  (239: the number of cells is converted
    to `int`, and back to `size_t` by the calls of `compress`.) -/
def buildAssembledConnections (t : Toolbox R) : Toolbox R × Res Unit :=
  let s := addFluxes t.g t.flux (List.range t.g.numConnections) ({}, {})
  let t := { t with downstream := s.1.1, upstream := s.1.2 }
  finish t s.2 fun _ =>
  let num_cells := sizeOfInt (narrowInt t.g.numCells)
  let d := t.downstream.compressStep num_cells
  let t := { t with downstream := d.1 }
  finish t d.2 fun _ =>
  let u := t.upstream.compressStep num_cells
  let t := { t with upstream := u.1 }
  finish t u.2 fun _ =>
  ({ t with connBuilt := true }, .ok ())

/-- Toolbox.cpp:143-152, respectively 183-192: check the start sets. -/
def checkStartSets (byId : InflowFlux R) (only : CellSetValues R) (startSets : List CellSet) : Res Unit :=
  forEach startSets () fun _ start =>
    if (byId.find start.id).isNone then .throw .runtimeError
    else forEach start.cells () fun _ cell =>
      if only.count cell ≠ 1 then .throw .runtimeError else .ok ()

/-- Toolbox.cpp:165-169, respectively 205-209: one local solve per start set; the state is the
    solver and the solution.  `al k` are the allocation outcomes of solve number `k`
    (0 is the global solve).  `byId[id]` would insert a missing id, but 143-146 have
    made sure that it is present. -/
def solveSets (d : SolverData R) (al : Nat → Alloc) (fuel : Nat) (byId : InflowFlux R) :
    List CellSet → Nat → SolverState R → Solution R → Res (Solution R)
  | [], _, _, sol => .ok sol
  | start :: rest, k, s, sol =>
    let r := solveLocal d (al k) fuel (byId.at_ start.id []) s
    r.2.bind fun l =>
      solveSets d al fuel byId rest (k + 1) r.1
        ((sol.assignTimeOfFlight start.id l.tof).assignConcentration start.id l.concentration)

/-- Toolbox.cpp:158-171, respectively 198-211: the solves and the solution object. -/
def computeSolution (g gReverse : AssembledConnections R) (pvol : List R) (only : CellSetValues R)
    (byId : InflowFlux R) (al : Nat → Alloc) (fuel : Nat) (startSets : List CellSet) : Res (Solution R) := do
  let solver ← Solver.create g gReverse pvol only
  let r := solveGlobal solver.1 (al 0) fuel solver.2
  let tof ← r.2
  solveSets solver.1 al fuel byId startSets 1 r.1 ((({} : Solution R)).assignToF tof)

/-- Toolbox.cpp:154-156, respectively 194-196. -/
def ensureBuilt (t : Toolbox R) : Toolbox R × Res Unit :=
  if t.connBuilt then (t, .ok ()) else t.buildAssembledConnections

/-- Toolbox.cpp:134-172, `injDiag`. -/
def injDiag (t : Toolbox R) (al : Nat → Alloc) (fuel : Nat) (startSets : List CellSet) :
    Toolbox R × Res (Solution R) :=
  if t.pvol.isEmpty || t.flux.numConnections == 0 then (t, .throw .logicError) else
  finish t (checkStartSets t.injById t.onlyInflow startSets) fun _ =>
  let b := t.ensureBuilt
  let t := b.1
  finish t b.2 fun _ =>
  (t, computeSolution t.downstream t.upstream t.pvol t.onlyInflow t.injById al fuel startSets)

/-- Toolbox.cpp:174-212, `prodDiag`. -/
def prodDiag (t : Toolbox R) (al : Nat → Alloc) (fuel : Nat) (startSets : List CellSet) :
    Toolbox R × Res (Solution R) :=
  if t.pvol.isEmpty || t.flux.numConnections == 0 then (t, .throw .logicError) else
  finish t (checkStartSets t.prodById t.onlyOutflow startSets) fun _ =>
  let b := t.ensureBuilt
  let t := b.1
  finish t b.2 fun _ =>
  (t, computeSolution t.upstream t.downstream t.pvol t.onlyOutflow t.prodById al fuel startSets)

/-- Toolbox.cpp:276-306: a call of the public interface.  (Construction, moves and destruction of
    objects, 255-274, are in `Model/ToolboxObjects.lean`.) -/
inductive Call (R : Type) where
  | assignPoreVolume (pvol : List R)
  | assignConnectionFlux (flux : ConnectionValues R)
  | assignInflowFlux (inflow : InflowFlux R)
  | computeInjectionDiagnostics (al : Nat → Alloc) (fuel : Nat) (startSets : List CellSet)
  | computeProductionDiagnostics (al : Nat → Alloc) (fuel : Nat) (startSets : List CellSet)

/-- The object after a call, however the call ended.  Toolbox.cpp:276-306. -/
def step (t : Toolbox R) : Call R → Toolbox R
  | .assignPoreVolume pvol => (t.assignPoreVolume pvol).1
  | .assignConnectionFlux flux => (t.assignConnectionFlux flux).1
  | .assignInflowFlux inflow => t.assignInflowFlux inflow
  | .computeInjectionDiagnostics al fuel s => (t.injDiag al fuel s).1
  | .computeProductionDiagnostics al fuel s => (t.prodDiag al fuel s).1

end Toolbox
end Verif
