/-
Histories of calls on a `Toolbox`, the data it was given, and the flow problem this data describes.
-/
import Verif.Model.Toolbox
import Verif.Spec.Objects
import Verif.Spec.SolverCalls

namespace Verif.Spec
open Verif.Toolbox

section
variable {R : Type} [Arith R]

/-- A toolbox after a history of calls, however these ended. -/
def toolboxAfter (g : ConnectivityGraph) (calls : List (Call R)) : Toolbox R :=
  calls.foldl Toolbox.step (Toolbox.create g)

/-- The last pore volumes of the right size. -/
def lastPoreVolume (g : ConnectivityGraph) (calls : List (Call R)) : Option (List R) :=
  lastSome (fun
    | .assignPoreVolume pv => if pv.length = g.numCells then some pv else none
    | _ => none) calls

/-- The last fluxes of the right size. -/
def lastFlux (g : ConnectivityGraph) (calls : List (Call R)) : Option (ConnectionValues R) :=
  lastSome (fun
    | .assignConnectionFlux f => if f.numConnections = g.numConnections then some f else none
    | _ => none) calls

/-- The last inflow fluxes. -/
def lastInflow (calls : List (Call R)) : Option (InflowFlux R) :=
  lastSome (fun
    | .assignInflowFlux m => some m
    | _ => none) calls

/-- The at most three calls that hand over the latest data of a history. -/
def essential (g : ConnectivityGraph) (calls : List (Call R)) : List (Call R) :=
  (lastPoreVolume g calls).toList.map .assignPoreVolume ++
  ((lastFlux g calls).toList.map .assignConnectionFlux ++
  (lastInflow calls).toList.map .assignInflowFlux)

/-- Outcome of injection diagnostics after a history (the allocations of the solves end as
    `al` says, the iterations may take `fuel` steps). -/
def injectionOutcome (g : ConnectivityGraph) (calls : List (Call R)) (al : Nat → Solver.Alloc) (fuel : Nat)
    (startSets : List CellSet) : Res (Solution R) :=
  ((toolboxAfter g calls).injDiag al fuel startSets).2

/-- Outcome of production diagnostics after a history. -/
def productionOutcome (g : ConnectivityGraph) (calls : List (Call R)) (al : Nat → Solver.Alloc) (fuel : Nat)
    (startSets : List CellSet) : Res (Solution R) :=
  ((toolboxAfter g calls).prodDiag al fuel startSets).2

/-- Every allocation succeeds. -/
def noFailure : Nat → Solver.Alloc := fun _ => Solver.Alloc.good

/-- After a history, injection diagnostics take finitely many steps and end with `r`. -/
def InjectionReturns (g : ConnectivityGraph) (calls : List (Call R)) (startSets : List CellSet)
    (r : Res (Solution R)) : Prop :=
  ∃ N, ∀ fuel, N ≤ fuel → injectionOutcome g calls noFailure fuel startSets = r

/-- After a history, production diagnostics take finitely many steps and end with `r`. -/
def ProductionReturns (g : ConnectivityGraph) (calls : List (Call R)) (startSets : List CellSet)
    (r : Res (Solution R)) : Prop :=
  ∃ N, ∀ fuel, N ≤ fuel → productionOutcome g calls noFailure fuel startSets = r

/-- Pore volumes and fluxes have been accepted, and neither is empty. -/
structure Complete (g : ConnectivityGraph) (calls : List (Call R)) : Prop where
  cells : g.numCells ≠ 0
  conns : g.numConnections ≠ 0
  pv : lastPoreVolume g calls ≠ none
  flux : lastFlux g calls ≠ none

/-- The connections `cs` (pairs of cells) on `n` cells. -/
structure HasConnections (g : ConnectivityGraph) (n : Nat) (cs : List (Nat × Nat)) : Prop where
  cells : g.numCells = n
  count : g.numConnections = cs.length
  connection : ∀ i (h : i < cs.length), g.connection i = .ok ((cs[i].1 : Int), (cs[i].2 : Int))

/-- A connectivity between cells `0..n-1`. -/
structure ValidConnectivity (g : ConnectivityGraph) (n : Nat) (cs : List (Nat × Nat)) : Prop extends
    HasConnections g n cs where
  int : n ≤ INT_MAX
  range : ∀ e ∈ cs, e.1 < n ∧ e.2 < n

/-- A flux object with readable values `phi` for `m` connections and `np` phases. -/
structure HasFlux (f : ConnectionValues R) (m np : Nat) (phi : Nat → Nat → R) : Prop where
  conns : f.numConnections = m
  phases : f.numPhases = np
  get : ∀ c < m, ∀ p < np, f.get c p = .ok (phi c p)

/-- The flux last accepted has the values `phi` for `np` phases of each connection. -/
def FluxGiven (g : ConnectivityGraph) (calls : List (Call R)) (np : Nat) (phi : Nat → Nat → R) : Prop :=
  ∃ f, lastFlux g calls = some f ∧ HasFlux f g.numConnections np phi

/-- Sum over the phases, in order: the total flux of a connection. -/
def phaseSum (phi : Nat → R) (np : Nat) : R := ((List.range np).map phi).foldl Arith.add Arith.zero

/-- A number that is neither positive nor negative. -/
def NoSign (x : R) : Prop := Arith.lt Arith.zero x = false ∧ Arith.lt x Arith.zero = false

/-- The id has a positive value in some cell. -/
def HasInflow (m : InflowFlux R) (i : CellSetID) : Prop :=
  ∃ set ∈ m, set.1 = i ∧ ∃ e ∈ set.2, Arith.lt Arith.zero e.2 = true

/-- The cell has a positive value for some id. -/
def InflowCell (m : InflowFlux R) (c : Int) : Prop :=
  ∃ set ∈ m, ∃ e ∈ set.2, e.1 = c ∧ Arith.lt Arith.zero e.2 = true

/-- A negative value. -/
def IsNegative (x : R) : Prop := Arith.lt x Arith.zero = true ∧ Arith.lt Arith.zero x = false

/-- The id has a negative value in some cell. -/
def HasOutflow (m : InflowFlux R) (i : CellSetID) : Prop :=
  ∃ set ∈ m, set.1 = i ∧ ∃ e ∈ set.2, IsNegative e.2

/-- The cell has a negative value for some id. -/
def OutflowCell (m : InflowFlux R) (c : Int) : Prop :=
  ∃ set ∈ m, ∃ e ∈ set.2, e.1 = c ∧ IsNegative e.2

/-- Every start set has an id with inflow and cells with inflow. -/
def InjectionAccepts (m : InflowFlux R) (startSets : List CellSet) : Prop :=
  ∀ s ∈ startSets, HasInflow m s.id ∧ ∀ c ∈ s.cells, InflowCell m c

/-- Every start set has an id with outflow and cells with outflow. -/
def ProductionAccepts (m : InflowFlux R) (startSets : List CellSet) : Prop :=
  ∀ s ∈ startSets, HasOutflow m s.id ∧ ∀ c ∈ s.cells, OutflowCell m c

/-- Keep only the positive, respectively the negative, entries. -/
def positivePart (m : InflowFlux R) : InflowFlux R :=
  m.map fun set => (set.1, set.2.filter fun e => Arith.lt Arith.zero e.2)
def negativePart (m : InflowFlux R) : InflowFlux R :=
  m.map fun set => (set.1, set.2.filter fun e => Arith.lt e.2 Arith.zero)

/-- All cells lie in `0..n-1`. -/
def CellsBelow (m : InflowFlux R) (n : Nat) : Prop := ∀ set ∈ m, ∀ e ∈ set.2, 0 ≤ e.1 ∧ e.1 < n

/-- All values negated. -/
def negated (m : InflowFlux R) : InflowFlux R :=
  m.map fun set => (set.1, set.2.map fun e => (e.1, Arith.neg e.2))

/-- How signs behave in the arithmetic.  IEEE arithmetic satisfies these laws (the alternatives
    in the last two allow for the sign of a zero sum), and so does exact arithmetic. -/
structure SignLaws (R : Type) [Arith R] : Prop where
  neg_neg : ∀ x : R, Arith.neg (Arith.neg x) = x
  neg_pos : ∀ x : R, Arith.lt Arith.zero (Arith.neg x) = Arith.lt x Arith.zero
  neg_lt : ∀ x : R, Arith.lt (Arith.neg x) Arith.zero = Arith.lt Arith.zero x
  one_sign : ∀ x : R, Arith.lt Arith.zero x = true → Arith.lt x Arith.zero = false
  zero_eq : Arith.eq (Arith.zero : R) Arith.zero = true
  zero_sign : ∀ x : R, Arith.eq x Arith.zero = true → Arith.lt Arith.zero x = false ∧ Arith.lt x Arith.zero = false
  neg_add : ∀ x y : R, Arith.add (Arith.neg x) (Arith.neg y) = Arith.neg (Arith.add x y) ∨
    (Arith.eq (Arith.add x y) Arith.zero = true ∧ Arith.eq (Arith.add (Arith.neg x) (Arith.neg y)) Arith.zero = true)
  zero_add : ∀ x y z : R, Arith.eq x Arith.zero = true → Arith.eq y Arith.zero = true →
    Arith.add y (Arith.neg z) = Arith.neg (Arith.add x z) ∨
    (Arith.eq (Arith.add x z) Arith.zero = true ∧ Arith.eq (Arith.add y (Arith.neg z)) Arith.zero = true)

end

/-- Inflow of one id: its cells and their values. -/
structure WellFlux (K : Type) where
  id : CellSetID
  cells : List Nat
  val : Nat → K

/-- Cells of a well with positive value. -/
def posCells {K : Type} [Field K] [LinearOrder K] (w : WellFlux K) : List Nat := w.cells.filter fun v => decide (0 < w.val v)

/-- Cells of a well with negative value. -/
def negCells {K : Type} [Field K] [LinearOrder K] (w : WellFlux K) : List Nat := w.cells.filter fun v => decide (w.val v < 0)

/-- Everything that determines the diagnostics. -/
structure Problem (K : Type) where
  n : Nat
  conns : List (Nat × Nat)
  nphase : Nat
  /-- flux of a connection and phase, from the first cell to the second -/
  phi : Nat → Nat → K
  pv : Nat → K
  wells : List (WellFlux K)

namespace Problem
variable {K : Type} [Field K] [LinearOrder K]

/-- Total flux of connection `c`. -/
def net (P : Problem K) (c : Nat) : K := ∑ p ∈ Finset.range P.nphase, P.phi c p

/-- Flux from `u` to `v` carried by connection `c`. -/
def carried (P : Problem K) (c u v : Nat) : K :=
  (if P.conns[c]? = some (u, v) then max (P.net c) 0 else 0) +
  (if P.conns[c]? = some (v, u) then max (-P.net c) 0 else 0)

/-- Flux from `u` to `v`. -/
def flux (P : Problem K) (u v : Nat) : K := ∑ c ∈ Finset.range P.conns.length, P.carried c u v

/-- The value well `w` gives to cell `v`. -/
def wellAt (w : WellFlux K) (v : Nat) : K := if v ∈ w.cells then w.val v else 0

/-- Sum of the positive values given to cell `v`. -/
def source (P : Problem K) (v : Nat) : K := (P.wells.map fun w => max (wellAt w v) 0).sum

/-- Sum of the negative values given to cell `v`, with positive sign. -/
def sink (P : Problem K) (v : Nat) : K := (P.wells.map fun w => max (-wellAt w v) 0).sum

/-- The flow from sources to sinks. -/
def forward (P : Problem K) : Flow K := ⟨P.n, P.flux, P.pv, P.source⟩

/-- The reversed flow, from sinks to sources. -/
def backward (P : Problem K) : Flow K := ⟨P.n, fun u v => P.flux v u, P.pv, P.sink⟩

/-- Cells, connections and data are consistent; `std::map`s are sorted. -/
structure Valid (P : Problem K) : Prop where
  int : P.n ≤ INT_MAX
  pos : 0 < P.n
  some_connection : P.conns ≠ []
  range : ∀ e ∈ P.conns, e.1 < P.n ∧ e.2 < P.n
  pv : ∀ v < P.n, 0 ≤ P.pv v
  wells_sorted : P.wells.Pairwise fun a b => a.id < b.id
  cells_sorted : ∀ w ∈ P.wells, w.cells.Pairwise (· < ·)
  cells_range : ∀ w ∈ P.wells, ∀ v ∈ w.cells, v < P.n

/-- The inflow map of the problem. -/
def inflowMap (P : Problem K) : InflowFlux (X K) := P.wells.map fun w => (w.id, valuesOf w.cells w.val)

/-- After the history `calls` on a toolbox for `g`, the toolbox has been given the problem `P`. -/
structure GivenTo (P : Problem K) (g : ConnectivityGraph) (calls : List (Toolbox.Call (X K))) : Prop where
  graph : HasConnections g P.n P.conns
  pv : lastPoreVolume g calls = some (arr P.n P.pv)
  flux : FluxGiven g calls P.nphase fun c p => X.fin (P.phi c p)
  inflow : lastInflow calls = some P.inflowMap ∨ (lastInflow calls = none ∧ P.wells = [])

end Problem
end Verif.Spec
