/-
Calls on a `TracerTofSolver` object, as a client makes them.
-/
import Verif.Model.TracerTofSolver
import Verif.Spec.FlowData
import Verif.Spec.SCC

namespace Verif.Spec
open Verif.Solver

section
variable {R : Type} [Arith R]

/-- The states of a solver object (created in state `st`) after any sequence of calls,
    whatever they were given and however they ended. -/
inductive AfterSolves (d : SolverData R) (st : SolverState R) : SolverState R → Prop
  | new : AfterSolves d st st
  | global {s : SolverState R} (al : Alloc) (fuel : Nat) :
      AfterSolves d st s → AfterSolves d st (solveGlobal d al fuel s).1
  | loc {s : SolverState R} (al : Alloc) (fuel : Nat) (startset : CellSetValues R) :
      AfterSolves d st s → AfterSolves d st (solveLocal d al fuel startset s).1

/-- After any earlier calls, `solveGlobal()` takes finitely many steps and ends with `r`
    (no allocation fails). -/
def GlobalReturns (d : SolverData R) (st : SolverState R) (r : Res (List R)) : Prop :=
  ∃ N, ∀ fuel, N ≤ fuel → ∀ s, AfterSolves d st s → (solveGlobal d Alloc.good fuel s).2 = r

/-- After any earlier calls, `solveLocal(startset)` takes finitely many steps and ends with `r`
    (no allocation fails). -/
def LocalReturns (d : SolverData R) (st : SolverState R) (startset : CellSetValues R)
    (r : Res (LocalSolution R)) : Prop :=
  ∃ N, ∀ fuel, N ≤ fuel → ∀ s, AfterSolves d st s → (solveLocal d Alloc.good fuel startset s).2 = r

/-- `d` holds a well-formed graph on `n` cells and its reversal (weights are arbitrary). -/
structure GraphPair (d : SolverData R) (n : Nat) : Prop where
  graph : IsGraph n d.g.startPointers d.g.neighbourhood
  size : d.g.startPointers.length = n + 1
  pv : d.pv.length = n
  upwind : ∀ v < n, ∃ nb, d.gReverse.cellNeighbourhood (v : Int) = .ok nb ∧
    ∀ e ∈ nb, ∃ u : Nat, e.1 = u ∧ HasEdge n d.g.startPointers d.g.neighbourhood u v

/-- There is an edge from `u` to `v` in the graph of `d`. -/
def Edge (d : SolverData R) (n u v : Nat) : Prop := HasEdge n d.g.startPointers d.g.neighbourhood u v

/-- `seq` lists exactly the cells in `V`, each once, and the upstream end of every edge
    before its downstream end. -/
structure TopologicalOrder (E : Nat → Nat → Prop) (V : Nat → Prop) (seq : List Nat) : Prop where
  once : seq.Nodup
  cells : ∀ v, v ∈ seq ↔ V v
  order : ∀ (pre : List Nat) (v : Nat) (post : List Nat), seq = pre ++ v :: post → ∀ u ∈ v :: post, ¬ E u v

/-- Update the cells of `seq` one after the other, beginning with zero everywhere. -/
def visitCells (d : SolverData R) (isStart : List Bool) (localSource : List R) (n : Nat) (seq : List Nat) :
    Res (List R × List R) :=
  forEach (seq.map fun v : Nat => (v : Int)) (List.replicate n Arith.zero, List.replicate n Arith.zero)
    (solveSingleCell d isStart localSource)

end

variable {K : Type} [Field K] [LinearOrder K]

/-- The object `(d, st)` is the result of constructing a solver for the flow problem `F`:
    a graph with the fluxes, one with the reversed fluxes, the pore volumes, and the
    sources on some cells `ps` (zero elsewhere). -/
structure SolverFor (F : Flow K) (d : SolverData (X K)) (st : SolverState (X K)) : Prop where
  valid : F.Valid
  made : ∃ g gr ps, HasFlow g F.n F.w ∧ HasFlow gr F.n (fun u v => F.w v u) ∧
    (∀ p ∈ ps, p < F.n) ∧ (∀ v < F.n, v ∉ ps → F.src v = 0) ∧
    create g gr (arr F.n F.pv) (valuesOf ps F.src) = .ok (d, st)

/-- `v` is downstream of one of the cells `starts`. -/
def Flow.Downstream (F : Flow K) (starts : List Nat) (v : Nat) : Prop := ∃ p ∈ starts, F.Reach p v

/-- `u` and `v` lie on a common cycle (or are equal). -/
def Flow.SameCycle (F : Flow K) (u v : Nat) : Prop := F.Reach u v ∧ F.Reach v u

/-- `v` is connected to itself and lies on no other cycle. -/
def Flow.Loop (F : Flow K) (v : Nat) : Prop := F.w v v ≠ 0 ∧ ∀ u, F.SameCycle u v → u = v

/-- Flux into `v` from the cells on a common cycle with it. -/
noncomputable def Flow.cycleInflow (F : Flow K) (v : Nat) : K := by
  classical exact ∑ u ∈ Finset.range F.n, if F.SameCycle u v then F.w u v else 0

/-- The fill time of `v` exceeds 200 years. -/
def Flow.Slow (F : Flow K) (v : Nat) : Prop := F.total v < F.pv v / cap

/-- `G` is the same problem as `F`, with cell `v` of `F` numbered `σ v`. -/
structure Renumbered (σ : Nat → Nat) (F G : Flow K) : Prop where
  size : G.n = F.n
  cells : ∀ v < F.n, σ v < F.n
  inj : ∀ u < F.n, ∀ v < F.n, σ u = σ v → u = v
  flux : ∀ u < F.n, ∀ v < F.n, G.w (σ u) (σ v) = F.w u v
  pv : ∀ v < F.n, G.pv (σ v) = F.pv v
  src : ∀ v < F.n, G.src (σ v) = F.src v

/-- The tracer injected into `v`. -/
def injected (starts : List Nat) (ls : Nat → K) (v : Nat) : K := if v ∈ starts then ls v else 0

end Verif.Spec
