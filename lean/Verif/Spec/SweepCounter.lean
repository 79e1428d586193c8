/-
Specification vocabulary for the counters that the solver keeps.
-/
import Verif.Spec.Toolbox
import Verif.Model.SweepCounter
import Mathlib.Logic.Relation

namespace Verif.Spec
open Verif.Toolbox Verif.Solver

variable {R : Type} [Arith R]

/-- Outcome of `computeInjectionDiagnostics` on a toolbox with a given history, with the
    counters as `int`s. -/
def injectionCounted (g : ConnectivityGraph) (calls : List (Call R)) (al : Nat → Alloc) (fuel : Nat)
    (starts : List CellSet) : Res (Solution R) :=
  (injDiagWith (counted fuel) (toolboxAfter g calls) al fuel starts).2

/-- Outcome of `computeProductionDiagnostics`, with the counters as `int`s. -/
def productionCounted (g : ConnectivityGraph) (calls : List (Call R)) (al : Nat → Alloc) (fuel : Nat)
    (starts : List CellSet) : Res (Solution R) :=
  (prodDiagWith (counted fuel) (toolboxAfter g calls) al fuel starts).2

/-- Outcome of `computeInjectionDiagnostics` if no more than `sweeps` sweeps over a set of cells
    are allowed; `diverge` if a further one would be started. -/
def injectionLimited (g : ConnectivityGraph) (calls : List (Call R)) (al : Nat → Alloc) (fuel sweeps : Nat)
    (starts : List CellSet) : Res (Solution R) :=
  (injDiagWith (uncounted sweeps) (toolboxAfter g calls) al fuel starts).2

/-- Outcome of `computeProductionDiagnostics` if no more than `sweeps` sweeps over a set of cells
    are allowed. -/
def productionLimited (g : ConnectivityGraph) (calls : List (Call R)) (al : Nat → Alloc) (fuel sweeps : Nat)
    (starts : List CellSet) : Res (Solution R) :=
  (prodDiagWith (uncounted sweeps) (toolboxAfter g calls) al fuel starts).2

/-- Fluid flows from cell `u` to cell `v` through one of the connections `cs`, the total flux of
    the connection with index `c` being `x c`. -/
def FlowsTo (cs : List (Nat × Nat)) (x : Nat → R) (u v : Nat) : Prop :=
  ∃ c, (cs[c]? = some (u, v) ∧ Arith.lt Arith.zero (x c) = true) ∨ (cs[c]? = some (v, u) ∧ Arith.lt (x c) Arith.zero = true)

/-- No cell is downstream of itself. -/
def NoCycle (cs : List (Nat × Nat)) (x : Nat → R) : Prop := ∀ v, ¬ Relation.TransGen (FlowsTo cs x) v v

end Verif.Spec
