/-
Specification vocabulary for wells that communicate.
-/
import Verif.Spec.Support

namespace Verif.Spec
open Verif.Toolbox Verif.Solver

variable {K : Type} [Field K] [LinearOrder K]

/-- Fluid injected by `w` gets to the cell `v`, and fluid gets from there to a cell where `w'` produces. -/
def Problem.Between (P : Problem K) (w w' : WellFlux K) (v : Nat) : Prop :=
  (∃ a ∈ posCells w, P.forward.Reach a v) ∧ ∃ b ∈ negCells w', P.forward.Reach v b

/-- Fluid injected by `w` gets to a cell where `w'` produces. -/
def Problem.Communicate (P : Problem K) (w w' : WellFlux K) : Prop :=
  ∃ a ∈ posCells w, ∃ b ∈ negCells w', P.forward.Reach a b

/-- The same for ids in any arithmetic: `cs` are the connections, `x` their total fluxes and `m` the given
    in- and outflows. -/
def Supplies {R : Type} [Arith R] (cs : List (Nat × Nat)) (x : Nat → R) (m : InflowFlux R) (i j : CellSetID) : Prop :=
  ∃ a b, InflowAt m i a ∧ OutflowAt m j b ∧ Leads cs x a b

end Verif.Spec
