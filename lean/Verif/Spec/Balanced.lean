/-
What a field of exact values carried by a flow is, for flows with or without cycles.
-/
import Verif.Spec.SolverCalls

namespace Verif.Spec
open Finset

variable {K : Type} [Field K] [LinearOrder K]

/-- `x` is the field that a flow carries from the cells `starts` when the amount `q v` is added at each cell `v` reached
    from them: zero in the cells that are not reached, and in the others what comes in, plus what is added, equals
    `x v` times the total flux into the cell. -/
def Flow.Carries (F : Flow K) (starts : List Nat) (q x : Nat → K) : Prop :=
  (∀ v < F.n, ¬ F.Downstream starts v → x v = 0) ∧
  ∀ v < F.n, F.Downstream starts v → F.total v * x v = (∑ u ∈ range F.n, x u * F.w u v) + q v

end Verif.Spec
