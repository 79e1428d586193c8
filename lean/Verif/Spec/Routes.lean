/-
Routes of fluid through the cells of a flow.
-/
import Verif.Spec.SolverCalls

namespace Verif.Spec
open Finset
variable {K : Type} [Field K] [LinearOrder K]

/-- All routes of `k` connections to cell `v`, each listed from `v` back to the cell where it starts. -/
def Flow.routesTo (F : Flow K) : Nat → Nat → List (List Nat)
  | 0, v => [[v]]
  | k + 1, v => (List.range F.n).flatMap fun u => (F.routesTo k u).map fun r => v :: r

/-- Of the fluid in the last cell of a route, the fraction that has followed it from its first cell, where `q v` is injected
    in cell `v`: in each cell the fluid is mixed, so that what comes from the preceding cell makes up the fraction of the total
    flux into the cell that it contributes. -/
def Flow.fraction (F : Flow K) (q : Nat → K) : List Nat → K
  | [] => 0
  | [v] => q v / F.total v
  | v :: u :: r => F.w u v / F.total v * F.fraction q (u :: r)

/-- The time it takes to follow a route: the sum of the fill times of its cells.  If a cell takes more than 200 years to fill, the
    time is 200 years where the route leaves it. -/
noncomputable def Flow.duration (F : Flow K) : List Nat → K
  | [] => 0
  | v :: r => by classical exact if F.Slow v then 200 * 365 * 24 * 60 * 60 else F.duration r + F.pv v / F.total v

/-- Of the fluid in cell `v`, the fraction that was injected at the rates `q` and came on routes of less than `N` connections. -/
def Flow.arrived (F : Flow K) (q : Nat → K) (N v : Nat) : K :=
  ∑ k ∈ range N, ((F.routesTo k v).map fun r => F.fraction q r).sum

/-- The mean time this fluid took. -/
noncomputable def Flow.meanTime (F : Flow K) (q : Nat → K) (N v : Nat) : K :=
  (∑ k ∈ range N, ((F.routesTo k v).map fun r => F.fraction q r * F.duration r).sum) / F.arrived q N v

end Verif.Spec
