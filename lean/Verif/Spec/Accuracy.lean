/-
How far results computed with `double`s may be from those of exact arithmetic.
-/
import Verif.Model.Double
import Verif.Spec.Toolbox

namespace Verif.Spec
open Verif.Toolbox

/-- Zero, or of ordinary magnitude: from `2^-100` to `2^100` (`1e-30` to `1e30`), up to sign. -/
def Ordinary (x : ℚ) : Prop := x = 0 ∨ (1 / 2 ^ 100 ≤ |x| ∧ |x| ≤ 2 ^ 100)

/-- Both values are absent, or both are present and finite and the `double` differs from the exact value by at most
    `k / 2^51` of it. -/
def Within (k : Nat) (a : Option Double) (b : Option (X ℚ)) : Prop :=
  (a = none ∧ b = none) ∨
  ∃ (d : Double) (x y : ℚ), a = some d ∧ d.val = X.fin x ∧ b = some (X.fin y) ∧ |x - y| ≤ k / 2 ^ 51 * y

/-- A toolbox working with `double`s has been given the very numbers of the problem `P` (total fluxes being those
    obtained by adding the phases in `double`s). -/
structure Problem.StoredIn (P : Problem ℚ) (g : ConnectivityGraph) (calls : List (Toolbox.Call Double)) : Prop where
  graph : HasConnections g P.n P.conns
  pv : ∃ pv, lastPoreVolume g calls = some pv ∧ pv.map Double.val = arr P.n P.pv
  flux : ∃ np phi, FluxGiven g calls np phi ∧
    ∀ c < P.conns.length, Double.val (phaseSum (phi c) np) = X.fin (P.net c)
  inflow : ((lastInflow calls).getD []).map (fun set => (set.1, set.2.map fun e => (e.1, Double.val e.2))) = P.inflowMap

/-- All data are of ordinary magnitude; no cell has more than `M` connections or is listed by more than `M` wells. -/
structure Problem.OfOrdinarySize (P : Problem ℚ) (M : Nat) : Prop where
  flux : ∀ c < P.conns.length, Ordinary (P.net c)
  well : ∀ w ∈ P.wells, ∀ v ∈ w.cells, Ordinary (w.val v)
  pv : ∀ v < P.n, Ordinary (P.pv v)
  degree : ∀ v, (P.conns.filter fun e => decide (e.1 = v ∨ e.2 = v)).length ≤ M
  wells : ∀ v, (P.wells.filter fun w => decide (v ∈ w.cells)).length ≤ M
  bound : M ≤ 2 ^ 40

/-- What enters a cell leaves it. -/
def Problem.Balanced (P : Problem ℚ) : Prop :=
  ∀ v < P.n, P.source v + ∑ u ∈ Finset.range P.n, P.flux u v = P.sink v + ∑ u ∈ Finset.range P.n, P.flux v u

/-- The flow has no cycles: it runs from layer to layer.  Every cell that passes flow on receives flow.  No cell takes
    between 199 and 201 years to fill. -/
structure Flow.Layered (F : Flow ℚ) (layer : Nat → Nat) : Prop where
  down : ∀ u v, F.Edge u v → layer u < layer v
  supplied : ∀ u v, F.Edge u v → 0 < F.total u
  total : ∀ v < F.n, F.total v ≤ 2 ^ 100
  clear : ∀ v < F.n, F.pv v ≤ 199 * 365 * 24 * 60 * 60 * F.total v ∨ 201 * 365 * 24 * 60 * 60 * F.total v ≤ F.pv v

/-- No result is both positive and below `2^-300` (`5e-91`). -/
structure NotTiny (sol : Solution (X ℚ)) : Prop where
  tof : ∀ t : ℚ, X.fin t ∈ sol.timeOfFlight → 0 < t → 1 / 2 ^ 300 ≤ t
  concentration : ∀ i, ∀ e ∈ sol.concentration i, ∀ x : ℚ, e.2 = X.fin x → 0 < x → 1 / 2 ^ 300 ≤ x
  tofOf : ∀ i, ∀ e ∈ sol.timeOfFlightOf i, ∀ t : ℚ, e.2 = X.fin t → 0 < t → 1 / 2 ^ 300 ≤ t

/-- Every result of `sol` is that of the exact computation up to small relative errors, which grow with the layer:
    at most `(layer + 1) (4 M + 6) / 2^51` for concentrations and `(layer + 2)^2 (4 M + 6) / 2^51` for times of flight. -/
structure Accurate (n M : Nat) (layer : Nat → Nat) (sol : Solution Double) (exact : Solution (X ℚ)) : Prop where
  tof : ∀ v < n, Within ((layer v + 2) ^ 2 * (4 * M + 6)) sol.timeOfFlight[v]? exact.timeOfFlight[v]?
  concentration : ∀ i, ∀ v < n,
    Within ((layer v + 1) * (4 * M + 6)) ((sol.concentration i).find (v : Int)) ((exact.concentration i).find (v : Int))
  tofOf : ∀ i, ∀ v < n,
    Within ((layer v + 2) ^ 2 * (4 * M + 6)) ((sol.timeOfFlightOf i).find (v : Int)) ((exact.timeOfFlightOf i).find (v : Int))

end Verif.Spec
