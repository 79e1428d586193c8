/-
Wells put together in groups.
-/
import Verif.Spec.Toolbox

namespace Verif.Spec
variable {K : Type} [Field K] [LinearOrder K]

/-- The wells of `P` that belong to the group `i`, well `j` belonging to the group `γ j`. -/
def Problem.members (γ : CellSetID → CellSetID) (P : Problem K) (i : CellSetID) : List (WellFlux K) :=
  P.wells.filter fun w => decide (γ w.id = i)

/-- `Q` is `P` with groups of wells in place of wells: in each cell a group injects what its members inject together, and
    produces what its members produce together.  Cells, pore volumes and fluxes are the same; the connections may be listed in
    another way. -/
structure Problem.Grouped (γ : CellSetID → CellSetID) (P Q : Problem K) : Prop where
  size : Q.n = P.n
  flux : ∀ u < P.n, ∀ v < P.n, Q.flux u v = P.flux u v
  pv : ∀ v < P.n, Q.pv v = P.pv v
  injected : ∀ W ∈ Q.wells, ∀ v < P.n,
    max (Problem.wellAt W v) 0 = ((P.members γ W.id).map fun w => max (Problem.wellAt w v) 0).sum
  produced : ∀ W ∈ Q.wells, ∀ v < P.n,
    max (-Problem.wellAt W v) 0 = ((P.members γ W.id).map fun w => max (-Problem.wellAt w v) 0).sum
  all : ∀ w ∈ P.wells, ∃ W ∈ Q.wells, W.id = γ w.id

end Verif.Spec
