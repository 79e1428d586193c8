/-
Problems that differ in the rate of one well.
-/
import Verif.Spec.Toolbox

namespace Verif.Spec
variable {K : Type} [Field K] [LinearOrder K]

/-- `Q` has the cells, the fluxes and the wells of `P`; the well `i` injects in no cell less than in `P`, every other well
    injects in each cell what it injects in `P`.  (What the wells produce may differ.) -/
structure Problem.InjectsMore (i : CellSetID) (P Q : Problem K) : Prop where
  size : Q.n = P.n
  flux : ∀ u < P.n, ∀ v < P.n, Q.flux u v = P.flux u v
  wells : List.Forall₂ (fun w w' => w.id = w'.id ∧ ∀ v < P.n,
    max (Problem.wellAt w v) 0 ≤ max (Problem.wellAt w' v) 0 ∧
    (w.id ≠ i → max (Problem.wellAt w' v) 0 = max (Problem.wellAt w v) 0)) P.wells Q.wells

/-- The same for production. -/
structure Problem.ProducesMore (i : CellSetID) (P Q : Problem K) : Prop where
  size : Q.n = P.n
  flux : ∀ u < P.n, ∀ v < P.n, Q.flux u v = P.flux u v
  wells : List.Forall₂ (fun w w' => w.id = w'.id ∧ ∀ v < P.n,
    max (-Problem.wellAt w v) 0 ≤ max (-Problem.wellAt w' v) 0 ∧
    (w.id ≠ i → max (-Problem.wellAt w' v) 0 = max (-Problem.wellAt w v) 0)) P.wells Q.wells

end Verif.Spec
