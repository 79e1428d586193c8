/-
Problems with nearly the same data.
-/
import Verif.Spec.Toolbox

namespace Verif.Spec
variable {K : Type} [Field K] [LinearOrder K]

/-- `a` and `b` differ at most by the factor `r`. -/
def WithinFactor (r a b : K) : Prop := a ≤ r * b ∧ b ≤ r * a

/-- The data of `P` and `Q` differ at most by the factor `r`: fluxes, pore volumes and rates of injection and production of each
    well in each cell.  Zeros are in the same places. -/
structure Problem.Near (r : K) (P Q : Problem K) : Prop where
  size : Q.n = P.n
  flux : ∀ u < P.n, ∀ v < P.n, WithinFactor r (P.flux u v) (Q.flux u v)
  pv : ∀ v < P.n, WithinFactor r (P.pv v) (Q.pv v)
  wells : List.Forall₂ (fun w w' => w.id = w'.id ∧ ∀ v < P.n,
    WithinFactor r (max (Problem.wellAt w v) 0) (max (Problem.wellAt w' v) 0) ∧
    WithinFactor r (max (-Problem.wellAt w v) 0) (max (-Problem.wellAt w' v) 0)) P.wells Q.wells

/-- Each connection leads from a lower level to a higher one.  (Then there is no cycle, and at most `level v` connections are
    passed on the way to `v`.) -/
def Flow.Levels (F : Flow K) (level : Nat → Nat) : Prop := ∀ u v, F.Edge u v → level u < level v

end Verif.Spec
