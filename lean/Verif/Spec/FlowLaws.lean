/-
Specification vocabulary for comparing flow problems.
-/
import Verif.Spec.Toolbox
import Verif.Spec.SolverCalls

namespace Verif.Spec
variable {K : Type} [Field K] [LinearOrder K]

/-- The same problem with other pore volumes. -/
def Problem.withPoreVolume (P : Problem K) (pv : Nat → K) : Problem K := { P with pv := pv }

/-- All fluxes and all inflow values multiplied by `k`, all pore volumes by `m`. -/
def Problem.scaled (P : Problem K) (k m : K) : Problem K :=
  { P with
    phi := fun c p => k * P.phi c p
    pv := fun v => m * P.pv v
    wells := P.wells.map fun w => { w with val := fun v => k * w.val v } }

/-- The fluxes and sources of `G` are `k` times those of `F`. -/
structure Flow.Proportional (k : K) (F G : Flow K) : Prop where
  pos : 0 < k
  size : G.n = F.n
  flux : ∀ u v, G.w u v = k * F.w u v
  src : ∀ v, G.src v = k * F.src v

/-- The time it takes to fill the cells from which `v` can be reached, one after the other. -/
noncomputable def Flow.upstreamFill (F : Flow K) (v : Nat) : K := by
  classical exact ∑ u ∈ Finset.range F.n, if F.Reach u v then F.pv u / F.total u else 0

end Verif.Spec
