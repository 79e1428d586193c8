/-
Specification vocabulary for a change of the unit of volume.
-/
import Verif.Spec.Toolbox

namespace Verif.Spec
open Verif.Toolbox

variable {R : Type}

/-- The call with `f` applied to all numbers passed to the toolbox: pore volumes, connection fluxes and inflow. -/
def mapNumbers (f : R → R) : Call R → Call R
  | .assignPoreVolume pvol => .assignPoreVolume (pvol.map f)
  | .assignConnectionFlux flux => .assignConnectionFlux { flux with data := flux.data.map f }
  | .assignInflowFlux inflow => .assignInflowFlux (inflow.map fun set => (set.1, set.2.map fun e => (e.1, f e.2)))
  | .computeInjectionDiagnostics al fuel starts => .computeInjectionDiagnostics al fuel starts
  | .computeProductionDiagnostics al fuel starts => .computeProductionDiagnostics al fuel starts

/-- Outcome of a call as a function of its result. -/
def mapResult {α β : Type} (f : α → β) : Res α → Res β
  | .ok a => .ok (f a)
  | .throw e => .throw e
  | .ub u => .ub u
  | .diverge => .diverge

end Verif.Spec
