/-
Diagnostics in builds without assertions.
-/
import Verif.Spec.Toolbox
import Verif.Model.Release

namespace Verif.Spec
open Verif.Toolbox Verif.Solver

variable {R : Type} [Arith R]

/-- Outcome of `computeInjectionDiagnostics` in a build without assertions (`NDEBUG`). -/
def injectionRelease (g : ConnectivityGraph) (calls : List (Call R)) (al : Nat → Alloc) (fuel : Nat)
    (starts : List CellSet) : Res (Solution R) :=
  (injDiagWith (release fuel) (toolboxAfter g calls) al fuel starts).2

/-- Outcome of `computeProductionDiagnostics` in a build without assertions. -/
def productionRelease (g : ConnectivityGraph) (calls : List (Call R)) (al : Nat → Alloc) (fuel : Nat)
    (starts : List CellSet) : Res (Solution R) :=
  (prodDiagWith (release fuel) (toolboxAfter g calls) al fuel starts).2

end Verif.Spec
