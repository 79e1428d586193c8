/-
Specification vocabulary for C95: the rates given for one cell.
-/
import Verif.Spec.Rounding
import Verif.Spec.Toolbox

namespace Verif.Spec
open Verif.Toolbox

variable {R : Type} [Arith R]

/-- The rates at which wells inject into cell `v`, each with the name of its well. -/
def injectedAt (m : InflowFlux R) (v : Nat) : List (CellSetID × R) :=
  m.flatMap fun set => set.2.filterMap fun e =>
    if e.1 = (v : Int) ∧ Arith.lt (Arith.lit 0) e.2 = true then some (set.1, e.2) else none

/-- The rates at which wells produce from cell `v`, with the sign with which they were given, each with the name of its well. -/
def producedAt (m : InflowFlux R) (v : Nat) : List (CellSetID × R) :=
  m.flatMap fun set => set.2.filterMap fun e =>
    if e.1 = (v : Int) ∧ Arith.lt (Arith.lit 0) e.2 = false ∧ Arith.lt e.2 (Arith.lit 0) = true then some (set.1, e.2) else none

end Verif.Spec
