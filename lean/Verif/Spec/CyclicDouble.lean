/-
Numbers in the results of computations with `double`s.
-/
import Verif.Spec.Accuracy
import Verif.Spec.Balanced

namespace Verif.Spec
open Verif.Toolbox

/-- The number stored for cell `v`; 0 if there is none. -/
def doubleAt (m : CellSetValues Double) (v : Nat) : ℚ :=
  match (m.find (v : Int)).map Double.val with
  | some (X.fin x) => x
  | _ => 0

/-- The number stored at position `v`; 0 if there is none. -/
def doubleIn (l : List Double) (v : Nat) : ℚ :=
  match l[v]?.map Double.val with
  | some (X.fin x) => x
  | _ => 0

/-- Wells that inject somewhere. -/
def Problem.injectors (P : Problem ℚ) : List (WellFlux ℚ) := P.wells.filter fun w => w.cells.any fun v => decide (0 < w.val v)

/-- Wells that produce somewhere. -/
def Problem.producers (P : Problem ℚ) : List (WellFlux ℚ) := P.wells.filter fun w => w.cells.any fun v => decide (w.val v < 0)

end Verif.Spec
