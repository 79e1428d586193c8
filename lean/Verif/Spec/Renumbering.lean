/-
The same flow with other cell numbers.
-/
import Mathlib.Data.List.Sort
import Mathlib.Logic.Equiv.Defs
import Verif.Spec.Toolbox

namespace Verif.Spec
variable {K : Type} [Field K] [LinearOrder K]

/-- `Q` describes the same flow as `P`, with cell `v` of `P` numbered `σ v`.  The connections may be listed in another order,
    in the other direction, or be split up. -/
structure Problem.SameFlow (σ : Nat → Nat) (P Q : Problem K) : Prop where
  size : Q.n = P.n
  cells : ∀ v < P.n, σ v < P.n
  inj : ∀ u < P.n, ∀ v < P.n, σ u = σ v → u = v
  flux : ∀ u < P.n, ∀ v < P.n, Q.flux (σ u) (σ v) = P.flux u v
  pv : ∀ v < P.n, Q.pv (σ v) = P.pv v
  inflow : List.Forall₂ (fun w w' => w'.id = w.id ∧ ∀ v < P.n, Problem.wellAt w' (σ v) = Problem.wellAt w v) P.wells Q.wells

/-- The same start sets with other cell numbers. -/
def SameSets (σ : Nat → Nat) (starts starts' : List CellSet) : Prop :=
  List.Forall₂ (fun s s' => s'.id = s.id ∧ ∀ c, c ∈ s'.cells ↔ ∃ v : Nat, (v : Int) ∈ s.cells ∧ c = (σ v : Int)) starts starts'

/-- The problem in which cell `v` has the number `σ v`. -/
def Problem.renumbered (σ : Equiv.Perm Nat) (P : Problem K) : Problem K where
  n := P.n
  conns := P.conns.map fun e => (σ e.1, σ e.2)
  nphase := P.nphase
  phi := P.phi
  pv v := P.pv (σ.symm v)
  wells := P.wells.map fun w =>
    { id := w.id, cells := (w.cells.map σ).insertionSort (· ≤ ·), val := fun v => w.val (σ.symm v) }

end Verif.Spec
