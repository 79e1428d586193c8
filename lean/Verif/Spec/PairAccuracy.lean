/-
Accuracy of quantities derived from two `double` solutions.
-/
import Verif.Spec.Accuracy
import Verif.Model.DerivedQuantities

namespace Verif.Spec
open Verif.Toolbox

/-- The `double` concentrations `a` are those of the exact computation, `b`, up to relative errors of at most `k / 2^51`; both
    have the same cells, below `n`, and the exact ones lie between 0 and 1 and are not both positive and below `2^-300`. -/
def FractionsWithin (n k : Nat) (a : CellSetValues Double) (b : CellSetValues (X ℚ)) : Prop :=
  List.Forall₂ (fun (d : Int × Double) (e : Int × X ℚ) => d.1 = e.1 ∧ 0 ≤ e.1 ∧ e.1 < n ∧ Within k (some d.2) (some e.2) ∧
    ∃ y : ℚ, e.2 = X.fin y ∧ (y = 0 ∨ 1 / 2 ^ 300 ≤ y) ∧ y ≤ 1) a b

/-- The `double` fluxes `a` are those of `b`, and of ordinary magnitude. -/
def FluxesStored (a : CellSetValues Double) (b : CellSetValues (X ℚ)) : Prop :=
  List.Forall₂ (fun (d : Int × Double) (e : Int × X ℚ) => d.1 = e.1 ∧ ∃ x : ℚ, d.2.val = X.fin x ∧ e.2 = X.fin x ∧ Ordinary x) a b

/-- Both are finite, and the `double` differs from the exact value by at most `k / 2^51` of it. -/
def CloseTo (k : Nat) (d : Double) (e : X ℚ) : Prop :=
  ∃ x y : ℚ, d.val = X.fin x ∧ e = X.fin y ∧ |x - y| ≤ k / 2 ^ 51 * |y|

end Verif.Spec
