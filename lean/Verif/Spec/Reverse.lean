/-
Specification vocabulary for reversing the flow.
-/
import Verif.Spec.Toolbox
import Verif.Model.Double

namespace Verif.Spec
open Verif.Solver

variable {R : Type} [Arith R]

/-- One number is minus the other; zeros may have any sign. -/
def Opposite (x y : R) : Prop := x = Arith.neg y ∨ (Arith.eq x Arith.zero = true ∧ Arith.eq y Arith.zero = true)

/-- Between 0 and 1, hence a number. -/
def IsFraction (x : R) : Prop := Arith.le Arith.zero x = true ∧ Arith.le x (Arith.lit 1) = true

/-- A value that is neither positive nor negative is zero, hence no `NaN`. -/
def IsRate (x : R) : Prop := NoSign x → Arith.eq x Arith.zero = true

/-- How zeros and signs behave in products and sums, in IEEE arithmetic and in exact arithmetic. -/
structure ProductLaws (R : Type) [Arith R] : Prop where
  neg_mul : ∀ x y : R, Arith.mul (Arith.neg x) y = Arith.neg (Arith.mul x y)
  zero_mul : ∀ x y : R, Arith.eq x Arith.zero = true → IsFraction y → Arith.eq (Arith.mul x y) Arith.zero = true
  neg_zero : ∀ x : R, Arith.eq (Arith.neg x) Arith.zero = Arith.eq x Arith.zero
  add_zero : ∀ x y : R, Arith.eq y Arith.zero = true →
    Arith.add x y = x ∨ (Arith.eq x Arith.zero = true ∧ Arith.eq (Arith.add x y) Arith.zero = true)

/-- Concentrations as they are stored: in ascending order of the cells, which are below `n`, and from `2^-300` to 1. -/
def AreConcentrations (n : Nat) (a : CellSetValues Double) : Prop :=
  (a.Pairwise fun d e => d.1 < e.1) ∧ ∀ e ∈ a, 0 ≤ e.1 ∧ e.1 < n ∧ ∃ y : ℚ, e.2.val = X.fin y ∧ 1 / 2 ^ 300 ≤ y ∧ y ≤ 1

end Verif.Spec
