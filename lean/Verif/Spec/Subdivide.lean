/-
A grid and a subdivision of it, as they enter the F-Phi curve.
-/
import Verif.Spec.Derived

namespace Verif.Spec
open Finset Verif.Derived
variable {K : Type} [Field K] [LinearOrder K]

/-- `(x, y)` lies on the broken line through the points of the graph. -/
def OnLine (g : Graph (X K)) (x y : K) : Prop :=
  ∃ i a b c d s, g.1[i]? = some (X.fin a) ∧ g.1[i + 1]? = some (X.fin b) ∧ g.2[i]? = some (X.fin c) ∧
    g.2[i + 1]? = some (X.fin d) ∧ 0 ≤ s ∧ s ≤ 1 ∧ x = a + s * (b - a) ∧ y = c + s * (d - c)

/-- The cells of `J` are parts of those of `I`: cell `u` of `J` lies in cell `whole u` of `I` and has its travel time, and
    the pore volumes of the parts of a cell add up to that of the cell.  The cutoff ignores the parts of the cells that it
    ignored. -/
structure CurveInput.Subdivided (whole : Nat → Nat) (I J : CurveInput K) : Prop where
  int : J.n ≤ INT_MAX
  cell : ∀ u < J.n, whole u < I.n
  time : ∀ u < J.n, J.time u = I.time (whole u)
  kept : ∀ u < J.n, (J.Kept u ↔ I.Kept (whole u))
  pv_nonneg : ∀ u < J.n, 0 ≤ J.pv u
  pv_sum : ∀ v < I.n, ∑ u ∈ range J.n with whole u = v, J.pv u = I.pv v

end Verif.Spec
