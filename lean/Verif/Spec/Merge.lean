/-
A grid and a coarser one, as they enter the F-Phi curve.
-/
import Verif.Spec.Derived

namespace Verif.Spec
open Finset Verif.Derived
variable {K : Type} [Field K] [LinearOrder K]

/-- Cells of `J` are merged to cells of `I`: cell `u` of `J` becomes a part of cell `whole u` of `I`.  Pore volumes of the parts add up, and so
    does pore volume by travel time.  The cutoff ignores the parts of the cells that it ignores. -/
structure CurveInput.Merged (whole : Nat → Nat) (J I : CurveInput K) : Prop where
  cell : ∀ u < J.n, whole u < I.n
  kept : ∀ u < J.n, (J.Kept u ↔ I.Kept (whole u))
  pv_sum : ∀ v < I.n, ∑ u ∈ range J.n with whole u = v, J.pv u = I.pv v
  rate_sum : ∀ v, I.Kept v → ∑ u ∈ range J.n with whole u = v, J.pv u / J.time u = I.pv v / I.time v

end Verif.Spec
