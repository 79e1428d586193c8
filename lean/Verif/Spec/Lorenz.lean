/-
The Lorenz coefficient as a mean difference.
-/
import Verif.Spec.Derived
import Verif.Spec.Accuracy

namespace Verif.Spec
open Finset
variable {K : Type} [Field K] [LinearOrder K]

namespace CurveInput

/-- Mean difference between the inverse travel times of two cells, both drawn by pore volume, by twice their mean. -/
def meanDifference (I : CurveInput K) : K :=
  (∑ u ∈ range I.n with I.Kept u, ∑ v ∈ range I.n with I.Kept v, I.pv u * I.pv v * |1 / I.time u - 1 / I.time v|)
    / (2 * I.volume * I.rate)

/-- The same cells with another cutoff. -/
def withFraction (I : CurveInput K) (θ : K) : CurveInput K := { I with frac := θ }

/-- Numbers of ordinary magnitude: times of flight and pore volumes that are not negative, positive travel times, and some
    cell with pore volume not close to the cutoff. -/
structure OfOrdinarySize (I : CurveInput ℚ) : Prop where
  int : I.n ≤ INT_MAX
  inj : ∀ v < I.n, 0 ≤ I.inj v ∧ Ordinary (I.inj v)
  prod : ∀ v < I.n, 0 ≤ I.prod v ∧ Ordinary (I.prod v)
  pv : ∀ v < I.n, 0 ≤ I.pv v ∧ Ordinary (I.pv v)
  time : ∀ v < I.n, 0 < I.time v
  frac : 0 < I.frac ∧ Ordinary I.frac
  some_pv : ∃ v < I.n, 0 < I.pv v ∧ 2 * I.pv v ≤ I.frac * ∑ u ∈ range I.n, I.pv u

/-- The same input in `double`s. -/
structure StoredAs (I : CurveInput ℚ) (inj prod pv : List Double) (frac : Double) : Prop where
  inj : inj.map Double.val = arr I.n I.inj
  prod : prod.map Double.val = arr I.n I.prod
  pv : pv.map Double.val = arr I.n I.pv
  frac : frac.val = X.fin I.frac

end CurveInput
end Verif.Spec
