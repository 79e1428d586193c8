/-
Specification vocabulary for the measures of heterogeneity.
-/
import Verif.Spec.Derived

namespace Verif.Spec

/-- `J` is the same input as `I`, with all travel times multiplied by `c`. -/
structure CurveInput.TimesBy {K : Type} [Field K] [LinearOrder K] (c : K) (I J : CurveInput K) : Prop where
  size : J.n = I.n
  frac : J.frac = I.frac
  pv : ∀ v < I.n, J.pv v = I.pv v
  time : ∀ v < I.n, J.time v = c * I.time v

end Verif.Spec
