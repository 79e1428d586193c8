/-
Specification vocabulary for flow problems: a flux between each pair of cells, pore
volumes and sources.  Nothing here refers to how tracers or times-of-flight are computed.
-/
import Mathlib.Algebra.BigOperators.Group.Finset.Basic
import Mathlib.Algebra.Order.Field.Basic
import Mathlib.Logic.Relation
import Verif.Model.Res

namespace Verif.Spec
open Finset

/-- A flow problem on the cells `0..n-1`. -/
structure Flow (K : Type) where
  n : Nat
  /-- flux from the first cell to the second -/
  w : Nat → Nat → K
  pv : Nat → K
  /-- inflow from outside -/
  src : Nat → K

namespace Flow
variable {K : Type} [Field K] [LinearOrder K]

/-- Fluxes, pore volumes and sources are non-negative; cells are numbered by `int`s. -/
structure Valid (F : Flow K) : Prop where
  w_nonneg : ∀ u v, u < F.n → v < F.n → 0 ≤ F.w u v
  pv_nonneg : ∀ v < F.n, 0 ≤ F.pv v
  src_nonneg : ∀ v < F.n, 0 ≤ F.src v
  int : F.n ≤ INT_MAX

/-- There is flow from `u` to `v`. -/
def Edge (F : Flow K) (u v : Nat) : Prop := u < F.n ∧ v < F.n ∧ 0 < F.w u v

/-- `v` is downstream of `u` (or equal to it). -/
def Reach (F : Flow K) : Nat → Nat → Prop := Relation.ReflTransGen F.Edge

/-- No cell is strictly downstream of itself. -/
def Acyclic (F : Flow K) : Prop := ∀ v, ¬ Relation.TransGen F.Edge v v

/-- Total flux into `v` from other cells. -/
def inflow (F : Flow K) (v : Nat) : K := ∑ u ∈ range F.n, F.w u v

/-- Total flux into `v`. -/
def total (F : Flow K) (v : Nat) : K := F.inflow v + F.src v

end Flow
end Verif.Spec
