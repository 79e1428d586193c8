/-
Vocabulary for the derived quantities: what `std::sort` promises, the input of the F-Phi curve and
which of its cells count.
-/
import Verif.Model.DerivedQuantities
import Verif.Spec.FlowData
import Mathlib.Algebra.BigOperators.Ring.Finset
import Mathlib.Algebra.Order.BigOperators.Ring.Finset

namespace Verif.Spec
open Verif.Derived Finset
variable {K : Type} [Field K] [LinearOrder K]

/-- `σ 0, ..., σ (n - 1)` are the numbers below `n` in some order. -/
def Order (n : Nat) (σ : Nat → Nat) : Prop :=
  (∀ v < n, σ v < n) ∧ ∀ u < n, ∀ v < n, σ u = σ v → u = v

/-- What `std::sort` promises for pairs of numbers: if none is NaN, the result is a rearrangement
    in which no element is less than an earlier one. -/
def StdSort (sort : List (X K × X K) → List (X K × X K)) : Prop :=
  ∀ l, (∀ p ∈ l, p.1 ≠ X.nan ∧ p.2 ≠ X.nan) →
    (sort l).Perm l ∧ (sort l).Pairwise fun a b => pairLt b a = false

/-- Input of the F-Phi curve: for each cell the time of flight from the injectors and to the
    producers and the pore volume. -/
structure CurveInput (K : Type) where
  n : Nat
  inj : Nat → K
  prod : Nat → K
  pv : Nat → K
  /-- largest fraction of the total pore volume a cell may have -/
  frac : K

namespace CurveInput

/-- Total travel time. -/
def time (I : CurveInput K) (v : Nat) : K := I.inj v + I.prod v

/-- The cell is not ignored. -/
def Kept (I : CurveInput K) (v : Nat) : Prop := v < I.n ∧ I.pv v ≤ I.frac * ∑ u ∈ range I.n, I.pv u

instance (I : CurveInput K) (v : Nat) : Decidable (I.Kept v) := by unfold Kept; infer_instance

/-- The call `flowCapacityStorageCapacityCurve(inj, prod, pv, frac)`. -/
def curve (I : CurveInput K) (sort : List (X K × X K) → List (X K × X K)) : Res (Graph (X K)) :=
  Derived.curve sort (arr I.n I.inj) (arr I.n I.prod) (arr I.n I.pv) (X.fin I.frac)

/-- Positive travel times, non-negative pore volumes, some pore volume left. -/
structure Valid (I : CurveInput K) : Prop where
  int : I.n ≤ INT_MAX
  pv : ∀ v < I.n, 0 ≤ I.pv v
  time : ∀ v, I.Kept v → 0 < I.time v
  some_pv : ∃ v, I.Kept v ∧ 0 < I.pv v

/-- Pore volume of the cells that are not ignored. -/
def volume (I : CurveInput K) : K := ∑ v ∈ range I.n with I.Kept v, I.pv v

/-- Sum of pore volume by travel time. -/
def rate (I : CurveInput K) : K := ∑ v ∈ range I.n with I.Kept v, I.pv v / I.time v

/-- Pore volume filled at time `t`: the fluid in a cell is replaced after the cell's travel time. -/
def swept (I : CurveInput K) (t : K) : K := ∑ v ∈ range I.n with I.Kept v, I.pv v * min 1 (t / I.time v)

/-- The travel time by which cells are ordered: ignored cells have a large one. -/
def rank (I : CurveInput K) (v : Nat) : K := if I.Kept v then I.time v else 10 ^ 100

/-- Pore volume, none for ignored cells. -/
def keptPv (I : CurveInput K) (v : Nat) : K := if I.Kept v then I.pv v else 0

/-- Numbers of the cells that are not ignored. -/
def cells (I : CurveInput K) : List Nat := (List.range I.n).filter fun v => decide (I.Kept v)

/-- Only the cells that are not ignored, and no cutoff. -/
def keep (I : CurveInput K) : CurveInput K :=
  { n := I.cells.length
    inj := fun i => I.inj (I.cells.getD i 0)
    prod := fun i => I.prod (I.cells.getD i 0)
    pv := fun i => I.pv (I.cells.getD i 0)
    frac := 1 }

/-- `J` is the same input as `I`, with cell `v` of `I` numbered `σ v`. -/
structure Renumbered (σ : Nat → Nat) (I J : CurveInput K) : Prop where
  size : J.n = I.n
  frac : J.frac = I.frac
  order : Order I.n σ
  inj_eq : ∀ v < I.n, J.inj (σ v) = I.inj v
  prod_eq : ∀ v < I.n, J.prod (σ v) = I.prod v
  pv_eq : ∀ v < I.n, J.pv (σ v) = I.pv v

end CurveInput

/-- Finite non-negative values on some of the cells `0..n-1`, as found in a computed solution.  Cells are numbered with
    values of type `int`. -/
def IsTracer (n : Nat) (m : CellSetValues (X K)) : Prop :=
  ∃ cells f, m = valuesOf cells f ∧ cells.Pairwise (· < ·) ∧ ∀ v ∈ cells, v < n ∧ v ≤ INT_MAX ∧ 0 ≤ f v

end Verif.Spec
