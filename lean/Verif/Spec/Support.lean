/-
Specification vocabulary for the cells on which fields are given, whatever the arithmetic.
-/
import Verif.Spec.Toolbox
import Mathlib.Logic.Relation

namespace Verif.Spec
open Verif.Toolbox Verif.Solver

variable {R : Type} [Arith R]

/-- Fluid flows from cell `u` to cell `v` through one of the connections `cs`, the total flux of
    the connection with index `c` being `x c`. -/
def Sends (cs : List (Nat × Nat)) (x : Nat → R) (u v : Nat) : Prop :=
  ∃ c, (cs[c]? = some (u, v) ∧ Arith.lt Arith.zero (x c) = true) ∨ (cs[c]? = some (v, u) ∧ IsNegative (x c))

/-- Fluid gets from cell `u` to cell `v` in any number of steps. -/
def Leads (cs : List (Nat × Nat)) (x : Nat → R) : Nat → Nat → Prop := Relation.ReflTransGen (Sends cs x)

/-- The value of the id in the cell is positive. -/
def InflowAt (m : InflowFlux R) (i : CellSetID) (p : Nat) : Prop :=
  ∃ set ∈ m, set.1 = i ∧ ∃ e ∈ set.2, e.1 = p ∧ Arith.lt Arith.zero e.2 = true

/-- The value of the id in the cell is negative. -/
def OutflowAt (m : InflowFlux R) (i : CellSetID) (p : Nat) : Prop :=
  ∃ set ∈ m, set.1 = i ∧ ∃ e ∈ set.2, e.1 = p ∧ IsNegative e.2

/-- The fields of an id: both have the same cells, in increasing order, namely the cells `V`, and
    no concentration is zero or less. -/
structure FieldsOn (V : Nat → Prop) (sol : Solution R) (i : CellSetID) : Prop where
  same : ((sol.timeOfFlightOf i).map fun e => e.1) = (sol.concentration i).map fun e => e.1
  order : ((sol.concentration i).map fun e => e.1).Pairwise (· < ·)
  cells : ∀ cell : Int, cell ∈ ((sol.concentration i).map fun e => e.1) ↔ ∃ v : Nat, cell = v ∧ V v
  positive : ∀ e ∈ sol.concentration i, Arith.le e.2 Arith.zero = false

end Verif.Spec
