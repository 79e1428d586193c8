/-
How the data of a flow problem is handed to the solver: graphs with fluxes, fields and
sparse values.
-/
import Verif.Spec.Flow
import Verif.Spec.GraphHistory
import Verif.Model.AssembledConnections
import Verif.Model.CellSet

namespace Verif.Spec
variable {K : Type} [Field K] [LinearOrder K]

/-- A field of finite values. -/
def arr (n : Nat) (f : Nat → K) : List (X K) := (List.range n).map fun i => X.fin (f i)

/-- Sparse finite values on the cells `ps`. -/
def valuesOf (ps : List Nat) (f : Nat → K) : CellSetValues (X K) :=
  ps.map fun p : Nat => ((p : Int), X.fin (f p))

/-- The value stored for cell `v` in a sparse result, 0 if there is none. -/
def valueAt (m : CellSetValues (X K)) (v : Nat) : K :=
  match m.find (v : Int) with
  | some (X.fin x) => x
  | _ => 0

/-- The value of cell `v` in a field, 0 if there is none. -/
def fieldAt (l : List (X K)) (v : Nat) : K :=
  match l[v]? with
  | some (X.fin x) => x
  | _ => 0

/-- The positive fluxes out of `u`, by ascending cell number. -/
def flowRow (n : Nat) (w : Nat → Nat → K) (u : Nat) : List (Int × X K) :=
  ((List.range n).filter fun v => decide (0 < w u v)).map fun v : Nat => ((v : Int), X.fin (w u v))

/-- The graph holds the positive fluxes of `w`. -/
structure HasFlow (g : AssembledConnections (X K)) (n : Nat) (w : Nat → Nat → K) : Prop where
  adj : IsAdjacency n (fun i j => ∃ u v : Nat, i = u ∧ j = v ∧ v < n ∧ 0 < w u v)
    g.startPointers g.neighbourhood
  rows : ∀ u < n, g.cellNeighbourhood u = .ok (flowRow n w u)

/-- The flux from `u` to `v` described by a list of connections (from, to, flux). -/
def fluxOf (cs : List (Nat × Nat × K)) (u v : Nat) : K :=
  ((cs.filter fun c => decide (c.1 = u ∧ c.2.1 = v)).map fun c => c.2.2).sum

/-- The `addConnection` calls that hand over a list of connections. -/
def flowCalls (cs : List (Nat × Nat × K)) : List (Conn (X K)) :=
  weighted (cs.map fun c => ((c.1 : Int), (c.2.1 : Int), X.fin c.2.2))

/-- 200 years in seconds. -/
def cap : K := 200 * 365 * 24 * 60 * 60

end Verif.Spec
