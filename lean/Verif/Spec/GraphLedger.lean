/-
What a history of calls on one `AssembledConnections` object leaves, kept as a ledger of the calls.
-/
import Verif.Spec.GraphHistory

namespace Verif.Spec

instance {R : Type} (cs : List (Conn R)) : Decidable (Mixed cs) := inferInstanceAs (Decidable (_ ∧ _))

/-- The smallest number of rows that has room for all sources. -/
def rowsNeeded {R : Type} (cs : List (Conn R)) : Nat := cs.foldl (fun m c => max m (c.1.toNat + 1)) 0

/-- The connections that were given with a weight. -/
def weightsGiven {R : Type} (cs : List (Conn R)) : List (Int × Int × R) :=
  cs.filterMap fun c => c.2.2.map fun v => (c.1, c.2.1, v)

/-- All connections ever given; those given since the last successful `compress()`; the graph that was built last, as its
    number of rows and its connections; and the weights that were stored last, with the number of rows at that time. -/
structure Ledger (R : Type) where
  all : List (Conn R) := []
  pending : List (Conn R) := []
  graph : Option (Nat × List (Conn R)) := none
  weights : Option (Nat × List (Int × Int × R)) := none

variable {R : Type}

/-- How `compress(n)` ends.  Connections of earlier graphs count for the second exception. -/
def Ledger.outcome (L : Ledger R) (n : Nat) : Res Unit :=
  if Mixed L.pending then .throw .logicError
  else if L.pending ≠ [] ∧ ∃ c ∈ L.all, (n : Int) ≤ c.1 then .throw .invalidArgument
  else .ok ()

/-- The ledger after a call.  A graph without weights leaves the weights of an earlier graph in place. -/
def Ledger.next (L : Ledger R) : GraphCall R → Ledger R
  | .add c => { L with all := L.all ++ [c], pending := L.pending ++ [c] }
  | .compress n =>
    match L.outcome n with
    | .ok () =>
      { all := L.all
        pending := []
        graph := some (max n (rowsNeeded L.all), L.pending)
        weights :=
          if weightsGiven L.pending = [] then L.weights else some (max n (rowsNeeded L.all), weightsGiven L.pending) }
    | _ => L

/-- The ledger of a history. -/
def ledger (calls : List (GraphCall R)) : Ledger R := calls.foldl Ledger.next {}

/-- What the object shows is what the ledger says. -/
structure Ledger.Describes [Arith R] (L : Ledger R) (g : AssembledConnections R) : Prop where
  none_yet : L.graph = none → g.startPointers = [] ∧ g.neighbourhood = []
  graph : ∀ n cs, L.graph = some (n, cs) →
    g.numRows = n ∧ IsAdjacency n (fun i j => ∃ w, (i, j, w) ∈ cs) g.startPointers g.neighbourhood
  weights : ∀ n ws, L.graph = some (n, weighted ws) → ws ≠ [] →
    HasWeights n ws g.startPointers g.neighbourhood g.connectionWeight
  no_weights : L.weights = none → g.connectionWeight = []
  old_weights : ∀ n ws, L.weights = some (n, ws) →
    ∃ sp nb, IsAdjacency n (fun i j => ∃ w, (i, j, w) ∈ ws) sp nb ∧ HasWeights n ws sp nb g.connectionWeight

end Verif.Spec
