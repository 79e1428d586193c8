/-
Histories of calls on one `AssembledConnections` object, as a client makes them.
-/
import Verif.Model.AssembledConnections
import Verif.Spec.Graph

namespace Verif.Spec

/-- One call of `addConnection(i, j)` (no weight) or `addConnection(i, j, v)`. -/
abbrev Conn (R : Type) := Int × Int × Option R

/-- Make one `addConnection` call. -/
def addOne {R : Type} (g : AssembledConnections R) (c : Conn R) : AssembledConnections R :=
  match c.2.2 with
  | none => g.addConnection c.1 c.2.1
  | some v => g.addConnectionW c.1 c.2.1 v

/-- Make the calls in `cs`, in order, on `g`. -/
def addTo {R : Type} (g : AssembledConnections R) (cs : List (Conn R)) : AssembledConnections R :=
  cs.foldl addOne g

/-- Make the calls in `cs` on a newly constructed object. -/
def freshWith {R : Type} (cs : List (Conn R)) : AssembledConnections R := addTo {} cs

/-- Some calls gave a weight and some did not. -/
def Mixed {R : Type} (cs : List (Conn R)) : Prop :=
  (∃ c ∈ cs, c.2.2.isSome) ∧ (∃ c ∈ cs, c.2.2.isNone)

/-- An unweighted, respectively weighted, list of calls. -/
def plain {R : Type} (es : List (Int × Int)) : List (Conn R) := es.map fun e => (e.1, e.2, none)
def weighted {R : Type} (ws : List (Int × Int × R)) : List (Conn R) :=
  ws.map fun w => (w.1, w.2.1, some w.2.2)

/-- A call in a history. -/
inductive GraphCall (R : Type) where
  | add (c : Conn R)
  | compress (n : Nat)

/-- Effect of one call on the object, whether or not it throws. -/
def doCall {R : Type} [Arith R] (g : AssembledConnections R) : GraphCall R → AssembledConnections R
  | .add c => addOne g c
  | .compress n => (g.compressStep n).1

/-- The object after a history of calls on a newly constructed object. -/
def afterCalls {R : Type} [Arith R] (calls : List (GraphCall R)) : AssembledConnections R :=
  calls.foldl doCall {}

/-- The connections given in a history. -/
def connsOf {R : Type} (calls : List (GraphCall R)) : List (Conn R) :=
  calls.filterMap fun
    | .add c => some c
    | .compress _ => none

/-- Both indices of a connection are in the range the class is specified for. -/
def ValidConn {R : Type} (c : Conn R) : Prop := ValidIndex c.1 ∧ ValidIndex c.2.1

/-- Laws of exact addition. -/
structure ExactAdd (R : Type) [Arith R] : Prop where
  comm : ∀ a b : R, Arith.add a b = Arith.add b a
  assoc : ∀ a b c : R, Arith.add (Arith.add a b) c = Arith.add a (Arith.add b c)
  zero_add : ∀ a : R, Arith.add Arith.zero a = a

end Verif.Spec

namespace Verif.Spec

/-- The weight stored for `(r, j)`, if there is such a connection. -/
def lookupWeight {R : Type} (g : AssembledConnections R) (r : Nat) (j : Int) : Option R :=
  ((rowOf g.startPointers g.neighbourhood r).zip (rowOf g.startPointers g.connectionWeight r)).lookup j

/-- All (row, neighbour, weight) triples met when looping over the rows `0..n-1` and, in
    each, over the pairs `L r`. -/
def visited {R : Type} (n : Nat) (L : Nat → List (Int × R)) : List (Nat × Int × R) :=
  (List.range n).flatMap fun r => (L r).map fun p => (r, p.1, p.2)

/-- An index of C++ type `int`. -/
def IsInt (i : Int) : Prop := -2147483648 ≤ i ∧ i ≤ 2147483647

end Verif.Spec
