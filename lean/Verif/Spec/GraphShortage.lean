/-
Histories of calls on an `AssembledConnections` object some of which run out of memory, up to the first `compress` that returns.
-/
import Verif.Model.GraphShortage
import Verif.Spec.GraphHistory

namespace Verif.Spec

variable {R : Type} [Arith R]

/-- A call in a history. -/
inductive GraphEvent (R : Type) where
  /-- `addConnection` returned -/
  | added (c : Conn R)
  /-- `addConnection` ran out of memory -/
  | notAdded (c : Conn R)
  /-- `compress(n)` ran out of memory -/
  | notCompressed (n : Nat)
  /-- `compress(n)` threw another exception -/
  | rejected (n : Nat)

/-- An object in state `g₀` may be in state `g` after the history. -/
inductive GraphAfter (g₀ : AssembledConnections R) : List (GraphEvent R) → AssembledConnections R → Prop
  | start : GraphAfter g₀ [] g₀
  | added {es : List (GraphEvent R)} {g : AssembledConnections R} (c : Conn R) :
      GraphAfter g₀ es g → GraphAfter g₀ (es ++ [.added c]) (addOne g c)
  | notAdded {es : List (GraphEvent R)} {g g' : AssembledConnections R} {c : Conn R} :
      GraphAfter g₀ es g → g.AddRunsOut c.1 c.2.1 c.2.2 g' → GraphAfter g₀ (es ++ [.notAdded c]) g'
  | notCompressed {es : List (GraphEvent R)} {g g' : AssembledConnections R} (n : Nat) :
      GraphAfter g₀ es g → g.CompressRunsOut g' → GraphAfter g₀ (es ++ [.notCompressed n]) g'
  | rejected {es : List (GraphEvent R)} {g g' : AssembledConnections R} {n : Nat} {e : Exc} :
      GraphAfter g₀ es g → g.compressStep n = (g', .throw e) → GraphAfter g₀ (es ++ [.rejected n]) g'

/-- The connections whose `addConnection` returned. -/
def addedConns (es : List (GraphEvent R)) : List (Conn R) :=
  es.filterMap fun
    | .added c => some c
    | _ => none

/-- `cs` are the connections whose `addConnection` returned and, without their weights, some of those with a weight for
    which it ran out of memory. -/
inductive Kept : List (GraphEvent R) → List (Conn R) → Prop
  | nil : Kept [] []
  | added {es : List (GraphEvent R)} {cs : List (Conn R)} (c : Conn R) : Kept es cs → Kept (es ++ [.added c]) (cs ++ [c])
  | dropped {es : List (GraphEvent R)} {cs : List (Conn R)} (c : Conn R) : Kept es cs → Kept (es ++ [.notAdded c]) cs
  | unweighted {es : List (GraphEvent R)} {cs : List (Conn R)} (i j : Int) (v : R) :
      Kept es cs → Kept (es ++ [.notAdded (i, j, some v)]) (cs ++ [(i, j, none)])
  | notCompressed {es : List (GraphEvent R)} {cs : List (Conn R)} (n : Nat) : Kept es cs → Kept (es ++ [.notCompressed n]) cs
  | rejected {es : List (GraphEvent R)} {cs : List (Conn R)} (n : Nat) : Kept es cs → Kept (es ++ [.rejected n]) cs

/-- What a user sees of the result of `compress`. -/
def contents : Res (AssembledConnections R) → Res (List Nat × List Int × List R)
  | .ok g => .ok (g.startPointers, g.neighbourhood, g.connectionWeight)
  | .throw e => .throw e
  | .ub u => .ub u
  | .diverge => .diverge

end Verif.Spec
