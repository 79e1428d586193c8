/-
Histories of calls on a `Toolbox` some of which run out of memory.
-/
import Verif.Model.Shortage
import Verif.Spec.Toolbox

namespace Verif.Spec
open Verif.Toolbox

variable {R : Type} [Arith R]

/-- A call in a history. -/
inductive Event (R : Type) where
  /-- it returned or threw one of the documented exceptions -/
  | ended (c : Call R)
  /-- it ran out of memory -/
  | ranOut (c : Call R)

/-- A toolbox for `g` may be in state `t` after the history. -/
inductive After (g : ConnectivityGraph) : List (Event R) → Toolbox R → Prop
  | start : After g [] (Toolbox.create g)
  | ended {es : List (Event R)} {t : Toolbox R} (c : Call R) : After g es t → After g (es ++ [.ended c]) (t.step c)
  | ranOut {es : List (Event R)} {t t' : Toolbox R} {c : Call R} : After g es t → RunsOut t c t' → After g (es ++ [.ranOut c]) t'

/-- The calls that did not run out of memory. -/
def completed (es : List (Event R)) : List (Call R) :=
  es.filterMap fun
    | .ended c => some c
    | .ranOut _ => none

/-- Whenever assigning fluxes ran out of memory, fluxes of the right size were assigned later. -/
def FluxRepeated (g : ConnectivityGraph) (es : List (Event R)) : Prop :=
  ∀ before f after, es = before ++ .ranOut (.assignConnectionFlux f) :: after →
    ∃ f', Event.ended (.assignConnectionFlux f') ∈ after ∧ f'.numConnections = g.numConnections

/-- Whenever assigning inflow ran out of memory, inflow was assigned later. -/
def InflowRepeated (es : List (Event R)) : Prop :=
  ∀ before m after, es = before ++ .ranOut (.assignInflowFlux m) :: after →
    ∃ m', Event.ended (.assignInflowFlux m') ∈ after

end Verif.Spec
