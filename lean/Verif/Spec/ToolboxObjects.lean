/-
What a user knows about each `Toolbox` object of a program: for which connectivity it was
built and which calls were made on it.
-/
import Verif.Spec.Toolbox
import Verif.Model.ToolboxObjects

namespace Verif.Spec
open Verif.Toolbox Verif.Solver

variable {R : Type} [Arith R]

/-- An object: destroyed (`none`), moved from (`some none`), or in use, with its connectivity and
    the calls made on it, or on the objects it was moved from. -/
abbrev Known (R : Type) := List (Option (Option (ConnectivityGraph × List (Call R))))

/-- How a call ends on an object with a given history: the outcome is the one on a toolbox that
    had these calls only. -/
def endOf (g : ConnectivityGraph) (calls : List (Call R)) : Call R → Res (Event R)
  | .assignPoreVolume pvol => if pvol.length = g.numCells then .ok .returned else .ok (.thrown .logicError)
  | .assignConnectionFlux flux => if flux.numConnections = g.numConnections then .ok .returned else .ok (.thrown .logicError)
  | .assignInflowFlux _ => .ok .returned
  | .computeInjectionDiagnostics al fuel s =>
    match injectionOutcome g calls al fuel s with
    | .ok sol => .ok (.solution sol)
    | .throw e => .ok (.thrown e)
    | .ub u => .ub u
    | .diverge => .diverge
  | .computeProductionDiagnostics al fuel s =>
    match productionOutcome g calls al fuel s with
    | .ok sol => .ok (.solution sol)
    | .throw e => .ok (.thrown e)
    | .ub u => .ub u
    | .diverge => .diverge

/-- One step of a program. -/
def knownStep (k : Known R) : ObjOp R → Res (Known R × Event R)
  | .create g => .ok (k ++ [some (some (g, []))], .returned)
  | .moveConstruct i => (rdM k i).bind fun o => .ok (k.set i (some none) ++ [some o], .returned)
  | .moveAssign i j => (rdM k j).bind fun o => (rdM k i).bind fun _ =>
      .ok ((k.set j (some none)).set i (some o), .returned)
  | .destroy i => (rdM k i).bind fun _ => .ok (k.set i none, .returned)
  | .call i c => (rdM k i).bind fun
    | none => .ub .nullDeref
    | some (g, calls) => (endOf g calls c).bind fun e => .ok (k.set i (some (some (g, calls ++ [c]))), e)

/-- A whole program: what is known in the end, and what each step sees. -/
def knownRun : List (ObjOp R) → Known R → Res (Known R × List (Event R))
  | [], k => .ok (k, [])
  | op :: ops, k => (knownStep k op).bind fun r => (knownRun ops r.1).bind fun q => .ok (q.1, r.2 :: q.2)

/-- The objects in use: neither destroyed nor moved from. -/
def inUse (k : Known R) : Nat := (k.filter fun o => o.join.isSome).length

end Verif.Spec
