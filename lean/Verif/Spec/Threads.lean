/-
Several threads, each with a toolbox of its own: where they start, and which answers each of
them is to get.
-/
import Verif.Model.Threads
import Verif.Spec.Toolbox
import Verif.Spec.Heap
import Verif.Spec.HeapHistory

namespace Verif.Spec
open Verif.Heap Verif.Threads Verif.Toolbox

variable {R : Type} [Arith R]

/-- The call was not the last of its thread: it returned or threw. -/
def goesOn {α : Type} : Res α → Bool
  | .ok _ => true
  | .throw _ => true
  | .ub _ => false
  | .diverge => false

/-- The answers to the diagnostics requests that follow the calls `calls` on a toolbox for `g`,
    made by a program without other threads (the allocations of the `k`-th call end as `al k` says).
    Undefined behaviour, or a call that does not return, is the last answer. -/
def answersAfter (g : ConnectivityGraph) (fuel : Nat) (al : Nat → Nat → Solver.Alloc) :
    List (Call R) → List (Request R) → List (Res (Solution R))
  | _, [] => []
  | calls, .assignPoreVolume pv :: rest => answersAfter g fuel al (calls ++ [.assignPoreVolume pv]) rest
  | calls, .assignConnectionFlux f :: rest =>
    answersAfter g fuel al (calls ++ [.assignConnectionFlux f]) rest
  | calls, .assignInflowFlux m :: rest => answersAfter g fuel al (calls ++ [.assignInflowFlux m]) rest
  | calls, .injection s :: rest =>
    let answer := injectionOutcome g calls (al calls.length) fuel s
    answer :: if goesOn answer then
      answersAfter g fuel al
        (calls ++ [.computeInjectionDiagnostics (al calls.length) fuel s]) rest else []
  | calls, .production s :: rest =>
    let answer := productionOutcome g calls (al calls.length) fuel s
    answer :: if goesOn answer then
      answersAfter g fuel al
        (calls ++ [.computeProductionDiagnostics (al calls.length) fuel s]) rest else []

/-- The threads at the beginning: each of them has a connectivity, and requests for a toolbox made
    from it. -/
def startThreads (fuel : Nat) (users : List (ConnectivityGraph × List (Request R))) (h : Heap) :
    Config (List (Res (Solution R))) where
  heap := h
  threads := users.map fun u => session fuel u.2 (Toolbox.create u.1) []
  log := []

/-- As `apiStep`: one call of the C interface, by a thread that holds the pointers `hs`. -/
def cStep (fuel : Nat) (hs : List Handle) : ApiCall → T (List Handle)
  | .createWorkspace n => do
    let p ← Threads.createWorkspace n
    pure (hs ++ [.ws p])
  | .destroyWorkspace i =>
    match hs[i]? with
    | some (.ws p) => do
      Threads.destroyWorkspace p
      pure (hs.set i (.ws none))
    | _ => pure hs
  | .tarjan nv ia ja => do
    let p ← Threads.tarjan nv ia ja fuel
    pure (hs ++ [.res p])
  | .reachable nv ia ja pts i =>
    match hs[i]? with
    | some (.ws w) => do
      let p ← Threads.reachableSccs nv ia ja pts w fuel
      pure (hs ++ [.res p])
    | _ => pure hs
  | .reverse i =>
    match hs[i]? with
    | some (.res p) => do
      let _ ← Threads.reverseSccResult p
      pure hs
    | _ => pure hs
  | .destroyResult i =>
    match hs[i]? with
    | some (.res p) => do
      Threads.destroySccResult p
      pure (hs.set i (.res none))
    | _ => pure hs

/-- As `apiRun`: the calls of one thread. -/
def cRun (fuel : Nat) : List ApiCall → List Handle → T (List Handle)
  | [], hs => pure hs
  | c :: cs, hs => do
    let hs ← cStep fuel hs c
    cRun fuel cs hs

/-- The beginning for threads that call the C interface: each of them has calls to make. -/
def startCalls (fuel : Nat) (users : List (List ApiCall)) (h : Heap) : Config (Res (List Handle)) where
  heap := h
  threads := users.map fun calls => cRun fuel calls []
  log := []

/-- Thread `i` has finished, with these answers. -/
def Finished {α : Type} (c : Config α) (i : Nat) (answers : α) : Prop :=
  c.threads[i]? = some (.ret answers)

/-- Every thread gets turns again and again. -/
def Fair (threads : Nat) (schedule : Nat → Nat) : Prop :=
  ∀ i < threads, ∀ n, ∃ m, n ≤ m ∧ schedule m = i

end Verif.Spec
