/-
C61: programs that work with several `Toolbox` objects.
-/
import Verif.Proofs.ToolboxObjects
import Verif.Props.Toolbox

namespace Verif.Props
open Verif.Spec Verif.Toolbox Verif.Solver

variable {R : Type} [Arith R]

/-- Any program that constructs, moves, destroys and calls toolboxes in any order: every step ends as
    the user expects who knows of each object its connectivity and the calls made on it, or on
    the objects it was moved from; and in the end the implementation objects
    not deleted are as many as the toolboxes neither destroyed nor moved from. -/
theorem C61_objects (ops : List (ObjOp R)) :
    (∀ k events, knownRun ops [] = .ok (k, events) →
      ∃ h, ObjHeap.run ops {} = .ok (h, events) ∧ h.live = inUse k) ∧
    (∀ u, knownRun ops ([] : Known R) = .ub u → ObjHeap.run ops {} = .ub u) ∧
    (knownRun ops ([] : Known R) = .diverge → ObjHeap.run ops {} = .diverge) ∧
    (∀ e, knownRun ops ([] : Known R) ≠ .throw e) := by
  rcases Holds.empty.run ops with ⟨h, k, e, e1, e2, H⟩ | ⟨u, e1, e2⟩ | ⟨e1, e2⟩
  · rw [e1, e2]
    refine ⟨?_, by simp, by simp, by simp⟩
    intro k' ev h'
    cases h'
    exact ⟨h, rfl, H.live⟩
  · rw [e1, e2]; simp
  · rw [e1, e2]; simp

/-- If every toolbox has been destroyed or moved from, no implementation object is left. -/
theorem C61_no_leak (ops : List (ObjOp R)) {h : ObjHeap R} {events : List (Event R)} (hr : ObjHeap.run ops {} = .ok (h, events))
    {k : Known R} (hk : knownRun ops [] = .ok (k, events))
    (hd : ∀ o ∈ k, o = none ∨ o = some none) : h.live = 0 := by
  obtain ⟨h', e, hl⟩ := (C61_objects ops).1 k events hk
  rw [hr] at e
  cases e
  rw [hl]
  unfold inUse
  rw [List.length_eq_zero_iff, List.filter_eq_nil_iff]
  intro o ho
  rcases hd o ho with rfl | rfl <;> simp

/-- A toolbox that is moved between the calls: object 1 continues the history of object 0. -/
example (g : ConnectivityGraph) (pv : List R) (hpv : pv.length = g.numCells) (m : InflowFlux R) (al : Nat → Alloc) (fuel : Nat)
    (s : List CellSet) : ∃ h, ObjHeap.run
      [.create g, .call 0 (.assignPoreVolume pv), .moveConstruct 0, .call 1 (.assignInflowFlux m), .destroy 0,
        .call 1 (.computeInjectionDiagnostics al fuel s)] {}
      = .ok (h, [.returned, .returned, .returned, .returned, .returned, .thrown .logicError]) ∧ h.live = 1 := by
  have hm := (C34_missing g [.assignPoreVolume pv, .assignInflowFlux m] (fun h => h.flux rfl) al fuel s).1
  refine (C61_objects _).1 [none, some (some (g, [.assignPoreVolume pv, .assignInflowFlux m,
    .computeInjectionDiagnostics al fuel s]))] _ ?_
  simp [knownRun, knownStep, endOf, rdM, hpv, hm, Res.bind]

/-- Using a toolbox that was moved from. -/
example (g : ConnectivityGraph) (m : InflowFlux R) :
    ObjHeap.run [.create g, .moveConstruct 0, .call 0 (.assignInflowFlux m)] {} = .ub .nullDeref :=
  (C61_objects _).2.1 _ rfl

/-- Assigning an object to itself keeps it; assigning another one deletes what was there. -/
example (g g' : ConnectivityGraph) : ∃ h : ObjHeap R, ObjHeap.run
    [.create g, .create g', .moveAssign 0 0, .moveAssign 0 1, .destroy 1, .destroy 0] {}
      = .ok (h, List.replicate 6 .returned) ∧ h.live = 0 := by
  obtain ⟨h, e, _⟩ := (C61_objects (R := R) [.create g, .create g', .moveAssign 0 0, .moveAssign 0 1, .destroy 1, .destroy 0]).1
    [none, none] _ rfl
  exact ⟨h, e, C61_no_leak _ e (k := [none, none]) rfl (by simp)⟩

end Verif.Props
