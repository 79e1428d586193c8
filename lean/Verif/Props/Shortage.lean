/-
C68: toolboxes on which calls ran out of memory.
-/
import Verif.Props.Release
import Verif.Props.Accuracy
import Verif.Proofs.ShortageFlux

namespace Verif.Props
open Verif.Spec Verif.Toolbox Verif.Solver

section
variable {R : Type} [Arith R]

/-- Calls may run out of memory anywhere in a history.  If every assignment of fluxes and of inflow for which this happened
    was repeated, diagnostics end as if the calls that ran out of memory had not been made.  Assignments of pore volumes and
    diagnostics need not be repeated. -/
theorem C68_repeated {g : ConnectivityGraph} {es : List (Verif.Spec.Event R)} {t : Toolbox R} (h : After g es t)
    (hf : FluxRepeated g es) (hi : InflowRepeated es) (al : Nat → Alloc) (fuel : Nat) (starts : List CellSet) :
    (t.injDiag al fuel starts).2 = injectionOutcome g (completed es) al fuel starts ∧
    (t.prodDiag al fuel starts).2 = productionOutcome g (completed es) al fuel starts := by
  have hs := stillHolds h
  obtain ⟨h1, h2⟩ := hs.flux hf
  obtain ⟨h3, h4⟩ := hs.inflow hi
  rw [injDiag_snd h2, prodDiag_snd h2, injectionOutcome_eq, productionOutcome_eq, hs.graph, hs.pvol, h1, h3, h4]
  exact ⟨rfl, rfl⟩

open Classical in
/-- Why fluxes must be assigned again.  If the first assignment of fluxes runs out of memory, the toolbox nevertheless takes itself
    to have fluxes: diagnostics with accepted start sets read outside a vector. -/
theorem C68_first_flux {g : ConnectivityGraph} {n : Nat} {cs : List (Nat × Nat)} (hg : HasConnections g n cs)
    (hn : n ≠ 0) (hcs : cs ≠ []) {calls : List (Call R)} (hpv : lastPoreVolume g calls ≠ none)
    (hf : lastFlux g calls = none) {f : ConnectionValues R} (hc : f.numConnections = g.numConnections) (hp : f.numPhases ≠ 0) :
    (∃ t, After g (calls.map .ended ++ [.ranOut (.assignConnectionFlux f)]) t) ∧
    ∀ t, After g (calls.map .ended ++ [.ranOut (.assignConnectionFlux f)]) t → ∀ al fuel starts,
      (InjectionAccepts ((lastInflow calls).getD []) starts → (t.injDiag al fuel starts).2 = .ub .outOfBounds) ∧
      (ProductionAccepts ((lastInflow calls).getD []) starts → (t.prodDiag al fuel starts).2 = .ub .outOfBounds) := by
  have hh := holdsData g calls
  refine ⟨⟨_, .ranOut (after_calls g calls) (.connectionFlux f (by rw [hh.graph]; exact hc))⟩, fun t ht al fuel starts => ?_⟩
  obtain ⟨_, rfl⟩ := after_flux ht
  have hb := not_built hf
  have hcoh : Coherent { toolboxAfter g calls with flux := { f with data := (toolboxAfter g calls).flux.data } } := by
    intro hb'; exact absurd hb' (by rw [show _ = _ from hb]; decide)
  have hd : (toolboxAfter g calls).flux.data = [] := by
    rw [hh.flux, hf]; rfl
  have hgr : graphs g { f with data := (toolboxAfter g calls).flux.data } = .ub .outOfBounds :=
    graphs_ub hg hcs hc hp hd
  have hne : ((toolboxAfter g calls).pvol.isEmpty || ({ f with data := (toolboxAfter g calls).flux.data } : ConnectionValues R).numConnections == 0) = false := by
    rw [Bool.or_eq_false_iff]
    constructor
    · rw [hh.pvol]
      cases hl : lastPoreVolume g calls with
      | none => exact absurd hl hpv
      | some pv =>
        have := lastPoreVolume_length hl
        rw [hg.cells] at this
        cases pv with
        | nil => exact absurd this.symm hn
        | cons a l => rfl
    · have : cs.length ≠ 0 := fun h => hcs (List.length_eq_zero_iff.mp h)
      have e : ({ f with data := (toolboxAfter g calls).flux.data } : ConnectionValues R).numConnections = cs.length := by
        rw [← hg.count, ← hc]; rfl
      rw [e]; simpa using this
  constructor
  · intro ha
    rw [injDiag_snd hcoh]
    unfold outcome
    simp only [hne, Bool.false_eq_true, if_false, hh.graph,
      show (toolboxAfter g calls).injById = _ from congrArg Split.byId hh.inj,
      show (toolboxAfter g calls).onlyInflow = _ from congrArg Split.only hh.inj]
    rw [check_injection, if_pos ha, Res.ok_bind, hgr]; rfl
  · intro ha
    rw [prodDiag_snd hcoh]
    unfold outcome
    simp only [hne, Bool.false_eq_true, if_false, hh.graph,
      show (toolboxAfter g calls).prodById = _ from congrArg Split.byId hh.prod,
      show (toolboxAfter g calls).onlyOutflow = _ from congrArg Split.only hh.prod]
    rw [check_production, if_pos ha, Res.ok_bind, hgr]; rfl

/-- If diagnostics have returned since fluxes were last assigned, running out of memory in the next assignment of fluxes changes
    nothing: the old fluxes stay in force. -/
theorem C68_old_flux {g : ConnectivityGraph} {before after : List (Call R)} {d : Call R}
    (hd : (∃ al fuel s sol, d = .computeInjectionDiagnostics al fuel s ∧ injectionOutcome g before al fuel s = .ok sol) ∨
      ∃ al fuel s sol, d = .computeProductionDiagnostics al fuel s ∧ productionOutcome g before al fuel s = .ok sol)
    (ha : ∀ f, Call.assignConnectionFlux f ∉ after) {f : ConnectionValues R} {t : Toolbox R}
    (ht : After g ((before ++ d :: after).map .ended ++ [.ranOut (.assignConnectionFlux f)]) t)
    (al : Nat → Alloc) (fuel : Nat) (starts : List CellSet) :
    (t.injDiag al fuel starts).2 = injectionOutcome g (before ++ d :: after) al fuel starts ∧
    (t.prodDiag al fuel starts).2 = productionOutcome g (before ++ d :: after) al fuel starts := by
  obtain ⟨hf, rfl⟩ := after_flux ht
  have hb : (toolboxAfter g (before ++ d :: after)).connBuilt = true := by
    have h0 : (toolboxAfter g (before ++ [d])).connBuilt = true := by
      have e : toolboxAfter g (before ++ [d]) = (toolboxAfter g before).step d := by
        unfold toolboxAfter; rw [List.foldl_append]; rfl
      rw [e]
      rcases hd with ⟨al, fuel, s, sol, rfl, h⟩ | ⟨al, fuel, s, sol, rfl, h⟩
      · exact injDiag_built h
      · exact prodDiag_built h
    clear ht hd
    induction after using List.reverseRecOn with
    | nil => exact h0
    | append_singleton l c ih =>
      have e : toolboxAfter g (before ++ d :: (l ++ [c])) = (toolboxAfter g (before ++ d :: l)).step c := by
        unfold toolboxAfter
        rw [show before ++ d :: (l ++ [c]) = (before ++ d :: l) ++ [c] by simp, List.foldl_append]; rfl
      rw [e]
      refine step_built (ih fun f h => ha f (by simp [h])) ?_
      rintro f rfl
      exact ha f (by simp)
  have hh := holdsData g (before ++ d :: after)
  have hnc : (toolboxAfter g (before ++ d :: after)).flux.numConnections = f.numConnections := by
    have hc := hh.flux
    cases hl : lastFlux g (before ++ d :: after) with
    | some f' =>
      rw [hl] at hc
      rw [hc, hf]
      exact lastFlux_count hl
    | none => rw [not_built hl] at hb; cases hb
  unfold injectionOutcome productionOutcome
  generalize toolboxAfter g (before ++ d :: after) = t at hb hnc ⊢
  have hbt : t.ensureBuilt = (t, .ok ()) := by unfold ensureBuilt; rw [if_pos hb]
  have hbt' : ({ t with flux := { f with data := t.flux.data } } : Toolbox R).ensureBuilt
      = ({ t with flux := { f with data := t.flux.data } }, .ok ()) := by
    unfold ensureBuilt; rw [if_pos (show t.connBuilt = true from hb)]
  constructor
  · unfold injDiag
    rw [hbt, hbt', show ({ f with data := t.flux.data } : ConnectionValues R).numConnections = t.flux.numConnections from hnc.symm]
    split
    · rfl
    · cases checkStartSets t.injById t.onlyInflow starts <;> rfl
  · unfold prodDiag
    rw [hbt, hbt', show ({ f with data := t.flux.data } : ConnectionValues R).numConnections = t.flux.numConnections from hnc.symm]
    split
    · rfl
    · cases checkStartSets t.prodById t.onlyOutflow starts <;> rfl

end

/-! ### Cases that meet the hypotheses -/

/-- Two injectors, `I` in cell 0 and `J` in cell 1. -/
def shortInflow : InflowFlux Double := [(⟨[73]⟩, [(0, Arith.lit 10)]), (⟨[74]⟩, [(1, Arith.lit 10)])]

/-- Pore volumes and fluxes for `accGraph`, no inflow. -/
def shortCalls : List (Call Double) :=
  [.assignPoreVolume [Arith.lit 1, Arith.lit 2, Arith.lit 2],
   .assignConnectionFlux ⟨3, 1, [Arith.lit 3, Arith.lit 3, Arith.lit 7]⟩]

/-- Throws `std::runtime_error`. -/
def isRuntimeError {α : Type} : Res α → Bool
  | .throw .runtimeError => true
  | _ => false

theorem isRuntimeError_iff {α : Type} {r : Res α} (h : isRuntimeError r = true) : r = .throw .runtimeError := by
  unfold isRuntimeError at h
  split at h
  · rfl
  · cases h

/-- What a toolbox with the data of `shortCalls` holds after assigning `shortInflow` ran out of memory at its second entry. -/
def shortToolbox : Toolbox Double :=
  let s := splitInflowUpTo [(⟨[73]⟩, [(0, Arith.lit 10)])] ⟨[74]⟩ [] (1, Arith.lit 10) .sum
  { toolboxAfter accGraph shortCalls with
    onlyInflow := s.1.only, injById := s.1.byId, onlyOutflow := s.2.only, prodById := s.2.byId }

/-- Why inflow must be assigned again: otherwise part of the new inflow is in force, diagnostics return, and the times of flight are
    neither those of the old inflow (for which the call is rejected) nor those of the new one. -/
theorem C68_mixed_inflow :
    ∃ t, After accGraph (shortCalls.map .ended ++ [.ranOut (.assignInflowFlux shortInflow)]) t ∧
      injectionOutcome accGraph shortCalls noFailure 20 [⟨⟨[73]⟩, [0]⟩] = .throw .runtimeError ∧
      ∃ sol sol', (t.injDiag noFailure 20 [⟨⟨[73]⟩, [0]⟩]).2 = .ok sol ∧
        injectionOutcome accGraph (shortCalls ++ [.assignInflowFlux shortInflow]) noFailure 20 [⟨⟨[73]⟩, [0]⟩] = .ok sol' ∧
        sol.timeOfFlight.map Double.val ≠ sol'.timeOfFlight.map Double.val := by
  refine ⟨shortToolbox, .ranOut (after_calls _ _) (.inflow [(⟨[73]⟩, [(0, Arith.lit 10)])] ⟨[74]⟩ [] (1, Arith.lit 10) [] [] .sum), ?_, ?_⟩
  · refine isRuntimeError_iff ?_
    decide +kernel
  · have h : times (shortToolbox.injDiag noFailure 20 [⟨⟨[73]⟩, [0]⟩]).2 ≠ [] ∧
        times (injectionOutcome accGraph (shortCalls ++ [.assignInflowFlux shortInflow]) noFailure 20 [⟨⟨[73]⟩, [0]⟩]) ≠ [] ∧
        times (shortToolbox.injDiag noFailure 20 [⟨⟨[73]⟩, [0]⟩]).2
          ≠ times (injectionOutcome accGraph (shortCalls ++ [.assignInflowFlux shortInflow]) noFailure 20 [⟨⟨[73]⟩, [0]⟩]) := by
      decide +kernel
    obtain ⟨h1, h2, h3⟩ := h
    generalize (shortToolbox.injDiag noFailure 20 [⟨⟨[73]⟩, [0]⟩]).2 = r at h1 h3 ⊢
    generalize injectionOutcome accGraph (shortCalls ++ [.assignInflowFlux shortInflow]) noFailure 20 [⟨⟨[73]⟩, [0]⟩] = r' at h2 h3 ⊢
    cases r with
    | ok sol =>
      cases r' with
      | ok sol' => exact ⟨sol, sol', rfl, rfl, h3⟩
      | _ => exact absurd rfl h2
    | _ => exact absurd rfl h1

/-- A history in which fluxes, inflow, pore volumes and diagnostics all ran out of memory, and fluxes and inflow were assigned
    again: there is such a toolbox, and its diagnostics return. -/
def shortHistory : List (Verif.Spec.Event Double) :=
  [.ended (.assignPoreVolume [Arith.lit 1, Arith.lit 2, Arith.lit 2]),
   .ranOut (.assignConnectionFlux ⟨3, 2, [Arith.lit 3, Arith.lit 3, Arith.lit 7, Arith.lit 3, Arith.lit 3, Arith.lit 7]⟩),
   .ranOut (.assignInflowFlux shortInflow),
   .ended (.assignConnectionFlux ⟨3, 1, [Arith.lit 3, Arith.lit 3, Arith.lit 7]⟩),
   .ended (.assignInflowFlux [(⟨[73]⟩, [(0, Arith.lit 10)]), (⟨[80]⟩, [(2, Arith.lit (-10))])]),
   .ranOut (.assignPoreVolume [Arith.lit 5, Arith.lit 6, Arith.lit 7]),
   .ranOut (.computeInjectionDiagnostics noFailure 20 [])]

example : (∃ t, After accGraph shortHistory t) ∧ FluxRepeated accGraph shortHistory ∧ InflowRepeated shortHistory ∧
    completed shortHistory = accCalls ∧
    times (injectionOutcome accGraph (completed shortHistory) noFailure 20 []) ≠ [] := by
  refine ⟨⟨_, .ranOut (.ranOut (.ended _ (.ended _ (.ranOut (.ranOut (.ended _ .start)
      (.connectionFlux _ rfl)) (.inflow [(⟨[73]⟩, [(0, Arith.lit 10)])] ⟨[74]⟩ [] (1, Arith.lit 10) [] [] .cell))))
      (.poreVolume _ rfl)) (.buildInj _ _ _ ⟨by decide +kernel, ?_⟩ (by decide +kernel) {} {})⟩, ?_, ?_, rfl, by decide +kernel⟩
  · rfl
  · intro before f after e
    rcases before with _ | ⟨e0, _ | ⟨e1, _ | ⟨e2, _ | ⟨e3, _ | ⟨e4, _ | ⟨e5, _ | ⟨e6, _ | ⟨e7, l⟩⟩⟩⟩⟩⟩⟩⟩ <;>
      simp [shortHistory] at e
    obtain ⟨_, _, rfl⟩ := e
    exact ⟨_, by simp; exact rfl, rfl⟩
  · intro before f after e
    rcases before with _ | ⟨e0, _ | ⟨e1, _ | ⟨e2, _ | ⟨e3, _ | ⟨e4, _ | ⟨e5, _ | ⟨e6, _ | ⟨e7, l⟩⟩⟩⟩⟩⟩⟩⟩ <;>
      simp [shortHistory] at e
    obtain ⟨_, _, _, rfl⟩ := e
    exact ⟨_, by simp; exact rfl⟩

/-- Pore volumes and inflow for `accGraph`, no fluxes. -/
def dryCalls : List (Call Double) :=
  [.assignPoreVolume [Arith.lit 1, Arith.lit 2, Arith.lit 2], .assignInflowFlux shortInflow]

/-- `C68_first_flux` -/
example : HasConnections accGraph accProblem.n accProblem.conns ∧ accProblem.n ≠ 0 ∧ accProblem.conns ≠ [] ∧
    lastPoreVolume accGraph dryCalls ≠ none ∧ lastFlux accGraph dryCalls = none ∧
    InjectionAccepts ((lastInflow dryCalls).getD []) [⟨⟨[73]⟩, [0]⟩] ∧ ProductionAccepts ((lastInflow dryCalls).getD []) [] := by
  refine ⟨acc_connections, by decide, by decide, by simp [lastPoreVolume, lastSome, dryCalls, accGraph, ConnectivityGraph.numCells], rfl, ?_, nofun⟩
  intro s hs
  simp only [List.mem_singleton] at hs
  subst hs
  refine ⟨⟨_, List.mem_cons_self, rfl, _, List.mem_cons_self, by decide +kernel⟩, fun c hc => ?_⟩
  have hc : c = 0 := List.mem_singleton.mp hc
  subst hc
  exact ⟨_, List.mem_cons_self, _, List.mem_cons_self, rfl, by decide +kernel⟩

/-- `C68_old_flux`: diagnostics have returned with the fluxes of `accCalls`. -/
example : (∃ sol, injectionOutcome accGraph accCalls noFailure 20 [] = .ok sol) ∧
    ∃ t, After accGraph ((accCalls ++ Call.computeInjectionDiagnostics noFailure 20 [] :: []).map .ended ++
      [.ranOut (.assignConnectionFlux ⟨3, 1, [Arith.lit 1, Arith.lit 1, Arith.lit 1]⟩)]) t := by
  constructor
  · have h : times (injectionOutcome accGraph accCalls noFailure 20 []) ≠ [] := by decide +kernel
    generalize injectionOutcome accGraph accCalls noFailure 20 [] = r at h ⊢
    cases r with
    | ok sol => exact ⟨sol, rfl⟩
    | _ => exact absurd rfl h
  · exact ⟨_, .ranOut (after_calls _ _) (.connectionFlux _ (by rw [(holdsData _ _).graph]; rfl))⟩

end Verif.Props
