/-
What diagnostics return for a valid problem, in exact arithmetic.
-/
import Verif.Proofs.ToolboxData

namespace Verif.Toolbox
open Verif.Spec Verif.Solver Verif.Spec.Problem

variable {K : Type} [Field K] [LinearOrder K] [IsStrictOrderedRing K]

theorem GivenTo.inflowMap_eq {P : Problem K} {g : ConnectivityGraph} {calls : List (Call (X K))} (h : P.GivenTo g calls) :
    (lastInflow calls).getD [] = P.inflowMap := by
  rcases h.inflow with e | ⟨e, hw⟩
  · rw [e]; rfl
  · rw [e]; unfold Problem.inflowMap; rw [hw]; rfl

theorem GivenTo.connectivity {P : Problem K} (hP : P.Valid) {g : ConnectivityGraph} {calls : List (Call (X K))} (h : P.GivenTo g calls) :
    ValidConnectivity g P.n P.conns := ⟨h.graph, hP.int, hP.range⟩

theorem hasInflow_problem {P : Problem K} {i : CellSetID} :
    HasInflow P.inflowMap i ↔ ∃ w ∈ P.wells, w.id = i ∧ posCells w ≠ [] := by
  rw [← positives_id, positives_inflowMap]
  constructor
  · rintro ⟨e, he, rfl⟩
    obtain ⟨w, hw, v, hv, rfl⟩ := mem_contributions.mp he
    exact ⟨w, hw, rfl, List.ne_nil_of_mem hv⟩
  · rintro ⟨w, hw, rfl, hne⟩
    obtain ⟨v, hv⟩ := List.exists_mem_of_ne_nil _ hne
    exact ⟨_, mem_contributions.mpr ⟨w, hw, v, hv, rfl⟩, rfl⟩

theorem hasOutflow_problem {P : Problem K} {i : CellSetID} :
    HasOutflow P.inflowMap i ↔ ∃ w ∈ P.wells, w.id = i ∧ negCells w ≠ [] := by
  rw [← negatives_id, negatives_inflowMap]
  constructor
  · rintro ⟨e, he, rfl⟩
    obtain ⟨w, hw, v, hv, rfl⟩ := mem_contributions.mp he
    exact ⟨w, hw, rfl, List.ne_nil_of_mem hv⟩
  · rintro ⟨w, hw, rfl, hne⟩
    obtain ⟨v, hv⟩ := List.exists_mem_of_ne_nil _ hne
    exact ⟨_, mem_contributions.mpr ⟨w, hw, v, hv, rfl⟩, rfl⟩

variable [Archimedean K]

/-- Injection diagnostics of a valid problem are the solutions of the flow from sources to sinks. -/
theorem injection_solution {P : Problem K} (hP : P.Valid) {g : ConnectivityGraph} {calls : List (Call (X K))}
    (h : P.GivenTo g calls) {starts : List CellSet} (ha : InjectionAccepts P.inflowMap starts) :
    ∃ d st sol, SolverFor P.forward d st ∧ InjectionReturns g calls starts (.ok sol) ∧
      GlobalReturns d st (.ok sol.timeOfFlight) ∧
      (∀ w ∈ P.wells, (∃ s ∈ starts, s.id = w.id) → ∃ l, LocalReturns d st (valuesOf (posCells w) w.val) (.ok l) ∧
        sol.timeOfFlightOf w.id = l.tof ∧ sol.concentration w.id = l.concentration) ∧
      (∀ i, (¬ ∃ s ∈ starts, s.id = i) → sol.timeOfFlightOf i = [] ∧ sol.concentration i = []) ∧
      sol.startPoints.Pairwise (· < ·) ∧ ∀ i, i ∈ sol.startPoints ↔ ∃ s ∈ starts, s.id = i := by
  obtain ⟨f, hf, hflux⟩ := h.flux
  have hcnt := h.graph.count
  obtain ⟨hg1, hg2⟩ := graphsOf_flow P hP.int hP.range
  obtain ⟨d, st, sol, hsf, ⟨N, hN⟩, rest⟩ := side_solution (forward_valid hP) hg1 hg2 (pos_side hP) starts
    (fun s hs => hasInflow_problem.mp (ha s hs).1)
  refine ⟨d, st, sol, hsf, ⟨N, fun fuel hfu => ?_⟩, rest⟩
  rw [injectionOutcome_eq, GivenTo.inflowMap_eq h, h.pv, hf]
  simp only [Option.getD_some]
  rw [outcome_complete, check_injection, if_pos ha]
  · rw [hcnt] at hflux
    simp only [Res.bind]
    rw [graphs_eq (GivenTo.connectivity hP h) hflux, directed_lift, splitInflow_eq, positives_inflowMap]
    exact hN fuel hfu
  · intro e
    have := congrArg List.length e
    simp [arr] at this
    exact absurd this hP.pos.ne'
  · rw [hflux.conns, hcnt]
    exact fun e => hP.some_connection (List.length_eq_zero_iff.mp e)

/-- Production diagnostics of a valid problem are the solutions of the reversed flow. -/
theorem production_solution {P : Problem K} (hP : P.Valid) {g : ConnectivityGraph} {calls : List (Call (X K))}
    (h : P.GivenTo g calls) {starts : List CellSet} (ha : ProductionAccepts P.inflowMap starts) :
    ∃ d st sol, SolverFor P.backward d st ∧ ProductionReturns g calls starts (.ok sol) ∧
      GlobalReturns d st (.ok sol.timeOfFlight) ∧
      (∀ w ∈ P.wells, (∃ s ∈ starts, s.id = w.id) → ∃ l, LocalReturns d st (valuesOf (negCells w) fun v => - w.val v) (.ok l) ∧
        sol.timeOfFlightOf w.id = l.tof ∧ sol.concentration w.id = l.concentration) ∧
      (∀ i, (¬ ∃ s ∈ starts, s.id = i) → sol.timeOfFlightOf i = [] ∧ sol.concentration i = []) ∧
      sol.startPoints.Pairwise (· < ·) ∧ ∀ i, i ∈ sol.startPoints ↔ ∃ s ∈ starts, s.id = i := by
  obtain ⟨f, hf, hflux⟩ := h.flux
  have hcnt := h.graph.count
  obtain ⟨hg1, hg2⟩ := graphsOf_flow P hP.int hP.range
  obtain ⟨d, st, sol, hsf, ⟨N, hN⟩, rest⟩ := side_solution (backward_valid hP) hg2 hg1 (neg_side hP) starts
    (fun s hs => hasOutflow_problem.mp (ha s hs).1)
  refine ⟨d, st, sol, hsf, ⟨N, fun fuel hfu => ?_⟩, rest⟩
  rw [productionOutcome_eq, GivenTo.inflowMap_eq h, h.pv, hf]
  simp only [Option.getD_some]
  rw [outcome_complete, check_production, if_pos ha]
  · rw [hcnt] at hflux
    simp only [Res.bind]
    rw [graphs_eq (GivenTo.connectivity hP h) hflux, directed_lift, splitInflow_eq, negatives_inflowMap]
    exact hN fuel hfu
  · intro e
    have := congrArg List.length e
    simp [arr] at this
    exact absurd this hP.pos.ne'
  · rw [hflux.conns, hcnt]
    exact fun e => hP.some_connection (List.length_eq_zero_iff.mp e)

end Verif.Toolbox
