/-
C24 without assumptions about the arithmetic.
-/
import Verif.Props.Accuracy
import Verif.Proofs.SupportAny

namespace Verif.Props
open Verif.Spec Verif.Toolbox Verif.Solver Verif.Rounding Verif.Counter Verif.Tarjan

section
variable {R : Type} [Arith R]

open Classical in
/-- **C24** Whatever the arithmetic (for example `double`s, with cycles, or with infinite values), if injection diagnostics
    return then both fields of an injector are given on the same cells: those to which fluid gets from the cells in which the
    injector has a positive value.  No concentration is zero or less. -/
theorem C24_any_injection {g : ConnectivityGraph} {n : Nat} {cs : List (Nat × Nat)} (hg : ValidConnectivity g n cs)
    {calls : List (Call R)} {np : Nat} {phi : Nat → Nat → R} (hf : FluxGiven g calls np phi)
    (hm : CellsBelow ((lastInflow calls).getD []) n) {starts : List CellSet} {sol : Solution R}
    (hr : InjectionReturns g calls starts (.ok sol)) {i : CellSetID} (hi : ∃ s ∈ starts, s.id = i) :
    FieldsOn (fun v => ∃ p, InflowAt ((lastInflow calls).getD []) i p ∧ Leads cs (fun c => phaseSum (phi c) np) p v) sol i := by
  obtain ⟨N, hN⟩ := hr
  have hc : Complete g calls := by
    by_contra hc
    have := hN N le_rfl
    rw [(C34_missing g calls hc noFailure N starts).1] at this
    cases this
  obtain ⟨pv, f, h1, h2, h3, h4⟩ := complete_outcome hc
  obtain ⟨f', e', hf⟩ := hf
  rw [h2] at e'; cases e'
  rw [hg.count] at hf
  have hgr := graphs_eq hg hf
  have hD := directed_range hg.range fun c => phaseSum (phi c) np
  obtain ⟨hG, hGr⟩ := graphsOf_good hg.int hD
  have hl : pv.length = n := by rw [lastPoreVolume_length h1, hg.cells]
  have ho := hN (max N (n + numEdges n (graphsOf n (directed cs fun c => phaseSum (phi c) np)).1.startPointers)) (le_max_left ..)
  rw [injectionOutcome_eq, h1, h2] at ho
  simp only [Option.getD_some] at ho
  rw [outcome_complete h3 h4, check_injection, hgr] at ho
  split at ho
  swap
  · cases ho
  rw [Res.ok_bind, Res.ok_bind, splitInflow_eq] at ho
  have := computeSolution_fields hg.int hG hGr hl (positives_range hm) (le_max_right ..) ho hi
  refine ⟨this.same, this.order, fun k => (this.cells k).trans ?_, this.positive⟩
  refine exists_congr fun v => and_congr_right fun _ => exists_congr fun p => and_congr ?_ ?_
  · constructor
    · rintro ⟨x, hx, rfl, h⟩
      obtain ⟨h5, h6⟩ := List.mem_filter.mp hx
      obtain ⟨s, hs, e, he, rfl⟩ := mem_entries.mp h5
      exact ⟨s, hs, rfl, e, he, h, h6⟩
    · rintro ⟨s, hs, rfl, e, he, h, h6⟩
      exact ⟨(s.1, e.1, e.2), List.mem_filter.mpr ⟨mem_entries.mpr ⟨s, hs, e, he, rfl⟩, h6⟩, rfl, h⟩
  · have hE : HasEdge n (graphsOf n (directed cs fun c => phaseSum (phi c) np)).1.startPointers
        (graphsOf n (directed cs fun c => phaseSum (phi c) np)).1.neighbourhood = Sends cs fun c => phaseSum (phi c) np := by
      funext u v
      exact propext ((graphsOf_edges hg.int hD u v).1.trans mem_directed_iff)
    unfold Reachable Leads
    rw [hE]

open Classical in
/-- **C24** Likewise for producers: the cells from which fluid gets to the cells in which the producer has a negative value. -/
theorem C24_any_production {g : ConnectivityGraph} {n : Nat} {cs : List (Nat × Nat)} (hg : ValidConnectivity g n cs)
    {calls : List (Call R)} {np : Nat} {phi : Nat → Nat → R} (hf : FluxGiven g calls np phi)
    (hm : CellsBelow ((lastInflow calls).getD []) n) {starts : List CellSet} {sol : Solution R}
    (hr : ProductionReturns g calls starts (.ok sol)) {i : CellSetID} (hi : ∃ s ∈ starts, s.id = i) :
    FieldsOn (fun v => ∃ p, OutflowAt ((lastInflow calls).getD []) i p ∧ Leads cs (fun c => phaseSum (phi c) np) v p) sol i := by
  obtain ⟨N, hN⟩ := hr
  have hc : Complete g calls := by
    by_contra hc
    have := hN N le_rfl
    rw [(C34_missing g calls hc noFailure N starts).2] at this
    cases this
  obtain ⟨pv, f, h1, h2, h3, h4⟩ := complete_outcome hc
  obtain ⟨f', e', hf⟩ := hf
  rw [h2] at e'; cases e'
  rw [hg.count] at hf
  have hgr := graphs_eq hg hf
  have hD := directed_range hg.range fun c => phaseSum (phi c) np
  obtain ⟨hG, hGr⟩ := graphsOf_good hg.int hD
  have hl : pv.length = n := by rw [lastPoreVolume_length h1, hg.cells]
  have ho := hN (max N (n + numEdges n (graphsOf n (directed cs fun c => phaseSum (phi c) np)).2.startPointers)) (le_max_left ..)
  rw [productionOutcome_eq, h1, h2] at ho
  simp only [Option.getD_some] at ho
  rw [outcome_complete h3 h4, check_production, hgr] at ho
  split at ho
  swap
  · cases ho
  rw [Res.ok_bind, Res.ok_bind, splitInflow_eq] at ho
  have := computeSolution_fields hg.int hGr hG hl (negatives_range hm) (le_max_right ..) ho hi
  refine ⟨this.same, this.order, fun k => (this.cells k).trans ?_, this.positive⟩
  refine exists_congr fun v => and_congr_right fun _ => exists_congr fun p => and_congr ?_ ?_
  · constructor
    · rintro ⟨x, hx, rfl, h⟩
      obtain ⟨s, hs, e, he, h6, rfl⟩ := (negatives_mem _ x).mp hx
      exact ⟨s, hs, rfl, e, he, h, h6⟩
    · rintro ⟨s, hs, rfl, e, he, h, h6⟩
      exact ⟨(s.1, e.1, Arith.neg e.2), (negatives_mem _ _).mpr ⟨s, hs, e, he, h6, rfl⟩, rfl, h⟩
  · have hE : HasEdge n (graphsOf n (directed cs fun c => phaseSum (phi c) np)).2.startPointers
        (graphsOf n (directed cs fun c => phaseSum (phi c) np)).2.neighbourhood
          = Function.swap (Sends cs fun c => phaseSum (phi c) np) := by
      funext u v
      exact propext ((graphsOf_edges hg.int hD u v).2.trans mem_directed_iff)
    unfold Reachable Leads
    rw [hE]
    exact Relation.reflTransGen_swap

end

/-! ### A case with a cycle, computed with `double`s -/

def supGraph : ConnectivityGraph := ⟨4, [0, 1, 1, 2, 2, 1, 3, 0]⟩

def supConns : List (Nat × Nat) := [(0, 1), (1, 2), (2, 1), (3, 0)]

def supCalls : List (Call Double) :=
  [.assignPoreVolume [Arith.lit 1, Arith.lit 2, Arith.lit 2, Arith.lit 1],
   .assignConnectionFlux ⟨4, 1, [Arith.lit 3, Arith.lit 4, Arith.lit 1, Arith.lit 0]⟩,
   .assignInflowFlux [(⟨[73]⟩, [(0, Arith.lit 3)]), (⟨[80]⟩, [(2, Arith.lit (-3))])]]

def supPhi (c : Nat) (_ : Nat) : Double := [Arith.lit 3, Arith.lit 4, Arith.lit 1, Arith.lit 0].getD c Arith.zero

theorem sup_connectivity : ValidConnectivity supGraph 4 supConns where
  cells := rfl
  count := rfl
  connection := by
    intro i hi
    have hi : i < 4 := hi
    interval_cases i <;> rfl
  range := by decide
  int := by decide

theorem sup_flux : FluxGiven supGraph supCalls 1 supPhi := by
  refine ⟨_, rfl, rfl, rfl, ?_⟩
  intro c hc p hp
  have hp : p = 0 := by omega
  subst hp
  have hc : c < 4 := hc
  interval_cases c <;> rfl

theorem sup_cells : CellsBelow ((lastInflow supCalls).getD []) 4 := by
  intro set hset e he
  simp only [supCalls, lastInflow, lastSome, List.reverse_cons, List.reverse_nil, List.nil_append, List.cons_append,
    List.findSome?_cons, Option.getD_some, List.mem_cons, List.not_mem_nil, or_false] at hset
  rcases hset with rfl | rfl
  · simp only [List.mem_singleton] at he; subst he; decide
  · simp only [List.mem_singleton] at he; subst he; decide

/-- The hypotheses of `C24_any_injection` and `C24_any_production` hold for a computation with `double`s of a flow with a
    cycle, in which one cell is not reached. -/
example : ∃ S T, InjectionReturns supGraph supCalls [⟨⟨[73]⟩, [0]⟩] (.ok S) ∧
    ProductionReturns supGraph supCalls [⟨⟨[80]⟩, [2]⟩] (.ok T) ∧
    FieldsOn (fun v => ∃ p, InflowAt ((lastInflow supCalls).getD []) ⟨[73]⟩ p ∧
      Leads supConns (fun c => phaseSum (supPhi c) 1) p v) S ⟨[73]⟩ ∧
    FieldsOn (fun v => ∃ p, OutflowAt ((lastInflow supCalls).getD []) ⟨[80]⟩ p ∧
      Leads supConns (fun c => phaseSum (supPhi c) 1) v p) T ⟨[80]⟩ := by
  have key : ∀ r : Res (Solution Double), (match r with | .ok _ => true | _ => false) = true → ∃ S, r = .ok S := by
    intro r h
    cases r with
    | ok S => exact ⟨S, rfl⟩
    | throw e => cases h
    | ub e => cases h
    | diverge => cases h
  obtain ⟨S, h1⟩ := key (injectionOutcome supGraph supCalls noFailure 100 [⟨⟨[73]⟩, [0]⟩]) (by decide +kernel)
  obtain ⟨T, h2⟩ := key (productionOutcome supGraph supCalls noFailure 100 [⟨⟨[80]⟩, [2]⟩]) (by decide +kernel)
  have h1 := (Fuel.injection_returns.mpr ⟨100, h1, by simp⟩).1
  have h2 := (Fuel.production_returns.mpr ⟨100, h2, by simp⟩).1
  exact ⟨S, T, h1, h2, C24_any_injection sup_connectivity sup_flux sup_cells h1 ⟨_, List.mem_singleton.mpr rfl, rfl⟩,
    C24_any_production sup_connectivity sup_flux sup_cells h2 ⟨_, List.mem_singleton.mpr rfl, rfl⟩⟩

end Verif.Props
