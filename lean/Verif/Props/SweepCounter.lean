/-
C60: the counters that the solver keeps as `int`s.
-/
import Verif.Proofs.SweepAcyclic
import Verif.Proofs.SweepOverflow
import Verif.Proofs.CountedEnds
import Verif.Props.ToolboxProblem

namespace Verif.Props
open Verif.Spec Verif.Toolbox Verif.Solver Verif.Counter

section
variable {R : Type} [Arith R]

/-- Any history, arithmetic, allocation failures and number of steps: a call to diagnostics that
    keeps the counters leaves the toolbox as one without counters does, and ends in the same way; then `INT_MAX` sweeps are
    enough.  Or else `INT_MAX` sweeps are not enough for some set of cells, and a counter overflows. -/
theorem C60_same_or_overflow (g : ConnectivityGraph) (calls : List (Call R)) (al : Nat → Alloc) (fuel : Nat)
    (starts : List CellSet) :
    ((injDiagWith (counted fuel) (toolboxAfter g calls) al fuel starts).1
        = ((toolboxAfter g calls).injDiag al fuel starts).1 ∧
      ((injectionCounted g calls al fuel starts = injectionOutcome g calls al fuel starts ∧
          (INT_MAX ≤ fuel → injectionLimited g calls al fuel INT_MAX starts = injectionOutcome g calls al fuel starts)) ∨
        (INT_MAX < fuel ∧ injectionLimited g calls al fuel INT_MAX starts = .diverge ∧
          injectionCounted g calls al fuel starts = .ub .overflow))) ∧
    ((prodDiagWith (counted fuel) (toolboxAfter g calls) al fuel starts).1
        = ((toolboxAfter g calls).prodDiag al fuel starts).1 ∧
      ((productionCounted g calls al fuel starts = productionOutcome g calls al fuel starts ∧
          (INT_MAX ≤ fuel → productionLimited g calls al fuel INT_MAX starts = productionOutcome g calls al fuel starts)) ∨
        (INT_MAX < fuel ∧ productionLimited g calls al fuel INT_MAX starts = .diverge ∧
          productionCounted g calls al fuel starts = .ub .overflow))) := by
  have hm : INT_MAX < fuel → min fuel INT_MAX = INT_MAX := fun h => by omega
  constructor
  · obtain ⟨h1, h2⟩ := injDiag_over (solve_over fuel) (toolboxAfter g calls) al fuel starts
    rw [injDiag_uncounted] at h1 h2
    refine ⟨h1, ?_⟩
    rcases h2 with ⟨h2, h3⟩ | ⟨hl, h2, h3⟩
    · refine Or.inl ⟨h3.trans h2.symm, fun hl => ?_⟩
      rw [Nat.min_eq_right hl] at h2; exact h2.symm
    · rw [hm hl] at h2; exact Or.inr ⟨hl, h2, h3⟩
  · obtain ⟨h1, h2⟩ := prodDiag_over (solve_over fuel) (toolboxAfter g calls) al fuel starts
    rw [prodDiag_uncounted] at h1 h2
    refine ⟨h1, ?_⟩
    rcases h2 with ⟨h2, h3⟩ | ⟨hl, h2, h3⟩
    · refine Or.inl ⟨h3.trans h2.symm, fun hl => ?_⟩
      rw [Nat.min_eq_right hl] at h2; exact h2.symm
    · rw [hm hl] at h2; exact Or.inr ⟨hl, h2, h3⟩

/-- If no set of cells takes more than `INT_MAX` sweeps, the counters do not overflow.
    Partial: that the number of sweeps is bounded in this way is false in general
    (`C60_overflows`). -/
theorem C60_no_overflow_partial (g : ConnectivityGraph) (calls : List (Call R)) (al : Nat → Alloc) (fuel : Nat)
    (starts : List CellSet) :
    (injectionLimited g calls al fuel INT_MAX starts ≠ .diverge →
      injectionCounted g calls al fuel starts = injectionOutcome g calls al fuel starts) ∧
    (productionLimited g calls al fuel INT_MAX starts ≠ .diverge →
      productionCounted g calls al fuel starts = productionOutcome g calls al fuel starts) := by
  obtain ⟨⟨_, h1⟩, _, h2⟩ := C60_same_or_overflow g calls al fuel starts
  constructor
  · intro h
    rcases h1 with ⟨h1, _⟩ | ⟨_, h1, _⟩
    · exact h1
    · exact absurd h1 h
  · intro h
    rcases h2 with ⟨h2, _⟩ | ⟨_, h2, _⟩
    · exact h2
    · exact absurd h2 h

open Classical in
/-- Valid input, any arithmetic: if the fluxes carry no fluid around a cycle of cells, the counters do not overflow and change
    nothing. -/
theorem C60_acyclic_partial {g : ConnectivityGraph} {n : Nat} {cs : List (Nat × Nat)}
    (hg : ValidConnectivity g n cs) {calls : List (Call R)} {np : Nat} {phi : Nat → Nat → R}
    (hf : FluxGiven g calls np phi) (hm : CellsBelow ((lastInflow calls).getD []) n)
    (hacy : NoCycle cs fun c => phaseSum (phi c) np) (fuel : Nat) (starts : List CellSet) :
    injectionCounted g calls noFailure fuel starts = injectionOutcome g calls noFailure fuel starts ∧
    productionCounted g calls noFailure fuel starts = productionOutcome g calls noFailure fuel starts := by
  have hr := directed_range hg.range fun c => phaseSum (phi c) np
  obtain ⟨hG, hGr⟩ := graphsOf_good hg.int hr
  obtain ⟨hA, hAr⟩ := graphsOf_acyclic hg.int hr (fun u v w h => mem_directed h) hacy
  obtain ⟨f, e, hf⟩ := hf
  rw [hg.count] at hf
  have hgr := graphs_eq hg hf
  unfold injectionCounted productionCounted injectionOutcome productionOutcome
  rw [← injDiag_uncounted, ← prodDiag_uncounted, injectionWith_eq, injectionWith_eq, productionWith_eq, productionWith_eq, e]
  unfold outcomeWith
  simp only [Option.getD_some, hgr, Res.ok_bind, Bool.false_eq_true, if_false, if_true]
  cases hpv : lastPoreVolume g calls with
  | none => exact ⟨rfl, rfl⟩
  | some pv =>
    have hl : pv.length = n := by rw [lastPoreVolume_length hpv, hg.cells]
    simp only [Option.getD_some, splitInflow_eq]
    rw [computeSolution_single hg.int hG hA hl (positives_range hm),
      computeSolution_single hg.int hGr hAr hl (negatives_range hm)]
    exact ⟨rfl, rfl⟩

omit [Arith R] in
/-- How a call with counters ends, given that the number of steps does not matter for the solver limited to `INT_MAX`
    sweeps, and that the call ends. -/
theorem counted_result {cnt lim out : Nat → Res (Solution R)} {N : Nat}
    (hC : ∀ fuel, (cnt fuel = out fuel ∧ (INT_MAX ≤ fuel → lim fuel = out fuel)) ∨ (lim fuel = .diverge ∧ cnt fuel = .ub .overflow))
    (hS : ∀ fuel, N ≤ fuel → lim fuel = lim N) (hE : ∀ fuel, N ≤ fuel → (cnt fuel).Ends)
    (hO : ∀ fuel, N ≤ fuel → (∃ sol, out fuel = .ok sol) ∨ out fuel = .throw .logicError ∨ out fuel = .throw .runtimeError ∨
      out fuel = .ub .assertFail ∨ out fuel = .diverge) :
    ∃ r, (∃ N, ∀ fuel, N ≤ fuel → cnt fuel = r) ∧
      ((∃ sol, r = .ok sol) ∨ r = .throw .logicError ∨ r = .throw .runtimeError ∨ r = .ub .assertFail ∨ r = .ub .overflow) := by
  by_cases hd : lim N = .diverge
  · refine ⟨.ub .overflow, ⟨max N INT_MAX, fun fuel hf => ?_⟩, by simp⟩
    rcases hC fuel with ⟨h1, h2⟩ | ⟨_, h⟩
    · refine (hE fuel (by omega) ?_).elim
      rw [h1, ← h2 (by omega), hS fuel (by omega), hd]
    · exact h
  · have key : ∀ fuel, max N INT_MAX ≤ fuel → cnt fuel = lim N ∧ lim N = out fuel := by
      intro fuel hf
      rcases hC fuel with ⟨h1, h2⟩ | ⟨h, _⟩
      · have := h2 (by omega)
        rw [hS fuel (by omega)] at this
        exact ⟨by rw [h1, this], this⟩
      · rw [hS fuel (by omega)] at h; exact (hd h).elim
    refine ⟨lim N, ⟨max N INT_MAX, fun fuel hf => (key fuel hf).1⟩, ?_⟩
    have h := hO (max N INT_MAX) (le_max_left _ _)
    rw [← (key _ (le_refl _)).2] at h
    rcases h with h | h | h | h | h
    · exact Or.inl h
    · exact Or.inr (Or.inl h)
    · exact Or.inr (Or.inr (Or.inl h))
    · exact Or.inr (Or.inr (Or.inr (Or.inl h)))
    · exact (hd h).elim

open Classical in
/-- Valid input, any arithmetic, cycles or not: with counters a call to diagnostics ends.  It returns a solution, throws a
    documented exception, stops at an assertion, or a counter overflows. -/
theorem C60_always_ends {g : ConnectivityGraph} {n : Nat} {cs : List (Nat × Nat)}
    (hg : ValidConnectivity g n cs) {calls : List (Call R)} {np : Nat} {phi : Nat → Nat → R}
    (hpv : lastPoreVolume g calls ≠ none) (hf : FluxGiven g calls np phi)
    (hm : CellsBelow ((lastInflow calls).getD []) n) (starts : List CellSet) :
    (∃ r, (∃ N, ∀ fuel, N ≤ fuel → injectionCounted g calls noFailure fuel starts = r) ∧
      ((∃ sol, r = .ok sol) ∨ r = .throw .logicError ∨ r = .throw .runtimeError ∨ r = .ub .assertFail ∨ r = .ub .overflow)) ∧
    ∃ r, (∃ N, ∀ fuel, N ≤ fuel → productionCounted g calls noFailure fuel starts = r) ∧
      ((∃ sol, r = .ok sol) ∨ r = .throw .logicError ∨ r = .throw .runtimeError ∨ r = .ub .assertFail ∨ r = .ub .overflow) := by
  obtain ⟨N0, hN0⟩ := C40_no_undefined_behaviour hg hpv hf hm starts
  obtain ⟨f, e, hf⟩ := hf
  rw [hg.count] at hf
  have hgr := graphs_eq hg hf
  obtain ⟨hG, hGr⟩ := graphsOf_good hg.int (directed_range hg.range fun c => phaseSum (phi c) np)
  cases h1 : lastPoreVolume g calls with
  | none => exact (hpv h1).elim
  | some pv =>
    have hl : pv.length = n := by rw [lastPoreVolume_length h1, hg.cells]
    obtain ⟨N1, hN1⟩ := steady_computeSolutionWith hg.int hG hGr hl (positives_range hm) starts
    obtain ⟨N2, hN2⟩ := steady_computeSolutionWith hg.int hGr hG hl (negatives_range hm) starts
    obtain ⟨M1, hM1⟩ := ends_computeSolutionWith hg.int hG hGr hl (positives_range hm) starts
    obtain ⟨M2, hM2⟩ := ends_computeSolutionWith hg.int hGr hG hl (negatives_range hm) starts
    obtain ⟨N, hN⟩ : ∃ N, N = N0 + N1 + N2 + M1 + M2 + INT_MAX + 1 := ⟨_, rfl⟩
    have hi : ∀ (slv : SolveFn R) fuel, (injDiagWith slv (toolboxAfter g calls) noFailure fuel starts).2
        = if pv.isEmpty || f.numConnections == 0 then .throw .logicError else
          if InjectionAccepts ((lastInflow calls).getD []) starts then
            computeSolutionWith slv (graphsOf n (directed cs fun c => phaseSum (phi c) np)).1
              (graphsOf n (directed cs fun c => phaseSum (phi c) np)).2 pv
              (gather (positives (entries ((lastInflow calls).getD [])))).only
              (gather (positives (entries ((lastInflow calls).getD [])))).byId noFailure fuel starts
          else .throw .runtimeError := by
      intro slv fuel
      rw [injectionWith_eq, h1, e]
      unfold outcomeWith
      simp only [Option.getD_some, hgr, Res.ok_bind, Bool.false_eq_true, if_false]
      rw [check_injection, splitInflow_eq]
      split
      · rfl
      · split <;> rfl
    have hp : ∀ (slv : SolveFn R) fuel, (prodDiagWith slv (toolboxAfter g calls) noFailure fuel starts).2
        = if pv.isEmpty || f.numConnections == 0 then .throw .logicError else
          if ProductionAccepts ((lastInflow calls).getD []) starts then
            computeSolutionWith slv (graphsOf n (directed cs fun c => phaseSum (phi c) np)).2
              (graphsOf n (directed cs fun c => phaseSum (phi c) np)).1 pv
              (gather (negatives (entries ((lastInflow calls).getD [])))).only
              (gather (negatives (entries ((lastInflow calls).getD [])))).byId noFailure fuel starts
          else .throw .runtimeError := by
      intro slv fuel
      rw [productionWith_eq, h1, e]
      unfold outcomeWith
      simp only [Option.getD_some, hgr, Res.ok_bind, if_true]
      rw [check_production, splitInflow_eq]
      split
      · rfl
      · split <;> rfl
    constructor
    · refine counted_result (N := N) (lim := fun fuel => injectionLimited g calls noFailure fuel INT_MAX starts)
        (out := fun fuel => injectionOutcome g calls noFailure fuel starts) (fun fuel => ?_) (fun fuel hf => ?_) (fun fuel hf => ?_)
        fun fuel hf => hN0 fuel (by omega) _ (Or.inl rfl)
      · rcases (C60_same_or_overflow g calls noFailure fuel starts).1.2 with h | ⟨_, h⟩
        · exact Or.inl h
        · exact Or.inr h
      · unfold injectionLimited
        rw [hi, hi, hN1 fuel (by omega), hN1 N (by omega)]
      · unfold injectionCounted
        rw [hi]
        split
        · intro h; cases h
        · split
          · exact hM1 fuel (by omega) _ (ends_solveCounted (by omega))
          · intro h; cases h
    · refine counted_result (N := N) (lim := fun fuel => productionLimited g calls noFailure fuel INT_MAX starts)
        (out := fun fuel => productionOutcome g calls noFailure fuel starts) (fun fuel => ?_) (fun fuel hf => ?_) (fun fuel hf => ?_)
        fun fuel hf => hN0 fuel (by omega) _ (Or.inr rfl)
      · rcases (C60_same_or_overflow g calls noFailure fuel starts).2.2 with h | ⟨_, h⟩
        · exact Or.inl h
        · exact Or.inr h
      · unfold productionLimited
        rw [hp, hp, hN2 fuel (by omega), hN2 N (by omega)]
      · unfold productionCounted
        rw [hp]
        split
        · intro h; cases h
        · split
          · exact hM2 fuel (by omega) _ (ends_solveCounted (by omega))
          · intro h; cases h

/-- `exProblem` has no cycle. -/
theorem exProblem_noCycle :
    NoCycle exProblem.conns fun c => phaseSum (fun p => (X.fin (exProblem.phi c p) : X ℚ)) exProblem.nphase := by
  have hlt : ∀ u v, FlowsTo exProblem.conns
      (fun c => phaseSum (fun p => (X.fin (exProblem.phi c p) : X ℚ)) exProblem.nphase) u v → u < v := by
    have hs : ∀ c, phaseSum (fun p => (X.fin (exProblem.phi c p) : X ℚ)) exProblem.nphase
        = X.fin (if c = 1 then -3 else 3) := by
      intro c
      unfold phaseSum
      simp only [exProblem, List.range_succ, List.range_zero, List.nil_append, List.map_cons, List.map_nil,
        List.singleton_append, List.foldl_cons, List.foldl_nil, X_zero, X_add]
      split <;> norm_num
    rintro u v ⟨c, ⟨h1, h2⟩ | ⟨h1, h2⟩⟩
    · simp only [hs, X_zero, X_lt] at h2
      match c, h1 with
      | 0, h1 => cases h1; decide
      | 1, _ => norm_num at h2
      | 2, h1 => cases h1; decide
    · simp only [hs, X_zero, X_lt] at h2
      match c, h1 with
      | 0, _ => norm_num at h2
      | 1, h1 => cases h1; decide
      | 2, _ => norm_num at h2
  intro v hv
  have key : ∀ u v, Relation.TransGen (FlowsTo exProblem.conns
      (fun c => phaseSum (fun p => (X.fin (exProblem.phi c p) : X ℚ)) exProblem.nphase)) u v → u < v := by
    intro u v h
    induction h with
    | single h => exact hlt _ _ h
    | tail _ h ih => exact lt_trans ih (hlt _ _ h)
  exact lt_irrefl v (key v v hv)

/-- The example meets the hypotheses of `C60_acyclic_partial` and `C60_no_overflow_partial`. -/
example : ∃ (g : ConnectivityGraph) (calls : List (Call (X ℚ))) (sol : Solution (X ℚ)) (N : Nat), exProblem.GivenTo g calls ∧
    ∀ fuel, N ≤ fuel → injectionCounted g calls noFailure fuel exInjectors = .ok sol ∧
      injectionLimited g calls noFailure fuel INT_MAX exInjectors ≠ .diverge := by
  obtain ⟨g, calls, h⟩ := exProblem_given
  obtain ⟨sol, N, hN⟩ := (C40_valid_problem exProblem_valid h exInjectors).1 exInjectors_accepted
  have hc := GivenTo.connectivity exProblem_valid h
  have hcell : CellsBelow ((lastInflow calls).getD []) exProblem.n := by
    rw [GivenTo.inflowMap_eq h]
    simp [CellsBelow, Problem.inflowMap, exProblem, valuesOf]
  refine ⟨g, calls, sol, max N INT_MAX, h, fun fuel hfu => ?_⟩
  have e := (C60_acyclic_partial hc h.flux hcell exProblem_noCycle fuel exInjectors).1
  rw [hN fuel (by omega)] at e
  refine ⟨e, fun hd => ?_⟩
  rcases (C60_same_or_overflow g calls noFailure fuel exInjectors).1.2 with ⟨_, h1⟩ | ⟨_, _, h1⟩
  · have := h1 (by omega)
    rw [hd, hN fuel (by omega)] at this
    cases this
  · rw [e] at h1; cases h1

end

/-- The example meets the hypotheses of `C60_always_ends`. -/
example : ∃ (g : ConnectivityGraph) (calls : List (Call (X ℚ))) (sol : Solution (X ℚ)), exProblem.GivenTo g calls ∧
    (∃ N, ∀ fuel, N ≤ fuel → injectionCounted g calls noFailure fuel exInjectors = .ok sol) := by
  obtain ⟨g, calls, h⟩ := exProblem_given
  obtain ⟨sol, N, hN⟩ := (C40_valid_problem exProblem_valid h exInjectors).1 exInjectors_accepted
  have hc := GivenTo.connectivity exProblem_valid h
  have hcell : CellsBelow ((lastInflow calls).getD []) exProblem.n := by
    rw [GivenTo.inflowMap_eq h]
    simp [CellsBelow, Problem.inflowMap, exProblem, valuesOf]
  obtain ⟨⟨r, ⟨M, hM⟩, hr⟩, _⟩ := C60_always_ends hc (by rw [h.pv]; nofun) h.flux hcell exInjectors
  have e := (C60_acyclic_partial hc h.flux hcell exProblem_noCycle (max M N) exInjectors).1
  rw [hM _ (le_max_left _ _), hN _ (le_max_right _ _)] at e
  exact ⟨g, calls, sol, h, M, fun fuel hf => by rw [hM fuel hf, e]⟩

/-! ### A problem with too many sweeps -/

/-- Two cells; 1 flows from cell 0 to cell 1 and a little less flows back. -/
def slowProblem : Problem ℚ where
  n := 2
  conns := [(0, 1), (1, 0)]
  nphase := 1
  phi := fun c _ => if c = 0 then 1 else 1 - eps
  pv := fun _ => 1
  wells := [⟨⟨[73]⟩, [0], fun _ => eps⟩, ⟨⟨[80]⟩, [1], fun _ => - eps⟩]

theorem slowProblem_valid : slowProblem.Valid := by
  refine ⟨by unfold INT_MAX; decide, by decide, by decide, by decide, fun _ _ => zero_le_one, ?_, by decide, by decide⟩
  decide

theorem slowProblem_slow : IsSlow slowProblem.forward := by
  have hf : ∀ u v, slowProblem.forward.w u v = slowProblem.carried 0 u v + slowProblem.carried 1 u v := by
    intro u v
    show ∑ c ∈ Finset.range 2, slowProblem.carried c u v = _
    rw [Finset.sum_range_succ, Finset.sum_range_one]
  have n0 : slowProblem.net 0 = 1 := by simp [Problem.net, slowProblem]
  have n1 : slowProblem.net 1 = 1 - eps := by simp [Problem.net, slowProblem]
  have c0 : slowProblem.conns[0]? = some (0, 1) := rfl
  have c1 : slowProblem.conns[1]? = some (1, 0) := rfl
  constructor
  · rfl
  · rw [hf]; unfold Problem.carried; rw [n0, n1, c0, c1]; norm_num [eps]
  · rw [hf]; unfold Problem.carried; rw [n0, n1, c0, c1]; norm_num [eps]
  · rw [hf]; unfold Problem.carried; rw [n0, n1, c0, c1]; norm_num [eps]
  · rw [hf]; unfold Problem.carried; rw [n0, n1, c0, c1]; norm_num [eps]
  · rfl
  · rfl
  · simp [Problem.forward, Problem.source, Problem.wellAt, slowProblem]; norm_num [eps]
  · simp [Problem.forward, Problem.source, Problem.wellAt, slowProblem]; norm_num [eps]

/-- Counters can overflow: a valid problem for which injection diagnostics without counters return
    a solution, but the call overflows an `int` counter (exact arithmetic). -/
theorem C60_overflows : ∃ (P : Problem ℚ) (g : ConnectivityGraph) (calls : List (Call (X ℚ))), P.Valid ∧ P.GivenTo g calls ∧
    (∃ sol, InjectionReturns g calls [] (.ok sol)) ∧
    ∃ N, ∀ fuel, N ≤ fuel → injectionCounted g calls noFailure fuel [] = .ub .overflow := by
  obtain ⟨g, calls, h⟩ := exists_given slowProblem_valid (by unfold SIZE_MOD; decide)
  have hP := slowProblem_valid
  have ha : InjectionAccepts slowProblem.inflowMap [] := by intro s hs; cases hs
  obtain ⟨sol, N, hN⟩ := (C40_valid_problem hP h []).1 ha
  refine ⟨slowProblem, g, calls, hP, h, ⟨sol, N, hN⟩, ?_⟩
  obtain ⟨f, hf, hflux⟩ := h.flux
  have hcnt := h.graph.count
  obtain ⟨hg1, hg2⟩ := graphsOf_flow slowProblem hP.int hP.range
  have hs := pos_side hP
  obtain ⟨d, st, hcr, hsol, _⟩ := create_exact (forward_valid hP) hg1 hg2 (ps := srcCells slowProblem.n slowProblem.source)
    (fun p hp => List.mem_range.mp (List.mem_filter.mp hp).1)
    (fun v hv hm => by
      refine le_antisymm (not_lt.mp fun hp => hm ?_) (hs.src_nonneg v)
      exact List.mem_filter.mpr ⟨List.mem_range.mpr hv, decide_eq_true hp⟩)
  obtain ⟨M, hM⟩ := slow_diverges slowProblem_slow (forward_valid hP) hsol
  -- no more than `INT_MAX` sweeps are not enough
  have hlim : ∀ fuel, M ≤ fuel → injectionLimited g calls noFailure fuel INT_MAX [] = .diverge := by
    intro fuel hfu
    unfold injectionLimited
    rw [injectionWith_eq, GivenTo.inflowMap_eq h, h.pv, hf]
    simp only [Option.getD_some]
    unfold outcomeWith
    rw [check_injection, if_pos ha, if_neg]
    · rw [hcnt] at hflux
      simp only [Res.bind]
      rw [graphs_eq (GivenTo.connectivity hP h) hflux, directed_lift, splitInflow_eq, positives_inflowMap]
      unfold computeSolutionWith
      rw [hs.only_eq]
      simp only [Res.bind_eq, Bool.false_eq_true, if_false]
      have hcr' := hcr
      unfold Problem.forward at hcr'
      simp only at hcr'
      rw [hcr']
      simp only [Res.ok_bind]
      have := hM fuel hfu st
      show Res.bind (solveGlobalWith (uncounted INT_MAX) d Alloc.good fuel st).2 _ = _
      rw [this]
      rfl
    · rw [hflux.conns, hcnt]
      simp [arr, slowProblem]
  refine ⟨max (max N M) INT_MAX, fun fuel hfu => ?_⟩
  obtain ⟨⟨_, h1⟩, _⟩ := C60_same_or_overflow g calls noFailure fuel []
  rcases h1 with ⟨_, h1⟩ | ⟨_, _, h1⟩
  · have := h1 (by omega)
    rw [hlim fuel (by omega), hN fuel (by omega)] at this
    cases this
  · exact h1

end Verif.Props
