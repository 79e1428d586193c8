/-
C64: for flow without cycles, results computed with `double`s are accurate.
-/
import Verif.Props.DoubleTime
import Verif.Proofs.AccuracyProblem

namespace Verif.Props
open Verif.Spec Verif.Toolbox Verif.Solver Verif.Rounding

theorem stored_connectivity {P : Problem ℚ} (hP : P.Valid) {g : ConnectivityGraph} {calls : List (Call Double)}
    (h : P.StoredIn g calls) : ValidConnectivity g P.n P.conns :=
  { h.graph with int := hP.int, range := hP.range }

theorem stored_complete {P : Problem ℚ} (hP : P.Valid) {g : ConnectivityGraph} {calls : List (Call Double)}
    (h : P.StoredIn g calls) : Complete g calls := by
  refine ⟨?_, ?_, ?_, ?_⟩
  · rw [h.graph.cells]; have := hP.pos; omega
  · rw [h.graph.count]; intro e; exact hP.some_connection (List.length_eq_zero_iff.mp e)
  · obtain ⟨pv, e, _⟩ := h.pv; rw [e]; simp
  · obtain ⟨_, _, ⟨f, e, _⟩, _⟩ := h.flux; rw [e]; simp

/-- With complete data and accepted start sets, the outcome is that of the computation. -/
theorem outcomes_accepted {R : Type} [Arith R] {g : ConnectivityGraph} {n : Nat} {cs : List (Nat × Nat)} (hg : ValidConnectivity g n cs)
    {calls : List (Call R)} (hc : Complete g calls) {np : Nat} {phi : Nat → Nat → R} {pv : List R}
    (hpv : lastPoreVolume g calls = some pv) (hf : FluxGiven g calls np phi) (fuel : Nat) (starts : List CellSet) :
    (InjectionAccepts ((lastInflow calls).getD []) starts → injectionOutcome g calls noFailure fuel starts =
      computeSolution (graphsOf n (directed cs fun c => phaseSum (phi c) np)).1
        (graphsOf n (directed cs fun c => phaseSum (phi c) np)).2 pv
        (gather (positives (entries ((lastInflow calls).getD [])))).only
        (gather (positives (entries ((lastInflow calls).getD [])))).byId noFailure fuel starts) ∧
    (ProductionAccepts ((lastInflow calls).getD []) starts → productionOutcome g calls noFailure fuel starts =
      computeSolution (graphsOf n (swapEnds (directed cs fun c => phaseSum (phi c) np))).1
        (graphsOf n (swapEnds (directed cs fun c => phaseSum (phi c) np))).2 pv
        (gather (negatives (entries ((lastInflow calls).getD [])))).only
        (gather (negatives (entries ((lastInflow calls).getD [])))).byId noFailure fuel starts) := by
  obtain ⟨pv', f, h1, h2, h3, h4⟩ := complete_outcome hc
  rw [hpv] at h1; cases h1
  obtain ⟨f', e', hf⟩ := hf
  rw [h2] at e'; cases e'
  rw [hg.count] at hf
  have hgr := graphs_eq hg hf
  rw [injectionOutcome_eq, productionOutcome_eq, hpv, h2]
  simp only [Option.getD_some]
  rw [outcome_complete h3 h4, outcome_complete h3 h4, check_injection, check_production, hgr, graphsOf_swap]
  constructor
  · intro ha
    rw [if_pos ha, Res.ok_bind, Res.ok_bind, splitInflow_eq]; simp
  · intro ha
    rw [if_pos ha, Res.ok_bind, Res.ok_bind, splitInflow_eq]; simp

/-- **C64** Injection diagnostics of flow without cycles: where the exact computation returns results that are not tiny,
    the computation with `double`s returns, and its results are accurate. -/
theorem C64_injection {P : Problem ℚ} (hP : P.Valid) {M : Nat} (hO : P.OfOrdinarySize M) {layer : Nat → Nat}
    (hL : P.forward.Layered layer) (hsmall : ∀ v < P.n, (layer v + 2) ^ 2 * (4 * M + 6) ≤ 2 ^ 51)
    {g : ConnectivityGraph} {calls : List (Call Double)} (hS : P.StoredIn g calls)
    {g' : ConnectivityGraph} {calls' : List (Call (X ℚ))} (hG : P.GivenTo g' calls') {starts : List CellSet}
    {exact : Solution (X ℚ)} (he : InjectionReturns g' calls' starts (.ok exact)) (ht : NotTiny exact) :
    ∃ sol, InjectionReturns g calls starts (.ok sol) ∧ Accurate P.n M layer sol exact := by
  have hg := stored_connectivity hP hS
  obtain ⟨pv, hpv, hpvv⟩ := hS.pv
  obtain ⟨np, phi, hf, hphi⟩ := hS.flux
  have ha : InjectionAccepts P.inflowMap starts := by
    by_contra hc
    obtain ⟨N, hN⟩ := he
    obtain ⟨N', hN'⟩ := (C40_valid_problem hP hG starts).2.1 hc
    have h1 := hN (max N N') (le_max_left ..)
    rw [hN' (max N N') (le_max_right ..)] at h1
    cases h1
  obtain ⟨N, hN⟩ := accurate_of (inputs_forward hP hO hphi hpvv hS.inflow) hL hO.pv hO.bound hsmall (diag_injection hP hG he) ht
  obtain ⟨sol, h1, h2⟩ := hN N le_rfl
  refine ⟨sol, (Fuel.injection_returns.mpr ⟨N, ?_, by simp⟩).1, h2⟩
  rw [(outcomes_accepted hg (stored_complete hP hS) hpv hf N starts).1 ((accepts_val hS.inflow starts).1 ha)]
  exact h1

/-- **C64** Production diagnostics likewise. -/
theorem C64_production {P : Problem ℚ} (hP : P.Valid) {M : Nat} (hO : P.OfOrdinarySize M) {layer : Nat → Nat}
    (hL : P.backward.Layered layer) (hsmall : ∀ v < P.n, (layer v + 2) ^ 2 * (4 * M + 6) ≤ 2 ^ 51)
    {g : ConnectivityGraph} {calls : List (Call Double)} (hS : P.StoredIn g calls)
    {g' : ConnectivityGraph} {calls' : List (Call (X ℚ))} (hG : P.GivenTo g' calls') {starts : List CellSet}
    {exact : Solution (X ℚ)} (he : ProductionReturns g' calls' starts (.ok exact)) (ht : NotTiny exact) :
    ∃ sol, ProductionReturns g calls starts (.ok sol) ∧ Accurate P.n M layer sol exact := by
  have hg := stored_connectivity hP hS
  obtain ⟨pv, hpv, hpvv⟩ := hS.pv
  obtain ⟨np, phi, hf, hphi⟩ := hS.flux
  have ha : ProductionAccepts P.inflowMap starts := by
    by_contra hc
    obtain ⟨N, hN⟩ := he
    obtain ⟨N', hN'⟩ := (C40_valid_problem hP hG starts).2.2.2 hc
    have h1 := hN (max N N') (le_max_left ..)
    rw [hN' (max N N') (le_max_right ..)] at h1
    cases h1
  obtain ⟨N, hN⟩ := accurate_of (inputs_backward hP hO hphi hpvv hS.inflow) hL hO.pv hO.bound hsmall (diag_production hP hG he) ht
  obtain ⟨sol, h1, h2⟩ := hN N le_rfl
  refine ⟨sol, (Fuel.production_returns.mpr ⟨N, ?_, by simp⟩).1, h2⟩
  rw [(outcomes_accepted hg (stored_complete hP hS) hpv hf N starts).2 ((accepts_val hS.inflow starts).2 ha)]
  exact h1

/-! ### A case

Cell 0 sends 3/10 of its water by cell 1 and the rest directly to cell 2.  Neither concentrations nor times of flight are
binary fractions, so that rounding happens. -/

def accProblem : Problem ℚ where
  n := 3
  conns := [(0, 1), (1, 2), (0, 2)]
  nphase := 1
  phi c _ := if c = 2 then 7 else 3
  pv v := if v = 0 then 1 else 2
  wells := [⟨⟨[73]⟩, [0], fun _ => 10⟩, ⟨⟨[80]⟩, [2], fun _ => -10⟩]

def accGraph : ConnectivityGraph := ⟨3, [0, 1, 1, 2, 0, 2]⟩

def accCalls : List (Call Double) :=
  [.assignPoreVolume [Arith.lit 1, Arith.lit 2, Arith.lit 2],
   .assignConnectionFlux ⟨3, 1, [Arith.lit 3, Arith.lit 3, Arith.lit 7]⟩,
   .assignInflowFlux [(⟨[73]⟩, [(0, Arith.lit 10)]), (⟨[80]⟩, [(2, Arith.lit (-10))])]]

def accExact : List (Call (X ℚ)) :=
  [.assignPoreVolume [Arith.lit 1, Arith.lit 2, Arith.lit 2],
   .assignConnectionFlux ⟨3, 1, [Arith.lit 3, Arith.lit 3, Arith.lit 7]⟩,
   .assignInflowFlux [(⟨[73]⟩, [(0, Arith.lit 10)]), (⟨[80]⟩, [(2, Arith.lit (-10))])]]

theorem accProblem_valid : accProblem.Valid where
  int := by decide
  pos := by decide
  some_connection := by decide
  range := by decide
  pv v _ := by show (0 : ℚ) ≤ if v = 0 then 1 else 2; split <;> norm_num
  wells_sorted := by unfold accProblem; simp; decide
  cells_sorted := by unfold accProblem; simp
  cells_range := by unfold accProblem; simp

theorem acc_connections : HasConnections accGraph accProblem.n accProblem.conns where
  cells := rfl
  count := rfl
  connection := by
    intro i hi
    have hi : i < 3 := hi
    interval_cases i <;> rfl

theorem acc_net (c : Nat) : accProblem.net c = if c = 2 then 7 else 3 := by
  unfold Problem.net accProblem; simp

theorem acc_stored : accProblem.StoredIn accGraph accCalls where
  graph := acc_connections
  pv := ⟨_, rfl, by decide +kernel⟩
  flux := by
    refine ⟨1, fun c _ => if c = 2 then Arith.lit 7 else Arith.lit 3, ⟨_, rfl, rfl, rfl, ?_⟩, ?_⟩
    · intro c hc p hp
      have hp : p = 0 := by omega
      subst hp
      have hc : c < 3 := hc
      interval_cases c <;> rfl
    · intro c hc
      have hc : c < 3 := hc
      rw [acc_net]
      interval_cases c <;> decide +kernel
  inflow := by decide +kernel

theorem acc_given : accProblem.GivenTo accGraph accExact where
  graph := acc_connections
  pv := by decide +kernel
  flux := by
    refine ⟨_, rfl, rfl, rfl, ?_⟩
    intro c hc p hp
    have hp : p = 0 := by have : p < 1 := hp; omega
    subst hp
    have hc : c < 3 := hc
    interval_cases c <;> refine congrArg Res.ok ?_ <;> decide +kernel
  inflow := Or.inl (by decide +kernel)

theorem acc_ordinary : accProblem.OfOrdinarySize 3 where
  flux c _ := by
    rw [acc_net]
    right
    split <;> norm_num
  well w hw v hv := by
    simp only [accProblem, List.mem_cons, List.not_mem_nil, or_false] at hw
    right
    rcases hw with rfl | rfl <;> norm_num
  pv v _ := by
    right
    unfold accProblem
    simp only
    split <;> norm_num
  degree v := (List.length_filter_le _ _).trans (by decide)
  wells v := (List.length_filter_le _ _).trans (by decide)
  bound := by norm_num

theorem acc_flux (u v : Nat) : accProblem.flux u v =
    if (u = 0 ∧ v = 1) ∨ (u = 1 ∧ v = 2) then 3 else if u = 0 ∧ v = 2 then 7 else 0 := by
  unfold Problem.flux Problem.carried
  simp only [acc_net]
  simp only [accProblem, List.length_cons, List.length_nil, Finset.sum_range_succ, Finset.sum_range_zero]
  simp only [List.getElem?_cons_zero, List.getElem?_cons_succ, Option.some.injEq, Prod.mk.injEq]
  norm_num
  simp only [@eq_comm Nat 0, @eq_comm Nat 1, @eq_comm Nat 2]
  by_cases h0 : u = 0 <;> by_cases h1 : u = 1 <;> by_cases h2 : v = 1 <;> by_cases h3 : v = 2 <;> simp_all

theorem acc_forward : accProblem.forward.Layered id where
  down u v h := by
    obtain ⟨_, _, h⟩ := h
    have h : 0 < accProblem.flux u v := h
    rw [acc_flux] at h
    split at h
    · rename_i e; simp only [id]; omega
    · split at h
      · rename_i e; simp only [id]; omega
      · exact absurd h (lt_irrefl _)
  supplied u v h := by
    have hu : u < 3 := h.1
    unfold Flow.total Flow.inflow
    simp only [Problem.forward, acc_flux]
    interval_cases u <;> simp [accProblem, Finset.sum_range_succ, Problem.source, Problem.wellAt]
    norm_num
  total v hv := by
    have hv : v < 3 := hv
    unfold Flow.total Flow.inflow
    simp only [Problem.forward, acc_flux]
    interval_cases v <;> simp [accProblem, Finset.sum_range_succ, Problem.source, Problem.wellAt] <;> norm_num
  clear v hv := by
    have hv : v < 3 := hv
    left
    unfold Flow.total Flow.inflow
    simp only [Problem.forward, acc_flux]
    interval_cases v <;> simp [accProblem, Finset.sum_range_succ, Problem.source, Problem.wellAt] <;> norm_num

theorem acc_backward : accProblem.backward.Layered fun v => 2 - v where
  down u v h := by
    obtain ⟨_, _, h⟩ := h
    have h : 0 < accProblem.flux v u := h
    rw [acc_flux] at h
    split at h
    · rename_i e; omega
    · split at h
      · rename_i e; omega
      · exact absurd h (lt_irrefl _)
  supplied u v h := by
    have hu : u < 3 := h.1
    unfold Flow.total Flow.inflow
    simp only [Problem.backward, acc_flux]
    interval_cases u <;> simp [accProblem, Finset.sum_range_succ, Problem.sink, Problem.wellAt]
    norm_num
  total v hv := by
    have hv : v < 3 := hv
    unfold Flow.total Flow.inflow
    simp only [Problem.backward, acc_flux]
    interval_cases v <;> simp [accProblem, Finset.sum_range_succ, Problem.sink, Problem.wellAt] <;> norm_num
  clear v hv := by
    have hv : v < 3 := hv
    left
    unfold Flow.total Flow.inflow
    simp only [Problem.backward, acc_flux]
    interval_cases v <;> simp [accProblem, Finset.sum_range_succ, Problem.sink, Problem.wellAt] <;> norm_num

/-- A check that no result is tiny. -/
def bigEnough : X ℚ → Bool
  | .fin t => decide (0 < t → 1 / 2 ^ 300 ≤ t)
  | _ => true

def notTiny (sol : Solution (X ℚ)) : Bool :=
  sol.tof.all bigEnough && sol.tracer.all (fun e => e.2.all fun x => bigEnough x.2) &&
    sol.tracerToF.all fun e => e.2.all fun x => bigEnough x.2

theorem notTiny_spec {sol : Solution (X ℚ)} (h : notTiny sol = true) : NotTiny sol := by
  unfold notTiny at h
  simp only [Bool.and_eq_true, List.all_eq_true] at h
  obtain ⟨⟨h1, h2⟩, h3⟩ := h
  have key : ∀ (m : OMap CellSetID (CellSetValues (X ℚ))), (∀ e ∈ m, ∀ x ∈ e.2, bigEnough x.2 = true) →
      ∀ i, ∀ e ∈ Solution.solutionValues i m, bigEnough e.2 = true := by
    intro m hm i e he
    unfold Solution.solutionValues at he
    split at he
    · cases he
    · rename_i x hx
      exact hm _ (OMap.find_some_mem hx) e he
  have big : ∀ t : ℚ, bigEnough (X.fin t) = true → 0 < t → 1 / 2 ^ 300 ≤ t := by
    intro t h
    unfold bigEnough at h
    exact of_decide_eq_true h
  refine ⟨fun t ht h0 => big t (h1 _ ht) h0, fun i e he x hx h0 => ?_, fun i e he x hx h0 => ?_⟩
  · have := key _ h2 i e he
    rw [hx] at this
    exact big x this h0
  · have := key _ h3 i e he
    rw [hx] at this
    exact big x this h0

def accInjectors : List CellSet := [CellSet.ofCells ⟨[73]⟩ [0]]

def accProducers : List CellSet := [CellSet.ofCells ⟨[80]⟩ [2]]

def okNotTiny (r : Res (Solution (X ℚ))) : Bool := match r with
  | .ok s => notTiny s
  | _ => false

theorem okNotTiny_spec {r : Res (Solution (X ℚ))} (h : okNotTiny r = true) : ∃ s, r = .ok s ∧ NotTiny s := by
  unfold okNotTiny at h
  split at h
  · exact ⟨_, rfl, notTiny_spec h⟩
  · cases h

theorem acc_small (v : Nat) (h : v < 3) : (v + 2) ^ 2 * (4 * 3 + 6) ≤ 2 ^ 51 := by interval_cases v <;> norm_num

set_option maxRecDepth 100000 in
/-- C64: both directions; the hypotheses hold. -/
example : ∃ S T S' T', InjectionReturns accGraph accCalls accInjectors (.ok S) ∧
    InjectionReturns accGraph accExact accInjectors (.ok S') ∧ Accurate 3 3 id S S' ∧
    ProductionReturns accGraph accCalls accProducers (.ok T) ∧
    ProductionReturns accGraph accExact accProducers (.ok T') ∧ Accurate 3 3 (fun v => 2 - v) T T' := by
  obtain ⟨S', h3, t3⟩ := okNotTiny_spec
    (show okNotTiny (injectionOutcome accGraph accExact noFailure 100 accInjectors) = true by decide +kernel)
  obtain ⟨T', h4, t4⟩ := okNotTiny_spec
    (show okNotTiny (productionOutcome accGraph accExact noFailure 100 accProducers) = true by decide +kernel)
  have h3 := (Fuel.injection_returns.mpr ⟨100, h3, by simp⟩).1
  have h4 := (Fuel.production_returns.mpr ⟨100, h4, by simp⟩).1
  obtain ⟨S, h1, a1⟩ := C64_injection accProblem_valid acc_ordinary acc_forward (fun v hv => acc_small v hv) acc_stored
    acc_given h3 t3
  obtain ⟨T, h2, a2⟩ := C64_production accProblem_valid acc_ordinary acc_backward (fun v hv => acc_small (2 - v) (by omega))
    acc_stored acc_given h4 t4
  exact ⟨S, T, S', T', h1, h3, a1, h2, h4, a2⟩

end Verif.Props
