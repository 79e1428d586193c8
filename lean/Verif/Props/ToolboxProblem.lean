/-
C34, C35, C38, C39 and C40 for flow problems in exact arithmetic, and concrete cases that meet
the hypotheses of the theorems of Verif.Props.Toolbox.
-/
import Verif.Props.Toolbox
import Mathlib.Tactic.IntervalCases

namespace Verif.Props
open Verif.Spec Verif.Toolbox Verif.Solver

section
variable {K : Type} [Field K] [LinearOrder K] [IsStrictOrderedRing K]

theorem given_complete {P : Problem K} (hP : P.Valid) {g : ConnectivityGraph} {calls : List (Call (X K))}
    (h : P.GivenTo g calls) : Complete g calls := by
  refine ⟨?_, ?_, ?_, ?_⟩
  · rw [h.graph.cells]; have := hP.pos; omega
  · rw [h.graph.count]; intro e; exact hP.some_connection (List.length_eq_zero_iff.mp e)
  · rw [h.pv]; simp
  · obtain ⟨f, e, _⟩ := h.flux; rw [e]; simp

/-! ### C38 -/

theorem solveSets_byId {R : Type} [Arith R] (d : SolverData R) (al : Nat → Alloc) (fuel : Nat) (m m' : InflowFlux R)
    (starts : List CellSet) (h : ∀ s ∈ starts, OMap.at_ m s.id [] = OMap.at_ m' s.id []) (k : Nat) (st : SolverState R) (sol : Solution R) :
    solveSets d al fuel m starts k st sol = solveSets d al fuel m' starts k st sol := by
  induction starts generalizing k st sol with
  | nil => rfl
  | cons s rest ih =>
    unfold solveSets
    simp only [h s (by simp)]
    congr 1
    funext l
    exact ih (fun s hs => h s (by simp [hs])) _ _ _

/-- The values of the wells with a given id. -/
theorem side_at {wells : List (WellFlux K)} {cs : WellFlux K → List Nat} {f : WellFlux K → Nat → K} {n : Nat} {src : Nat → K}
    (h : Side wells cs f n src) {i : CellSetID} (hi : ∃ w ∈ wells, w.id = i ∧ cs w ≠ []) :
    ∃ w ∈ wells, w.id = i ∧ OMap.at_ (gather (contributions wells cs f)).byId i [] = valuesOf (cs w) (f w) := by
  obtain ⟨w, hw, rfl, hne⟩ := hi
  refine ⟨w, hw, rfl, ?_⟩
  unfold OMap.at_
  rw [h.byId hw hne]
  rfl

/-- Contributions of several ids to a cell add up: outcomes only depend on the total source per cell and on the values
    of the requested ids. -/
theorem C38_sources_add_up {P P' : Problem K} (hP : P.Valid) (hP' : P'.Valid) {g : ConnectivityGraph}
    {calls calls' : List (Call (X K))} (h : P.GivenTo g calls) (h' : P'.GivenTo g calls')
    (hpv : lastPoreVolume g calls' = lastPoreVolume g calls) (hf : lastFlux g calls' = lastFlux g calls)
    (al : Nat → Alloc) (fuel : Nat) (starts : List CellSet) :
    ((∀ v, P.source v = P'.source v) →
      (∀ s ∈ starts, ∀ w ∈ P.wells, ∀ w' ∈ P'.wells, w.id = s.id → w'.id = s.id →
        posCells w = posCells w' ∧ ∀ v ∈ posCells w, w.val v = w'.val v) →
      InjectionAccepts P.inflowMap starts → InjectionAccepts P'.inflowMap starts →
      injectionOutcome g calls' al fuel starts = injectionOutcome g calls al fuel starts) ∧
    ((∀ v, P.sink v = P'.sink v) →
      (∀ s ∈ starts, ∀ w ∈ P.wells, ∀ w' ∈ P'.wells, w.id = s.id → w'.id = s.id →
        negCells w = negCells w' ∧ ∀ v ∈ negCells w, w.val v = w'.val v) →
      ProductionAccepts P.inflowMap starts → ProductionAccepts P'.inflowMap starts →
      productionOutcome g calls' al fuel starts = productionOutcome g calls al fuel starts) := by
  have hn : P'.n = P.n := by rw [← h.graph.cells, ← h'.graph.cells]
  have core : ∀ {cs cs' : WellFlux K → List Nat} {f f' : WellFlux K → Nat → K} {src src' : Nat → K},
      Side P.wells cs f P.n src → Side P'.wells cs' f' P'.n src' → (∀ v, src v = src' v) →
      (∀ s ∈ starts, ∃ w ∈ P.wells, w.id = s.id ∧ cs w ≠ []) → (∀ s ∈ starts, ∃ w ∈ P'.wells, w.id = s.id ∧ cs' w ≠ []) →
      (∀ s ∈ starts, ∀ w ∈ P.wells, ∀ w' ∈ P'.wells, w.id = s.id → w'.id = s.id →
        cs w = cs' w' ∧ ∀ v ∈ cs w, f w v = f' w' v) → ∀ G Gr pv,
      computeSolution G Gr pv (gather (contributions P'.wells cs' f')).only (gather (contributions P'.wells cs' f')).byId al fuel starts
        = computeSolution G Gr pv (gather (contributions P.wells cs f)).only (gather (contributions P.wells cs f)).byId al fuel starts := by
    intro cs cs' f f' src src' hs hs' he h1 h2 h3 G Gr pv
    have hsrc : src' = src := by funext v; exact (he v).symm
    rw [hs.only_eq, hs'.only_eq, hn, hsrc]
    unfold computeSolution
    congr 1; funext p
    simp only [Res.bind_eq]
    congr 1; funext tof
    refine solveSets_byId _ _ _ _ _ _ ?_ _ _ _
    intro s hsm
    obtain ⟨w, hw, e1, e2⟩ := side_at hs (h1 s hsm)
    obtain ⟨w', hw', e1', e2'⟩ := side_at hs' (h2 s hsm)
    rw [e2, e2']
    obtain ⟨e3, e4⟩ := h3 s hsm w hw w' hw' e1 e1'
    rw [← e3]
    unfold valuesOf
    apply List.map_congr_left
    intro v hv
    rw [e4 v hv]
  constructor
  · intro hsrc hw ha ha'
    rw [injectionOutcome_eq, injectionOutcome_eq, hpv, hf, GivenTo.inflowMap_eq h, GivenTo.inflowMap_eq h']
    unfold outcome
    rw [check_injection, check_injection, if_pos ha, if_pos ha', Res.ok_bind, Res.ok_bind, splitInflow_eq, splitInflow_eq]
    simp only [positives_inflowMap]
    split
    · rfl
    · congr 1; funext gs
      exact core (pos_side hP) (pos_side hP') hsrc (fun s hs => hasInflow_problem.mp (ha s hs).1)
        (fun s hs => hasInflow_problem.mp (ha' s hs).1) hw _ _ _
  · intro hsrc hw ha ha'
    rw [productionOutcome_eq, productionOutcome_eq, hpv, hf, GivenTo.inflowMap_eq h, GivenTo.inflowMap_eq h']
    unfold outcome
    rw [check_production, check_production, if_pos ha, if_pos ha', Res.ok_bind, Res.ok_bind, splitInflow_eq, splitInflow_eq]
    simp only [negatives_inflowMap]
    split
    · rfl
    · congr 1; funext gs
      refine core (neg_side hP) (neg_side hP') hsrc (fun s hs => hasOutflow_problem.mp (ha s hs).1)
        (fun s hs => hasOutflow_problem.mp (ha' s hs).1) ?_ _ _ _
      intro s hs w hw1 w' hw2 e e'
      obtain ⟨a, b⟩ := hw s hs w hw1 w' hw2 e e'
      exact ⟨a, fun v hv => by rw [b v hv]⟩

/-! ### C39 -/

theorem lift_pairs {cs : List (Nat × Nat × K)} (hpos : ∀ c ∈ cs, 0 < c.2.2) (i j : Int) :
    (∃ w, (i, j, w) ∈ lift cs) ↔ 0 ≤ i ∧ 0 ≤ j ∧ 0 < fluxOf cs i.toNat j.toNat := by
  rw [(fluxOf_pos hpos i.toNat j.toNat).2]
  unfold lift
  constructor
  · rintro ⟨w, hw⟩
    obtain ⟨c, hc, e⟩ := List.mem_map.mp hw
    simp only [Prod.mk.injEq] at e
    obtain ⟨rfl, rfl, _⟩ := e
    exact ⟨by omega, by omega, c.2.2, by simpa using hc⟩
  · rintro ⟨hi, hj, x, hx⟩
    exact ⟨X.fin x, List.mem_map.mpr ⟨_, hx, by simp [Int.toNat_of_nonneg hi, Int.toNat_of_nonneg hj]⟩⟩

theorem lift_sums (cs : List (Nat × Nat × K)) (i j : Int) :
    (weightsOf (lift cs) i j).foldl Arith.add Arith.zero = if 0 ≤ i ∧ 0 ≤ j then X.fin (fluxOf cs i.toNat j.toNat) else Arith.zero := by
  split
  · rename_i h
    have := weightsOf_flow cs i.toNat j.toNat
    rw [Int.toNat_of_nonneg h.1, Int.toNat_of_nonneg h.2] at this
    exact this
  · rename_i h
    have : weightsOf (lift cs) i j = [] := by
      unfold weightsOf lift
      rw [List.map_eq_nil_iff, List.filter_eq_nil_iff]
      intro c hc
      obtain ⟨c', _, rfl⟩ := List.mem_map.mp hc
      simp only [Bool.and_eq_true, beq_iff_eq]
      omega
    rw [this]; rfl

/-- Problems whose net fluxes between cells agree have the same diagnostics, however their
    connections describe them: the order and the splitting into parallel connections and phases
    do not matter. -/
theorem C39_same_flow {P P' : Problem K} (hP : P.Valid) (hP' : P'.Valid) {g g' : ConnectivityGraph}
    {calls calls' : List (Call (X K))} (h : P.GivenTo g calls) (h' : P'.GivenTo g' calls')
    (hn : P'.n = P.n) (hpv : ∀ v < P.n, P'.pv v = P.pv v) (hw : P'.wells = P.wells)
    (hflux : ∀ u v, P'.flux u v = P.flux u v) (al : Nat → Alloc) (fuel : Nat) (starts : List CellSet) :
    injectionOutcome g' calls' al fuel starts = injectionOutcome g calls al fuel starts ∧
    productionOutcome g' calls' al fuel starts = productionOutcome g calls al fuel starts := by
  obtain ⟨f, e, hf⟩ := h.flux
  obtain ⟨f', e', hf'⟩ := h'.flux
  have hc : ∀ {P : Problem K} {g : ConnectivityGraph} {calls : List (Call (X K))}, P.Valid → P.GivenTo g calls →
      ∀ {f : ConnectionValues (X K)}, HasFlux f g.numConnections P.nphase (fun c p => X.fin (P.phi c p)) →
      f.numConnections ≠ 0 ∧ arr P.n P.pv ≠ [] ∧ graphs g f = .ok (graphsOf P.n (lift (directedK P))) := by
    intro P g calls hP h f hf
    have hcn := hf.conns
    rw [h.graph.count] at hf hcn
    refine ⟨?_, ?_, ?_⟩
    · rw [hcn]; intro e; exact hP.some_connection (List.length_eq_zero_iff.mp e)
    · intro e
      have := congrArg List.length e
      simp [arr] at this
      have := hP.pos; omega
    · rw [graphs_eq (GivenTo.connectivity hP h) hf, directed_lift]
  obtain ⟨a1, a2, a3⟩ := hc hP h hf
  obtain ⟨b1, b2, b3⟩ := hc hP' h' hf'
  have hmap : P'.inflowMap = P.inflowMap := by unfold Problem.inflowMap; rw [hw]
  have harr : arr P'.n P'.pv = arr P.n P.pv := by
    unfold arr
    rw [hn]
    apply List.map_congr_left
    intro v hv
    rw [hpv v (List.mem_range.mp hv)]
  have hfl : ∀ u v, fluxOf (directedK P') u v = fluxOf (directedK P) u v := by
    intro u v; rw [fluxOf_directedK, fluxOf_directedK, hflux]
  have hr := directedK_range hP.range
  have hr' := directedK_range hP'.range
  rw [hn] at hr'
  have rng : ∀ cs : List (Nat × Nat × K), (∀ c ∈ cs, c.1 < P.n ∧ c.2.1 < P.n ∧ 0 < c.2.2) →
      ∀ c ∈ lift cs, (0 ≤ c.1 ∧ c.1 < (P.n : Int)) ∧ (0 ≤ c.2.1 ∧ c.2.1 < (P.n : Int)) := by
    intro cs h c hc
    obtain ⟨c', h', rfl⟩ := List.mem_map.mp hc
    have := h c' h'
    simp only; omega
  have view1 : ∀ cs cs' : List (Nat × Nat × K), (∀ c ∈ cs, c.1 < P.n ∧ c.2.1 < P.n ∧ 0 < c.2.2) →
      (∀ c ∈ cs', c.1 < P.n ∧ c.2.1 < P.n ∧ 0 < c.2.2) → (∀ u v, fluxOf cs' u v = fluxOf cs u v) →
      view ((freshWith (weighted (lift cs'))).compressStep P.n).1 = view ((freshWith (weighted (lift cs))).compressStep P.n).1 := by
    intro cs cs' h h' e
    refine compressStep_view hP.int (rng _ h') (rng _ h) ?_ ?_
    · intro i j
      rw [lift_pairs (fun c hc => (h' c hc).2.2), lift_pairs (fun c hc => (h c hc).2.2), e]
    · intro i j; rw [lift_sums, lift_sums, e]
  have sw : ∀ Q : Problem K, swapEnds (lift (directedK Q)) = lift ((directedK Q).map fun c => (c.2.1, c.1, c.2.2)) := by
    intro Q; unfold swapEnds lift; rw [List.map_map, List.map_map]; rfl
  have v1 : view (graphsOf P'.n (lift (directedK P'))).1 = view (graphsOf P.n (lift (directedK P))).1 := by
    rw [hn]; exact view1 _ _ hr hr' hfl
  have v2 : view (graphsOf P'.n (lift (directedK P'))).2 = view (graphsOf P.n (lift (directedK P))).2 := by
    rw [hn]; unfold graphsOf; simp only [sw]
    refine view1 _ _ ?_ ?_ ?_
    · intro c hc
      obtain ⟨c', h', rfl⟩ := List.mem_map.mp hc
      have := hr c' h'; exact ⟨this.2.1, this.1, this.2.2⟩
    · intro c hc
      obtain ⟨c', h', rfl⟩ := List.mem_map.mp hc
      have := hr' c' h'; exact ⟨this.2.1, this.1, this.2.2⟩
    · intro u v; rw [fluxOf_swap, fluxOf_swap, hfl]
  rw [injectionOutcome_eq, injectionOutcome_eq, productionOutcome_eq, productionOutcome_eq, h.pv, h'.pv, e, e',
    GivenTo.inflowMap_eq h, GivenTo.inflowMap_eq h', hmap]
  simp only [Option.getD_some]
  rw [outcome_complete a2 a1, outcome_complete b2 b1, outcome_complete a2 a1, outcome_complete b2 b1, a3, b3]
  simp only [Res.ok_bind, if_true, if_false, Bool.false_eq_true]
  rw [computeSolution_view (graphsOf P'.n _).1, computeSolution_view (graphsOf P.n _).1,
    computeSolution_view (graphsOf P'.n _).2, computeSolution_view (graphsOf P.n _).2, v1, v2, harr]
  exact ⟨rfl, rfl⟩

/-- How the flux of the connections is split over phases does not matter. -/
theorem C39_phases {P P' : Problem K} (hP : P.Valid) {g g' : ConnectivityGraph}
    {calls calls' : List (Call (X K))} (h : P.GivenTo g calls) (h' : P'.GivenTo g' calls')
    (hn : P'.n = P.n) (hpv : P'.pv = P.pv) (hw : P'.wells = P.wells) (hc : P'.conns = P.conns)
    (hnet : ∀ c < P.conns.length, ∑ p ∈ Finset.range P'.nphase, P'.phi c p = ∑ p ∈ Finset.range P.nphase, P.phi c p)
    (al : Nat → Alloc) (fuel : Nat) (starts : List CellSet) :
    injectionOutcome g' calls' al fuel starts = injectionOutcome g calls al fuel starts ∧
    productionOutcome g' calls' al fuel starts = productionOutcome g calls al fuel starts := by
  have hP' : P'.Valid := by
    refine ⟨?_, ?_, ?_, ?_, ?_, ?_, ?_, ?_⟩
    · rw [hn]; exact hP.int
    · rw [hn]; exact hP.pos
    · rw [hc]; exact hP.some_connection
    · rw [hc, hn]; exact hP.range
    · rw [hn, hpv]; exact hP.pv
    · rw [hw]; exact hP.wells_sorted
    · rw [hw]; exact hP.cells_sorted
    · rw [hw, hn]; exact hP.cells_range
  refine C39_same_flow hP hP' h h' hn (fun v _ => by rw [hpv]) hw ?_ al fuel starts
  intro u v
  unfold Problem.flux
  rw [hc]
  refine Finset.sum_congr rfl fun c hcm => ?_
  unfold Problem.carried
  have : P'.net c = P.net c := hnet c (Finset.mem_range.mp hcm)
  rw [hc, this]

/-! ### C34, C35 and C40 -/

variable [Archimedean K]

/-- For a valid problem diagnostics return a solution if the start sets are accepted, and end with
    runtime_error otherwise. -/
theorem C40_valid_problem {P : Problem K} (hP : P.Valid) {g : ConnectivityGraph} {calls : List (Call (X K))}
    (h : P.GivenTo g calls) (starts : List CellSet) :
    (InjectionAccepts P.inflowMap starts → ∃ sol, InjectionReturns g calls starts (.ok sol)) ∧
    (¬ InjectionAccepts P.inflowMap starts → InjectionReturns g calls starts (.throw .runtimeError)) ∧
    (ProductionAccepts P.inflowMap starts → ∃ sol, ProductionReturns g calls starts (.ok sol)) ∧
    (¬ ProductionAccepts P.inflowMap starts → ProductionReturns g calls starts (.throw .runtimeError)) := by
  have hc := given_complete hP h
  have e := GivenTo.inflowMap_eq h
  refine ⟨?_, ?_, ?_, ?_⟩
  · intro ha
    obtain ⟨d, st, sol, _, hr, _⟩ := injection_solution hP h ha
    exact ⟨sol, hr⟩
  · intro hn
    exact ⟨0, fun fuel _ => (C35_rejected hc noFailure fuel starts).1 (by rw [e]; exact hn)⟩
  · intro ha
    obtain ⟨d, st, sol, _, hr, _⟩ := production_solution hP h ha
    exact ⟨sol, hr⟩
  · intro hn
    exact ⟨0, fun fuel _ => (C35_rejected hc noFailure fuel starts).2 (by rw [e]; exact hn)⟩

/-- Diagnostics of a valid problem end with runtime_error exactly when the start sets are not
    accepted. -/
theorem C35_valid_problem {P : Problem K} (hP : P.Valid) {g : ConnectivityGraph} {calls : List (Call (X K))}
    (h : P.GivenTo g calls) (starts : List CellSet) :
    (InjectionReturns g calls starts (.throw .runtimeError) ↔ ¬ InjectionAccepts P.inflowMap starts) ∧
    (ProductionReturns g calls starts (.throw .runtimeError) ↔ ¬ ProductionAccepts P.inflowMap starts) := by
  obtain ⟨h1, h2, h3, h4⟩ := C40_valid_problem hP h starts
  refine ⟨⟨?_, h2⟩, ⟨?_, h4⟩⟩
  · rintro ⟨N, hN⟩ ha
    obtain ⟨sol, M, hM⟩ := h1 ha
    have := hN (max N M) (le_max_left ..)
    rw [hM (max N M) (le_max_right ..)] at this
    cases this
  · rintro ⟨N, hN⟩ ha
    obtain ⟨sol, M, hM⟩ := h3 ha
    have := hN (max N M) (le_max_left ..)
    rw [hM (max N M) (le_max_right ..)] at this
    cases this

/-- Diagnostics of a valid problem never end with logic_error. -/
theorem C34_valid_problem {P : Problem K} (hP : P.Valid) {g : ConnectivityGraph} {calls : List (Call (X K))}
    (h : P.GivenTo g calls) (starts : List CellSet) :
    ¬ InjectionReturns g calls starts (.throw .logicError) ∧ ¬ ProductionReturns g calls starts (.throw .logicError) := by
  obtain ⟨h1, h2, h3, h4⟩ := C40_valid_problem hP h starts
  constructor
  · rintro ⟨N, hN⟩
    by_cases ha : InjectionAccepts P.inflowMap starts
    · obtain ⟨sol, M, hM⟩ := h1 ha
      have := hN (max N M) (le_max_left ..)
      rw [hM (max N M) (le_max_right ..)] at this
      cases this
    · obtain ⟨M, hM⟩ := h2 ha
      have := hN (max N M) (le_max_left ..)
      rw [hM (max N M) (le_max_right ..)] at this
      cases this
  · rintro ⟨N, hN⟩
    by_cases ha : ProductionAccepts P.inflowMap starts
    · obtain ⟨sol, M, hM⟩ := h3 ha
      have := hN (max N M) (le_max_left ..)
      rw [hM (max N M) (le_max_right ..)] at this
      cases this
    · obtain ⟨M, hM⟩ := h4 ha
      have := hN (max N M) (le_max_left ..)
      rw [hM (max N M) (le_max_right ..)] at this
      cases this

end

/-! ### Cases that meet the hypotheses -/

/-- Accepted and rejected start sets (C34, C35, C40). -/
example : ∃ g, ∃ calls : List (Call (X ℚ)), Complete g calls ∧ CellsBelow ((lastInflow calls).getD []) 4 ∧
    ValidConnectivity g 4 exProblem.conns ∧
    (∃ sol, InjectionReturns g calls exInjectors (.ok sol)) ∧ (∃ sol, ProductionReturns g calls exProducers (.ok sol)) ∧
    InjectionReturns g calls exProducers (.throw .runtimeError) := by
  obtain ⟨g, calls, h⟩ := exProblem_given
  obtain ⟨h1, h2, _, _⟩ := C40_valid_problem exProblem_valid h exInjectors
  obtain ⟨_, h2', h3, _⟩ := C40_valid_problem exProblem_valid h exProducers
  refine ⟨g, calls, given_complete exProblem_valid h, ?_, GivenTo.connectivity exProblem_valid h,
    h1 exInjectors_accepted, h3 exProducers_accepted, h2' ?_⟩
  · rw [GivenTo.inflowMap_eq h]
    unfold CellsBelow Problem.inflowMap exProblem valuesOf
    simp
  · intro ha
    obtain ⟨⟨set, hs, hid, e, he, hp⟩, _⟩ := ha (CellSet.ofCells ⟨[80]⟩ [3]) (by simp [exProducers])
    have : ¬ HasInflow exProblem.inflowMap ⟨[80]⟩ := by
      rw [hasInflow_problem]
      simp [exProblem, posCells]
    exact this ⟨set, hs, hid, e, he, hp⟩

/-- Other cells, another order and repetitions of the same ids (C36). -/
example : InjectionAccepts exProblem.inflowMap
      [CellSet.ofCells ⟨[65]⟩ [0], CellSet.ofCells ⟨[66]⟩ [], CellSet.ofCells ⟨[65]⟩ []] ∧
    ∀ i, (∃ s ∈ exInjectors, s.id = i) ↔
      ∃ s ∈ [CellSet.ofCells ⟨[65]⟩ [0], CellSet.ofCells ⟨[66]⟩ [], CellSet.ofCells ⟨[65]⟩ []], s.id = i := by
  have hA := exInjectors_accepted
  constructor
  · intro s hs
    have h1 := hA _ (.head _)
    have h2 := hA _ (.tail _ (.head _))
    simp only [List.mem_cons, List.not_mem_nil, or_false] at hs
    rcases hs with rfl | rfl | rfl
    · exact ⟨h2.1, h1.2⟩
    · exact ⟨h1.1, h2.2⟩
    · exact h2
  · intro i
    simp [exInjectors, CellSet.ofCells]
    tauto

/-- A toolbox with the reversed data (C37); the two toolboxes return a solution. -/
example : ∃ g, ∃ calls calls' : List (Call (X ℚ)), ValidConnectivity g 4 exProblem.conns ∧
    lastPoreVolume g calls' = lastPoreVolume g calls ∧
    FluxGiven g calls 2 (fun c p => X.fin (exProblem.phi c p)) ∧
    FluxGiven g calls' 2 (fun c p => Arith.neg (X.fin (exProblem.phi c p))) ∧
    lastInflow calls' = (lastInflow calls).map negated ∧
    (∃ sol, ProductionReturns g calls exProducers (.ok sol)) ∧ SignLaws (X ℚ) := by
  obtain ⟨g, calls, h⟩ := exProblem_given
  have hg := GivenTo.connectivity exProblem_valid h
  obtain ⟨calls', h1, h2, h3⟩ := exists_calls (R := X ℚ) hg.toHasConnections (pv := arr 4 exProblem.pv) (by simp [arr, exProblem])
    (np := 2) (by rw [show exProblem.conns.length = 3 from rfl]; decide) (fun c p => Arith.neg (X.fin (exProblem.phi c p))) (negated exProblem.inflowMap)
  refine ⟨g, calls, calls', hg, h1.trans h.pv.symm, h.flux, h2, ?_, ?_, signLaws_exact ℚ⟩
  · have hi : lastInflow calls = some exProblem.inflowMap := by
      rcases h.inflow with e | ⟨_, e⟩
      · exact e
      · simp [exProblem] at e
    rw [h3, hi]; rfl
  · exact (C40_valid_problem exProblem_valid h exProducers).2.2.1 exProducers_accepted

/-- The example problem with the injected 3 given to one well instead of two, the requested well unchanged: C38. -/
def exMerged : Problem ℚ := { exProblem with
  wells := [⟨⟨[65]⟩, [0], fun _ => 1⟩, ⟨⟨[67]⟩, [0, 2], fun v => if v = 0 then 2 else -5⟩, ⟨⟨[80]⟩, [3], fun _ => -3⟩] }

example : exMerged.Valid ∧ (∀ v, exProblem.source v = exMerged.source v) ∧
    InjectionAccepts exMerged.inflowMap [CellSet.ofCells ⟨[65]⟩ []] ∧
    InjectionAccepts exProblem.inflowMap [CellSet.ofCells ⟨[65]⟩ []] ∧
    ∀ w ∈ exProblem.wells, ∀ w' ∈ exMerged.wells, w.id = ⟨[65]⟩ → w'.id = ⟨[65]⟩ →
        posCells w = posCells w' ∧ ∀ v ∈ posCells w, w.val v = w'.val v := by
  have h1 : (Arith.lt Arith.zero (X.fin (1 : ℚ))) = true := by rw [X_zero, X_lt]; simp
  refine ⟨⟨by decide, by decide, by decide, by decide, ?_, ?_, ?_, ?_⟩, ?_, ?_, ?_, ?_⟩
  · intro v _; show (0 : ℚ) ≤ 1; norm_num
  · unfold exMerged; simp; decide
  · unfold exMerged; simp
  · unfold exMerged exProblem; simp
  · intro v
    unfold Problem.source exMerged exProblem Problem.wellAt
    by_cases h0 : v = 0
    · subst h0; norm_num
    · by_cases h2 : v = 2
      · subst h2; norm_num
      · by_cases h3 : v = 3
        · subst h3; norm_num
        · simp [h0, h2, h3]
  · intro s hs
    simp only [List.mem_singleton] at hs
    subst hs
    refine ⟨⟨_, .head _, rfl, _, .head _, h1⟩, ?_⟩
    intro c hc; simp [CellSet.ofCells, CellSet.cells] at hc
  · intro s hs
    simp only [List.mem_singleton] at hs
    subst hs
    refine ⟨⟨_, .head _, rfl, _, .head _, h1⟩, ?_⟩
    intro c hc; simp [CellSet.ofCells, CellSet.cells] at hc
  · unfold exProblem exMerged
    simp only [List.mem_cons, List.not_mem_nil, or_false]
    rintro w (rfl | rfl | rfl) w' (rfl | rfl | rfl) e e' <;> simp at e e' ⊢

/-- Positive and negative entries occur in one map (C38). -/
example : positivePart exMerged.inflowMap ≠ exMerged.inflowMap ∧ negativePart exMerged.inflowMap ≠ exMerged.inflowMap := by
  have h1 : (Arith.lt Arith.zero (X.fin (1 : ℚ))) = true := by rw [X_zero, X_lt]; simp
  have h2 : (Arith.lt (X.fin (1 : ℚ)) Arith.zero) = false := by rw [X_zero, X_lt]; simp
  have h3 : (Arith.lt Arith.zero (X.fin (-3 : ℚ))) = false := by rw [X_zero, X_lt]; simp
  constructor
  · intro e
    have := congrArg (fun m => m[2]?) e
    simp [positivePart, Problem.inflowMap, exMerged, valuesOf, h3] at this
  · intro e
    have := congrArg (fun m => m[0]?) e
    simp [negativePart, Problem.inflowMap, exMerged, valuesOf, h2] at this

/-- The second connection exchanged, a further connection whose phases cancel, one phase instead
    of two: C39. -/
def exOther : Problem ℚ := { exProblem with
  conns := [(0, 1), (1, 2), (2, 3)]
  nphase := 1
  phi := fun _ _ => 3 }

example : exOther.Valid ∧ (∀ u v, exOther.flux u v = exProblem.flux u v) ∧ (∃ g calls, exOther.GivenTo g calls) ∧
    exOther.conns ≠ exProblem.conns := by
  have hv : exOther.Valid := by
    have := exProblem_valid
    exact ⟨by decide, by decide, by decide, by decide, this.pv, this.wells_sorted, this.cells_sorted, this.cells_range⟩
  refine ⟨hv, ?_, exists_given hv (by decide), by decide⟩
  intro u v
  have n : ∀ c < 3, exProblem.net c = if c = 1 then -3 else 3 := by
    intro c hc
    unfold Problem.net exProblem
    interval_cases c <;> norm_num [Finset.sum_range_succ]
  have n' : ∀ c, exOther.net c = 3 := by
    intro c
    unfold Problem.net exOther
    norm_num
  unfold Problem.flux
  rw [show exOther.conns.length = 3 from rfl, show exProblem.conns.length = 3 from rfl]
  refine Finset.sum_congr rfl fun c hc => ?_
  have hc := Finset.mem_range.mp hc
  unfold Problem.carried
  rw [n c hc, n' c]
  unfold exOther exProblem
  interval_cases c
  · norm_num
  · norm_num
    simp only [and_comm, eq_comm]
  · norm_num

/-- A connection between cells 0 and 3 with fluxes 5 and -5 of two phases (C39). -/
example : NoSign (phaseSum (fun p => X.fin (if p = 0 then 5 else -5 : ℚ)) 2) := by
  unfold NoSign
  rw [phaseSum_fin, X_zero, X_lt, X_lt]
  norm_num [Finset.sum_range_succ]

end Verif.Props
