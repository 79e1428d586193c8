/-
C33 to C41: what the `Toolbox` promises.

`injectionOutcome g calls al fuel starts` is how `computeInjectionDiagnostics(starts)` ends on a
toolbox for the connectivity `g` after the history `calls`; `productionOutcome` likewise
(Verif.Spec.Toolbox).
-/
import Verif.Proofs.ToolboxExist
import Verif.Proofs.ToolboxSafe

namespace Verif.Props
open Verif.Spec Verif.Toolbox Verif.Solver

/-! ### An example problem -/

/-- Four cells in a row, the second connection described from right to left, two phases; two
    injectors share cell 0, cell 3 produces. -/
def exProblem : Problem ℚ where
  n := 4
  conns := [(0, 1), (2, 1), (2, 3)]
  nphase := 2
  phi c p := if c = 1 then (if p = 0 then -1 else -2) else (if p = 0 then 1 else 2)
  pv _ := 1
  wells := [⟨⟨[65]⟩, [0], fun _ => 1⟩, ⟨⟨[66]⟩, [0], fun _ => 2⟩, ⟨⟨[80]⟩, [3], fun _ => -3⟩]

theorem exProblem_valid : exProblem.Valid where
  int := by decide
  pos := by decide
  some_connection := by decide
  range := by decide
  pv v _ := by show (0 : ℚ) ≤ 1; norm_num
  wells_sorted := by unfold exProblem; simp; decide
  cells_sorted := by unfold exProblem; simp
  cells_range := by unfold exProblem; simp

theorem exProblem_given : ∃ g calls, exProblem.GivenTo g calls := exists_given exProblem_valid (by decide)

/-- The start sets of the injectors, and of the producer. -/
def exInjectors : List CellSet := [CellSet.ofCells ⟨[66]⟩ [0], CellSet.ofCells ⟨[65]⟩ []]
def exProducers : List CellSet := [CellSet.ofCells ⟨[80]⟩ [3]]

theorem exInjectors_accepted : InjectionAccepts exProblem.inflowMap exInjectors := by
  have h1 : (Arith.lt Arith.zero (X.fin (1 : ℚ))) = true := by rw [X_zero, X_lt]; simp
  have h2 : (Arith.lt Arith.zero (X.fin (2 : ℚ))) = true := by rw [X_zero, X_lt]; simp
  intro s hs
  simp only [exInjectors, List.mem_cons, List.not_mem_nil, or_false] at hs
  rcases hs with rfl | rfl
  · refine ⟨⟨_, .tail _ (.head _), rfl, _, .head _, h2⟩, ?_⟩
    intro c hc
    have : c = 0 := by simpa [CellSet.ofCells, CellSet.cells, setInsert] using hc
    subst this
    exact ⟨_, .head _, _, .head _, rfl, h1⟩
  · refine ⟨⟨_, .head _, rfl, _, .head _, h1⟩, ?_⟩
    intro c hc
    simp [CellSet.ofCells, CellSet.cells] at hc

theorem exProducers_accepted : ProductionAccepts exProblem.inflowMap exProducers := by
  have h1 : IsNegative (X.fin (-3 : ℚ)) := by
    unfold IsNegative; rw [X_zero, X_lt, X_lt]; simp
  intro s hs
  simp only [exProducers, List.mem_cons, List.not_mem_nil, or_false] at hs
  subst hs
  refine ⟨⟨_, .tail _ (.tail _ (.head _)), rfl, _, .head _, h1⟩, ?_⟩
  intro c hc
  have : c = 3 := by simpa [CellSet.ofCells, CellSet.cells, setInsert] using hc
  subst this
  exact ⟨_, .tail _ (.tail _ (.head _)), _, .head _, rfl, h1⟩

section
variable {R : Type} [Arith R]

/-! ### C33 -/

/-- Histories that end with the same accepted data have the same outcomes, whatever else
    happened in them. -/
theorem C33_latest_data (g : ConnectivityGraph) (calls calls' : List (Call R))
    (hpv : lastPoreVolume g calls = lastPoreVolume g calls') (hf : lastFlux g calls = lastFlux g calls')
    (hi : lastInflow calls = lastInflow calls') (al : Nat → Alloc) (fuel : Nat) (starts : List CellSet) :
    injectionOutcome g calls al fuel starts = injectionOutcome g calls' al fuel starts ∧
    productionOutcome g calls al fuel starts = productionOutcome g calls' al fuel starts := by
  rw [injectionOutcome_eq, injectionOutcome_eq, productionOutcome_eq, productionOutcome_eq, hpv, hf, hi]
  exact ⟨rfl, rfl⟩

/-- The outcomes after any history are those of a fresh toolbox which is given the latest data
    once. -/
theorem C33_like_fresh (g : ConnectivityGraph) (calls : List (Call R)) (al : Nat → Alloc) (fuel : Nat)
    (starts : List CellSet) :
    injectionOutcome g calls al fuel starts = injectionOutcome g (essential g calls) al fuel starts ∧
    productionOutcome g calls al fuel starts = productionOutcome g (essential g calls) al fuel starts := by
  obtain ⟨h1, h2, h3⟩ := essential_last g calls
  exact C33_latest_data g calls (essential g calls) h1.symm h2.symm h3.symm al fuel starts

/-- A long history: rejected pore volumes, diagnostics in between, a second inflow map. -/
example (g : ConnectivityGraph) (f : ConnectionValues R) (pv : List R) (hpv : pv.length = g.numCells)
    (hf : f.numConnections = g.numConnections) (m m' : InflowFlux R) (al : Nat → Alloc) (fuel : Nat) (s : List CellSet) :
    essential g [.assignInflowFlux m', .assignPoreVolume pv, .computeInjectionDiagnostics al fuel s,
      .assignConnectionFlux f, .assignPoreVolume (Arith.zero :: pv), .computeProductionDiagnostics al fuel s,
      .assignInflowFlux m] = [.assignPoreVolume pv, .assignConnectionFlux f, .assignInflowFlux m] := by
  simp [essential, lastPoreVolume, lastFlux, lastInflow, lastSome, hpv, hf, List.findSome?]

/-! ### C34 -/

/-- `assignPoreVolume` and `assignConnectionFlux` succeed exactly for the size of the graph, and
    end with logic_error otherwise. -/
theorem C34_sizes (g : ConnectivityGraph) (calls : List (Call R)) (pv : List R) (f : ConnectionValues R) :
    ((toolboxAfter g calls).assignPoreVolume pv).2 =
      (if pv.length = g.numCells then .ok () else .throw .logicError) ∧
    ((toolboxAfter g calls).assignConnectionFlux f).2 =
      (if f.numConnections = g.numConnections then .ok () else .throw .logicError) := by
  have h := (holdsData g calls).graph
  unfold Toolbox.assignPoreVolume Toolbox.assignConnectionFlux
  rw [h]
  constructor
  · by_cases e : pv.length = g.numCells <;> simp [e]
  · by_cases e : f.numConnections = g.numConnections <;> simp [e]

/-- Either check of the diagnostics notices missing data. -/
theorem incomplete {g : ConnectivityGraph} {calls : List (Call R)} (h : ¬ Complete g calls) :
    (((lastPoreVolume g calls).getD []).isEmpty ||
      ((lastFlux g calls).getD (ConnectionValues.create 0 0)).numConnections == 0) = true := by
  rw [Bool.or_eq_true, List.isEmpty_iff, beq_iff_eq]
  by_contra hn
  rw [not_or] at hn
  refine h ⟨?_, ?_, ?_, ?_⟩
  · intro h0
    cases e : lastPoreVolume g calls with
    | none => rw [e] at hn; exact hn.1 rfl
    | some pv =>
      have := lastPoreVolume_length e
      rw [e] at hn
      exact hn.1 (List.length_eq_zero_iff.mp (by show pv.length = 0; omega))
  · intro h0
    cases e : lastFlux g calls with
    | none => rw [e] at hn; exact hn.2 rfl
    | some f =>
      have := lastFlux_count e
      rw [e] at hn
      refine hn.2 ?_
      show f.numConnections = 0
      omega
  · intro e; rw [e] at hn; exact hn.1 rfl
  · intro e; rw [e] at hn; exact hn.2 rfl

/-- With missing data diagnostics end with logic_error. -/
theorem C34_missing (g : ConnectivityGraph) (calls : List (Call R)) (h : ¬ Complete g calls) (al : Nat → Alloc)
    (fuel : Nat) (starts : List CellSet) :
    injectionOutcome g calls al fuel starts = .throw .logicError ∧
    productionOutcome g calls al fuel starts = .throw .logicError := by
  rw [injectionOutcome_eq, productionOutcome_eq]
  have key := incomplete h
  unfold outcome
  rw [if_pos key, if_pos key]
  exact ⟨rfl, rfl⟩

/-- A rejected call leaves the toolbox exactly as it was, so no later outcome changes. -/
theorem C34_rejected_no_effect (g : ConnectivityGraph) (calls : List (Call R)) :
    (∀ pv : List R, pv.length ≠ g.numCells →
      toolboxAfter g (calls ++ [.assignPoreVolume pv]) = toolboxAfter g calls) ∧
    (∀ f : ConnectionValues R, f.numConnections ≠ g.numConnections →
      toolboxAfter g (calls ++ [.assignConnectionFlux f]) = toolboxAfter g calls) ∧
    (¬ Complete g calls → ∀ al fuel starts,
      toolboxAfter g (calls ++ [.computeInjectionDiagnostics al fuel starts]) = toolboxAfter g calls ∧
      toolboxAfter g (calls ++ [.computeProductionDiagnostics al fuel starts]) = toolboxAfter g calls) ∧
    (∀ al fuel starts, ¬ InjectionAccepts ((lastInflow calls).getD []) starts →
      toolboxAfter g (calls ++ [.computeInjectionDiagnostics al fuel starts]) = toolboxAfter g calls) ∧
    (∀ al fuel starts, ¬ ProductionAccepts ((lastInflow calls).getD []) starts →
      toolboxAfter g (calls ++ [.computeProductionDiagnostics al fuel starts]) = toolboxAfter g calls) := by
  have step : ∀ c : Call R, toolboxAfter g (calls ++ [c]) = (toolboxAfter g calls).step c := by
    intro c; unfold toolboxAfter; rw [List.foldl_append]; rfl
  have H := holdsData g calls
  refine ⟨?_, ?_, ?_, ?_, ?_⟩
  · intro pv h
    rw [step]
    simp only [Toolbox.step, Toolbox.assignPoreVolume, H.graph]
    rw [if_pos h]
  · intro f h
    rw [step]
    simp only [Toolbox.step, Toolbox.assignConnectionFlux, H.graph]
    rw [if_pos h]
  · intro h al fuel starts
    obtain ⟨h1, h2⟩ := C34_missing g calls h al fuel starts
    rw [step, step]
    have hc := incomplete h
    rw [← H.pvol, ← H.flux] at hc
    simp only [Toolbox.step, Toolbox.injDiag, Toolbox.prodDiag]
    rw [if_pos hc, if_pos hc]
    exact ⟨rfl, rfl⟩
  · intro al fuel starts h
    rw [step]
    simp only [Toolbox.step, Toolbox.injDiag]
    split
    · rfl
    · have e : checkStartSets (toolboxAfter g calls).injById (toolboxAfter g calls).onlyInflow starts
          = .throw .runtimeError := by
        have := check_injection ((lastInflow calls).getD []) starts
        rw [← H.inj, if_neg h] at this
        exact this
      rw [e]; rfl
  · intro al fuel starts h
    rw [step]
    simp only [Toolbox.step, Toolbox.prodDiag]
    split
    · rfl
    · have e : checkStartSets (toolboxAfter g calls).prodById (toolboxAfter g calls).onlyOutflow starts
          = .throw .runtimeError := by
        have := check_production ((lastInflow calls).getD []) starts
        rw [← H.prod, if_neg h] at this
        exact this
      rw [e]; rfl

/-- An outcome with complete data: start set check, then graphs, then the solves. -/
theorem complete_outcome {g : ConnectivityGraph} {calls : List (Call R)} (h : Complete g calls) :
    ∃ pv f, lastPoreVolume g calls = some pv ∧ lastFlux g calls = some f ∧ pv ≠ [] ∧ f.numConnections ≠ 0 := by
  obtain ⟨pv, hpv⟩ := Option.ne_none_iff_exists'.mp h.pv
  obtain ⟨f, hf⟩ := Option.ne_none_iff_exists'.mp h.flux
  refine ⟨pv, f, hpv, hf, ?_, ?_⟩
  · intro e
    have := lastPoreVolume_length hpv
    rw [e] at this
    exact h.cells this.symm
  · rw [lastFlux_count hf]; exact h.conns

/-! ### C35 -/

open Classical in
/-- With complete data, start sets that are not accepted end with runtime_error. -/
theorem C35_rejected {g : ConnectivityGraph} {calls : List (Call R)} (h : Complete g calls) (al : Nat → Alloc)
    (fuel : Nat) (starts : List CellSet) :
    (¬ InjectionAccepts ((lastInflow calls).getD []) starts →
      injectionOutcome g calls al fuel starts = .throw .runtimeError) ∧
    (¬ ProductionAccepts ((lastInflow calls).getD []) starts →
      productionOutcome g calls al fuel starts = .throw .runtimeError) := by
  obtain ⟨pv, f, h1, h2, h3, h4⟩ := complete_outcome h
  rw [injectionOutcome_eq, productionOutcome_eq, h1, h2]
  simp only [Option.getD_some]
  rw [outcome_complete h3 h4, outcome_complete h3 h4, check_injection, check_production]
  constructor
  · intro hn; rw [if_neg hn]; rfl
  · intro hn; rw [if_neg hn]; rfl

/-! ### C36 -/

/-- For accepted start sets only the set of ids matters: not the cells, the order or
    repetitions. -/
theorem C36_only_ids (g : ConnectivityGraph) (calls : List (Call R)) (a : Alloc) (fuel : Nat)
    (starts starts' : List CellSet) (hid : ∀ i, (∃ s ∈ starts, s.id = i) ↔ ∃ s ∈ starts', s.id = i) :
    (InjectionAccepts ((lastInflow calls).getD []) starts → InjectionAccepts ((lastInflow calls).getD []) starts' →
      ∀ sol, injectionOutcome g calls (fun _ => a) fuel starts = .ok sol →
        injectionOutcome g calls (fun _ => a) fuel starts' = .ok sol) ∧
    (ProductionAccepts ((lastInflow calls).getD []) starts → ProductionAccepts ((lastInflow calls).getD []) starts' →
      ∀ sol, productionOutcome g calls (fun _ => a) fuel starts = .ok sol →
        productionOutcome g calls (fun _ => a) fuel starts' = .ok sol) := by
  have key : ∀ (g gr : AssembledConnections R) (pv : List R) (only : CellSetValues R) (byId : InflowFlux R) sol,
      computeSolution g gr pv only byId (fun _ => a) fuel starts = .ok sol →
      computeSolution g gr pv only byId (fun _ => a) fuel starts' = .ok sol := by
    intro g gr pv only byId sol h
    rw [computeSolution_ok_iff] at h ⊢
    obtain ⟨d, st, tof, h1, h2, h3, h4⟩ := h
    refine ⟨d, st, tof, h1, h2, ?_, ?_⟩
    · intro s hs
      obtain ⟨s', hs', e⟩ := (hid s.id).mpr ⟨s, hs, rfl⟩
      rw [← e]; exact h3 s' hs'
    · rw [h4]
      refine recordAll_congr _ ?_ OMap.sorted_nil OMap.sorted_nil
      intro i
      simp only [List.mem_map]
      exact hid i
  constructor
  · intro h h' sol hr
    rw [injectionOutcome_eq] at hr ⊢
    unfold outcome at hr ⊢
    split at hr
    · cases hr
    · rw [if_neg (by assumption), check_injection, if_pos h', Res.ok_bind]
      rw [check_injection, if_pos h, Res.ok_bind, Res.bind_ok_iff] at hr
      obtain ⟨gs, e, hr⟩ := hr
      rw [e, Res.ok_bind]
      exact key _ _ _ _ _ _ hr
  · intro h h' sol hr
    rw [productionOutcome_eq] at hr ⊢
    unfold outcome at hr ⊢
    split at hr
    · cases hr
    · rw [if_neg (by assumption), check_production, if_pos h', Res.ok_bind]
      rw [check_production, if_pos h, Res.ok_bind, Res.bind_ok_iff] at hr
      obtain ⟨gs, e, hr⟩ := hr
      rw [e, Res.ok_bind]
      exact key _ _ _ _ _ _ hr

/-! ### C37 -/

/-- Production diagnostics are injection diagnostics for negated fluxes and negated inflow, and
    the other way round. -/
theorem C37_reversed (hs : SignLaws R) {g : ConnectivityGraph} {n : Nat} {cs : List (Nat × Nat)}
    (hg : ValidConnectivity g n cs) {calls calls' : List (Call R)}
    (hpv : lastPoreVolume g calls' = lastPoreVolume g calls) {np : Nat} {phi : Nat → Nat → R}
    (hf : FluxGiven g calls np phi) (hf' : FluxGiven g calls' np fun c p => Arith.neg (phi c p))
    (hm : lastInflow calls' = (lastInflow calls).map negated) (al : Nat → Alloc) (fuel : Nat) (starts : List CellSet) :
    productionOutcome g calls al fuel starts = injectionOutcome g calls' al fuel starts ∧
    injectionOutcome g calls al fuel starts = productionOutcome g calls' al fuel starts := by
  obtain ⟨f, e, hf⟩ := hf
  obtain ⟨f', e', hf'⟩ := hf'
  rw [hg.count] at hf hf'
  have hm' : (lastInflow calls').getD [] = negated ((lastInflow calls).getD []) := by
    rw [hm]; cases lastInflow calls <;> rfl
  rw [injectionOutcome_eq, injectionOutcome_eq, productionOutcome_eq, productionOutcome_eq, hpv, e, e', hm']
  simp only [Option.getD_some]
  have hg1 := graphs_eq hg hf
  have hg2 := graphs_eq hg hf'
  rw [directed_neg hs cs (x := fun c => phaseSum (phi c) np) (fun c => phaseSum_neg hs (phi c) np), graphsOf_swap] at hg2
  unfold outcome
  simp only [splitInflow_eq, positives_negated hs, negatives_negated hs, hf.conns, hf'.conns, hg1, hg2, Res.ok_bind]
  exact ⟨rfl, rfl⟩

/-! ### C38 -/

/-- Injection diagnostics only see the positive inflow entries, production diagnostics only the
    negative ones. -/
theorem C38_signs (g : ConnectivityGraph) (calls calls' : List (Call R))
    (hpv : lastPoreVolume g calls' = lastPoreVolume g calls) (hf : lastFlux g calls' = lastFlux g calls)
    (al : Nat → Alloc) (fuel : Nat) (starts : List CellSet) :
    (lastInflow calls' = (lastInflow calls).map positivePart →
      injectionOutcome g calls' al fuel starts = injectionOutcome g calls al fuel starts) ∧
    (lastInflow calls' = (lastInflow calls).map negativePart →
      productionOutcome g calls' al fuel starts = productionOutcome g calls al fuel starts) := by
  constructor
  · intro hm
    have hm' : (lastInflow calls').getD [] = positivePart ((lastInflow calls).getD []) := by
      rw [hm]; cases lastInflow calls <;> rfl
    rw [injectionOutcome_eq, injectionOutcome_eq, hpv, hf, hm', splitInflow_eq, splitInflow_eq, positives_positivePart]
  · intro hm
    have hm' : (lastInflow calls').getD [] = negativePart ((lastInflow calls).getD []) := by
      rw [hm]; cases lastInflow calls <;> rfl
    rw [productionOutcome_eq, productionOutcome_eq, hpv, hf, hm', splitInflow_eq, splitInflow_eq, negatives_negativePart]

/-! ### C39 -/

/-- Outcomes depend on the connections only through the oriented connections. -/
theorem outcome_of_directed {g g' : ConnectivityGraph} {n : Nat} {cs cs' : List (Nat × Nat)}
    (hg : ValidConnectivity g n cs) (hg' : ValidConnectivity g' n cs') {calls calls' : List (Call R)}
    (hpv : lastPoreVolume g' calls' = lastPoreVolume g calls) (hm : lastInflow calls' = lastInflow calls)
    {np np' : Nat} {phi phi' : Nat → Nat → R} (hf : FluxGiven g calls np phi) (hf' : FluxGiven g' calls' np' phi')
    (hne : cs = [] ↔ cs' = [])
    (hd : directed cs' (fun c => phaseSum (phi' c) np') = directed cs fun c => phaseSum (phi c) np)
    (al : Nat → Alloc) (fuel : Nat) (starts : List CellSet) :
    injectionOutcome g' calls' al fuel starts = injectionOutcome g calls al fuel starts ∧
    productionOutcome g' calls' al fuel starts = productionOutcome g calls al fuel starts := by
  obtain ⟨f, e, hf⟩ := hf
  obtain ⟨f', e', hf'⟩ := hf'
  rw [hg.count] at hf
  rw [hg'.count] at hf'
  rw [injectionOutcome_eq, injectionOutcome_eq, productionOutcome_eq, productionOutcome_eq, hpv, e, e', hm]
  simp only [Option.getD_some]
  have hg1 := graphs_eq hg hf
  have hg2 := graphs_eq hg' hf'
  rw [hd] at hg2
  have hc : (f'.numConnections == 0) = (f.numConnections == 0) := by
    rw [hf.conns, hf'.conns, Bool.eq_iff_iff]
    simp [hne]
  unfold outcome
  rw [hg1, hg2, hc]
  exact ⟨rfl, rfl⟩

theorem phaseSum_congr {phi phi' : Nat → R} {np : Nat} (h : ∀ p < np, phi p = phi' p) : phaseSum phi np = phaseSum phi' np := by
  unfold phaseSum
  congr 1
  apply List.map_congr_left
  intro p hp
  exact h p (List.mem_range.mp hp)

theorem directed_append (a b : List (Nat × Nat)) (x : Nat → R) :
    directed (a ++ b) x = directed a x ++ directed b fun c => x (a.length + c) := by
  unfold directed
  rw [List.zipIdx_append, List.map_append, List.flatten_append]
  congr 2
  rw [List.zipIdx_eq_map_add, List.map_map]
  congr 1
  funext e
  simp [Nat.add_comm]

theorem directed_congr {cs cs' : List (Nat × Nat)} {x y : Nat → R} (hl : cs'.length = cs.length)
    (h : ∀ i (hi : i < cs.length), orient cs'[i] (y i) = orient cs[i] (x i)) : directed cs' y = directed cs x := by
  unfold directed
  congr 1
  apply List.ext_getElem
  · simp [hl]
  · intro i h1 h2
    simp only [List.length_map, List.length_zipIdx] at h2
    simpa using h i h2

/-- Exchanging the cells of some connections and negating their fluxes changes nothing. -/
theorem C39_exchanged_cells (hs : SignLaws R) {g g' : ConnectivityGraph} {n : Nat} {cs cs' : List (Nat × Nat)}
    (hg : ValidConnectivity g n cs) (hg' : ValidConnectivity g' n cs') {calls calls' : List (Call R)}
    (hpv : lastPoreVolume g' calls' = lastPoreVolume g calls) (hm : lastInflow calls' = lastInflow calls)
    {np : Nat} {phi phi' : Nat → Nat → R} (hf : FluxGiven g calls np phi) (hf' : FluxGiven g' calls' np phi')
    (hl : cs'.length = cs.length)
    (h : ∀ c (hc : c < cs.length), (cs'[c] = cs[c] ∧ ∀ p < np, phi' c p = phi c p) ∨
      (cs'[c] = (cs[c].2, cs[c].1) ∧ ∀ p < np, phi' c p = Arith.neg (phi c p)))
    (al : Nat → Alloc) (fuel : Nat) (starts : List CellSet) :
    injectionOutcome g' calls' al fuel starts = injectionOutcome g calls al fuel starts ∧
    productionOutcome g' calls' al fuel starts = productionOutcome g calls al fuel starts := by
  refine outcome_of_directed hg hg' hpv hm hf hf' ?_ ?_ al fuel starts
  · rw [← List.length_eq_zero_iff, ← List.length_eq_zero_iff, hl]
  · refine directed_congr hl fun c hc => ?_
    rcases h c hc with ⟨h1, h2⟩ | ⟨h1, h2⟩
    · rw [h1, phaseSum_congr h2]
    · rw [h1, phaseSum_congr h2]
      exact (orient_neg hs cs[c] (phaseSum_neg hs (phi c) np)).2

/-- A further connection, anywhere in the list, whose total flux is neither positive nor negative
    changes nothing. -/
theorem C39_zero_connection {g g' : ConnectivityGraph} {n : Nat} {as bs : List (Nat × Nat)} {e : Nat × Nat}
    (hg : ValidConnectivity g n (as ++ bs)) (hg' : ValidConnectivity g' n (as ++ e :: bs)) (hne : as ++ bs ≠ [])
    {calls calls' : List (Call R)}
    (hpv : lastPoreVolume g' calls' = lastPoreVolume g calls) (hm : lastInflow calls' = lastInflow calls)
    {np : Nat} {phi phi' : Nat → Nat → R} (hf : FluxGiven g calls np phi) (hf' : FluxGiven g' calls' np phi')
    (h1 : ∀ c < as.length, ∀ p < np, phi' c p = phi c p) (h2 : NoSign (phaseSum (phi' as.length) np))
    (h3 : ∀ c < bs.length, ∀ p < np, phi' (as.length + 1 + c) p = phi (as.length + c) p)
    (al : Nat → Alloc) (fuel : Nat) (starts : List CellSet) :
    injectionOutcome g' calls' al fuel starts = injectionOutcome g calls al fuel starts ∧
    productionOutcome g' calls' al fuel starts = productionOutcome g calls al fuel starts := by
  refine outcome_of_directed hg hg' hpv hm hf hf' ?_ ?_ al fuel starts
  · simp [hne]
  · have h0 : directed [e] (fun c => phaseSum (phi' (as.length + c)) np) = [] := by
      unfold directed
      simp [orient, h2.1, h2.2]
    rw [show as ++ e :: bs = as ++ ([e] ++ bs) from rfl, directed_append, directed_append, directed_append, h0, List.nil_append]
    congr 1
    · refine directed_congr rfl fun c hc => ?_
      rw [phaseSum_congr (h1 c hc)]
    · refine directed_congr rfl fun c hc => ?_
      have := phaseSum_congr (h3 c hc)
      simp only [List.length_singleton]
      rw [show as.length + (1 + c) = as.length + 1 + c by omega, this]

/-! ### C40 -/

open Classical in
/-- Valid input, any arithmetic: with enough steps for the graph algorithms, diagnostics return a
    solution, throw one of the documented exceptions, stop at an assertion, or iterate on; they never access memory out of
    bounds, use uninitialised or null values, or overflow. -/
theorem C40_no_undefined_behaviour {g : ConnectivityGraph} {n : Nat} {cs : List (Nat × Nat)}
    (hg : ValidConnectivity g n cs) {calls : List (Call R)} {np : Nat} {phi : Nat → Nat → R}
    (hpv : lastPoreVolume g calls ≠ none) (hf : FluxGiven g calls np phi)
    (hm : CellsBelow ((lastInflow calls).getD []) n) (starts : List CellSet) :
    ∃ N, ∀ fuel, N ≤ fuel →
      ∀ r, r = injectionOutcome g calls noFailure fuel starts ∨ r = productionOutcome g calls noFailure fuel starts →
        (∃ sol, r = .ok sol) ∨ r = .throw .logicError ∨ r = .throw .runtimeError ∨ r = .ub .assertFail ∨ r = .diverge := by
  by_cases hc : Complete g calls
  · obtain ⟨pv, f, h1, h2, h3, h4⟩ := complete_outcome hc
    obtain ⟨f', e', hf⟩ := hf
    rw [h2] at e'; cases e'
    rw [hg.count] at hf
    have hgr := graphs_eq hg hf
    obtain ⟨hG, hGr⟩ := graphsOf_good hg.int (directed_range hg.range fun c => phaseSum (phi c) np)
    have hl : pv.length = n := by rw [lastPoreVolume_length h1, hg.cells]
    obtain ⟨N1, hN1⟩ := computeSolution_safe hg.int hG hGr hl (positives_range hm) starts
    obtain ⟨N2, hN2⟩ := computeSolution_safe hg.int hGr hG hl (negatives_range hm) starts
    refine ⟨max N1 N2, fun fuel hfu r hr => ?_⟩
    rw [injectionOutcome_eq, productionOutcome_eq, h1, h2] at hr
    simp only [Option.getD_some] at hr
    rw [outcome_complete h3 h4, outcome_complete h3 h4, check_injection, check_production, hgr] at hr
    have fin : ∀ r : Res (Solution R), r.Safe →
        (∃ sol, r = .ok sol) ∨ r = .throw .logicError ∨ r = .throw .runtimeError ∨ r = .ub .assertFail ∨ r = .diverge := by
      intro r hr
      cases r with
      | ok s => exact Or.inl ⟨s, rfl⟩
      | throw e => cases e <;> first | exact Or.inr (Or.inl rfl) | (cases hr)
      | ub e => cases e <;> first | exact Or.inr (Or.inr (Or.inr (Or.inl rfl))) | (cases hr)
      | diverge => simp
    rcases hr with rfl | rfl
    · split
      · rw [Res.ok_bind, Res.ok_bind, splitInflow_eq]
        exact fin _ (hN1 fuel (by omega))
      · exact Or.inr (Or.inr (Or.inl rfl))
    · split
      · rw [Res.ok_bind, Res.ok_bind, splitInflow_eq]
        exact fin _ (hN2 fuel (by omega))
      · exact Or.inr (Or.inr (Or.inl rfl))
  · refine ⟨0, fun fuel _ r hr => ?_⟩
    obtain ⟨h1, h2⟩ := C34_missing g calls hc noFailure fuel starts
    rw [h1, h2] at hr
    rcases hr with rfl | rfl <;> exact Or.inr (Or.inl rfl)

/-- Accepted start sets never end with runtime_error. -/
theorem C35_accepted {g : ConnectivityGraph} {n : Nat} {cs : List (Nat × Nat)}
    (hg : ValidConnectivity g n cs) {calls : List (Call R)} {np : Nat} {phi : Nat → Nat → R}
    (hf : FluxGiven g calls np phi)
    (hm : CellsBelow ((lastInflow calls).getD []) n) (starts : List CellSet) :
    ∃ N, ∀ fuel, N ≤ fuel →
      (InjectionAccepts ((lastInflow calls).getD []) starts →
        injectionOutcome g calls noFailure fuel starts ≠ .throw .runtimeError) ∧
      (ProductionAccepts ((lastInflow calls).getD []) starts →
        productionOutcome g calls noFailure fuel starts ≠ .throw .runtimeError) := by
  by_cases hc : Complete g calls
  · obtain ⟨pv, f, h1, h2, h3, h4⟩ := complete_outcome hc
    obtain ⟨f', e', hf⟩ := hf
    rw [h2] at e'; cases e'
    rw [hg.count] at hf
    have hgr := graphs_eq hg hf
    obtain ⟨hG, hGr⟩ := graphsOf_good hg.int (directed_range hg.range fun c => phaseSum (phi c) np)
    have hl : pv.length = n := by rw [lastPoreVolume_length h1, hg.cells]
    obtain ⟨N1, hN1⟩ := computeSolution_safe hg.int hG hGr hl (positives_range hm) starts
    obtain ⟨N2, hN2⟩ := computeSolution_safe hg.int hGr hG hl (negatives_range hm) starts
    refine ⟨max N1 N2, fun fuel hfu => ?_⟩
    rw [injectionOutcome_eq, productionOutcome_eq, h1, h2]
    simp only [Option.getD_some]
    rw [outcome_complete h3 h4, outcome_complete h3 h4, check_injection, check_production, hgr]
    constructor
    · intro ha
      rw [if_pos ha, Res.ok_bind, Res.ok_bind, splitInflow_eq]
      have := hN1 fuel (by omega)
      intro e
      simp only [Bool.false_eq_true, if_false] at e
      rw [e] at this; cases this
    · intro ha
      rw [if_pos ha, Res.ok_bind, Res.ok_bind, splitInflow_eq]
      have := hN2 fuel (by omega)
      intro e
      simp only [if_true] at e
      rw [e] at this; cases this
  · refine ⟨0, fun fuel _ => ?_⟩
    obtain ⟨h1, h2⟩ := C34_missing g calls hc noFailure fuel starts
    rw [h1, h2]
    constructor <;> intro _ h <;> cases h

/-! ### C41 -/

/-- A solution lists exactly the requested ids in ascending order, has a global time of flight for
    each cell, and empty fields for other ids. -/
theorem C41_ids (g : ConnectivityGraph) (calls : List (Call R)) (al : Nat → Alloc) (fuel : Nat) (starts : List CellSet)
    (sol : Solution R)
    (h : injectionOutcome g calls al fuel starts = .ok sol ∨ productionOutcome g calls al fuel starts = .ok sol) :
    sol.startPoints.Pairwise (· < ·) ∧ (∀ i, i ∈ sol.startPoints ↔ ∃ s ∈ starts, s.id = i) ∧
    sol.timeOfFlight.length = g.numCells ∧
    ∀ i, (¬ ∃ s ∈ starts, s.id = i) → sol.timeOfFlightOf i = [] ∧ sol.concentration i = [] := by
  have key : ∃ G Gr pv only byId, pv.length = g.numCells ∧
      computeSolution (R := R) G Gr pv only byId al fuel starts = .ok sol := by
    have aux : ∀ rev s, outcome rev g ((lastPoreVolume g calls).getD [])
      ((lastFlux g calls).getD (ConnectionValues.create 0 0)) s al fuel starts = .ok sol →
        ∃ G Gr pv only byId, pv.length = g.numCells ∧
          computeSolution (R := R) G Gr pv only byId al fuel starts = .ok sol := by
      intro rev s h
      unfold outcome at h
      split at h
      · cases h
      · rename_i hn
        simp only [Res.bind_ok_iff] at h
        obtain ⟨_, _, gs, _, h⟩ := h
        refine ⟨_, _, _, _, _, ?_, h⟩
        cases e : lastPoreVolume g calls with
        | none => rw [e] at hn; simp at hn
        | some pv => exact lastPoreVolume_length e
    rcases h with h | h
    · rw [injectionOutcome_eq] at h; exact aux _ _ h
    · rw [productionOutcome_eq] at h; exact aux _ _ h
  obtain ⟨G, Gr, pv, only, byId, hpv, h⟩ := key
  unfold computeSolution at h
  simp only [Res.bind_eq, Res.bind_ok_iff] at h
  obtain ⟨⟨d, st⟩, hcr, tof, htof, h⟩ := h
  obtain ⟨h1, h2, h3, h4⟩ := solveSets_keys h OMap.sorted_nil
  have hd : d.pv = pv := by
    unfold Solver.create at hcr
    simp only [Res.bind_eq, Res.bind_ok_iff, Res.pure_eq] at hcr
    obtain ⟨_, _, _, _, hcr⟩ := hcr
    cases hcr; rfl
  refine ⟨OMap.keys_sorted h2, ?_, ?_, ?_⟩
  · intro i
    show i ∈ sol.tracer.map Prod.fst ↔ _
    rw [← OMap.find_isSome_iff, h3]
    simp [Solution.assignToF, OMap.find]
  · show sol.tof.length = _
    rw [h1, ← hpv, ← hd]
    exact solveGlobal_length htof
  · intro i hi
    have e3 : OMap.find sol.tracer i = none := by
      rw [← Option.not_isSome_iff_eq_none, h3]
      simp only [hi, false_or]
      simp [Solution.assignToF, OMap.find]
    have e4 : OMap.find sol.tracerToF i = none := by
      rw [← Option.not_isSome_iff_eq_none, h4]
      simp only [hi, false_or]
      simp [Solution.assignToF, OMap.find]
    unfold Solution.timeOfFlightOf Solution.concentration Solution.solutionValues
    rw [e3, e4]
    exact ⟨rfl, rfl⟩

end

end Verif.Props
