/-
C95: what is computed for a cell depends only on what lies upstream of it.
-/
import Verif.Proofs.UpstreamData
import Verif.Spec.Upstream
import Verif.Props.Monotone

namespace Verif.Props
open Verif.Spec Verif.Solver Verif.Toolbox Verif.Tarjan Verif.Counter Verif.Rounding Verif.Upstream

variable {R : Type} [Arith R]

theorem positives_at (m : InflowFlux R) (v : Nat) :
    ((positives (entries m)).filter fun e => decide (e.2.1 = (v : Int))) = (injectedAt m v).map fun p => (p.1, (v : Int), p.2) := by
  unfold positives entries injectedAt
  induction m with
  | nil => rfl
  | cons s m ih =>
    rw [List.flatMap_cons, List.flatMap_cons, List.filter_append, List.filter_append, List.map_append, ih]
    congr 1
    generalize s.2 = l
    induction l with
    | nil => rfl
    | cons e l ih2 =>
      rw [List.filterMap_cons, List.map_cons, List.filter_cons]
      by_cases h1 : Arith.lt Arith.zero e.2 = true
      · by_cases h2 : e.1 = (v : Int) <;> simp [h1, h2, show (Arith.lit 0 : R) = Arith.zero from rfl, ih2]
      · simp [h1, show (Arith.lit 0 : R) = Arith.zero from rfl, ih2]

theorem negatives_at (m : InflowFlux R) (v : Nat) :
    ((negatives (entries m)).filter fun e => decide (e.2.1 = (v : Int))) =
      (producedAt m v).map fun p => (p.1, (v : Int), Arith.neg p.2) := by
  unfold negatives entries producedAt
  induction m with
  | nil => rfl
  | cons s m ih =>
    rw [List.flatMap_cons, List.flatMap_cons, List.filter_append, List.map_append, List.filter_append, List.map_append, ih]
    congr 1
    generalize s.2 = l
    induction l with
    | nil => rfl
    | cons e l ih2 =>
      rw [List.filterMap_cons, List.map_cons, List.filter_cons]
      by_cases h1 : Arith.lt Arith.zero e.2 = true
      · simp [h1, show (Arith.lit 0 : R) = Arith.zero from rfl, ih2]
      · by_cases h3 : Arith.lt e.2 Arith.zero = true
        · by_cases h2 : e.1 = (v : Int) <;> simp [h1, h2, h3, show (Arith.lit 0 : R) = Arith.zero from rfl, ih2]
        · simp [h1, h3, show (Arith.lit 0 : R) = Arith.zero from rfl, ih2]

theorem flowsTo_range {n : Nat} {cs : List (Nat × Nat)} (hr : ∀ e ∈ cs, e.1 < n ∧ e.2 < n) {x : Nat → R} {u v : Nat}
    (h : FlowsTo cs x u v) : u < n ∧ v < n := by
  obtain ⟨c, ⟨h, _⟩ | ⟨h, _⟩⟩ := h
  · exact hr _ (List.mem_of_getElem? h)
  · exact (hr _ (List.mem_of_getElem? h)).symm

/-- **C95** Two problems, on grids of any sizes.  If no cell upstream of `v` is on a cycle, and `v` and the cells upstream
    have in both the same pore volumes, the same fluxes into them and the same rates of injection, then injection
    diagnostics give the same values in `v`, to the last bit, whatever else is different. -/
theorem C95_injection {g g' : ConnectivityGraph} {n n' : Nat} {cs cs' : List (Nat × Nat)}
    (hg : ValidConnectivity g n cs) (hg' : ValidConnectivity g' n' cs') {calls calls' : List (Call R)} {np np' : Nat}
    {phi phi' : Nat → Nat → R} {pv pv' : List R} (hpv : lastPoreVolume g calls = some pv) (hpv' : lastPoreVolume g' calls' = some pv')
    (hf : FluxGiven g calls np phi) (hf' : FluxGiven g' calls' np' phi')
    (hm : CellsBelow ((lastInflow calls).getD []) n) (hm' : CellsBelow ((lastInflow calls').getD []) n') {v : Nat} (hv : v < n)
    (hsame : ∀ u, Relation.ReflTransGen (FlowsTo cs fun c => phaseSum (phi c) np) u v →
      ¬ Relation.TransGen (FlowsTo cs fun c => phaseSum (phi c) np) u u ∧ pv'[u]? = pv[u]? ∧
      (∀ w, carriedBy cs' (fun c => phaseSum (phi' c) np') w u = carriedBy cs (fun c => phaseSum (phi c) np) w u) ∧
      injectedAt ((lastInflow calls').getD []) u = injectedAt ((lastInflow calls).getD []) u)
    {starts starts' : List CellSet} {sol sol' : Solution R} (hr : InjectionReturns g calls starts (.ok sol))
    (hr' : InjectionReturns g' calls' starts' (.ok sol')) :
    sol'.timeOfFlight[v]? = sol.timeOfFlight[v]? ∧
    ∀ s ∈ starts, ∀ s' ∈ starts', s'.id = s.id →
      (sol'.timeOfFlightOf s.id).find (v : Int) = (sol.timeOfFlightOf s.id).find (v : Int) ∧
      (sol'.concentration s.id).find (v : Int) = (sol.concentration s.id).find (v : Int) := by
  have hl : pv.length = n := by rw [lastPoreVolume_length hpv, hg.cells]
  have hl' : pv'.length = n' := by rw [lastPoreVolume_length hpv', hg'.cells]
  have hD := directed_range hg.range fun c => phaseSum (phi c) np
  have hD' := directed_range hg'.range fun c => phaseSum (phi' c) np'
  have hgo : ∀ u w, Goes (directed cs fun c => phaseSum (phi c) np) u w → FlowsTo cs (fun c => phaseSum (phi c) np) u w :=
    fun u w ⟨_, h⟩ => mem_directed h
  have halike : Alike n n' (directed cs fun c => phaseSum (phi c) np) (directed cs' fun c => phaseSum (phi' c) np') pv pv'
      (positives (entries ((lastInflow calls).getD []))) (positives (entries ((lastInflow calls').getD [])))
      (fun u => Relation.ReflTransGen (FlowsTo cs fun c => phaseSum (phi c) np) u v) := by
    refine ⟨fun u hu => ?_, fun u w h hw => .head (hgo u w h) hw, fun u hu hc => (hsame u hu).1 (Relation.TransGen.mono hgo _ _ hc),
      fun u hu w => ?_, fun u hu => (hsame u hu).2.1, fun u hu => ?_⟩
    · have hun : u < n := by
        rcases Relation.ReflTransGen.cases_head hu with rfl | ⟨w, h, _⟩
        · exact hv
        · exact (flowsTo_range hg.range h).1
      refine ⟨hun, ?_⟩
      have := (hsame u hu).2.1
      rw [List.getElem?_eq_getElem (by omega : u < pv.length)] at this
      have := (List.getElem?_eq_some_iff.mp this).1
      omega
    · rw [← carriedBy_eq, ← carriedBy_eq]
      exact (hsame u hu).2.2.1 w
    · rw [positives_at, positives_at, (hsame u hu).2.2.2]
  obtain ⟨N, hN⟩ := hr
  obtain ⟨N', hN'⟩ := hr'
  let M := max (max N N') (max (n + numEdges n (graphsOf n (directed cs fun c => phaseSum (phi c) np)).1.startPointers)
    (n' + numEdges n' (graphsOf n' (directed cs' fun c => phaseSum (phi' c) np')).1.startPointers))
  have h1 := (outcomes_eq hg hpv hf M starts).1
  have h1' := (outcomes_eq hg' hpv' hf' M starts').1
  rw [hN _ (by omega)] at h1
  rw [hN' _ (by omega)] at h1'
  rcases h1 with h1 | h1 | h1
  · cases h1
  · cases h1
  rcases h1' with h1' | h1' | h1'
  · cases h1'
  · cases h1'
  have key := computeSolution_same hg.int hg'.int halike hD hD' hl hl' (positives_range hm) (positives_range hm') (fuel := M)
    (by omega) (by omega) h1.symm h1'.symm
  refine ⟨key.global v .refl, fun s hs s' hs' e => ?_⟩
  have hi : s.id ∈ starts.map CellSet.id := List.mem_map_of_mem hs
  have hi' : s.id ∈ starts'.map CellSet.id := e ▸ List.mem_map_of_mem hs'
  exact ⟨key.tof _ hi hi' v .refl, key.conc _ hi hi' v .refl⟩

/-- **C95** The same for producers, with the cells downstream, the fluxes out of them and the rates of production. -/
theorem C95_production {g g' : ConnectivityGraph} {n n' : Nat} {cs cs' : List (Nat × Nat)}
    (hg : ValidConnectivity g n cs) (hg' : ValidConnectivity g' n' cs') {calls calls' : List (Call R)} {np np' : Nat}
    {phi phi' : Nat → Nat → R} {pv pv' : List R} (hpv : lastPoreVolume g calls = some pv) (hpv' : lastPoreVolume g' calls' = some pv')
    (hf : FluxGiven g calls np phi) (hf' : FluxGiven g' calls' np' phi')
    (hm : CellsBelow ((lastInflow calls).getD []) n) (hm' : CellsBelow ((lastInflow calls').getD []) n') {v : Nat} (hv : v < n)
    (hsame : ∀ u, Relation.ReflTransGen (FlowsTo cs fun c => phaseSum (phi c) np) v u →
      ¬ Relation.TransGen (FlowsTo cs fun c => phaseSum (phi c) np) u u ∧ pv'[u]? = pv[u]? ∧
      (∀ w, carriedBy cs' (fun c => phaseSum (phi' c) np') u w = carriedBy cs (fun c => phaseSum (phi c) np) u w) ∧
      producedAt ((lastInflow calls').getD []) u = producedAt ((lastInflow calls).getD []) u)
    {starts starts' : List CellSet} {sol sol' : Solution R} (hr : ProductionReturns g calls starts (.ok sol))
    (hr' : ProductionReturns g' calls' starts' (.ok sol')) :
    sol'.timeOfFlight[v]? = sol.timeOfFlight[v]? ∧
    ∀ s ∈ starts, ∀ s' ∈ starts', s'.id = s.id →
      (sol'.timeOfFlightOf s.id).find (v : Int) = (sol.timeOfFlightOf s.id).find (v : Int) ∧
      (sol'.concentration s.id).find (v : Int) = (sol.concentration s.id).find (v : Int) := by
  have hl : pv.length = n := by rw [lastPoreVolume_length hpv, hg.cells]
  have hl' : pv'.length = n' := by rw [lastPoreVolume_length hpv', hg'.cells]
  have hD := directed_range hg.range fun c => phaseSum (phi c) np
  have hD' := directed_range hg'.range fun c => phaseSum (phi' c) np'
  have hgo : ∀ u w, Goes (swapEnds (directed cs fun c => phaseSum (phi c) np)) u w → FlowsTo cs (fun c => phaseSum (phi c) np) w u :=
    fun u w ⟨_, h⟩ => mem_directed (mem_swapEnds h)
  have halike : Alike n n' (swapEnds (directed cs fun c => phaseSum (phi c) np)) (swapEnds (directed cs' fun c => phaseSum (phi' c) np'))
      pv pv' (negatives (entries ((lastInflow calls).getD []))) (negatives (entries ((lastInflow calls').getD [])))
      (fun u => Relation.ReflTransGen (FlowsTo cs fun c => phaseSum (phi c) np) v u) := by
    refine ⟨fun u hu => ?_, fun u w h hw => .tail hw (hgo u w h),
      fun u hu hc => (hsame u hu).1 (Relation.transGen_swap.mp (Relation.TransGen.mono hgo _ _ hc)),
      fun u hu w => ?_, fun u hu => (hsame u hu).2.1, fun u hu => ?_⟩
    · have hun : u < n := by
        rcases Relation.ReflTransGen.cases_tail hu with rfl | ⟨w, _, h⟩
        · exact hv
        · exact (flowsTo_range hg.range h).2
      refine ⟨hun, ?_⟩
      have := (hsame u hu).2.1
      rw [List.getElem?_eq_getElem (by omega : u < pv.length)] at this
      have := (List.getElem?_eq_some_iff.mp this).1
      omega
    · rw [weightsOf_swapEnds, weightsOf_swapEnds, ← carriedBy_eq, ← carriedBy_eq]
      exact (hsame u hu).2.2.1 w
    · rw [negatives_at, negatives_at, (hsame u hu).2.2.2]
  obtain ⟨N, hN⟩ := hr
  obtain ⟨N', hN'⟩ := hr'
  let M := max (max N N') (max (n + numEdges n (graphsOf n (swapEnds (directed cs fun c => phaseSum (phi c) np))).1.startPointers)
    (n' + numEdges n' (graphsOf n' (swapEnds (directed cs' fun c => phaseSum (phi' c) np'))).1.startPointers))
  have h1 := (outcomes_eq hg hpv hf M starts).2
  have h1' := (outcomes_eq hg' hpv' hf' M starts').2
  rw [hN _ (by omega)] at h1
  rw [hN' _ (by omega)] at h1'
  rcases h1 with h1 | h1 | h1
  · cases h1
  · cases h1
  rcases h1' with h1' | h1' | h1'
  · cases h1'
  · cases h1'
  have key := computeSolution_same hg.int hg'.int halike (swapped_range hD) (swapped_range hD') hl hl' (negatives_range hm)
    (negatives_range hm') (fuel := M) (by omega) (by omega) h1.symm h1'.symm
  refine ⟨key.global v .refl, fun s hs s' hs' e => ?_⟩
  have hi : s.id ∈ starts.map CellSet.id := List.mem_map_of_mem hs
  have hi' : s.id ∈ starts'.map CellSet.id := e ▸ List.mem_map_of_mem hs'
  exact ⟨key.tof _ hi hi' v .refl, key.conc _ hi hi' v .refl⟩

/-! ### Example

The flow of `accCalls`, and the same flow with more to the right of cell 2: the water goes on to cell 3, where it is produced,
and turns in a cycle between cells 3 and 4. -/

deriving instance DecidableEq for Double

def upGraph : ConnectivityGraph := ⟨5, [0, 1, 1, 2, 0, 2, 2, 3, 3, 4, 4, 3]⟩

def upConns : List (Nat × Nat) := [(0, 1), (1, 2), (0, 2), (2, 3), (3, 4), (4, 3)]

def upPhi (c _p : Nat) : Double := if c = 2 then Arith.lit 7 else if c < 3 then Arith.lit 3 else if c = 3 then Arith.lit 10 else Arith.lit 1

def upRates : InflowFlux Double := [(⟨[73]⟩, [(0, Arith.lit 10)]), (⟨[80]⟩, [(3, Arith.lit (-10))])]

def upCalls : List (Call Double) :=
  [.assignPoreVolume [Arith.lit 1, Arith.lit 2, Arith.lit 2, Arith.lit 5, Arith.lit 6],
   .assignConnectionFlux ⟨6, 1, [Arith.lit 3, Arith.lit 3, Arith.lit 7, Arith.lit 10, Arith.lit 1, Arith.lit 1]⟩,
   .assignInflowFlux upRates]

theorem up_connectivity : ValidConnectivity upGraph 5 upConns where
  cells := rfl
  count := rfl
  connection := by
    intro i hi
    have hi : i < 6 := hi
    interval_cases i <;> rfl
  int := by decide
  range := by decide

theorem upPhi_given : FluxGiven upGraph upCalls 1 upPhi := by
  refine ⟨_, rfl, rfl, rfl, ?_⟩
  intro c hc p hp
  have hp : p = 0 := by omega
  subst hp
  have hc : c < 6 := hc
  interval_cases c <;> rfl

set_option maxRecDepth 100000 in
theorem up_returns : ∃ s, InjectionReturns upGraph upCalls accInjectors (.ok s) := by
  obtain ⟨s, h, _⟩ := okWith_spec (p := fun _ => true)
    (show okWith _ (injectionOutcome upGraph upCalls noFailure 100 accInjectors) = true by decide +kernel)
  exact ⟨s, (Fuel.injection_returns.mpr ⟨100, h, by simp⟩).1⟩

omit [Arith R] in
theorem carriedBy_above [Arith R] {n : Nat} {cs : List (Nat × Nat)} (hr : ∀ e ∈ cs, e.1 < n ∧ e.2 < n) (x : Nat → R) {w u : Nat}
    (hw : n ≤ w) : carriedBy cs x w u = [] := by
  unfold carriedBy
  rw [List.filterMap_eq_nil_iff]
  rintro ⟨⟨a, b⟩, c⟩ he
  have := hr _ (List.fst_mem_of_mem_zipIdx he)
  have h1 : ¬ (a, b) = (w, u) := fun h => by cases h; exact absurd this.1 (Nat.not_lt.mpr hw)
  have h2 : ¬ (a, b) = (u, w) := fun h => by cases h; exact absurd this.2 (Nat.not_lt.mpr hw)
  simp only [h1, h2, if_false, ite_self]

theorem up_carried : ∀ u < 3, ∀ w < 5, carriedBy upConns (fun c => phaseSum (upPhi c) 1) w u =
    carriedBy accProblem.conns (fun c => phaseSum (accPhi c) 1) w u := by
  decide +kernel

theorem up_injected : ∀ u < 3, injectedAt upRates u = injectedAt accRates u := by decide +kernel

/-- C95: the values in cell 2 do not notice what happens to the right of it. -/
example : ∃ s s', InjectionReturns accGraph accCalls accInjectors (.ok s) ∧ InjectionReturns upGraph upCalls accInjectors (.ok s') ∧
    s.timeOfFlight[2]? ≠ none ∧ s'.timeOfFlight[2]? = s.timeOfFlight[2]? ∧
    (s'.concentration ⟨[73]⟩).find 2 = (s.concentration ⟨[73]⟩).find 2 := by
  obtain ⟨s, h1, h2⟩ := acc_returns
  obtain ⟨s', h1'⟩ := up_returns
  have hg := stored_connectivity accProblem_valid acc_stored
  obtain ⟨a, b⟩ := C95_injection hg up_connectivity (calls := accCalls) (calls' := upCalls) (np := 1) (np' := 1) (phi := accPhi)
    (phi' := upPhi) rfl rfl (accPhi_given _ _) upPhi_given (show CellsBelow accRates 3 by unfold CellsBelow; decide +kernel)
    (show CellsBelow upRates 5 by unfold CellsBelow; decide +kernel) (v := 2) (by decide) (fun u hu => by
      have hu : u < 3 := by
        rcases Relation.ReflTransGen.cases_head hu with rfl | ⟨w, h, _⟩
        · decide
        · exact (flowsTo_range hg.range h).1
      refine ⟨accPhi_noCycle u, by interval_cases u <;> rfl, fun w => ?_, up_injected u hu⟩
      by_cases hw : w < 5
      · exact up_carried u hu w hw
      · rw [carriedBy_above up_connectivity.range _ (by omega), carriedBy_above hg.range _ (by
          show 3 ≤ w
          omega)]) h1 h1'
  exact ⟨s, s', h1, h1', h2, a, (b _ (List.mem_singleton.mpr rfl) _ (List.mem_singleton.mpr rfl) rfl).2⟩

end Verif.Props
