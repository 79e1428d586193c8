/-
C66: whether diagnostics return.
-/
import Verif.Props.Accuracy
import Verif.Props.SweepCounter
import Verif.Proofs.EndlessProblem
import Verif.Proofs.Ends

namespace Verif.Props
open Verif.Spec Verif.Toolbox Verif.Solver Verif.Rounding Verif.Counter Verif.Endless

section
variable {R : Type} [Arith R]

open Classical in
/-- Valid input, any arithmetic, no flow around a cycle of cells: diagnostics end.  They return a solution, throw a documented
    exception or stop at an assertion.  Partial: with cycles this is false for `double`s (`C66_endless`). -/
theorem C66_acyclic_partial {g : ConnectivityGraph} {n : Nat} {cs : List (Nat × Nat)}
    (hg : ValidConnectivity g n cs) {calls : List (Call R)} {np : Nat} {phi : Nat → Nat → R}
    (hpv : lastPoreVolume g calls ≠ none) (hf : FluxGiven g calls np phi)
    (hm : CellsBelow ((lastInflow calls).getD []) n)
    (hacy : NoCycle cs fun c => phaseSum (phi c) np) (starts : List CellSet) :
    (∃ r, InjectionReturns g calls starts r ∧
      ((∃ sol, r = .ok sol) ∨ r = .throw .logicError ∨ r = .throw .runtimeError ∨ r = .ub .assertFail)) ∧
    ∃ r, ProductionReturns g calls starts r ∧
      ((∃ sol, r = .ok sol) ∨ r = .throw .logicError ∨ r = .throw .runtimeError ∨ r = .ub .assertFail) := by
  obtain ⟨N, hN⟩ := C40_no_undefined_behaviour hg hpv hf hm starts
  have key : ∃ M, ∀ fuel, M ≤ fuel → (injectionOutcome g calls noFailure fuel starts).Ends ∧
      (productionOutcome g calls noFailure fuel starts).Ends := by
    by_cases hc : Complete g calls
    · obtain ⟨pv, f, h1, h2, h3, h4⟩ := complete_outcome hc
      obtain ⟨f', e', hf⟩ := hf
      rw [h2] at e'; cases e'
      rw [hg.count] at hf
      have hgr := graphs_eq hg hf
      have hr := directed_range hg.range fun c => phaseSum (phi c) np
      obtain ⟨hG, hGr⟩ := graphsOf_good hg.int hr
      obtain ⟨hA, hAr⟩ := graphsOf_acyclic hg.int hr (fun u v w h => mem_directed h) hacy
      have hl : pv.length = n := by rw [lastPoreVolume_length h1, hg.cells]
      obtain ⟨N1, hN1⟩ := ends_computeSolution hg.int hG hGr hA hl (positives_range hm) starts
      obtain ⟨N2, hN2⟩ := ends_computeSolution hg.int hGr hG hAr hl (negatives_range hm) starts
      refine ⟨max N1 N2, fun fuel hfu => ?_⟩
      rw [injectionOutcome_eq, productionOutcome_eq, h1, h2]
      simp only [Option.getD_some]
      rw [outcome_complete h3 h4, outcome_complete h3 h4, check_injection, check_production, hgr]
      constructor
      · split
        · rw [Res.ok_bind, Res.ok_bind, splitInflow_eq]
          exact hN1 fuel (by omega)
        · intro h; cases h
      · split
        · rw [Res.ok_bind, Res.ok_bind, splitInflow_eq]
          exact hN2 fuel (by omega)
        · intro h; cases h
    · refine ⟨0, fun fuel _ => ?_⟩
      obtain ⟨h1, h2⟩ := C34_missing g calls hc noFailure fuel starts
      rw [h1, h2]
      exact ⟨nofun, nofun⟩
  obtain ⟨M, hM⟩ := key
  obtain ⟨e1, e2⟩ := hM (max N M) (le_max_right ..)
  constructor
  · refine ⟨_, (Fuel.injection_returns.mpr ⟨max N M, rfl, e1⟩).1, ?_⟩
    rcases hN (max N M) (le_max_left ..) _ (Or.inl rfl) with h | h | h | h | h
    · exact Or.inl h
    · exact Or.inr (Or.inl h)
    · exact Or.inr (Or.inr (Or.inl h))
    · exact Or.inr (Or.inr (Or.inr h))
    · exact (e1 h).elim
  · refine ⟨_, (Fuel.production_returns.mpr ⟨max N M, rfl, e2⟩).1, ?_⟩
    rcases hN (max N M) (le_max_left ..) _ (Or.inr rfl) with h | h | h | h | h
    · exact Or.inl h
    · exact Or.inr (Or.inl h)
    · exact Or.inr (Or.inr (Or.inl h))
    · exact Or.inr (Or.inr (Or.inr h))
    · exact (e2 h).elim

end

/-- `C66_acyclic_partial` applies to computations with `double`s on `accProblem`. -/
example : ∃ r, InjectionReturns accGraph accCalls [⟨⟨[73]⟩, [0]⟩] r ∧
    ((∃ sol, r = .ok sol) ∨ r = .throw .logicError ∨ r = .throw .runtimeError ∨ r = .ub .assertFail) := by
  obtain ⟨np, phi, hf, hphi⟩ := acc_stored.flux
  refine (C66_acyclic_partial (stored_connectivity accProblem_valid acc_stored) (by decide) hf ?_ ?_ _).1
  · intro set hset e he
    simp only [accCalls, lastInflow, lastSome, List.reverse_cons, List.reverse_nil, List.nil_append, List.cons_append,
      List.findSome?_cons, Option.getD_some, List.mem_cons, List.not_mem_nil, or_false] at hset
    rcases hset with rfl | rfl
    · simp only [List.mem_singleton] at he; subst he; decide
    · simp only [List.mem_singleton] at he; subst he; decide
  · intro v hv
    refine absurd (Relation.TransGen.trans_induction_on (motive := fun {a b} _ => a < b) hv ?_ ?_) (lt_irrefl v)
    · rintro u v ⟨c, ⟨h1, _⟩ | ⟨h1, h2⟩⟩
      · match c, h1 with
        | 0, h1 => cases h1; decide
        | 1, h1 => cases h1; decide
        | 2, h1 => cases h1; decide
      · exfalso
        have hc : c < accProblem.conns.length := by
          by_contra hc
          rw [List.getElem?_eq_none (by omega)] at h1; cases h1
        have h3 : X.lt (Double.val (phaseSum (phi c) np)) (Double.val Arith.zero) = true := h2
        rw [hphi c hc, show Double.val Arith.zero = X.fin 0 from val_zero' Double.rounded, acc_net] at h3
        revert h3
        split <;> simp [X.lt]
    · intro a b c _ _ h1 h2; exact h1.trans h2

/-- Exact computation returns a solution, `double`s do not: a valid problem with balanced flow, all of whose data are whole
    numbers of ordinary size.  Exact arithmetic gives a solution for all accepted start sets.  With the same data as `double`s
    no number of steps is enough, and the counter of sweeps overflows. -/
theorem C66_endless : ∃ P : Problem ℚ, P.Valid ∧ P.Balanced ∧ (∃ M, P.OfOrdinarySize M) ∧
    (∃ g calls, P.GivenTo g calls) ∧
    (∀ g calls, P.GivenTo g calls → ∀ starts, InjectionAccepts P.inflowMap starts → ∃ sol, InjectionReturns g calls starts (.ok sol)) ∧
    ∃ g calls, P.StoredIn g calls ∧ ∀ starts, InjectionAccepts P.inflowMap starts →
      (∀ fuel, injectionOutcome g calls noFailure fuel starts = .diverge) ∧
      ∃ N, ∀ fuel, N ≤ fuel → injectionCounted g calls noFailure fuel starts = .ub .overflow := by
  obtain ⟨N, hN⟩ : ∃ N, N = 10000 := ⟨_, rfl⟩
  have hI : N + 3 ≤ INT_MAX := by unfold INT_MAX; omega
  have hP := ring_valid hI
  have hsz : (ringProblem N).conns.length * (ringProblem N).nphase < SIZE_MOD := by
    show (ringConns N).length * 1 < _
    rw [ringConns_length]; unfold SIZE_MOD; omega
  refine ⟨ringProblem N, hP, ring_balanced (by omega), ⟨_, ring_ordinary hI⟩, exists_given hP hsz,
    fun g calls h starts ha => (C40_valid_problem hP h starts).1 ha, ?_⟩
  obtain ⟨g, _, hg⟩ := exists_connectivity hP.int hP.range
  obtain ⟨calls, h1, h2, h3⟩ := exists_calls hg.toHasConnections (pv := poreVolumes N) (by simp [poreVolumes, ringProblem]) hsz
    (fun c _ => fluxAt N c) (ringInflow N)
  have hS : (ringProblem N).StoredIn g calls := by
    refine ⟨hg.toHasConnections, ⟨_, h1, ?_⟩, ⟨1, _, h2, ?_⟩, ?_⟩
    · unfold poreVolumes arr
      rw [List.map_map]
      refine List.map_congr_left fun v _ => ?_
      simp only [Function.comp, pvAt, ringProblem]
      split
      · rw [Double.val_ofNat (by norm_num)]; norm_num
      · rw [Double.val_ofNat (by norm_num)]; norm_num
    · intro c _
      rw [ring_net]
      have := fluxNat_bounds N c
      simp only [fluxAt_eq]
      show Double.val (Arith.add Arith.zero (Double.ofNat _)) = _
      rw [Double.zero_eq, Double.add_ofNat (by norm_num) (by omega), Nat.zero_add, Double.val_ofNat (by omega)]
    · rw [h3]
      have e : Double.val (Arith.lit (-37)) = X.fin (-37 : ℚ) := by decide +kernel
      simp only [Option.getD_some, ringInflow, Problem.inflowMap, ringProblem, valuesOf, List.map_cons, List.map_nil, e,
        Double.val_ofNat (show 19 ≤ 2 ^ 50 by norm_num), Double.val_ofNat (show 18 ≤ 2 ^ 50 by norm_num)]
      simp
  refine ⟨g, calls, hS, fun starts ha => ?_⟩
  have hdiv : ∀ fuel, injectionOutcome g calls noFailure fuel starts = .diverge := by
    intro fuel
    rw [(outcomes_accepted hg (stored_complete hP hS) h1 h2 fuel starts).1 ((accepts_val hS.inflow starts).1 ha), h3, Option.getD_some,
      ring_inflow]
    show computeSolution (graphsOf (N + 3) (directed (ringConns N) fun c => phaseSum (fun _ => fluxAt N c) 1)).1 
      (graphsOf (N + 3) (directed (ringConns N) fun c => phaseSum (fun _ => fluxAt N c) 1)).2 _ _ _ _ _ _ = _
    rw [ring_directed]
    obtain ⟨hgood, hgr⟩ := graphsOf_good hI (links_range N)
    obtain ⟨d, st, hcr, _, _⟩ := create_ready hI hgood hgr (pv := poreVolumes N) (by simp [poreVolumes])
      (gather_range (l := wellsAt N ⟨[73]⟩ ⟨[74]⟩) (n := N + 3) (by
        intro e he
        simp only [wellsAt, List.mem_cons, List.not_mem_nil, or_false] at he
        rcases he with rfl | rfl
        · simp only; omega
        · simp only; omega)).1
    have hglob : ∀ fuel, (solveGlobal d Alloc.good fuel st).2 = .diverge := by
      intro fuel
      have h := solveGlobal_endless hN _ _ hcr Alloc.good_good
        (fuel := fuel + ((N + 3) + numEdges (N + 3) (graphsOf (N + 3) (links N)).1.startPointers)) (by omega)
      rcases Fuel.solveGlobal_sub d Alloc.good fuel
        ((N + 3) + numEdges (N + 3) (graphsOf (N + 3) (links N)).1.startPointers) st with e | e
      · exact e
      · rw [← e]; exact h
    unfold computeSolution
    simp only [Res.bind_eq, hcr, Res.ok_bind]
    show Res.bind (solveGlobal d Alloc.good fuel st).2 _ = _
    rw [hglob]
    rfl
  refine ⟨hdiv, ?_⟩
  have hcells : CellsBelow ((lastInflow calls).getD []) (N + 3) := by
    rw [h3]
    intro set hset e he
    simp only [ringInflow, Option.getD_some, List.mem_cons, List.not_mem_nil, or_false] at hset
    rcases hset with rfl | rfl | rfl
    all_goals
      simp only [List.mem_singleton] at he; subst he
      constructor <;> simp only <;> omega
  obtain ⟨⟨r, ⟨M, hM⟩, hr⟩, _⟩ := C60_always_ends hg (by rw [h1]; nofun) h2 hcells starts
  refine ⟨M, fun fuel hf => ?_⟩
  rcases (C60_same_or_overflow g calls noFailure fuel starts).1.2 with ⟨h, _⟩ | ⟨_, _, h⟩
  · rw [hdiv, hM fuel hf] at h
    rw [h] at hr
    simp at hr
  · exact h

end Verif.Props
