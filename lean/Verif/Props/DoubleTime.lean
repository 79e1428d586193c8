/-
C57: without overflow, all results are numbers, in the type `double`.
-/
import Verif.Props.Double
import Verif.Proofs.DoubleGradual

namespace Verif.Props
open Verif.Spec Verif.Toolbox Verif.Solver Verif.Derived Verif.Rounding Verif.Tarjan

theorem le_of_bounds {x : Double} (hx : Num Double.rounded x) (h1 : NotNegative x) (h2 : Arith.lt (capIn Double) x = false) :
    Arith.le (Arith.lit 0) x = true ∧ Arith.le x (capIn Double) = true := by
  refine ⟨le_of_num Double.rounded h1 hx, ?_⟩
  rw [Double.rounded.le, X.le_iff, ← Double.rounded.lt]
  exact ⟨h2, hx, Double.gradual.cap.num⟩

/-- **C57** With `double`s: if pore volumes are numbers that are not negative, and the flow into (for injection) or out of
    (for production) each cell does not overflow, each time of flight returned is a number from 0 to 200 years. -/
theorem C57_times {g : ConnectivityGraph} {n : Nat} {cs : List (Nat × Nat)} (hg : ValidConnectivity g n cs)
    {calls : List (Call Double)} {np : Nat} {phi : Nat → Nat → Double} {pv : List Double} (hpv : lastPoreVolume g calls = some pv)
    (hpvn : ∀ x ∈ pv, Arith.le (Arith.lit 0) x = true) (hf : FluxGiven g calls np phi)
    (hm : CellsBelow ((lastInflow calls).getD []) n) {starts : List CellSet} {sol : Solution Double}
    (h : (InjectionReturns g calls starts (.ok sol) ∧
        ∀ v < n, IsFinite (Arith.add (flowInto n cs (fun c => phaseSum (phi c) np) v) (injectedInto ((lastInflow calls).getD []) v))) ∨
      (ProductionReturns g calls starts (.ok sol) ∧
        ∀ v < n, IsFinite (Arith.add (flowOutOf n cs (fun c => phaseSum (phi c) np) v) (producedFrom ((lastInflow calls).getD []) v)))) :
    (∀ t ∈ sol.timeOfFlight, Arith.le (Arith.lit 0) t = true ∧ Arith.le t (capIn Double) = true) ∧
    ∀ i, ∀ e ∈ sol.timeOfFlightOf i, Arith.le (Arith.lit 0) e.2 = true ∧ Arith.le e.2 (capIn Double) = true := by
  have hl : pv.length = n := by rw [lastPoreVolume_length hpv, hg.cells]
  have hD := directed_range hg.range fun c => phaseSum (phi c) np
  have hpos := directed_pos Double.rounded (cs := cs) (x := fun c => phaseSum (phi c) np)
  have hpv1 : ∀ x ∈ pv, NotNegative x ∧ Num Double.rounded x := by
    intro x hx
    have := hpvn x hx
    rw [Double.rounded.le, X.le_iff, val_zero] at this
    exact ⟨(notNegative_iff Double.rounded).mpr this.1, this.2.2⟩
  have hb := C53_bounds Double.rounded hg hpv (fun x hx => (hpv1 x hx).1) hf hm (by tauto :
    InjectionReturns g calls starts (.ok sol) ∨ ProductionReturns g calls starts (.ok sol))
  have key : (∀ t ∈ sol.timeOfFlight, Num Double.rounded t) ∧ ∀ i, ∀ e ∈ sol.timeOfFlightOf i, Num Double.rounded e.2 := by
    rcases h with ⟨⟨N, hN⟩, hfin⟩ | ⟨⟨N, hN⟩, hfin⟩
    · have h1 := (outcomes_eq hg hpv hf
        (max N (n + numEdges n (graphsOf n (directed cs fun c => phaseSum (phi c) np)).1.startPointers)) starts).1
      rw [hN _ (le_max_left _ _)] at h1
      rcases h1 with h1 | h1 | h1
      · cases h1
      · cases h1
      · refine computeSolution_num Double.rounded Double.gradual hg.int hD hpos hl (fun x hx => (hpv1 x hx).1)
          (fun x hx => (hpv1 x hx).2) (positives_range hm) (positives_num _) ?_ (le_max_right _ _) h1.symm
        intro v hv
        rw [← flowInto_eq, ← injectedInto_eq, ← isFinite_iff Double.rounded]
        exact hfin v hv
    · have h1 := (outcomes_eq hg hpv hf
        (max N (n + numEdges n (graphsOf n (swapEnds (directed cs fun c => phaseSum (phi c) np))).1.startPointers)) starts).2
      rw [hN _ (le_max_left _ _)] at h1
      rcases h1 with h1 | h1 | h1
      · cases h1
      · cases h1
      · refine computeSolution_num Double.rounded Double.gradual hg.int (swapped_range hD) (swapEnds_pos _ hpos) hl
          (fun x hx => (hpv1 x hx).1) (fun x hx => (hpv1 x hx).2) (negatives_range hm) (negatives_num _) ?_
          (le_max_right _ _) h1.symm
        intro v hv
        rw [swapEnds_swapEnds, ← flowOutOf_eq, ← producedFrom_eq, ← isFinite_iff Double.rounded]
        exact hfin v hv
  refine ⟨fun t ht => le_of_bounds (key.1 t ht) (hb.1 t ht).1 (hb.1 t ht).2, fun i e he => ?_⟩
  exact le_of_bounds (key.2 i e he) ((hb.2 i).1 e he).1 ((hb.2 i).1 e he).2

/-- Both directions of the case with a circulation. -/
example : ∃ S T : Solution Double, InjectionReturns dblGraph dblCalls dblInjectors (.ok S) ∧
    ProductionReturns dblGraph dblCalls dblProducers (.ok T) ∧
    ∀ t, t ∈ S.timeOfFlight ∨ t ∈ T.timeOfFlight → Arith.le (Arith.lit 0) t = true ∧ Arith.le t (capIn Double) = true := by
  obtain ⟨S, hS⟩ := dbl_injection
  obtain ⟨T, hT⟩ := dbl_production
  have hpv : ∀ x ∈ dblPv, Arith.le (Arith.lit 0) x = true := by decide +kernel
  refine ⟨S, T, hS, hT, fun t ht => ?_⟩
  rcases ht with ht | ht
  · exact (C57_times dbl_valid dbl_pv hpv dbl_flux dbl_below (Or.inl ⟨hS, dbl_finite.1⟩)).1 t ht
  · exact (C57_times dbl_valid dbl_pv hpv dbl_flux dbl_below (Or.inr ⟨hT, dbl_finite.2⟩)).1 t ht

end Verif.Props
