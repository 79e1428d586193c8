/-
C53 to C56 for the type `double`, and cases that meet their hypotheses.
-/
import Verif.Props.Rounding
import Verif.Proofs.RoundingSort
import Verif.Proofs.Double
import Verif.Proofs.DoubleSign
import Verif.Proofs.Fuel
import Mathlib.Tactic.IntervalCases

namespace Verif.Props
open Verif.Spec Verif.Toolbox Verif.Solver Verif.Derived Verif.Rounding

/-! ### Cases

Water flows from cell 0 by cells 1 and 2, between which it circulates, to cell 3.  None of the fluxes is a binary fraction. -/

def dblGraph : ConnectivityGraph := ⟨4, [0, 1, 1, 2, 2, 3, 2, 1]⟩

def dblFlux : ConnectionValues Double := ⟨4, 1, [Arith.lit (1/3), Arith.lit (1/2), Arith.lit (1/3), Arith.lit (1/6)]⟩

def dblPv : List Double := [Arith.lit 1, Arith.lit (1/10), Arith.lit (2/10), Arith.lit 1]

def dblInflow : InflowFlux Double :=
  [(⟨[73]⟩, [(0, Arith.lit (1/3))]), (⟨[80]⟩, [(3, Arith.lit (-1/3))])]

def dblCalls : List (Call Double) :=
  [.assignPoreVolume dblPv, .assignConnectionFlux dblFlux, .assignInflowFlux dblInflow]

def dblInjectors : List CellSet := [CellSet.ofCells ⟨[73]⟩ [0]]

def dblProducers : List CellSet := [CellSet.ofCells ⟨[80]⟩ [3]]

theorem dbl_valid : ValidConnectivity dblGraph 4 [(0, 1), (1, 2), (2, 3), (2, 1)] where
  cells := rfl
  count := rfl
  connection := by
    intro i hi
    have hi : i < 4 := hi
    interval_cases i <;> rfl
  int := by decide
  range := by decide

theorem dbl_pv : lastPoreVolume dblGraph dblCalls = some dblPv := rfl

theorem dbl_flux : FluxGiven dblGraph dblCalls 1 fun c _ => dblFlux.data[c]?.getD Arith.zero := by
  refine ⟨dblFlux, rfl, rfl, rfl, ?_⟩
  intro c hc p hp
  have hp : p = 0 := by omega
  subst hp
  have hc : c < 4 := hc
  interval_cases c <;> rfl

theorem dbl_inflow : lastInflow dblCalls = some dblInflow := rfl

theorem dbl_below : CellsBelow ((lastInflow dblCalls).getD []) 4 := by
  rw [dbl_inflow]
  show CellsBelow dblInflow 4
  unfold CellsBelow
  intro set hset e he
  simp only [dblInflow, List.mem_cons, List.not_mem_nil, or_false] at hset
  rcases hset with rfl | rfl
  · simp only [List.mem_singleton] at he; subst he; decide
  · simp only [List.mem_singleton] at he; subst he; decide

theorem dbl_pvn : ∀ x ∈ dblPv, NotNegative x := by
  intro x hx
  simp only [dblPv, List.mem_cons, List.not_mem_nil, or_false] at hx
  rcases hx with rfl | rfl | rfl | rfl <;> exact lit_notNegative Double.rounded (by norm_num)

theorem isOk_ok {α : Type} {r : Res α} (h : r.isOk = true) : ∃ a, r = .ok a := by
  cases r <;> simp [Res.isOk] at h ⊢

set_option maxRecDepth 100000 in
/-- Forward diagnostics return a solution. -/
theorem dbl_injection : ∃ sol, InjectionReturns dblGraph dblCalls dblInjectors (.ok sol) := by
  obtain ⟨sol, h⟩ := isOk_ok (show (injectionOutcome dblGraph dblCalls noFailure 100 dblInjectors).isOk = true by
    decide +kernel)
  exact ⟨sol, (Fuel.injection_returns.mpr ⟨100, h, by simp⟩).1⟩

set_option maxRecDepth 100000 in
/-- So do backward diagnostics. -/
theorem dbl_production : ∃ sol, ProductionReturns dblGraph dblCalls dblProducers (.ok sol) := by
  obtain ⟨sol, h⟩ := isOk_ok (show (productionOutcome dblGraph dblCalls noFailure 100 dblProducers).isOk = true by
    decide +kernel)
  exact ⟨sol, (Fuel.production_returns.mpr ⟨100, h, by simp⟩).1⟩

/-- C53: its hypotheses hold. -/
example : ∃ sol : Solution Double, (∀ t ∈ sol.timeOfFlight, Arith.lt t (Arith.lit 0) = false ∧ Arith.lt (capIn Double) t = false) ∧
    ∀ i, ∀ e ∈ sol.concentration i, Arith.le e.2 (Arith.lit 0) = false ∧ Arith.lt (Arith.lit 1) e.2 = false := by
  obtain ⟨sol, h⟩ := dbl_injection
  obtain ⟨h1, h2⟩ := C53_bounds Double.rounded dbl_valid dbl_pv dbl_pvn dbl_flux dbl_below (Or.inl h)
  exact ⟨sol, h1, fun i => (h2 i).2⟩

instance (x : Double) : Decidable (IsFinite x) := by unfold IsFinite; infer_instance

/-- C54: no inflow or outflow overflows. -/
theorem dbl_finite :
    (∀ v < 4, IsFinite (Arith.add (flowInto 4 [(0, 1), (1, 2), (2, 3), (2, 1)]
      (fun c => phaseSum (fun _ => dblFlux.data[c]?.getD Arith.zero) 1) v) (injectedInto dblInflow v))) ∧
    ∀ v < 4, IsFinite (Arith.add (flowOutOf 4 [(0, 1), (1, 2), (2, 3), (2, 1)]
      (fun c => phaseSum (fun _ => dblFlux.data[c]?.getD Arith.zero) 1) v) (producedFrom dblInflow v)) := by
  decide +kernel

/-- C54: concentrations of the case. -/
example : ∃ sol, InjectionReturns dblGraph dblCalls dblInjectors (.ok sol) ∧
    ∀ i, ∀ e ∈ sol.concentration i, Arith.lt (Arith.lit 0) e.2 = true ∧ Arith.le e.2 (Arith.lit 1) = true := by
  obtain ⟨sol, h⟩ := dbl_injection
  exact ⟨sol, h, C54_concentrations Double.rounded dbl_valid dbl_pv dbl_pvn dbl_flux dbl_below (Or.inl ⟨h, dbl_finite.1⟩)⟩

/-- C55: a curve of three cells. -/
def dblCurve : Res (Graph Double) :=
  Derived.curve (sortBy Double.rounded) [Arith.lit (1/3), Arith.lit 2, Arith.lit (1/7)]
    [Arith.lit (1/5), Arith.lit 1, Arith.lit 4] [Arith.lit (1/10), Arith.lit (1/5), Arith.lit 1] (Arith.lit (9/10))

set_option maxRecDepth 100000 in
/-- It exists, the hypotheses hold, and the last entries are numbers. -/
example : ∃ Phi F, dblCurve = .ok (Phi, F) ∧ Rising 3 Phi ∧ Rising 3 F := by
  have h : (match dblCurve with
      | .ok g => (g.1[3]?.map fun b => Arith.eq b b) == some true && (g.2[3]?.map fun b => Arith.eq b b) == some true
      | _ => false) = true := by decide +kernel
  split at h
  · rename_i g hg
    simp only [Bool.and_eq_true, beq_iff_eq, Option.map_eq_some_iff] at h
    obtain ⟨⟨b, hb, hb'⟩, c, hc, hc'⟩ := h
    obtain ⟨Phi, F⟩ := g
    obtain ⟨⟨_, h1⟩, _, h2⟩ := C55_curve Double.rounded (sortsPairs_sortBy _) (by decide) (by
      intro x hx
      simp only [List.mem_cons, List.not_mem_nil, or_false] at hx
      rcases hx with rfl | rfl | rfl <;> exact lit_notNegative Double.rounded (by norm_num)) (by
      intro v a b p ha hb _ _
      rcases v with _ | _ | _ | v
      · cases ha; cases hb; decide +kernel
      · cases ha; cases hb; decide +kernel
      · cases ha; cases hb; decide +kernel
      · cases ha) hg
    exact ⟨Phi, F, hg, h1 b hb hb', h2 c hc hc'⟩
  · cases h

theorem concentration_notNegative {S : Solution Double} {i : CellSetID}
    (h : ∀ e ∈ S.concentration i, Arith.le e.2 (Arith.lit 0) = false ∧ Arith.lt (Arith.lit 1) e.2 = false) :
    ∀ e ∈ S.concentration i, NotNegative e.2 := by
  intro e he
  have := (h e he).1
  unfold NotNegative
  rw [Double.rounded.le] at this
  rw [Double.rounded.lt]
  simp only [X.le, Bool.or_eq_false_iff] at this
  exact this.1

set_option maxRecDepth 100000 in
/-- C56: the pair of wells has a positive volume and fluxes of both signs; the theorems apply. -/
example : ∃ (S T : Solution Double) (V fi fp : Double), InjectionReturns dblGraph dblCalls dblInjectors (.ok S) ∧
    ProductionReturns dblGraph dblCalls dblProducers (.ok T) ∧
    pairVolume S T dblPv ⟨[73]⟩ ⟨[80]⟩ = .ok V ∧ Arith.lt (Arith.lit 0) V = true ∧
    pairFluxes S T ⟨[73]⟩ ⟨[80]⟩ dblInflow = .ok (fi, fp) ∧ Arith.lt (Arith.lit 0) fi = true ∧
    Arith.lt fp (Arith.lit 0) = true ∧ NotNegative V ∧ Arith.lt fi (Arith.lit 0) = false ∧ Arith.lt (Arith.lit 0) fp = false := by
  have h : (match (do
        let S ← injectionOutcome dblGraph dblCalls noFailure 100 dblInjectors
        let T ← productionOutcome dblGraph dblCalls noFailure 100 dblProducers
        let V ← pairVolume S T dblPv ⟨[73]⟩ ⟨[80]⟩
        let f ← pairFluxes S T ⟨[73]⟩ ⟨[80]⟩ dblInflow
        pure (Arith.lt (Arith.lit 0) V && (Arith.lt (Arith.lit 0) f.1 && Arith.lt f.2 (Arith.lit 0)))) with
      | .ok b => b
      | _ => false) = true := by decide +kernel
  split at h
  · rename_i b hb
    subst h
    simp only [Res.bind_eq, Res.pure_eq, Res.bind_ok_iff, Res.ok.injEq, Bool.and_eq_true] at hb
    obtain ⟨S, hS, T, hT, V, hV, ⟨fi, fp⟩, hf, p1, p2, p3⟩ := hb
    have hS := (Fuel.injection_returns.mpr ⟨100, hS, by simp⟩).1
    have hT := (Fuel.production_returns.mpr ⟨100, hT, by simp⟩).1
    have cS := concentration_notNegative ((C53_bounds Double.rounded dbl_valid dbl_pv dbl_pvn dbl_flux dbl_below (Or.inl hS)).2 ⟨[73]⟩).2
    have cT := concentration_notNegative ((C53_bounds Double.rounded dbl_valid dbl_pv dbl_pvn dbl_flux dbl_below (Or.inr hT)).2 ⟨[80]⟩).2
    obtain ⟨q1, q2⟩ := C56_fluxes Double.rounded cS cT hf
    exact ⟨S, T, V, fi, fp, hS, hT, hV, p1, hf, p2, p3, C56_volume Double.rounded cS cT dbl_pvn hV, q1, q2⟩
  · cases h

end Verif.Props
