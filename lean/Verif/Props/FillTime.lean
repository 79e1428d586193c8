/-
C62 with `double`s: times of flight are not shorter than the time to fill a cell.
-/
import Verif.Props.CyclicGlobal

namespace Verif.Props
open Verif.Spec Verif.Toolbox Verif.Solver Verif.Rounding Finset

section fill
variable {F : Flow ℚ} {M : Nat}

theorem fill_le (hM : M ≤ 2 ^ 40) {p b t : ℚ} (hp : 0 ≤ p)
    (h : t = cap ∨ p ≤ b * t * (1 + 1 / 2 ^ 52) ^ (2 * M + 4)) :
    t = 200 * 365 * 24 * 60 * 60 ∨ p ≤ b * t * (1 + ((2 * M + 4 : Nat) : ℚ) / 2 ^ 51) := by
  refine h.imp id fun h => h.trans ?_
  refine mul_le_mul_of_nonneg_left (Double.pow_le (2 * M + 4) (by omega)) ?_
  by_contra hn
  have h1 : (0 : ℚ) < (1 + 1 / 2 ^ 52) ^ (2 * M + 4) := by positivity
  have := mul_neg_of_neg_of_pos (not_le.mp hn) h1
  linarith

theorem fill_of {wells : List (WellFlux ℚ)} {cs : WellFlux ℚ → List Nat} {f : WellFlux ℚ → Nat → ℚ}
    {starts : List CellSet} {sol : Solution Double} {D : List (Int × Int × Double)} {pv : List Double}
    {l : List (CellSetID × Int × Double)} {DK : List (Nat × Nat × ℚ)}
    (h : Inputs Double.rounded D pv l F DK wells cs f M) (hM : M ≤ 2 ^ 40) (hm : ∀ v < F.n, Sized F v) {fuel : Nat}
    (hfuel : F.n + numEdges F.n (graphsOf F.n D).1.startPointers ≤ fuel)
    (hs : computeSolution (graphsOf F.n D).1 (graphsOf F.n D).2 pv (gather l).only (gather l).byId noFailure fuel starts = .ok sol)
    {w : WellFlux ℚ} (hw : w ∈ wells) (hask : ∃ s ∈ starts, s.id = w.id) {v : Nat} (hd : F.Downstream (cs w) v)
    (htiny : 1 / 2 ^ 300 ≤ doubleAt (sol.concentration w.id) v) :
    doubleAt (sol.timeOfFlightOf w.id) v = 200 * 365 * 24 * 60 * 60 ∨
      F.pv v ≤ F.total v * doubleAt (sol.timeOfFlightOf w.id) v * (1 + ((2 * M + 4 : Nat) : ℚ) / 2 ^ 51) := by
  have key := computeSolution_fill (w := w) Double.precise Double.gradual (Double.pow_clear hM)
    (Double.pow_le_two (by omega)) h hm hfuel hs hw hask hd (by
      rw [numOf_double]
      have := mul_le_mul_of_nonneg_right htiny (by positivity : (0 : ℚ) ≤ 2 ^ 300)
      rwa [one_div, inv_mul_cancel₀ (by positivity)] at this)
  rw [numOf_double] at key
  have hv : v < F.n := by
    obtain ⟨p, h1, h2⟩ := hd
    exact reach_lt (h.side.range w hw p h1) h2
  exact fill_le hM (h.valid.pv_nonneg v hv) key

theorem global_fill (hF : F.Valid) (hM : M ≤ 2 ^ 40) {t c : Nat → ℚ} (B : GlobalBalance F M (1 + 1 / 2 ^ 52) t c)
    (hself : ∀ v < F.n, ¬ F.Loop v) {all : List Nat} (hall : ∀ p, p ∈ all ↔ p < F.n ∧ 0 < F.src p) {m h : Nat → ℚ}
    (hm : F.Carries all F.cycleInflow m) (hh : F.Carries all F.total h) {v : Nat} (hv : v < F.n)
    (hup : ∀ u, F.Reach u v → F.Downstream all u)
    (hsmall : 1 / 1000000000 * m v + ((4 * M + 6 : Nat) : ℚ) / 2 ^ 51 * h v ≤ 1 / 2) :
    t v = 200 * 365 * 24 * 60 * 60 ∨ F.pv v ≤ F.total v * t v * (1 + ((2 * M + 4 : Nat) : ℚ) / 2 ^ 51) := by
  have hc := (global_concentration hF hM B hself hall hm hh hup v hv Relation.ReflTransGen.refl).trans hsmall
  refine fill_le hM (hF.pv_nonneg v hv) (B.fill v hv ?_)
  have h2 := (abs_le.mp hc).1
  have h3 : (1 : ℚ) / 2 ≤ c v := by linarith
  have h4 : (2 : ℚ) ≤ 2 ^ 300 := le_self_pow₀ (by norm_num) (by norm_num)
  calc (1 : ℚ) = 1 / 2 * 2 := by norm_num
    _ ≤ c v * 2 ^ 300 := mul_le_mul h3 h4 (by norm_num) (le_trans (by norm_num) h3)

end fill

variable {P : Problem ℚ} {M : Nat} {g : ConnectivityGraph} {calls : List (Call Double)} {starts : List CellSet} {sol : Solution Double}

/-- **C62** Injection diagnostics with `double`s, in flow with any cycles: in a cell downstream of the injector, where its
    concentration is at least 2^-300, its time-of-flight is 200 years or at least the time that the fluxes into the cell
    and its source take to fill it, up to a few rounding errors. -/
theorem C62_injection_double (hP : P.Valid) (hO : P.OfOrdinarySize M) (htotal : ∀ v < P.n, P.forward.total v ≤ 2 ^ 100)
    (hS : P.StoredIn g calls) (hr : InjectionReturns g calls starts (.ok sol)) {w : WellFlux ℚ} (hw : w ∈ P.wells)
    (hask : ∃ s ∈ starts, s.id = w.id) {v : Nat} (hd : P.forward.Downstream (posCells w) v)
    (htiny : 1 / 2 ^ 300 ≤ doubleAt (sol.concentration w.id) v) :
    doubleAt (sol.timeOfFlightOf w.id) v = 200 * 365 * 24 * 60 * 60 ∨
      P.pv v ≤ ((∑ u ∈ range P.n, P.flux u v) + P.source v) * doubleAt (sol.timeOfFlightOf w.id) v
        * (1 + ((2 * M + 4 : Nat) : ℚ) / 2 ^ 51) := by
  have hg := stored_connectivity hP hS
  obtain ⟨pv, hpv, hpvv⟩ := hS.pv
  obtain ⟨np, phi, hf, hphi⟩ := hS.flux
  have hI := inputs_forward hP hO hphi hpvv hS.inflow
  obtain ⟨N, hN⟩ := hr
  exact fill_of hI hO.bound (sized_of hI htotal hO.pv) (le_max_right N _)
    ((outcomes_ok hg (stored_complete hP hS) hpv hf).1 (hN _ (le_max_left N _))) hw hask hd htiny

/-- **C62** The same for a producer: the fluxes out of the cell and its sink. -/
theorem C62_production_double (hP : P.Valid) (hO : P.OfOrdinarySize M) (htotal : ∀ v < P.n, P.backward.total v ≤ 2 ^ 100)
    (hS : P.StoredIn g calls) (hr : ProductionReturns g calls starts (.ok sol)) {w : WellFlux ℚ} (hw : w ∈ P.wells)
    (hask : ∃ s ∈ starts, s.id = w.id) {v : Nat} (hd : P.backward.Downstream (negCells w) v)
    (htiny : 1 / 2 ^ 300 ≤ doubleAt (sol.concentration w.id) v) :
    doubleAt (sol.timeOfFlightOf w.id) v = 200 * 365 * 24 * 60 * 60 ∨
      P.pv v ≤ ((∑ u ∈ range P.n, P.flux v u) + P.sink v) * doubleAt (sol.timeOfFlightOf w.id) v
        * (1 + ((2 * M + 4 : Nat) : ℚ) / 2 ^ 51) := by
  have hg := stored_connectivity hP hS
  obtain ⟨pv, hpv, hpvv⟩ := hS.pv
  obtain ⟨np, phi, hf, hphi⟩ := hS.flux
  have hI := inputs_backward hP hO hphi hpvv hS.inflow
  obtain ⟨N, hN⟩ := hr
  exact fill_of hI hO.bound (sized_of hI htotal hO.pv) (le_max_right N _)
    ((outcomes_ok hg (stored_complete hP hS) hpv hf).2 (hN _ (le_max_left N _))) hw hask hd htiny

/-- **C62** Global times-of-flight of injection diagnostics with `double`s (no cell has a self-connection as its only
    cycle): in a cell whose upstream cells are all reached from sources, where the errors of concentrations, as bounded in
    C80 with the fields `m` and `h`, are at most a half. -/
theorem C62_injection_double_global (hP : P.Valid) (hO : P.OfOrdinarySize M) (htotal : ∀ v < P.n, P.forward.total v ≤ 2 ^ 100)
    (hself : ∀ v < P.n, ¬ P.forward.Loop v) (hS : P.StoredIn g calls) (hr : InjectionReturns g calls starts (.ok sol)) :
    ∃ m h, P.forward.Carries ((List.range P.n).filter fun p => decide (0 < P.source p)) P.forward.cycleInflow m ∧
      P.forward.Carries ((List.range P.n).filter fun p => decide (0 < P.source p)) P.forward.total h ∧
      ∀ v < P.n, (∀ u, P.forward.Reach u v → ∃ p < P.n, 0 < P.source p ∧ P.forward.Reach p u) →
        1 / 1000000000 * m v + ((4 * M + 6 : Nat) : ℚ) / 2 ^ 51 * h v ≤ 1 / 2 →
        doubleIn sol.tof v = 200 * 365 * 24 * 60 * 60 ∨
          P.pv v ≤ ((∑ u ∈ range P.n, P.flux u v) + P.source v) * doubleIn sol.tof v
            * (1 + ((2 * M + 4 : Nat) : ℚ) / 2 ^ 51) := by
  have hg := stored_connectivity hP hS
  obtain ⟨pv, hpv, hpvv⟩ := hS.pv
  obtain ⟨np, phi, hf, hphi⟩ := hS.flux
  have hI := inputs_forward hP hO hphi hpvv hS.inflow
  obtain ⟨N, hN⟩ := hr
  obtain ⟨c, B⟩ := global_of hI hO.bound (sized_of hI htotal hO.pv) (le_max_right N _)
    ((outcomes_ok hg (stored_complete hP hS) hpv hf).1 (hN _ (le_max_left N _)))
  have hs : ∀ p, p ∈ (List.range P.n).filter (fun p => decide (0 < P.source p)) ↔ p < P.forward.n ∧ 0 < P.forward.src p := by
    intro p; rw [List.mem_filter, List.mem_range, decide_eq_true_eq]; exact Iff.rfl
  obtain ⟨m, hm⟩ := (C76_exact hI.valid (fun p => (hs p).mp) P.forward.cycleInflow).1
  obtain ⟨h, hh⟩ := (C76_exact hI.valid (fun p => (hs p).mp) P.forward.total).1
  refine ⟨m, h, hm, hh, fun v hv hup hsmall => ?_⟩
  refine global_fill hI.valid hO.bound B hself hs hm hh hv (fun u hr => ?_) hsmall
  obtain ⟨p, h1, h2, h3⟩ := hup u hr
  exact ⟨p, (hs p).mpr ⟨h1, h2⟩, h3⟩

/-- **C62** The same for production diagnostics, with the cells downstream. -/
theorem C62_production_double_global (hP : P.Valid) (hO : P.OfOrdinarySize M) (htotal : ∀ v < P.n, P.backward.total v ≤ 2 ^ 100)
    (hself : ∀ v < P.n, ¬ P.forward.Loop v) (hS : P.StoredIn g calls) (hr : ProductionReturns g calls starts (.ok sol)) :
    ∃ m h, P.backward.Carries ((List.range P.n).filter fun p => decide (0 < P.sink p)) P.backward.cycleInflow m ∧
      P.backward.Carries ((List.range P.n).filter fun p => decide (0 < P.sink p)) P.backward.total h ∧
      ∀ v < P.n, (∀ u, P.forward.Reach v u → ∃ p < P.n, 0 < P.sink p ∧ P.forward.Reach u p) →
        1 / 1000000000 * m v + ((4 * M + 6 : Nat) : ℚ) / 2 ^ 51 * h v ≤ 1 / 2 →
        doubleIn sol.tof v = 200 * 365 * 24 * 60 * 60 ∨
          P.pv v ≤ ((∑ u ∈ range P.n, P.flux v u) + P.sink v) * doubleIn sol.tof v
            * (1 + ((2 * M + 4 : Nat) : ℚ) / 2 ^ 51) := by
  have hg := stored_connectivity hP hS
  obtain ⟨pv, hpv, hpvv⟩ := hS.pv
  obtain ⟨np, phi, hf, hphi⟩ := hS.flux
  have hI := inputs_backward hP hO hphi hpvv hS.inflow
  obtain ⟨N, hN⟩ := hr
  obtain ⟨c, B⟩ := global_of hI hO.bound (sized_of hI htotal hO.pv) (le_max_right N _)
    ((outcomes_ok hg (stored_complete hP hS) hpv hf).2 (hN _ (le_max_left N _)))
  have hs : ∀ p, p ∈ (List.range P.n).filter (fun p => decide (0 < P.sink p)) ↔ p < P.backward.n ∧ 0 < P.backward.src p := by
    intro p; rw [List.mem_filter, List.mem_range, decide_eq_true_eq]; exact Iff.rfl
  obtain ⟨m, hm⟩ := (C76_exact hI.valid (fun p => (hs p).mp) P.backward.cycleInflow).1
  obtain ⟨h, hh⟩ := (C76_exact hI.valid (fun p => (hs p).mp) P.backward.total).1
  refine ⟨m, h, hm, hh, fun v hv hup hsmall => ?_⟩
  refine global_fill hI.valid hO.bound B (backward_not_loop hself) hs hm hh hv (fun u hr => ?_) hsmall
  obtain ⟨p, h1, h2, h3⟩ := hup u (backward_reach.mp hr)
  exact ⟨p, (hs p).mpr ⟨h1, h2⟩, backward_reach.mpr h3⟩

/-! ### A case -/

set_option maxRecDepth 100000 in
/-- C62 with doubles: in flow with a cycle, concentrations above a half in every cell, in both directions, and small errors
    of concentrations in every cell. -/
example : (∃ S T, InjectionReturns whirlGraph whirlCalls [CellSet.ofCells ⟨[65]⟩ [0]] (.ok S) ∧
      ProductionReturns whirlGraph whirlCalls [CellSet.ofCells ⟨[80]⟩ [3]] (.ok T) ∧
      (∀ v < 4, doubleAt (S.timeOfFlightOf ⟨[65]⟩) v ≤ 10 ∧ 1 / 2 ≤ doubleAt (S.concentration ⟨[65]⟩) v) ∧
      ∀ v < 4, doubleAt (T.timeOfFlightOf ⟨[80]⟩) v ≤ 10 ∧ 1 / 2 ≤ doubleAt (T.concentration ⟨[80]⟩) v) ∧
    ∀ m h, exWhirl.forward.Carries ((List.range exWhirl.n).filter fun p => decide (0 < exWhirl.source p)) exWhirl.forward.cycleInflow m →
      exWhirl.forward.Carries ((List.range exWhirl.n).filter fun p => decide (0 < exWhirl.source p)) exWhirl.forward.total h →
      ∀ v < exWhirl.n, (∀ u, exWhirl.forward.Reach u v → ∃ p < exWhirl.n, 0 < exWhirl.source p ∧ exWhirl.forward.Reach p u) ∧
        1 / 1000000000 * m v + ((4 * 4 + 6 : Nat) : ℚ) / 2 ^ 51 * h v ≤ 1 / 2 := by
  refine ⟨?_, fun m h hm hh v hv => ⟨fun u hr => ?_, whirl_fields hm hh v hv⟩⟩
  · obtain ⟨S, h1, h3⟩ := quick_spec (i := ⟨[65]⟩)
      (r := injectionOutcome whirlGraph whirlCalls noFailure 100 [CellSet.ofCells ⟨[65]⟩ [0]]) (by decide +kernel)
    obtain ⟨T, h2, h4⟩ := quick_spec (i := ⟨[80]⟩)
      (r := productionOutcome whirlGraph whirlCalls noFailure 100 [CellSet.ofCells ⟨[80]⟩ [3]]) (by decide +kernel)
    exact ⟨S, T, (Fuel.injection_returns.mpr ⟨100, h1, by simp⟩).1, (Fuel.production_returns.mpr ⟨100, h2, by simp⟩).1, h3, h4⟩
  · have hu : u < 4 := by
      rcases Relation.ReflTransGen.cases_head hr with rfl | ⟨y, he, _⟩
      · exact hv
      · exact he.1
    exact ⟨0, by decide, whirl_source, whirl_reached u hu⟩

end Verif.Props
