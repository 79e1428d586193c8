/-
C88: a bound on the number of sweeps that the iterations take with `double`s.
-/
import Mathlib.Algebra.Order.Ring.Pow
import Verif.Props.Settles
import Verif.Props.SweepCounter

namespace Verif.Props
open Verif.Spec Verif.Toolbox Verif.Solver Verif.Rounding Finset

/-- Over `D` sweeps an error is halved. -/
theorem halved {D : Nat} (hD : 1 ≤ D) : (1 - 1 / (D : ℚ)) ^ D ≤ 1 / 2 := by
  have h0 : (1 : ℚ) ≤ D := by exact_mod_cast hD
  rcases Nat.eq_or_lt_of_le hD with e | h2
  · rw [← e]; norm_num
  have h1 : (1 : ℚ) < D := by exact_mod_cast h2
  have hb := one_add_mul_le_pow (show (-2 : ℚ) ≤ 1 / ((D : ℚ) - 1) by
    have : 0 < 1 / ((D : ℚ) - 1) := div_pos one_pos (by linarith)
    linarith) D
  have e1 : 1 + 1 / ((D : ℚ) - 1) = (1 - 1 / (D : ℚ))⁻¹ := by
    have : (D : ℚ) - 1 ≠ 0 := by linarith
    have : (D : ℚ) ≠ 0 := by linarith
    field_simp
    ring
  have e2 : (2 : ℚ) ≤ 1 + D * (1 / ((D : ℚ) - 1)) := by
    rw [mul_one_div]
    have : 1 ≤ (D : ℚ) / (D - 1) := (one_le_div (by linarith)).mpr (by linarith)
    linarith
  rw [e1, inv_pow] at hb
  have hp : 0 < (1 - 1 / (D : ℚ)) ^ D := by
    refine pow_pos ?_ D
    rw [sub_pos, div_lt_one (by linarith)]
    exact h1
  rw [le_div_iff₀ two_pos]
  have h3 : 2 ≤ ((1 - 1 / (D : ℚ)) ^ D)⁻¹ := e2.trans hb
  calc (1 - 1 / (D : ℚ)) ^ D * 2 ≤ (1 - 1 / (D : ℚ)) ^ D * ((1 - 1 / (D : ℚ)) ^ D)⁻¹ := mul_le_mul_of_nonneg_left h3 hp.le
    _ = 1 := mul_inv_cancel₀ hp.ne'

/-- These bounds suffice. -/
theorem pace {M : Nat} {H φ : ℚ} {D m : Nat} (h1 : 1 ≤ H) (h2 : 0 ≤ φ) (B : SweepBounds M H φ D m) :
    Pace (1 + 1 / 2 ^ 52 : ℚ) M H φ (D * m) := by
  obtain ⟨hD, hc, hm, g1, g2⟩ := B
  have g1 : (16000000000 : ℚ) * D ≤ 2 ^ m := by exact_mod_cast g1
  have hM0 : (0 : ℚ) ≤ M := Nat.cast_nonneg M
  have hD1 : (1 : ℚ) ≤ D := h1.trans hD
  have hMb : (4 * M + 6 : ℚ) ≤ 50000 := le_trans (le_mul_of_one_le_right (by linarith) h1) hc
  have hMn : 4 * M + 6 ≤ 50000 := by exact_mod_cast hMb
  have hHb : H ≤ 50000 := le_trans (le_mul_of_one_le_left (by linarith) (by linarith)) hc
  have hp := Double.pow_le (4 * M + 6) (by omega)
  have hp4 := Double.pow_le (4 * M + 4) (by omega)
  push_cast at hp hp4
  have hs : slack ℚ ≤ 1 / 2 ^ 60 := by
    unfold slack
    exact one_div_le_one_div_of_le (by positivity) (pow_le_pow_right₀ one_le_two (by norm_num))
  have hcs : climbSlack ℚ ≤ 1 / 2 ^ 60 := by
    unfold climbSlack
    exact one_div_le_one_div_of_le (by positivity) (pow_le_pow_right₀ one_le_two (by norm_num))
  have hr0 : 0 ≤ 1 - 1 / H := by
    rw [sub_nonneg, _root_.div_le_one (by linarith)]; exact h1
  have hr1 : 1 - 1 / H ≤ 1 - 1 / (D : ℚ) := by
    have := one_div_le_one_div_of_le (by linarith) hD
    linarith
  have hz : (0 : ℚ) < 2 ^ m := by positivity
  have hP : (1 - 1 / H) ^ (D * m) * 2 ^ m ≤ 1 := by
    have e1 : (1 - 1 / H) ^ (D * m) ≤ (1 / 2) ^ m := by
      rw [pow_mul]
      refine pow_le_pow_left₀ (pow_nonneg hr0 D) ?_ m
      exact (pow_le_pow_left₀ hr0 hr1 D).trans (halved (by exact_mod_cast hD1))
    calc (1 - 1 / H) ^ (D * m) * 2 ^ m ≤ (1 / 2) ^ m * 2 ^ m := mul_le_mul_of_nonneg_right e1 hz.le
      _ = 1 := by rw [← mul_pow]; norm_num
  have hP0 : 0 ≤ (1 - 1 / H) ^ (D * m) := pow_nonneg hr0 _
  have hgr : grain (1 + 1 / 2 ^ 52 : ℚ) M ≤ 2 * ((4 * M + 6) / 2 ^ 51) := by
    unfold grain
    generalize (1 + 1 / 2 ^ 52 : ℚ) ^ (4 * M + 4) = p at *
    generalize slack ℚ = s at *
    have : (2 : ℚ) * (1 / 2 ^ 60) ≤ 2 / 2 ^ 51 := by norm_num
    have e : ((4 * M + 6 : ℚ)) / 2 ^ 51 = (4 * M + 4) / 2 ^ 51 + 2 / 2 ^ 51 := by ring
    linarith
  have hjo : jolt (1 + 1 / 2 ^ 52 : ℚ) M H φ ≤ (4 * φ + 1) * H * ((4 * M + 6) / 2 ^ 51) + 2 / 2 ^ 60 := by
    unfold jolt
    generalize (1 + 1 / 2 ^ 52 : ℚ) ^ (4 * M + 6) = p at *
    generalize climbSlack ℚ = s at *
    have : (4 * φ + 1) * H * (p - 1) ≤ (4 * φ + 1) * H * ((4 * M + 6) / 2 ^ 51) :=
      mul_le_mul_of_nonneg_left (by linarith) (by positivity)
    have e : (2 : ℚ) / 2 ^ 60 = 2 * (1 / 2 ^ 60) := by ring
    linarith
  clear hs hcs hp hp4
  suffices h : 8 * H * ((1 - 1 / H) ^ (D * m) + grain (1 + 1 / 2 ^ 52 : ℚ) M) ≤ 1 / 1000000000 ∧
      8 * H * ((4 * φ + 1) * (H + (D * m : ℕ)) * (1 - 1 / H) ^ (D * m) + ((4 * φ + 1) * grain (1 + 1 / 2 ^ 52 : ℚ) M * H
        + 2 * jolt (1 + 1 / 2 ^ 52 : ℚ) M H φ) + 2 * ((4 * φ + 1) * H) * ((1 - 1 / H) ^ (D * m) + grain (1 + 1 / 2 ^ 52 : ℚ) M))
      ≤ cap / 4000000000000 from ⟨h.1, h.2⟩
  generalize (1 - 1 / H) ^ (D * m) = Q at *
  generalize hgz : (2 : ℚ) ^ m = z at *
  have hgrain0 : 0 ≤ (4 * φ + 1) * H := by positivity
  generalize grain (1 + 1 / 2 ^ 52 : ℚ) M = gr at *
  generalize jolt (1 + 1 / 2 ^ 52 : ℚ) M H φ = jo at *
  have hQ1 : 16000000000 * D * Q ≤ 1 := le_trans (by
    rw [mul_comm]
    exact mul_le_mul_of_nonneg_left g1 hP0) hP
  have hQ2 : 10000 * (4 * φ + 1) * (D ^ 2 * (m + 3)) * Q ≤ 1 := le_trans (by
    rw [mul_comm]
    exact mul_le_mul_of_nonneg_left g2 hP0) hP
  constructor
  · have e1 : H * Q ≤ D * Q := mul_le_mul_of_nonneg_right hD hP0
    have e2 : H * gr ≤ H * (2 * ((4 * M + 6) / 2 ^ 51)) := mul_le_mul_of_nonneg_left hgr (by linarith)
    have e3 : H * (2 * ((4 * M + 6) / 2 ^ 51)) = 2 / 2 ^ 51 * ((4 * M + 6) * H) := by ring
    have e4 : 2 / 2 ^ 51 * ((4 * M + 6) * H) ≤ 2 / 2 ^ 51 * 50000 := mul_le_mul_of_nonneg_left hc (by norm_num)
    calc 8 * H * (Q + gr) = 8 * (H * Q) + 8 * (H * gr) := by ring
      _ ≤ 8 * (D * Q) + 8 * (2 / 2 ^ 51 * 50000) := by linarith
      _ ≤ 1 / 2000000000 + 8 * (2 / 2 ^ 51 * 50000) := by linarith
      _ ≤ 1 / 1000000000 := by norm_num
  · push_cast
    have e1 : H * ((H + D * m) + 2 * H) ≤ D ^ 2 * (m + 3) := by
      have : (H + D * m) + 2 * H ≤ D * (m + 3) := by linarith
      calc H * ((H + D * m) + 2 * H) ≤ D * (D * (m + 3)) :=
            mul_le_mul hD this (by positivity) (by positivity)
        _ = _ := by ring
    have e2 : (4 * φ + 1) * Q * (H * ((H + D * m) + 2 * H)) ≤ (4 * φ + 1) * Q * (D ^ 2 * (m + 3)) :=
      mul_le_mul_of_nonneg_left e1 (mul_nonneg (by linarith) hP0)
    have e3 : (4 * φ + 1) * H ^ 2 * gr ≤ (4 * φ + 1) * H ^ 2 * (2 * ((4 * M + 6) / 2 ^ 51)) :=
      mul_le_mul_of_nonneg_left hgr (by positivity)
    have e4 : H * jo ≤ H * ((4 * φ + 1) * H * ((4 * M + 6) / 2 ^ 51) + 2 / 2 ^ 60) := mul_le_mul_of_nonneg_left hjo (by linarith)
    calc 8 * H * ((4 * φ + 1) * (H + D * m) * Q + ((4 * φ + 1) * gr * H + 2 * jo) + 2 * ((4 * φ + 1) * H) * (Q + gr))
        = 8 * ((4 * φ + 1) * Q * (H * ((H + D * m) + 2 * H))) + 24 * ((4 * φ + 1) * H ^ 2 * gr) + 16 * (H * jo) := by ring
      _ ≤ 8 * ((4 * φ + 1) * Q * (D ^ 2 * (m + 3))) + 24 * ((4 * φ + 1) * H ^ 2 * (2 * ((4 * M + 6) / 2 ^ 51)))
          + 16 * (H * ((4 * φ + 1) * H * ((4 * M + 6) / 2 ^ 51) + 2 / 2 ^ 60)) := by linarith
      _ = 8 / 10000 * (10000 * (4 * φ + 1) * (D ^ 2 * (m + 3)) * Q) + 64 / 2 ^ 51 * ((4 * φ + 1) * H ^ 2 * (4 * M + 6))
          + 32 / 2 ^ 60 * H := by ring
      _ ≤ 8 / 10000 * 1 + 64 / 2 ^ 51 * 20000000000 + 32 / 2 ^ 60 * 50000 :=
          add_le_add (add_le_add (mul_le_mul_of_nonneg_left hQ2 (by norm_num)) (mul_le_mul_of_nonneg_left hm (by norm_num)))
            (mul_le_mul_of_nonneg_left hHb (by norm_num))
      _ ≤ cap / 4000000000000 := by unfold cap; norm_num

/-- What diagnostics with a given solver compute, for requests that are accepted. -/
theorem limited_accepted {R : Type} [Arith R] {g : ConnectivityGraph} {n : Nat} {cs : List (Nat × Nat)} (hg : ValidConnectivity g n cs)
    {calls : List (Call R)} (hc : Complete g calls) {np : Nat} {phi : Nat → Nat → R} {pv : List R}
    (hpv : lastPoreVolume g calls = some pv) (hf : FluxGiven g calls np phi) (fuel sweeps : Nat) (starts : List CellSet) :
    (InjectionAccepts ((lastInflow calls).getD []) starts → injectionLimited g calls noFailure fuel sweeps starts =
      computeSolutionWith (uncounted sweeps) (graphsOf n (directed cs fun c => phaseSum (phi c) np)).1
        (graphsOf n (directed cs fun c => phaseSum (phi c) np)).2 pv
        (gather (positives (entries ((lastInflow calls).getD [])))).only
        (gather (positives (entries ((lastInflow calls).getD [])))).byId noFailure fuel starts) ∧
    (ProductionAccepts ((lastInflow calls).getD []) starts → productionLimited g calls noFailure fuel sweeps starts =
      computeSolutionWith (uncounted sweeps) (graphsOf n (swapEnds (directed cs fun c => phaseSum (phi c) np))).1
        (graphsOf n (swapEnds (directed cs fun c => phaseSum (phi c) np))).2 pv
        (gather (negatives (entries ((lastInflow calls).getD [])))).only
        (gather (negatives (entries ((lastInflow calls).getD [])))).byId noFailure fuel starts) := by
  obtain ⟨pv', f, h1, h2, h3, h4⟩ := complete_outcome hc
  rw [hpv] at h1; cases h1
  obtain ⟨f', e', hf⟩ := hf
  rw [h2] at e'; cases e'
  rw [hg.count] at hf
  have hgr := graphs_eq hg hf
  unfold injectionLimited productionLimited
  have hcond : (pv.isEmpty || f.numConnections == 0) ≠ true := by
    simp only [ne_eq, Bool.or_eq_true, List.isEmpty_iff, beq_iff_eq, not_or]
    exact ⟨h3, h4⟩
  rw [Counter.injectionWith_eq, Counter.productionWith_eq, hpv, h2]
  simp only [Option.getD_some]
  unfold Counter.outcomeWith
  rw [if_neg hcond, if_neg hcond, check_injection, check_production, hgr, graphsOf_swap]
  constructor
  · intro ha
    rw [if_pos ha, Res.ok_bind, Res.ok_bind, splitInflow_eq]; simp
  · intro ha
    rw [if_pos ha, Res.ok_bind, Res.ok_bind, splitInflow_eq]; simp

variable {P : Problem ℚ} {M : Nat} {g : ConnectivityGraph} {calls : List (Call Double)} {starts : List CellSet}
  {H φ μ : ℚ} {L D m : Nat}

/-- **C88** With `double`s, a request for injectors takes at most `D * m + 1` sweeps over the cells of each cycle if the flow keeps within
    the bounds: allowed only so many sweeps, the calculation returns what it returns without a limit.  If so many sweeps can be counted
    with an `int`, the counters do not overflow. -/
theorem C88_injection (hP : P.Valid) (hO : P.OfOrdinarySize M) (htotal : ∀ v < P.n, P.forward.total v ≤ 2 ^ 100)
    (hS : P.StoredIn g calls) (hacc : InjectionAccepts P.inflowMap starts) (hB : TameBounds M H φ μ L) (hW : SweepBounds M H φ D m)
    (hall : P.forward.Tame P.forward.sources P.source H φ μ L)
    (hone : ∀ w ∈ P.wells, (∃ s ∈ starts, s.id = w.id) →
      P.forward.Tame (posCells w) (fun v => max (Problem.wellAt w v) 0) H φ μ L) :
    ∃ sol, InjectionReturns g calls starts (.ok sol) ∧ ∃ steps, ∀ fuel, steps ≤ fuel →
      injectionLimited g calls noFailure fuel (D * m + 1) starts = .ok sol ∧
      (D * m + 1 ≤ INT_MAX → injectionCounted g calls noFailure fuel starts = .ok sol) := by
  have hg := stored_connectivity hP hS
  obtain ⟨pv, hpv, hpvv⟩ := hS.pv
  obtain ⟨np, phi, hf, hphi⟩ := hS.flux
  have hI := inputs_forward hP hO hphi hpvv hS.inflow
  obtain ⟨n, k, hk, sol, hN⟩ := computeSolution_within Double.precise double_odd finite_values (Double.pow_clear hO.bound) hI
    (sized_of hI htotal hO.pv) (margins hB) (Or.inr ⟨D * m, pace hB.one_le hB.fill_nonneg hW, rfl⟩) hall (asked_inflow hacc)
    (fun w hw ha => by
      have e : injected (posCells w) w.val = fun v => max (Problem.wellAt w v) 0 := funext fun v => injected_pos v
      rw [e]; exact hone w hw ha)
  have hk : k ≤ D * m + 1 := by exact_mod_cast hk
  have hlim : ∀ fuel, n ≤ fuel → ∀ sweeps, k ≤ sweeps → injectionLimited g calls noFailure fuel sweeps starts = .ok sol := by
    intro fuel hfu sweeps hsw
    rw [(limited_accepted hg (stored_complete hP hS) hpv hf fuel sweeps starts).1 ((accepts_val hS.inflow starts).1 hacc)]
    exact hN fuel hfu sweeps hsw
  have hout : ∀ fuel, injectionOutcome g calls noFailure fuel starts = injectionLimited g calls noFailure fuel fuel starts := by
    intro fuel
    unfold injectionLimited injectionOutcome
    rw [Counter.injDiag_uncounted]
  refine ⟨sol, (Fuel.injection_returns.mpr ⟨max n k, ?_, by simp⟩).1, max n k, fun fuel hfu => ⟨?_, fun hi => ?_⟩⟩
  · rw [hout]; exact hlim _ (le_max_left _ _) _ (le_max_right _ _)
  · exact hlim _ (by omega) _ hk
  · rw [(C60_no_overflow_partial g calls noFailure fuel starts).1, hout]
    · exact hlim _ (by omega) _ (by omega)
    · rw [hlim _ (by omega) _ (by omega)]; simp

/-- **C88** The same for producers, in the reversed flow. -/
theorem C88_production (hP : P.Valid) (hO : P.OfOrdinarySize M) (htotal : ∀ v < P.n, P.backward.total v ≤ 2 ^ 100)
    (hS : P.StoredIn g calls) (hacc : ProductionAccepts P.inflowMap starts) (hB : TameBounds M H φ μ L) (hW : SweepBounds M H φ D m)
    (hall : P.backward.Tame P.backward.sources P.sink H φ μ L)
    (hone : ∀ w ∈ P.wells, (∃ s ∈ starts, s.id = w.id) →
      P.backward.Tame (negCells w) (fun v => max (-Problem.wellAt w v) 0) H φ μ L) :
    ∃ sol, ProductionReturns g calls starts (.ok sol) ∧ ∃ steps, ∀ fuel, steps ≤ fuel →
      productionLimited g calls noFailure fuel (D * m + 1) starts = .ok sol ∧
      (D * m + 1 ≤ INT_MAX → productionCounted g calls noFailure fuel starts = .ok sol) := by
  have hg := stored_connectivity hP hS
  obtain ⟨pv, hpv, hpvv⟩ := hS.pv
  obtain ⟨np, phi, hf, hphi⟩ := hS.flux
  have hI := inputs_backward hP hO hphi hpvv hS.inflow
  obtain ⟨n, k, hk, sol, hN⟩ := computeSolution_within Double.precise double_odd finite_values (Double.pow_clear hO.bound) hI
    (sized_of hI htotal hO.pv) (margins hB) (Or.inr ⟨D * m, pace hB.one_le hB.fill_nonneg hW, rfl⟩) hall (asked_outflow hacc)
    (fun w hw ha => by
      have e : injected (negCells w) (fun v => - w.val v) = fun v => max (-Problem.wellAt w v) 0 :=
        funext fun v => injected_neg v
      rw [e]; exact hone w hw ha)
  have hk : k ≤ D * m + 1 := by exact_mod_cast hk
  have hlim : ∀ fuel, n ≤ fuel → ∀ sweeps, k ≤ sweeps → productionLimited g calls noFailure fuel sweeps starts = .ok sol := by
    intro fuel hfu sweeps hsw
    rw [(limited_accepted hg (stored_complete hP hS) hpv hf fuel sweeps starts).2 ((accepts_val hS.inflow starts).2 hacc)]
    exact hN fuel hfu sweeps hsw
  have hout : ∀ fuel, productionOutcome g calls noFailure fuel starts = productionLimited g calls noFailure fuel fuel starts := by
    intro fuel
    unfold productionLimited productionOutcome
    rw [Counter.prodDiag_uncounted]
  refine ⟨sol, (Fuel.production_returns.mpr ⟨max n k, ?_, by simp⟩).1, max n k, fun fuel hfu => ⟨?_, fun hi => ?_⟩⟩
  · rw [hout]; exact hlim _ (le_max_left _ _) _ (le_max_right _ _)
  · exact hlim _ (by omega) _ hk
  · rw [(C60_no_overflow_partial g calls noFailure fuel starts).2, hout]
    · exact hlim _ (by omega) _ (by omega)
    · rw [hlim _ (by omega) _ (by omega)]; simp

/-! ### A case -/

theorem whirl_sweeps : SweepBounds 4 6 1 6 37 := by
  constructor <;> norm_num

/-- C88: the hypotheses hold for both wells of a flow with a cycle, so that 223 sweeps suffice. -/
example : (∃ sol, InjectionReturns whirlGraph whirlCalls [CellSet.ofCells ⟨[65]⟩ [0]] (.ok sol) ∧ ∃ steps, ∀ fuel, steps ≤ fuel →
      injectionLimited whirlGraph whirlCalls noFailure fuel 223 [CellSet.ofCells ⟨[65]⟩ [0]] = .ok sol ∧
      injectionCounted whirlGraph whirlCalls noFailure fuel [CellSet.ofCells ⟨[65]⟩ [0]] = .ok sol) ∧
    (∃ sol, ProductionReturns whirlGraph whirlCalls [CellSet.ofCells ⟨[80]⟩ [3]] (.ok sol) ∧ ∃ steps, ∀ fuel, steps ≤ fuel →
      productionLimited whirlGraph whirlCalls noFailure fuel 223 [CellSet.ofCells ⟨[80]⟩ [3]] = .ok sol ∧
      productionCounted whirlGraph whirlCalls noFailure fuel [CellSet.ofCells ⟨[80]⟩ [3]] = .ok sol) ∧
    ¬ exWhirl.forward.Acyclic := by
  refine ⟨?_, ?_, whirl_cycle⟩
  · obtain ⟨sol, h1, n, h2⟩ := C88_injection exWhirl_valid whirl_ordinary whirl_total.1 whirl_stored whirl_asked.1 whirl_bounds
      whirl_sweeps whirl_tame_all.1 whirl_tame_one.1
    exact ⟨sol, h1, n, fun fuel hf => ⟨(h2 fuel hf).1, (h2 fuel hf).2 (by unfold INT_MAX; norm_num)⟩⟩
  · obtain ⟨sol, h1, n, h2⟩ := C88_production exWhirl_valid whirl_ordinary whirl_total.2 whirl_stored whirl_asked.2 whirl_bounds
      whirl_sweeps whirl_tame_all.2 whirl_tame_one.2
    exact ⟨sol, h1, n, fun fuel hf => ⟨(h2 fuel hf).1, (h2 fuel hf).2 (by unfold INT_MAX; norm_num)⟩⟩

end Verif.Props
