/-
C53 to C56: what holds in floating-point arithmetic, whatever the rounding.
-/
import Verif.Proofs.RoundingFinite
import Verif.Proofs.RoundingFlow
import Verif.Proofs.RoundingCurve
import Verif.Proofs.DerivedCurve
import Verif.Props.Toolbox

namespace Verif.Props
open Verif.Spec Verif.Toolbox Verif.Solver Verif.Derived Verif.Rounding Verif.Tarjan

section any
variable {R : Type} [Arith R]

open Classical in
/-- How diagnostics end, in terms of the oriented connections. -/
theorem outcomes_eq {g : ConnectivityGraph} {n : Nat} {cs : List (Nat × Nat)} (hg : ValidConnectivity g n cs)
    {calls : List (Call R)} {np : Nat} {phi : Nat → Nat → R} {pv : List R} (hpv : lastPoreVolume g calls = some pv)
    (hf : FluxGiven g calls np phi) (fuel : Nat) (starts : List CellSet) :
    (injectionOutcome g calls noFailure fuel starts = .throw .logicError ∨
     injectionOutcome g calls noFailure fuel starts = .throw .runtimeError ∨
     injectionOutcome g calls noFailure fuel starts =
      computeSolution (graphsOf n (directed cs fun c => phaseSum (phi c) np)).1
        (graphsOf n (directed cs fun c => phaseSum (phi c) np)).2 pv
        (gather (positives (entries ((lastInflow calls).getD [])))).only
        (gather (positives (entries ((lastInflow calls).getD [])))).byId noFailure fuel starts) ∧
    (productionOutcome g calls noFailure fuel starts = .throw .logicError ∨
     productionOutcome g calls noFailure fuel starts = .throw .runtimeError ∨
     productionOutcome g calls noFailure fuel starts =
      computeSolution (graphsOf n (swapEnds (directed cs fun c => phaseSum (phi c) np))).1
        (graphsOf n (swapEnds (directed cs fun c => phaseSum (phi c) np))).2 pv
        (gather (negatives (entries ((lastInflow calls).getD [])))).only
        (gather (negatives (entries ((lastInflow calls).getD [])))).byId noFailure fuel starts) := by
  by_cases hc : Complete g calls
  · obtain ⟨pv', f, h1, h2, h3, h4⟩ := complete_outcome hc
    rw [hpv] at h1; cases h1
    obtain ⟨f', e', hf⟩ := hf
    rw [h2] at e'; cases e'
    rw [hg.count] at hf
    have hgr := graphs_eq hg hf
    rw [injectionOutcome_eq, productionOutcome_eq, hpv, h2]
    simp only [Option.getD_some]
    rw [outcome_complete h3 h4, outcome_complete h3 h4, check_injection, check_production, hgr, graphsOf_swap]
    constructor
    · split
      · rw [Res.ok_bind, Res.ok_bind, splitInflow_eq]; simp
      · simp [Res.bind]
    · split
      · rw [Res.ok_bind, Res.ok_bind, splitInflow_eq]; simp
      · simp [Res.bind]
  · obtain ⟨h1, h2⟩ := C34_missing g calls hc noFailure fuel starts
    exact ⟨Or.inl h1, Or.inl h2⟩

end any

section
variable {R : Type} [Arith R] {K : Type} [Field K] [LinearOrder K] [IsStrictOrderedRing K]

omit [Arith R] in
theorem mul_nonpos {x y : X K} (hx : X.lt (X.fin 0) x = false) (hy : X.lt y (X.fin 0) = false) :
    X.lt (X.fin 0) (X.mul x y) = false := by
  cases x <;> cases y <;> simp only [X.lt, X.mul, X.infSign, decide_eq_false_iff_not, not_lt, Bool.false_eq_true,
    Bool.true_eq_false] at *
  · exact mul_nonpos_of_nonpos_of_nonneg hx hy
  · rename_i k
    rw [if_neg (not_lt.mpr hx)]
    by_cases h : k < 0
    · rw [if_pos h]
    · rw [if_neg h]
  · rename_i k
    rcases lt_or_eq_of_le hy with h | h
    · simp [h, not_lt.mpr h.le]
    · simp [← h]

omit [Arith R] in
theorem add_nonpos {x y : X K} (hx : X.lt (X.fin 0) x = false) (hy : X.lt (X.fin 0) y = false) :
    X.lt (X.fin 0) (X.add x y) = false := by
  cases x <;> cases y <;> simp only [X.lt, X.add, decide_eq_false_iff_not, not_lt, Bool.true_eq_false] at *
  linarith

theorem swapped_range {n : Nat} {D : List (Int × Int × R)}
    (h : ∀ c ∈ D, (0 ≤ c.1 ∧ c.1 < (n : Int)) ∧ (0 ≤ c.2.1 ∧ c.2.1 < (n : Int))) :
    ∀ c ∈ swapEnds D, (0 ≤ c.1 ∧ c.1 < (n : Int)) ∧ (0 ≤ c.2.1 ∧ c.2.1 < (n : Int)) := by
  intro c hc
  unfold swapEnds at hc
  obtain ⟨x, hx, rfl⟩ := List.mem_map.mp hc
  exact ⟨(h x hx).2, (h x hx).1⟩

/-- **C53** In floating-point arithmetic, with any rounding: whatever the fluxes and inflows are, even NaN and infinite
    ones, diagnostics only return concentrations above 0 and at most 1, and times of flight from 0 to 200 years.
    (A NaN is not excluded: comparisons with NaN are false.) -/
theorem C53_bounds (ρ : Rounded R K) {g : ConnectivityGraph} {n : Nat} {cs : List (Nat × Nat)} (hg : ValidConnectivity g n cs)
    {calls : List (Call R)} {np : Nat} {phi : Nat → Nat → R} {pv : List R} (hpv : lastPoreVolume g calls = some pv)
    (hpvn : ∀ x ∈ pv, NotNegative x) (hf : FluxGiven g calls np phi)
    (hm : CellsBelow ((lastInflow calls).getD []) n) {starts : List CellSet} {sol : Solution R}
    (h : InjectionReturns g calls starts (.ok sol) ∨ ProductionReturns g calls starts (.ok sol)) :
    (∀ t ∈ sol.timeOfFlight, Arith.lt t (Arith.lit 0) = false ∧ Arith.lt (capIn R) t = false) ∧
    ∀ i, (∀ e ∈ sol.timeOfFlightOf i, Arith.lt e.2 (Arith.lit 0) = false ∧ Arith.lt (capIn R) e.2 = false) ∧
      ∀ e ∈ sol.concentration i, Arith.le e.2 (Arith.lit 0) = false ∧ Arith.lt (Arith.lit 1) e.2 = false := by
  have hl : pv.length = n := by rw [lastPoreVolume_length hpv, hg.cells]
  have hD := directed_range hg.range fun c => phaseSum (phi c) np
  have key : SolutionBounds sol := by
    rcases h with ⟨N, hN⟩ | ⟨N, hN⟩
    · have h1 := (outcomes_eq hg hpv hf
        (max N (n + numEdges n (graphsOf n (directed cs fun c => phaseSum (phi c) np)).1.startPointers)) starts).1
      rw [hN _ (le_max_left _ _)] at h1
      rcases h1 with h1 | h1 | h1
      · cases h1
      · cases h1
      · exact computeSolution_bounds ρ hg.int hD (directed_notNegative ρ) hl hpvn (positives_range hm)
          (positives_notNegative ρ) (le_max_right _ _) h1.symm
    · have h1 := (outcomes_eq hg hpv hf
        (max N (n + numEdges n (graphsOf n (swapEnds (directed cs fun c => phaseSum (phi c) np))).1.startPointers)) starts).2
      rw [hN _ (le_max_left _ _)] at h1
      rcases h1 with h1 | h1 | h1
      · cases h1
      · cases h1
      · exact computeSolution_bounds ρ hg.int (swapped_range hD) (swapEnds_notNegative ρ (directed_notNegative ρ)) hl hpvn
          (negatives_range hm) (negatives_notNegative ρ) (le_max_right _ _) h1.symm
  exact ⟨key.global, fun i => ⟨key.tof i, key.conc i⟩⟩

theorem positives_num (ρ : Rounded R K) {m : InflowFlux R} : ∀ e ∈ positives (entries m), NotNegative e.2.2 ∧ Num ρ e.2.2 := by
  intro e he
  refine ⟨positives_notNegative ρ e he, ?_⟩
  have := (List.mem_filter.mp he).2
  rw [ρ.lt] at this
  intro e'
  rw [e'] at this
  cases h : ρ.val (Arith.zero : R) <;> rw [h] at this <;> simp [X.lt] at this

theorem negatives_num (ρ : Rounded R K) {m : InflowFlux R} : ∀ e ∈ negatives (entries m), NotNegative e.2.2 ∧ Num ρ e.2.2 := by
  intro e he
  refine ⟨negatives_notNegative ρ e he, ?_⟩
  unfold negatives at he
  obtain ⟨x, hx, rfl⟩ := List.mem_map.mp he
  have := (List.mem_filter.mp hx).2
  simp only [Bool.and_eq_true, Bool.not_eq_true'] at this
  have := this.2
  rw [ρ.lt] at this
  unfold Num
  rw [ρ.neg]
  cases h : ρ.val x.2.2 <;> rw [h] at this <;> simp [X.lt, X.neg] at this ⊢

/-- **C54** In floating-point arithmetic, with any rounding: as long as the flow into (for injection) or out of (for
    production) each cell does not overflow, no assertion fails; so diagnostics return a solution, throw a documented
    exception or iterate on. -/
theorem C54_no_assertion (ρ : Rounded R K) {g : ConnectivityGraph} {n : Nat} {cs : List (Nat × Nat)} (hg : ValidConnectivity g n cs)
    {calls : List (Call R)} {np : Nat} {phi : Nat → Nat → R} {pv : List R} (hpv : lastPoreVolume g calls = some pv)
    (hpvn : ∀ x ∈ pv, NotNegative x) (hf : FluxGiven g calls np phi)
    (hm : CellsBelow ((lastInflow calls).getD []) n) (starts : List CellSet) :
    ∃ N, ∀ fuel, N ≤ fuel →
      ((∀ v < n, IsFinite (Arith.add (flowInto n cs (fun c => phaseSum (phi c) np) v) (injectedInto ((lastInflow calls).getD []) v))) →
        ∀ r, r = injectionOutcome g calls noFailure fuel starts →
          (∃ sol, r = .ok sol) ∨ r = .throw .logicError ∨ r = .throw .runtimeError ∨ r = .diverge) ∧
      ((∀ v < n, IsFinite (Arith.add (flowOutOf n cs (fun c => phaseSum (phi c) np) v) (producedFrom ((lastInflow calls).getD []) v))) →
        ∀ r, r = productionOutcome g calls noFailure fuel starts →
          (∃ sol, r = .ok sol) ∨ r = .throw .logicError ∨ r = .throw .runtimeError ∨ r = .diverge) := by
  have hl : pv.length = n := by rw [lastPoreVolume_length hpv, hg.cells]
  have hD := directed_range hg.range fun c => phaseSum (phi c) np
  obtain ⟨N, hN⟩ := C40_no_undefined_behaviour hg (by rw [hpv]; simp) hf hm starts
  refine ⟨max N (max (n + numEdges n (graphsOf n (directed cs fun c => phaseSum (phi c) np)).1.startPointers)
    (n + numEdges n (graphsOf n (swapEnds (directed cs fun c => phaseSum (phi c) np))).1.startPointers)), fun fuel hfu => ⟨?_, ?_⟩⟩
  · intro hfin r hr
    have hcalm : Calm r := by
      rcases (outcomes_eq hg hpv hf fuel starts).1 with h1 | h1 | h1
      · rw [hr, h1]; exact Calm.throw _
      · rw [hr, h1]; exact Calm.throw _
      · rw [hr, h1]
        refine (computeSolution_calm ρ hg.int hD (directed_notNegative ρ) hl hpvn (positives_range hm)
          (positives_num ρ) ?_ (by omega)).1
        intro v hv
        rw [← flowInto_eq, ← injectedInto_eq, ← isFinite_iff ρ]
        exact hfin v hv
    rcases hN fuel (by omega) r (Or.inl hr) with h | h | h | h | h
    · exact Or.inl h
    · exact Or.inr (Or.inl h)
    · exact Or.inr (Or.inr (Or.inl h))
    · exact absurd h hcalm
    · exact Or.inr (Or.inr (Or.inr h))
  · intro hfin r hr
    have hcalm : Calm r := by
      rcases (outcomes_eq hg hpv hf fuel starts).2 with h1 | h1 | h1
      · rw [hr, h1]; exact Calm.throw _
      · rw [hr, h1]; exact Calm.throw _
      · rw [hr, h1]
        refine (computeSolution_calm ρ hg.int (swapped_range hD) (swapEnds_notNegative ρ (directed_notNegative ρ)) hl hpvn
          (negatives_range hm) (negatives_num ρ) ?_ (by omega)).1
        intro v hv
        rw [swapEnds_swapEnds, ← flowOutOf_eq, ← producedFrom_eq, ← isFinite_iff ρ]
        exact hfin v hv
    rcases hN fuel (by omega) r (Or.inr hr) with h | h | h | h | h
    · exact Or.inl h
    · exact Or.inr (Or.inl h)
    · exact Or.inr (Or.inr (Or.inl h))
    · exact absurd h hcalm
    · exact Or.inr (Or.inr (Or.inr h))

/-- **C54** Without overflow, concentrations are numbers: above 0 and at most 1. -/
theorem C54_concentrations (ρ : Rounded R K) {g : ConnectivityGraph} {n : Nat} {cs : List (Nat × Nat)} (hg : ValidConnectivity g n cs)
    {calls : List (Call R)} {np : Nat} {phi : Nat → Nat → R} {pv : List R} (hpv : lastPoreVolume g calls = some pv)
    (hpvn : ∀ x ∈ pv, NotNegative x) (hf : FluxGiven g calls np phi)
    (hm : CellsBelow ((lastInflow calls).getD []) n) {starts : List CellSet} {sol : Solution R}
    (h : (InjectionReturns g calls starts (.ok sol) ∧
        ∀ v < n, IsFinite (Arith.add (flowInto n cs (fun c => phaseSum (phi c) np) v) (injectedInto ((lastInflow calls).getD []) v))) ∨
      (ProductionReturns g calls starts (.ok sol) ∧
        ∀ v < n, IsFinite (Arith.add (flowOutOf n cs (fun c => phaseSum (phi c) np) v) (producedFrom ((lastInflow calls).getD []) v))))
    (i : CellSetID) : ∀ e ∈ sol.concentration i, Arith.lt (Arith.lit 0) e.2 = true ∧ Arith.le e.2 (Arith.lit 1) = true := by
  have hl : pv.length = n := by rw [lastPoreVolume_length hpv, hg.cells]
  have hD := directed_range hg.range fun c => phaseSum (phi c) np
  have hb := (C53_bounds ρ hg hpv hpvn hf hm (by tauto : InjectionReturns g calls starts (.ok sol) ∨
    ProductionReturns g calls starts (.ok sol))).2 i
  have key : ∀ e ∈ sol.concentration i, Rounding.Fin ρ e.2 := by
    rcases h with ⟨⟨N, hN⟩, hfin⟩ | ⟨⟨N, hN⟩, hfin⟩
    · have h1 := (outcomes_eq hg hpv hf
        (max N (n + numEdges n (graphsOf n (directed cs fun c => phaseSum (phi c) np)).1.startPointers)) starts).1
      rw [hN _ (le_max_left _ _)] at h1
      rcases h1 with h1 | h1 | h1
      · cases h1
      · cases h1
      · refine (computeSolution_calm ρ hg.int hD (directed_notNegative ρ) hl hpvn (positives_range hm)
          (positives_num ρ) ?_ (le_max_right _ _)).2 sol h1.symm i
        intro v hv
        rw [← flowInto_eq, ← injectedInto_eq, ← isFinite_iff ρ]
        exact hfin v hv
    · have h1 := (outcomes_eq hg hpv hf
        (max N (n + numEdges n (graphsOf n (swapEnds (directed cs fun c => phaseSum (phi c) np))).1.startPointers)) starts).2
      rw [hN _ (le_max_left _ _)] at h1
      rcases h1 with h1 | h1 | h1
      · cases h1
      · cases h1
      · refine (computeSolution_calm ρ hg.int (swapped_range hD) (swapEnds_notNegative ρ (directed_notNegative ρ)) hl hpvn
          (negatives_range hm) (negatives_num ρ) ?_ (le_max_right _ _)).2 sol h1.symm i
        intro v hv
        rw [swapEnds_swapEnds, ← flowOutOf_eq, ← producedFrom_eq, ← isFinite_iff ρ]
        exact hfin v hv
  intro e he
  obtain ⟨k, hk⟩ := key e he
  obtain ⟨h1, h2⟩ := hb.2 e he
  rw [ρ.le, val_zero ρ, hk] at h1
  rw [ρ.lt, val_one ρ, hk] at h2
  rw [ρ.le, ρ.lt, val_one ρ, val_zero ρ, hk]
  simp only [X.le, X.lt, X.eq, Bool.or_eq_false_iff, decide_eq_false_iff_not, Bool.or_eq_true, decide_eq_true_eq] at *
  exact ⟨lt_of_le_of_ne (not_lt.mp h1.1) (Ne.symm h1.2), lt_or_eq_of_le (not_lt.mp h2)⟩

/-! ### C55: the curve -/

/-- **C55** In floating-point arithmetic, with any rounding: if pore volumes are not negative and the travel times of the cells
    that are not ignored are positive, both coordinates of the curve have one entry more than there are cells, and each
    rises from exactly 0 to exactly 1 - unless its last entry is NaN, which is so if the total is zero or overflows. -/
theorem C55_curve (ρ : Rounded R K) {sort : List (R × R) → List (R × R)} (hs : SortsPairs sort) {inj prod pv : List R} {frac : R}
    (hI : pv.length ≤ INT_MAX) (hpv : ∀ x ∈ pv, NotNegative x)
    (ht : ∀ (v : Nat) (a b p : R), inj[v]? = some a → prod[v]? = some b → pv[v]? = some p →
      Arith.lt (Arith.mul frac (sumOf pv)) p = false → Arith.lt (Arith.lit 0) (Arith.add a b) = true)
    {Phi F : List R} (h : Derived.curve sort inj prod pv frac = .ok (Phi, F)) :
    (Phi.length = pv.length + 1 ∧ ∀ b, Phi[pv.length]? = some b → IsNumber b → Rising pv.length Phi) ∧
    (F.length = pv.length + 1 ∧ ∀ b, F[pv.length]? = some b → IsNumber b → Rising pv.length F) := by
  unfold Derived.curve at h
  split at h
  · cases h
  simp only [Res.bind_eq, Res.pure_eq] at h
  split at h
  · cases h
  simp only [Res.bind_ok_iff] at h
  obtain ⟨l, hl, l', hl', e⟩ := h
  simp only [Res.ok.injEq, Prod.mk.injEq] at e
  obtain ⟨e1, e2⟩ := e
  rw [narrowInt_small hI, Int.toNat_natCast] at hl
  obtain ⟨hlen, hmem⟩ := timesAndPvs_mem hl
  unfold sortPairs at hl'
  split at hl'
  · rename_i hall
    cases hl'
    have hnum : ∀ p ∈ l, IsNumber p.1 ∧ IsNumber p.2 := by
      intro p hp
      have := List.all_eq_true.mp hall p hp
      simpa [IsNumber] using this
    obtain ⟨hperm, _⟩ := hs l hnum
    have hsl : (sort l).length = pv.length := by rw [hperm.length_eq, hlen]; simp
    have hval : ∀ p ∈ sort l, NotNegative p.2 ∧ Arith.lt (Arith.lit 0) p.1 = true := by
      intro p hp
      obtain ⟨v, x, a, b, hv, ha, hb, rfl⟩ := hmem p (hperm.mem_iff.mp hp)
      unfold timeAndPv
      split
      · refine ⟨zero_notNegative ρ, ?_⟩
        simp only
        rw [ρ.lt, val_zero ρ]
        have h1 : X.lt (ρ.val (Arith.lit (10 ^ 100))) (X.fin 1) = false := by
          rw [← ρ.rnd_one, ρ.lit]
          apply rnd_lt
          have : (1 : K) ≤ ((10 ^ 100 : Rat) : K) := by
            push_cast
            exact one_le_pow₀ (by norm_num)
          simpa [X.lt] using this
        have h2 : ρ.val (Arith.lit (10 ^ 100)) ≠ X.nan := by
          rw [ρ.lit]; exact rnd_ne_nan ρ (by simp)
        cases h3 : ρ.val (Arith.lit (10 ^ 100)) with
        | fin k =>
          rw [h3] at h1
          simp only [X.lt, decide_eq_false_iff_not, not_lt] at h1
          simp only [X.lt, decide_eq_true_eq]
          exact lt_of_lt_of_le one_pos h1
        | pinf => rfl
        | ninf => rw [h3] at h1; simp [X.lt] at h1
        | nan => exact absurd h3 h2
      · rename_i hkeep
        refine ⟨hpv x (List.mem_of_getElem? hv), ?_⟩
        exact ht v a b x ha hb hv (by simpa [sumOf, Arith.zero] using hkeep)
    have r1 := rising ρ (input := sort l) (extract := fun i : R × R => i.2) (fun p hp => (hval p hp).1) e1
    have r2 := rising ρ (input := sort l) (extract := fun i : R × R => Arith.div i.2 i.1) (fun p hp => ?_) e2
    · rw [hsl] at r1 r2
      exact ⟨r1, r2⟩
    · obtain ⟨h1, h2⟩ := hval p hp
      refine div_notNegative ρ h1 (pos_notNegative ρ h2) ?_
      rw [ρ.eq, val_zero' ρ]
      rw [ρ.lt, val_zero ρ] at h2
      cases h3 : ρ.val p.1 <;> rw [h3] at h2 <;> simp_all [X.lt, X.eq]
      exact ne_of_gt h2
  · cases hl'

/-! ### C56: pairs -/

/-- **C56** In floating-point arithmetic, with any rounding: the volume of a pair is not negative. -/
theorem C56_volume (ρ : Rounded R K) {S T : Solution R} {i p : CellSetID}
    (hS : ∀ e ∈ S.concentration i, NotNegative e.2) (hT : ∀ e ∈ T.concentration p, NotNegative e.2)
    {pv : List R} (hpv : ∀ x ∈ pv, NotNegative x) {V : R} (h : pairVolume S T pv i p = .ok V) : NotNegative V := by
  unfold pairVolume at h
  refine (forEach_ok (fun s : R => NotNegative s) (zero_notNegative ρ) ?_ h).1
  intro a b e he ha hb
  unfold addPairVolume at hb
  split at hb
  · cases hb; exact ha
  · rename_i c hc
    simp only [Res.bind_eq, Res.pure_eq, Res.bind_ok_iff] at hb
    obtain ⟨x, hx, hb⟩ := hb
    cases hb
    rw [rd_iff] at hx
    exact add_notNegative ρ ha (mul_notNegative ρ (mul_notNegative ρ (hpv x (List.mem_of_getElem? hx)) (hS e he))
      (hT _ (OMap.find_some_mem hc)))

/-- **C56** In floating-point arithmetic, with any rounding: the first flux of a pair, at the injector, is not negative, and the
    second, at the producer, not positive. -/
theorem C56_fluxes (ρ : Rounded R K) {S T : Solution R} {i p : CellSetID}
    (hS : ∀ e ∈ S.concentration i, NotNegative e.2) (hT : ∀ e ∈ T.concentration p, NotNegative e.2)
    {m : OMap CellSetID (CellSetValues R)} {fi fp : R} (h : pairFluxes S T i p m = .ok (fi, fp)) :
    Arith.lt fi (Arith.lit 0) = false ∧ Arith.lt (Arith.lit 0) fp = false := by
  unfold pairFluxes at h
  simp only at h
  split at h
  · cases h
  split at h
  · cases h
  simp only [Res.ok.injEq, Prod.mk.injEq] at h
  obtain ⟨rfl, rfl⟩ := h
  have fold : ∀ (P : R → Prop) (tracer : CellSetValues R) (b : Bool) (l : CellSetValues R) (a : R), P a →
      (∀ a, P a → ∀ e c, e ∈ l → tracer.find e.1 = some c → (Arith.lt Arith.zero e.2 == b) = true →
        P (Arith.add a (Arith.mul e.2 c))) → P (l.foldl (addPairFlux tracer b) a) := by
    intro P tracer b l
    induction l with
    | nil => intro a ha _; exact ha
    | cons e l ih =>
      intro a ha hstep
      refine ih _ ?_ fun a ha e' c he' => hstep a ha e' c (List.mem_cons_of_mem _ he')
      unfold addPairFlux
      split
      · exact ha
      · split
        · exact hstep a ha e _ List.mem_cons_self (by assumption) (by assumption)
        · exact ha
  constructor
  · refine fold (fun x => Arith.lt x (Arith.lit 0) = false) _ _ _ _ (zero_notNegative ρ) ?_
    intro a ha e c _ hc he
    refine add_notNegative ρ ha (mul_notNegative ρ (pos_notNegative ρ ?_) (hT _ (OMap.find_some_mem hc)))
    simpa using he
  · refine fold (fun x => Arith.lt (Arith.lit 0) x = false) _ _ _ _ (lt_irrefl ρ _) ?_
    intro a ha e c _ hc he
    have hc' := hS _ (OMap.find_some_mem hc)
    have he' : Arith.lt Arith.zero e.2 = false := by simpa using he
    rw [notNegative_iff ρ] at hc'
    rw [ρ.lt, val_zero' ρ] at he'
    rw [ρ.lt, val_zero ρ] at ha ⊢
    rw [ρ.add, ρ.mul, ← val_zero ρ]
    apply rnd_le
    rw [val_zero ρ]
    have hm : X.lt (X.fin 0) (ρ.rnd (X.mul (ρ.val e.2) (ρ.val c))) = false := by
      rw [← val_zero ρ]
      apply rnd_le
      rw [val_zero ρ]
      exact mul_nonpos he' hc'
    revert ha hm
    generalize ρ.rnd (X.mul (ρ.val e.2) (ρ.val c)) = y
    generalize ρ.val a = x
    intro hx hy
    exact add_nonpos hx hy

end
end Verif.Props
