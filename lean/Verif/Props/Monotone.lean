/-
C72 with rounding: larger pore volumes do not give shorter times.
-/
import Verif.Proofs.Monotone
import Verif.Props.Rounding
import Verif.Props.SweepCounter
import Verif.Props.Accuracy

namespace Verif.Props
open Verif.Spec Verif.Solver Verif.Toolbox Verif.Tarjan Verif.Counter Verif.Rounding Verif.Rounding.Larger

variable {R : Type} [Arith R] {K : Type} [Field K] [LinearOrder K] [IsStrictOrderedRing K]

/-- **C72** With any rounding: larger pore volumes never give a smaller time-of-flight in a cell, global or of an injector, if
    every cell upstream takes more than 200 years to fill with both pore volumes or with neither; and the concentrations are the
    same to the last bit.  Flow with cycles is missing. -/
theorem C72_any_rounding_injection_partial (ρ : Rounded R K) {g g' : ConnectivityGraph} {n : Nat} {cs : List (Nat × Nat)}
    (hg : ValidConnectivity g n cs) (hg' : ValidConnectivity g' n cs) {calls calls' : List (Call R)} {np : Nat}
    {phi : Nat → Nat → R} {pv pv' : List R} (hpv : lastPoreVolume g calls = some pv) (hpv' : lastPoreVolume g' calls' = some pv')
    (hpvn : ∀ x ∈ pv, NotNegative x) (hpvn' : ∀ x ∈ pv', NotNegative x)
    (hf : FluxGiven g calls np phi) (hf' : FluxGiven g' calls' np phi)
    (hin : (lastInflow calls').getD [] = (lastInflow calls).getD []) (hm : CellsBelow ((lastInflow calls).getD []) n)
    (hacy : NoCycle cs fun c => phaseSum (phi c) np)
    (hle : ∀ (v : Nat) (p p' : R), pv[v]? = some p → pv'[v]? = some p' → Arith.lt p' p = false)
    {starts : List CellSet} {sol sol' : Solution R} (hr : InjectionReturns g calls starts (.ok sol))
    (hr' : InjectionReturns g' calls' starts (.ok sol')) :
    (∀ i, sol'.concentration i = sol.concentration i) ∧
    ∀ v < n, (∀ u, Relation.ReflTransGen (FlowsTo cs fun c => phaseSum (phi c) np) u v →
        ∀ p p' total, pv[u]? = some p → pv'[u]? = some p' →
          total = Arith.add (flowInto n cs (fun c => phaseSum (phi c) np) u) (injectedInto ((lastInflow calls).getD []) u) →
          Arith.lt total (Arith.div p' (capIn R)) = Arith.lt total (Arith.div p (capIn R))) →
      (∀ t t', sol.timeOfFlight[v]? = some t → sol'.timeOfFlight[v]? = some t' → Arith.lt t' t = false) ∧
      ∀ i, List.Forall₂ (fun e e' : Int × R => e'.1 = e.1 ∧ (e.1 = (v : Int) → Arith.lt e'.2 e.2 = false))
        (sol.timeOfFlightOf i) (sol'.timeOfFlightOf i) := by
  have hl : pv.length = n := by rw [lastPoreVolume_length hpv, hg.cells]
  have hl' : pv'.length = n := by rw [lastPoreVolume_length hpv', hg'.cells]
  have hD := directed_range hg.range fun c => phaseSum (phi c) np
  obtain ⟨hA, _⟩ := graphsOf_acyclic hg.int hD (fun u v w h => mem_directed h) hacy
  obtain ⟨N, hN⟩ := hr
  obtain ⟨N', hN'⟩ := hr'
  have key : ∀ S : Nat → Prop, (∀ u v, FlowsTo cs (fun c => phaseSum (phi c) np) u v → S v → S u) →
      (∀ v < n, S v → ∀ p p', pv[v]? = some p → pv'[v]? = some p' → ∀ total,
        total = Arith.add (flowInto n cs (fun c => phaseSum (phi c) np) v) (injectedInto ((lastInflow calls).getD []) v) →
        Arith.lt total (Arith.div p' (capIn R)) = Arith.lt total (Arith.div p (capIn R))) → SolutionBelow S sol sol' := by
    intro S hS hslow
    let M := max (max N N') (n + numEdges n (graphsOf n (directed cs fun c => phaseSum (phi c) np)).1.startPointers)
    have h1 := (outcomes_eq hg hpv hf M starts).1
    have h1' := (outcomes_eq hg' hpv' hf' M starts).1
    rw [hN _ (by omega)] at h1
    rw [hN' _ (by omega), hin] at h1'
    rcases h1 with h1 | h1 | h1
    · cases h1
    · cases h1
    rcases h1' with h1' | h1' | h1'
    · cases h1'
    · cases h1'
    obtain ⟨x, hx, hb⟩ := computeSolution_mono ρ hg.int hD (directed_notNegative ρ) hA hl hl' hpvn hpvn' hle (positives_range hm)
      (positives_notNegative ρ) (fun u v w hw => hS u v (mem_directed hw)) (fun v hv hSv p p' hp hp' total ht => by
        rw [← flowInto_eq, ← injectedInto_eq] at ht
        exact hslow v hv hSv p p' hp hp' total ht) (le_max_right _ _) h1.symm
    rw [hx] at h1'
    cases h1'
    exact hb
  refine ⟨(key (fun _ => False) (fun _ _ _ h => h) (fun _ _ h => h.elim)).conc, fun v hv hs => ?_⟩
  have hb := key (fun u => Relation.ReflTransGen (FlowsTo cs fun c => phaseSum (phi c) np) u v)
    (fun a b hab hb => .head hab hb) (fun u _ hu p p' hp hp' total ht => hs u hu p p' total hp hp' ht)
  refine ⟨fun t t' => hb.global v t t' .refl, fun i => (hb.tof i).imp fun e e' h => ⟨h.1, fun hev => h.2 ?_⟩⟩
  have := hg.int
  rw [hev, sizeOfInt_nonneg (by omega) (by omega), Int.toNat_natCast]

/-- **C72** The same for producers, with the cells downstream. -/
theorem C72_any_rounding_production_partial (ρ : Rounded R K) {g g' : ConnectivityGraph} {n : Nat} {cs : List (Nat × Nat)}
    (hg : ValidConnectivity g n cs) (hg' : ValidConnectivity g' n cs) {calls calls' : List (Call R)} {np : Nat}
    {phi : Nat → Nat → R} {pv pv' : List R} (hpv : lastPoreVolume g calls = some pv) (hpv' : lastPoreVolume g' calls' = some pv')
    (hpvn : ∀ x ∈ pv, NotNegative x) (hpvn' : ∀ x ∈ pv', NotNegative x)
    (hf : FluxGiven g calls np phi) (hf' : FluxGiven g' calls' np phi)
    (hin : (lastInflow calls').getD [] = (lastInflow calls).getD []) (hm : CellsBelow ((lastInflow calls).getD []) n)
    (hacy : NoCycle cs fun c => phaseSum (phi c) np)
    (hle : ∀ (v : Nat) (p p' : R), pv[v]? = some p → pv'[v]? = some p' → Arith.lt p' p = false)
    {starts : List CellSet} {sol sol' : Solution R} (hr : ProductionReturns g calls starts (.ok sol))
    (hr' : ProductionReturns g' calls' starts (.ok sol')) :
    (∀ i, sol'.concentration i = sol.concentration i) ∧
    ∀ v < n, (∀ u, Relation.ReflTransGen (FlowsTo cs fun c => phaseSum (phi c) np) v u →
        ∀ p p' total, pv[u]? = some p → pv'[u]? = some p' →
          total = Arith.add (flowOutOf n cs (fun c => phaseSum (phi c) np) u) (producedFrom ((lastInflow calls).getD []) u) →
          Arith.lt total (Arith.div p' (capIn R)) = Arith.lt total (Arith.div p (capIn R))) →
      (∀ t t', sol.timeOfFlight[v]? = some t → sol'.timeOfFlight[v]? = some t' → Arith.lt t' t = false) ∧
      ∀ i, List.Forall₂ (fun e e' : Int × R => e'.1 = e.1 ∧ (e.1 = (v : Int) → Arith.lt e'.2 e.2 = false))
        (sol.timeOfFlightOf i) (sol'.timeOfFlightOf i) := by
  have hl : pv.length = n := by rw [lastPoreVolume_length hpv, hg.cells]
  have hl' : pv'.length = n := by rw [lastPoreVolume_length hpv', hg'.cells]
  have hD := directed_range hg.range fun c => phaseSum (phi c) np
  obtain ⟨hA, _⟩ := graphsOf_acyclic (D := swapEnds (directed cs fun c => phaseSum (phi c) np)) hg.int (swapped_range hD)
    (E := fun u v => FlowsTo cs (fun c => phaseSum (phi c) np) v u) (fun u v w h => mem_directed (mem_swapEnds h))
    (fun v hv => hacy v (Relation.transGen_swap.mp hv))
  obtain ⟨N, hN⟩ := hr
  obtain ⟨N', hN'⟩ := hr'
  have key : ∀ S : Nat → Prop, (∀ u v, FlowsTo cs (fun c => phaseSum (phi c) np) v u → S v → S u) →
      (∀ v < n, S v → ∀ p p', pv[v]? = some p → pv'[v]? = some p' → ∀ total,
        total = Arith.add (flowOutOf n cs (fun c => phaseSum (phi c) np) v) (producedFrom ((lastInflow calls).getD []) v) →
        Arith.lt total (Arith.div p' (capIn R)) = Arith.lt total (Arith.div p (capIn R))) → SolutionBelow S sol sol' := by
    intro S hS hslow
    let M := max (max N N') (n + numEdges n (graphsOf n (swapEnds (directed cs fun c => phaseSum (phi c) np))).1.startPointers)
    have h1 := (outcomes_eq hg hpv hf M starts).2
    have h1' := (outcomes_eq hg' hpv' hf' M starts).2
    rw [hN _ (by omega)] at h1
    rw [hN' _ (by omega), hin] at h1'
    rcases h1 with h1 | h1 | h1
    · cases h1
    · cases h1
    rcases h1' with h1' | h1' | h1'
    · cases h1'
    · cases h1'
    obtain ⟨x, hx, hb⟩ := computeSolution_mono ρ hg.int (swapped_range hD) (swapEnds_notNegative ρ (directed_notNegative ρ)) hA hl hl'
      hpvn hpvn' hle (negatives_range hm)
      (negatives_notNegative ρ) (fun u v w hw => hS u v (mem_directed (mem_swapEnds hw))) (fun v hv hSv p p' hp hp' total ht => by
        rw [swapEnds_swapEnds, ← flowOutOf_eq, ← producedFrom_eq] at ht
        exact hslow v hv hSv p p' hp hp' total ht) (le_max_right _ _) h1.symm
    rw [hx] at h1'
    cases h1'
    exact hb
  refine ⟨(key (fun _ => False) (fun _ _ _ h => h) (fun _ _ h => h.elim)).conc, fun v hv hs => ?_⟩
  have hb := key (fun u => Relation.ReflTransGen (FlowsTo cs fun c => phaseSum (phi c) np) v u)
    (fun a b hab hb => hb.tail hab) (fun u _ hu p p' hp hp' total ht => hs u hu p p' total hp hp' ht)
  refine ⟨fun t t' => hb.global v t t' .refl, fun i => (hb.tof i).imp fun e e' h => ⟨h.1, fun hev => h.2 ?_⟩⟩
  have := hg.int
  rw [hev, sizeOfInt_nonneg (by omega) (by omega), Int.toNat_natCast]

/-! ### The hypotheses hold

The flow of `accCalls`, with `double`s, and twice the pore volume in the middle cell. -/

def accPhi (c _p : Nat) : Double := if c = 2 then Arith.lit 7 else Arith.lit 3

def accRates : InflowFlux Double := [(⟨[73]⟩, [(0, Arith.lit 10)]), (⟨[80]⟩, [(2, Arith.lit (-10))])]

def accLarger : List (Call Double) :=
  [.assignPoreVolume [Arith.lit 1, Arith.lit 4, Arith.lit 2],
   .assignConnectionFlux ⟨3, 1, [Arith.lit 3, Arith.lit 3, Arith.lit 7]⟩,
   .assignInflowFlux [(⟨[73]⟩, [(0, Arith.lit 10)]), (⟨[80]⟩, [(2, Arith.lit (-10))])]]

theorem accPhi_given (pv : List Double) (m : InflowFlux Double) :
    FluxGiven accGraph [.assignPoreVolume pv, .assignConnectionFlux ⟨3, 1, [Arith.lit 3, Arith.lit 3, Arith.lit 7]⟩,
      .assignInflowFlux m] 1 accPhi := by
  refine ⟨_, rfl, rfl, rfl, ?_⟩
  intro c hc p hp
  have hp : p = 0 := by omega
  subst hp
  have hc : c < 3 := hc
  interval_cases c <;> rfl

theorem accPhi_noCycle : NoCycle accProblem.conns fun c => phaseSum (accPhi c) 1 := by
  have h2 : ∀ c, c = 2 → Arith.lt (phaseSum (accPhi c) 1) Arith.zero = false := by
    rintro c rfl; decide +kernel
  have h0 : Arith.lt (phaseSum (accPhi 0) 1) Arith.zero = false := by decide +kernel
  have hpos : ∀ c, Arith.lt (phaseSum (accPhi c) 1) Arith.zero = false := by
    intro c
    by_cases hc : c = 2
    · exact h2 c hc
    · have e : accPhi c = accPhi 0 := by
        funext p; unfold accPhi; rw [if_neg hc, if_neg (by omega)]
      rw [e]; exact h0
  have hlt : ∀ u v, FlowsTo accProblem.conns (fun c => phaseSum (accPhi c) 1) u v → u < v := by
    rintro u v ⟨c, ⟨h1, _⟩ | ⟨_, h2⟩⟩
    · match c, h1 with
      | 0, h1 => cases h1; decide
      | 1, h1 => cases h1; decide
      | 2, h1 => cases h1; decide
    · rw [hpos] at h2; cases h2
  intro v hv
  have key : ∀ u v, Relation.TransGen (FlowsTo accProblem.conns fun c => phaseSum (accPhi c) 1) u v → u < v := by
    intro u v h
    induction h with
    | single h => exact hlt _ _ h
    | tail _ h ih => exact ih.trans (hlt _ _ h)
  exact lt_irrefl _ (key v v hv)

def okWith (p : Solution Double → Bool) (r : Res (Solution Double)) : Bool := match r with
  | .ok s => p s
  | _ => false

theorem okWith_spec {p : Solution Double → Bool} {r : Res (Solution Double)} (h : okWith p r = true) :
    ∃ s, r = .ok s ∧ p s = true := by
  unfold okWith at h
  split at h
  · exact ⟨_, rfl, h⟩
  · cases h

set_option maxRecDepth 100000 in
theorem acc_returns : ∃ s, InjectionReturns accGraph accCalls accInjectors (.ok s) ∧ s.timeOfFlight[2]? ≠ none := by
  obtain ⟨s, h, h'⟩ := okWith_spec (p := fun s => s.timeOfFlight[2]?.isSome)
    (show okWith _ (injectionOutcome accGraph accCalls noFailure 100 accInjectors) = true by decide +kernel)
  exact ⟨s, (Fuel.injection_returns.mpr ⟨100, h, by simp⟩).1, fun e => by simp [e] at h'⟩

set_option maxRecDepth 100000 in
theorem accLarger_returns : ∃ s, InjectionReturns accGraph accLarger accInjectors (.ok s) := by
  obtain ⟨s, h, _⟩ := okWith_spec (p := fun _ => true)
    (show okWith _ (injectionOutcome accGraph accLarger noFailure 100 accInjectors) = true by decide +kernel)
  exact ⟨s, (Fuel.injection_returns.mpr ⟨100, h, by simp⟩).1⟩

theorem acc_notSlow : ∀ u < 3, ∀ p p' : Double, [Arith.lit 1, Arith.lit 2, Arith.lit 2][u]? = some p →
    [Arith.lit 1, Arith.lit 4, Arith.lit 2][u]? = some p' →
    Arith.lt (Arith.add (flowInto 3 accProblem.conns (fun c => phaseSum (accPhi c) 1) u)
      (injectedInto accRates u)) (Arith.div p' (capIn Double)) = false ∧
    Arith.lt (Arith.add (flowInto 3 accProblem.conns (fun c => phaseSum (accPhi c) 1) u)
      (injectedInto accRates u)) (Arith.div p (capIn Double)) = false := by
  intro u hu p p' h h'
  interval_cases u <;> simp only [List.getElem?_cons_zero, List.getElem?_cons_succ, Option.some.injEq] at h h' <;> subst h h' <;>
    decide +kernel

/-- C72 with `double`s. -/
example : ∃ s s', InjectionReturns accGraph accCalls accInjectors (.ok s) ∧ InjectionReturns accGraph accLarger accInjectors (.ok s') ∧
    s'.concentration ⟨[73]⟩ = s.concentration ⟨[73]⟩ ∧
    ∃ t t', s.timeOfFlight[2]? = some t ∧ s'.timeOfFlight[2]? = some t' ∧ Arith.lt t' t = false := by
  obtain ⟨s, h1, h2⟩ := acc_returns
  obtain ⟨s', h1'⟩ := accLarger_returns
  have hg := stored_connectivity accProblem_valid acc_stored
  obtain ⟨a, b⟩ := C72_any_rounding_injection_partial Double.rounded hg hg (calls := accCalls) (calls' := accLarger) (np := 1)
    (phi := accPhi) rfl rfl (fun x hx => by
      simp only [List.mem_cons, List.not_mem_nil, or_false] at hx
      rcases hx with rfl | rfl | rfl <;> (unfold NotNegative; decide +kernel)) (fun x hx => by
      simp only [List.mem_cons, List.not_mem_nil, or_false] at hx
      rcases hx with rfl | rfl | rfl <;> (unfold NotNegative; decide +kernel)) (accPhi_given _ _) (accPhi_given _ _) rfl
    (show CellsBelow accRates 3 by unfold CellsBelow; decide +kernel) accPhi_noCycle (by
      intro v p p' h h'
      by_cases hv : v < 3
      · interval_cases v <;> simp only [List.getElem?_cons_zero, List.getElem?_cons_succ, Option.some.injEq] at h h' <;>
          subst h h' <;> decide +kernel
      · rw [List.getElem?_eq_none (by simpa using hv)] at h; cases h) h1 h1'
  obtain ⟨c, _⟩ := b 2 (by decide) (fun u _ p p' total h h' ht => by
    have hu : u < 3 := (List.getElem?_eq_some_iff.mp h).1
    subst ht
    obtain ⟨q1, q2⟩ := acc_notSlow u hu p p' h h'
    exact q1.trans q2.symm)
  obtain ⟨t, ht⟩ := Option.ne_none_iff_exists'.mp h2
  have hlen : ∀ {c : List (Call Double)} {x}, InjectionReturns accGraph c accInjectors (.ok x) → x.timeOfFlight.length = 3 := by
    rintro c x ⟨N, hN⟩
    exact (C41_ids _ _ _ N _ _ (Or.inl (hN N le_rfl))).2.2.1
  obtain ⟨t', ht'⟩ : ∃ t', s'.timeOfFlight[2]? = some t' :=
    ⟨_, List.getElem?_eq_getElem (by rw [hlen h1']; decide)⟩
  exact ⟨s, s', h1, h1', a _, t, t', ht, ht', c t t' ht ht'⟩

end Verif.Props
