/-
C67: builds without assertions.
-/
import Verif.Props.Accuracy
import Verif.Proofs.Release

namespace Verif.Props
open Verif.Spec Verif.Toolbox Verif.Solver Verif.Counter Verif.Release

section
variable {R : Type} [Arith R]

/-- Any history, any allocation failures, any arithmetic.  Where the build with assertions does not stop at an assertion,
    the build without them does the same.  In any case both leave the toolbox in the same state. -/
theorem C67_same (g : ConnectivityGraph) (calls : List (Call R)) (al : Nat → Alloc) (fuel : Nat) (starts : List CellSet) :
    ((injDiagWith (release fuel) (toolboxAfter g calls) al fuel starts).1 = ((toolboxAfter g calls).injDiag al fuel starts).1 ∧
      (injectionOutcome g calls al fuel starts = .ub .assertFail ∨
        injectionRelease g calls al fuel starts = injectionOutcome g calls al fuel starts)) ∧
    ((prodDiagWith (release fuel) (toolboxAfter g calls) al fuel starts).1 = ((toolboxAfter g calls).prodDiag al fuel starts).1 ∧
      (productionOutcome g calls al fuel starts = .ub .assertFail ∨
        productionRelease g calls al fuel starts = productionOutcome g calls al fuel starts)) := by
  have h1 := injDiag_agree fuel (toolboxAfter g calls) al fuel starts
  have h2 := prodDiag_agree fuel (toolboxAfter g calls) al fuel starts
  rw [injDiag_uncounted] at h1
  rw [prodDiag_uncounted] at h2
  exact ⟨h1, h2⟩

open Classical in
/-- Valid input, any arithmetic: without assertions diagnostics return, throw a documented exception or are still iterating.
    In particular no assertion about sizes or indices fails. -/
theorem C67_no_undefined_behaviour {g : ConnectivityGraph} {n : Nat} {cs : List (Nat × Nat)}
    (hg : ValidConnectivity g n cs) {calls : List (Call R)} {np : Nat} {phi : Nat → Nat → R}
    (hpv : lastPoreVolume g calls ≠ none) (hf : FluxGiven g calls np phi)
    (hm : CellsBelow ((lastInflow calls).getD []) n) (starts : List CellSet) :
    ∃ N, ∀ fuel, N ≤ fuel →
      ∀ r, r = injectionRelease g calls noFailure fuel starts ∨ r = productionRelease g calls noFailure fuel starts →
        (∃ sol, r = .ok sol) ∨ r = .throw .logicError ∨ r = .throw .runtimeError ∨ r = .diverge := by
  obtain ⟨f, e, hf⟩ := hf
  rw [hg.count] at hf
  have hgr := graphs_eq hg hf
  obtain ⟨hG, hGr⟩ := graphsOf_good hg.int (directed_range hg.range fun c => phaseSum (phi c) np)
  cases h1 : lastPoreVolume g calls with
  | none => exact (hpv h1).elim
  | some pv =>
    have hl : pv.length = n := by rw [lastPoreVolume_length h1, hg.cells]
    obtain ⟨N1, hN1⟩ := computeSolution_quiet hg.int hG hGr hl (positives_range hm) starts
    obtain ⟨N2, hN2⟩ := computeSolution_quiet hg.int hGr hG hl (negatives_range hm) starts
    refine ⟨max N1 N2, fun fuel hfu r hr => ?_⟩
    unfold injectionRelease productionRelease at hr
    rw [injectionWith_eq, productionWith_eq, h1, e] at hr
    unfold outcomeWith at hr
    simp only [Option.getD_some, hgr, Res.ok_bind, Bool.false_eq_true, if_false, if_true] at hr
    rw [check_injection, check_production] at hr
    have fin : ∀ r : Res (Solution R), Quiet r →
        (∃ sol, r = .ok sol) ∨ r = .throw .logicError ∨ r = .throw .runtimeError ∨ r = .diverge := by
      intro r hr
      cases hr with
      | ok s => exact Or.inl ⟨s, rfl⟩
      | logicError => exact Or.inr (Or.inl rfl)
      | diverge => simp
    rcases hr with rfl | rfl
    · split
      · exact Or.inr (Or.inl rfl)
      · split
        · rw [Res.ok_bind, splitInflow_eq]
          exact fin _ (hN1 fuel (by omega))
        · exact Or.inr (Or.inr (Or.inl rfl))
    · split
      · exact Or.inr (Or.inl rfl)
      · split
        · rw [Res.ok_bind, splitInflow_eq]
          exact fin _ (hN2 fuel (by omega))
        · exact Or.inr (Or.inr (Or.inl rfl))

end

/-- Exact arithmetic, valid problem: no assertion fails, so builds with and without assertions return the same. -/
theorem C67_exact {K : Type} [Field K] [LinearOrder K] [IsStrictOrderedRing K] [FloorRing K]
    {P : Problem K} (hP : P.Valid) {g : ConnectivityGraph} {calls : List (Call (X K))}
    (h : P.GivenTo g calls) (starts : List CellSet) :
    (∃ r, InjectionReturns g calls starts r ∧ ∃ N, ∀ fuel, N ≤ fuel → injectionRelease g calls noFailure fuel starts = r) ∧
    ∃ r, ProductionReturns g calls starts r ∧ ∃ N, ∀ fuel, N ≤ fuel → productionRelease g calls noFailure fuel starts = r := by
  obtain ⟨h1, h2, h3, h4⟩ := C40_valid_problem hP h starts
  have ki : ∀ r, InjectionReturns g calls starts r → r ≠ .ub .assertFail →
      ∃ r, InjectionReturns g calls starts r ∧ ∃ N, ∀ fuel, N ≤ fuel → injectionRelease g calls noFailure fuel starts = r := by
    rintro r ⟨N, hN⟩ hr
    refine ⟨r, ⟨N, hN⟩, N, fun fuel hfu => ?_⟩
    rcases (C67_same g calls noFailure fuel starts).1.2 with e | e
    · exact absurd ((hN fuel hfu).symm.trans e) hr
    · rw [e, hN fuel hfu]
  have kp : ∀ r, ProductionReturns g calls starts r → r ≠ .ub .assertFail →
      ∃ r, ProductionReturns g calls starts r ∧ ∃ N, ∀ fuel, N ≤ fuel → productionRelease g calls noFailure fuel starts = r := by
    rintro r ⟨N, hN⟩ hr
    refine ⟨r, ⟨N, hN⟩, N, fun fuel hfu => ?_⟩
    rcases (C67_same g calls noFailure fuel starts).2.2 with e | e
    · exact absurd ((hN fuel hfu).symm.trans e) hr
    · rw [e, hN fuel hfu]
  constructor
  · by_cases ha : InjectionAccepts P.inflowMap starts
    · obtain ⟨sol, hs⟩ := h1 ha
      exact ki _ hs nofun
    · exact ki _ (h2 ha) nofun
  · by_cases ha : ProductionAccepts P.inflowMap starts
    · obtain ⟨sol, hs⟩ := h3 ha
      exact kp _ hs nofun
    · exact kp _ (h4 ha) nofun

/-- `C67_exact` applies to `accProblem`. -/
example : ∃ r, InjectionReturns accGraph accExact [⟨⟨[73]⟩, [0]⟩] r ∧
    ∃ N, ∀ fuel, N ≤ fuel → injectionRelease accGraph accExact noFailure fuel [⟨⟨[73]⟩, [0]⟩] = r :=
  (C67_exact accProblem_valid acc_given _).1

/-- `C67_no_undefined_behaviour` applies to `accProblem` given as `double`s. -/
example : ∃ N, ∀ fuel, N ≤ fuel →
    ∀ r, r = injectionRelease accGraph accCalls noFailure fuel [⟨⟨[73]⟩, [0]⟩] ∨
        r = productionRelease accGraph accCalls noFailure fuel [⟨⟨[73]⟩, [0]⟩] →
      (∃ sol, r = .ok sol) ∨ r = .throw .logicError ∨ r = .throw .runtimeError ∨ r = .diverge := by
  obtain ⟨np, phi, hf, hphi⟩ := acc_stored.flux
  refine C67_no_undefined_behaviour (stored_connectivity accProblem_valid acc_stored) (by decide) hf ?_ _
  intro set hset e he
  simp only [accCalls, lastInflow, lastSome, List.reverse_cons, List.reverse_nil, List.nil_append, List.cons_append,
    List.findSome?_cons, Option.getD_some, List.mem_cons, List.not_mem_nil, or_false] at hset
  rcases hset with rfl | rfl
  · simp only [List.mem_singleton] at he; subst he; decide
  · simp only [List.mem_singleton] at he; subst he; decide

/-! ### Overflow: the two builds differ

Two wells inject `2^1023` each into cell 0, from which flow of 1 goes to cell 1. -/

def bigProblem : Problem ℚ where
  n := 2
  conns := [(0, 1)]
  nphase := 1
  phi _ _ := 1
  pv _ := 1
  wells := [⟨⟨[65]⟩, [0], fun _ => 2 ^ 1023⟩, ⟨⟨[66]⟩, [0], fun _ => 2 ^ 1023⟩]

def bigGraph : ConnectivityGraph := ⟨2, [0, 1]⟩

def bigCalls : List (Call Double) :=
  [.assignPoreVolume [Arith.lit 1, Arith.lit 1],
   .assignConnectionFlux ⟨1, 1, [Arith.lit 1]⟩,
   .assignInflowFlux [(⟨[65]⟩, [(0, Arith.lit (2 ^ 1023))]), (⟨[66]⟩, [(0, Arith.lit (2 ^ 1023))])]]

theorem bigProblem_valid : bigProblem.Valid where
  int := by decide
  pos := by decide
  some_connection := by decide
  range := by decide
  pv v _ := by show (0 : ℚ) ≤ 1; norm_num
  wells_sorted := by unfold bigProblem; simp; decide
  cells_sorted := by unfold bigProblem; simp
  cells_range := by unfold bigProblem; simp

theorem big_stored : bigProblem.StoredIn bigGraph bigCalls where
  graph := {
    cells := rfl
    count := rfl
    connection := by
      intro i hi
      have hi : i < 1 := hi
      interval_cases i; rfl }
  pv := ⟨_, rfl, by decide +kernel⟩
  flux := by
    refine ⟨1, fun _ _ => Arith.lit 1, ⟨_, rfl, rfl, rfl, ?_⟩, ?_⟩
    · intro c hc p hp
      have hp : p = 0 := by omega
      subst hp
      have hc : c < 1 := hc
      interval_cases c; rfl
    · intro c hc
      have hc : c < 1 := hc
      interval_cases c
      decide +kernel
  inflow := by decide +kernel

/-- Stops at an assertion. -/
def stopsAtAssertion {α : Type} : Res α → Bool
  | .ub .assertFail => true
  | _ => false

theorem stopsAtAssertion_iff {α : Type} {r : Res α} (h : stopsAtAssertion r = true) : r = .ub .assertFail := by
  unfold stopsAtAssertion at h
  split at h
  · rfl
  · cases h

/-- Global times of flight, as numbers. -/
def times : Res (Solution Double) → List (X ℚ)
  | .ok s => s.timeOfFlight.map Double.val
  | _ => []

/-- Builds differ when sums overflow.  A valid problem whose data are `double`s: exact arithmetic returns a solution.  With
    `double`s the build with assertions stops at one, the other returns 200 years as time of flight of both cells. -/
theorem C67_differ : ∃ P : Problem ℚ, P.Valid ∧ (∃ g calls, P.GivenTo g calls) ∧
    (∀ g calls, P.GivenTo g calls → ∃ sol, InjectionReturns g calls [] (.ok sol)) ∧
    ∃ g calls, P.StoredIn g calls ∧ InjectionReturns g calls [] (.ub .assertFail) ∧
      ∃ fuel sol, injectionRelease g calls noFailure fuel [] = .ok sol ∧
        sol.timeOfFlight.map Double.val = [.fin (200 * 365 * 24 * 60 * 60), .fin (200 * 365 * 24 * 60 * 60)] := by
  refine ⟨bigProblem, bigProblem_valid, exists_given bigProblem_valid (by unfold SIZE_MOD; decide), fun g calls h => ?_,
    bigGraph, bigCalls, big_stored, ?_, ?_⟩
  · exact (C40_valid_problem bigProblem_valid h []).1 (by intro s hs; cases hs)
  · refine (Fuel.injection_returns.mpr ⟨20, stopsAtAssertion_iff ?_, nofun⟩).1
    decide +kernel
  · have h : times (injectionRelease bigGraph bigCalls noFailure 20 [])
        = [.fin (200 * 365 * 24 * 60 * 60), .fin (200 * 365 * 24 * 60 * 60)] := by decide +kernel
    refine ⟨20, ?_⟩
    generalize injectionRelease bigGraph bigCalls noFailure 20 [] = r at h ⊢
    cases r with
    | ok sol => exact ⟨sol, rfl, h⟩
    | throw e => cases h
    | ub e => cases h
    | diverge => cases h

end Verif.Props
