/-
C62, C63: times-of-flight are not shorter than the time to fill a cell, and the F-Phi curve, the
Lorenz coefficient and the sweep efficiency of computed diagnostics.
-/
import Verif.Props.Derived
import Verif.Props.Pairs

namespace Verif.Props
open Verif.Spec Verif.Toolbox Verif.Solver Verif.Derived Finset

variable {K : Type} [Field K] [LinearOrder K] [IsStrictOrderedRing K] [Archimedean K]

/-! ### C62 -/

/-- From the facts about a solve to the lower bound. -/
theorem facts_low {F : Flow K} {V start : Nat → Prop} {inj τ c : Nat → K} (hf : Facts F V start inj τ c) {v : Nat} (hV : V v)
    (hv : v < F.n) : min (τ v) cap = cap ∨ F.pv v ≤ F.total v * min (τ v) cap := by
  by_cases hs : F.total v < F.pv v / cap ∨ c v = 0
  · left; rw [hf.capped v hV hs, min_self]
  · rw [not_or] at hs
    have hc : 0 < c v := lt_of_le_of_ne (hf.nonneg v hv).2 (Ne.symm hs.2)
    have h1 := hf.tlow v hV hs.1 hc
    rcases le_total (τ v) cap with h | h
    · right; rw [min_eq_left h]; exact h1
    · left; exact min_eq_right h

/-- **C62** Global time-of-flight: 200 years, or at least the pore volume divided by the total inflow of the cell. -/
theorem C62_global {F : Flow K} {d : SolverData (X K)} {st : SolverState (X K)} (h : SolverFor F d st) {l : List (X K)}
    (hl : GlobalReturns d st (.ok l)) :
    ∀ v < F.n, ∃ t : K, l[v]? = some (X.fin t) ∧ (t = 200 * 365 * 24 * 60 * 60 ∨ F.pv v ≤ F.total v * t) := by
  obtain ⟨τ, c, hr, _, hf⟩ := global_facts h
  have e := hl.unique hr
  cases e
  intro v hv
  exact ⟨_, arr_getElem? _ hv, facts_low hf hv hv⟩

/-- **C62** Time-of-flight of one tracer. -/
theorem C62_local {F : Flow K} {d : SolverData (X K)} {st : SolverState (X K)} (h : SolverFor F d st) {starts : List Nat}
    (hp : ∀ p ∈ starts, p < F.n) {ls : Nat → K} (hls : ∀ p ∈ starts, 0 ≤ ls p) {sol : LocalSolution (X K)}
    (hr : LocalReturns d st (valuesOf starts ls) (.ok sol)) :
    ∀ e ∈ sol.tof, ∃ (v : Nat) (t : K), e = ((v : Int), X.fin t) ∧
      (t = 200 * 365 * 24 * 60 * 60 ∨ F.pv v ≤ F.total v * t) := by
  obtain ⟨τ, c, hf, _, cells, _, hm, rfl⟩ := local_ok h hp hls hr
  intro e he
  obtain ⟨v, hv, rfl⟩ := List.mem_map.mp he
  obtain ⟨p, hps, hreach⟩ := (hm v).mp hv
  exact ⟨v, _, rfl, facts_low hf ((hm v).mp hv) (reach_lt (hp p hps) hreach)⟩

theorem Diag.low {F : Flow K} {wells : List (WellFlux K)} {cs : WellFlux K → List Nat} {f : WellFlux K → Nat → K}
    {starts : List CellSet} {sol : Solution (X K)} (D : Diag F wells cs f starts sol) :
    (∀ v < F.n, ∃ t : K, sol.timeOfFlight[v]? = some (X.fin t) ∧ (t = 200 * 365 * 24 * 60 * 60 ∨ F.pv v ≤ F.total v * t)) ∧
    ∀ i, ∀ e ∈ sol.timeOfFlightOf i, ∃ (v : Nat) (t : K), e = ((v : Int), X.fin t) ∧
      (t = 200 * 365 * 24 * 60 * 60 ∨ F.pv v ≤ F.total v * t) := by
  obtain ⟨d, st, h1, h2, h3⟩ := D.solved
  refine ⟨C62_global h1 h2, ?_⟩
  intro i e he
  rcases D.well i with ⟨h, _⟩ | ⟨w, hw, rfl, _, hs⟩
  · rw [h] at he; simp at he
  · obtain ⟨l, hl, e1, _⟩ := h3 w hw hs
    rw [e1] at he
    exact C62_local h1 (D.side.range w hw) (fun p hp => (D.side.pos w hw p hp).le) hl e he

section
variable {P : Problem K} (hP : P.Valid) {g : ConnectivityGraph} {calls : List (Call (X K))} (h : P.GivenTo g calls)
  {starts : List CellSet} {sol : Solution (X K)}
include hP h

/-- **C62** Injection diagnostics: the time-of-flight of a cell, global and of each injector, is 200 years or at least the
    time that the fluxes into the cell and its source take to fill it. -/
theorem C62_injection (hr : InjectionReturns g calls starts (.ok sol)) :
    (∀ v < P.n, ∃ t : K, sol.timeOfFlight[v]? = some (X.fin t) ∧
      (t = 200 * 365 * 24 * 60 * 60 ∨ P.pv v ≤ ((∑ u ∈ range P.n, P.flux u v) + P.source v) * t)) ∧
    ∀ i, ∀ e ∈ sol.timeOfFlightOf i, ∃ (v : Nat) (t : K), e = ((v : Int), X.fin t) ∧
      (t = 200 * 365 * 24 * 60 * 60 ∨ P.pv v ≤ ((∑ u ∈ range P.n, P.flux u v) + P.source v) * t) :=
  (diag_injection hP h hr).low

/-- **C62** Production diagnostics: the same with the fluxes out of the cell and its sink. -/
theorem C62_production (hr : ProductionReturns g calls starts (.ok sol)) :
    (∀ v < P.n, ∃ t : K, sol.timeOfFlight[v]? = some (X.fin t) ∧
      (t = 200 * 365 * 24 * 60 * 60 ∨ P.pv v ≤ ((∑ u ∈ range P.n, P.flux v u) + P.sink v) * t)) ∧
    ∀ i, ∀ e ∈ sol.timeOfFlightOf i, ∃ (v : Nat) (t : K), e = ((v : Int), X.fin t) ∧
      (t = 200 * 365 * 24 * 60 * 60 ∨ P.pv v ≤ ((∑ u ∈ range P.n, P.flux v u) + P.sink v) * t) :=
  (diag_production hP h hr).low

end

/-! ### C63 -/

/-- A field of times, as numbers. -/
theorem Diag.times {F : Flow K} {wells : List (WellFlux K)} {cs : WellFlux K → List Nat} {f : WellFlux K → Nat → K}
    {starts : List CellSet} {sol : Solution (X K)} (D : Diag F wells cs f starts sol) :
    sol.timeOfFlight = arr F.n (fieldAt sol.timeOfFlight) ∧ ∀ v < F.n, 0 ≤ fieldAt sol.timeOfFlight v ∧
      fieldAt sol.timeOfFlight v ≤ 200 * 365 * 24 * 60 * 60 ∧ (0 < F.pv v → 0 < fieldAt sol.timeOfFlight v) := by
  have hlen := D.range.1.1
  have hval : ∀ v < F.n, sol.timeOfFlight[v]? = some (X.fin (fieldAt sol.timeOfFlight v)) := by
    intro v hv
    obtain ⟨t, ht, _⟩ := D.low.1 v hv
    rw [ht]; unfold fieldAt; rw [ht]
  constructor
  · apply List.ext_getElem?
    intro v
    by_cases hv : v < F.n
    · rw [hval v hv, arr_getElem? _ hv]
    · rw [List.getElem?_eq_none (by omega), List.getElem?_eq_none (by rw [arr_length]; omega)]
  · intro v hv
    obtain ⟨t, ht, h0, h1⟩ := D.range.1.2 _ (List.mem_of_getElem? (hval v hv))
    cases ht
    refine ⟨h0, h1, fun hp => lt_of_le_of_ne h0 fun e => ?_⟩
    obtain ⟨t, ht, h2⟩ := D.low.1 v hv
    rw [hval v hv] at ht
    cases ht
    rw [← e, mul_zero] at h2
    rcases h2 with h2 | h2
    · norm_num at h2
    · exact absurd hp (not_lt.mpr h2)

/-- The curve of computed diagnostics: the input given to the function that takes fields. -/
def curveInput (P : Problem K) (S T : Solution (X K)) (frac : K) : CurveInput K :=
  { n := P.n, inj := fieldAt S.timeOfFlight, prod := fieldAt T.timeOfFlight, pv := P.pv, frac := frac }

section
variable {P : Problem K} (hP : P.Valid) {g : ConnectivityGraph} {calls : List (Call (X K))} (h : P.GivenTo g calls)
  {istarts pstarts : List CellSet} {S T : Solution (X K)}
  (hi : InjectionReturns g calls istarts (.ok S)) (hp : ProductionReturns g calls pstarts (.ok T))
include hP h hi hp

/-- **C63** The F-Phi curve of two computed solutions is that of their global times-of-flight; and its input is valid if no
    pore volume below the cutoff is zero, and there is one. -/
theorem C63_curve (sort : List (X K × X K) → List (X K × X K)) (frac : K) :
    curveOf sort S T (arr P.n P.pv) (X.fin frac) = (curveInput P S T frac).curve sort ∧
    (∀ v < P.n, S.timeOfFlight[v]? = some (X.fin ((curveInput P S T frac).inj v)) ∧
      T.timeOfFlight[v]? = some (X.fin ((curveInput P S T frac).prod v))) ∧
    ((∀ v < P.n, 0 < P.pv v) → (∃ v < P.n, P.pv v ≤ frac * ∑ u ∈ range P.n, P.pv u) → (curveInput P S T frac).Valid) := by
  have DS := (diag_injection hP h hi).times
  have DT := (diag_production hP h hp).times
  refine ⟨?_, ?_, ?_⟩
  · unfold curveOf CurveInput.curve curveInput
    have e1 : arr P.n (fieldAt S.timeOfFlight) = S.timeOfFlight := DS.1.symm
    have e2 : arr P.n (fieldAt T.timeOfFlight) = T.timeOfFlight := DT.1.symm
    simp only [e1, e2]
  · intro v hv
    have h1 : S.timeOfFlight[v]? = _ := (congrArg (fun l : List (X K) => l[v]?) DS.1).trans (arr_getElem? _ hv)
    have h2 : T.timeOfFlight[v]? = _ := (congrArg (fun l : List (X K) => l[v]?) DT.1).trans (arr_getElem? _ hv)
    exact ⟨h1, h2⟩
  · intro hpv ⟨v, hv, hf⟩
    refine ⟨hP.int, fun v hv => (hpv v hv).le, ?_, v, ⟨hv, hf⟩, hpv v hv⟩
    intro u hu
    exact add_pos ((DS.2 u hu.1).2.2 (hpv u hu.1)) ((DT.2 u hu.1).2.2 (hpv u hu.1))

/-- Travel times are at most 400 years. -/
theorem curveInput_time (frac : K) : ∀ v < P.n, (curveInput P S T frac).time v < 10 ^ 100 := by
  intro v hv
  have h1 := ((diag_injection hP h hi).times.2 v hv).2.1
  have h2 := ((diag_production hP h hp).times.2 v hv).2.1
  have : (curveInput P S T frac).time v ≤ 200 * 365 * 24 * 60 * 60 + 200 * 365 * 24 * 60 * 60 := add_le_add h1 h2
  refine lt_of_le_of_lt this ?_
  norm_num

/-- **C63** With positive pore volumes, not all of them above the cutoff, the derived quantities of computed diagnostics are
    defined: the curve rises from (0,0) to (1,1) on or above the diagonal, the Lorenz coefficient is in [0,1), the sweep efficiency rises
    from 0 to 1, and cells above the cutoff only add end points. -/
theorem C63_derived {sort : List (X K × X K) → List (X K × X K)} (hs : StdSort sort) {frac : K}
    (hpv : ∀ v < P.n, 0 < P.pv v) (hf : ∃ v < P.n, P.pv v ≤ frac * ∑ u ∈ range P.n, P.pv u) (hn : P.n < INT_MAX) :
    ∃ Phi F : Nat → K, curveOf sort S T (arr P.n P.pv) (X.fin frac) = .ok (arr (P.n + 1) Phi, arr (P.n + 1) F) ∧
      Phi 0 = 0 ∧ F 0 = 0 ∧ Phi P.n = 1 ∧ F P.n = 1 ∧ (∀ i j, i ≤ j → j ≤ P.n → Phi i ≤ Phi j ∧ F i ≤ F j) ∧
      (∀ i ≤ P.n, Phi i ≤ F i) ∧
      (∃ x, lorenzCoefficient (arr (P.n + 1) Phi, arr (P.n + 1) F) = .ok (X.fin x) ∧ 0 ≤ x ∧ x < 1) ∧
      (∃ tD Ev : List K, sweepEfficiency (arr (P.n + 1) Phi, arr (P.n + 1) F) = .ok (tD.map X.fin, Ev.map X.fin) ∧
        tD.length = Ev.length ∧ tD.head? = some 0 ∧ Ev.head? = some 0 ∧
        tD.Pairwise (· ≤ ·) ∧ Ev.Pairwise (· ≤ ·) ∧ (∀ x ∈ Ev, 0 ≤ x ∧ x ≤ 1) ∧ Ev.getLast? = some 1) ∧
      ∃ Phi' F', (curveInput P S T frac).keep.curve sort = .ok (Phi', F') ∧
        arr (P.n + 1) Phi = Phi' ++ List.replicate (P.n - (curveInput P S T frac).cells.length) (X.fin 1) ∧
        arr (P.n + 1) F = F' ++ List.replicate (P.n - (curveInput P S T frac).cells.length) (X.fin 1) := by
  obtain ⟨h1, _, h3⟩ := C63_curve hP h hi hp sort frac
  have hv := h3 hpv hf
  obtain ⟨Phi, F, hc, a1, a2, a3, a4, a5⟩ := C42_monotone hv hs
  have hc' : (curveInput P S T frac).curve sort = .ok (arr (P.n + 1) Phi, arr (P.n + 1) F) := hc
  refine ⟨Phi, F, h1.trans hc, a1, a2, a3, a4, a5, (C43_concave hv hs hc).2, ?_, ?_, ?_⟩
  · obtain ⟨g', x, e, hx, h0, h1, _⟩ := C44_range hv hs
    rw [hc'] at e
    cases e
    exact ⟨x, hx, h0, h1⟩
  · obtain ⟨g', tD, Ev, e, hx⟩ := C47_sweep hv hn hs
    rw [hc'] at e
    cases e
    exact ⟨tD, Ev, hx⟩
  · obtain ⟨Phi', F', e1, e2⟩ := C46_cutoff hv (fun v hk => curveInput_time hP h hi hp frac v hk.1) hs
    rw [hc'] at e2
    obtain ⟨b1, b2⟩ := Prod.mk.inj (Res.ok.inj e2)
    exact ⟨Phi', F', e1, b1, b2⟩

end

/-- Four cells in a row: diagnostics that meet the hypotheses. -/
example : ∃ g, ∃ calls : List (Call (X ℚ)), ∃ S T, exProblem.Valid ∧ exProblem.GivenTo g calls ∧
    InjectionReturns g calls exInjectors (.ok S) ∧ ProductionReturns g calls exProducers (.ok T) ∧
    (∀ v < exProblem.n, 0 < exProblem.pv v) ∧
    (∃ v < exProblem.n, exProblem.pv v ≤ 1 * ∑ u ∈ range exProblem.n, exProblem.pv u) ∧ StdSort (mergeSort (K := ℚ)) := by
  obtain ⟨g, calls, h, ⟨S, hS⟩, T, hT⟩ := exProblem_returns
  refine ⟨g, calls, S, T, exProblem_valid, h, hS, hT, ?_, ⟨0, ?_⟩, stdSort_mergeSort⟩
  · intro v _; show (0 : ℚ) < 1; norm_num
  · refine ⟨by decide, ?_⟩
    show (1 : ℚ) ≤ 1 * ∑ u ∈ range 4, 1
    norm_num

end Verif.Props
