/-
C108: the Lorenz coefficient of diagnostics computed with doubles.
-/
import Verif.Props.LorenzNear
import Verif.Props.Accuracy
import Verif.Spec.CyclicDouble

namespace Verif.Props
open Verif.Spec Verif.Toolbox Verif.Solver Verif.Derived Verif.Rounding Finset

/-- A relative error as a factor. -/
theorem withinFactor_of_error {ε x y : ℚ} (h0 : 0 ≤ ε) (h1 : ε ≤ 1 / 2) (hy : 0 ≤ y) (h : |x - y| ≤ ε * y) : WithinFactor (1 + 2 * ε) y x := by
  have a := abs_le.mp h
  have b := mul_nonneg h0 hy
  have c : ε * y ≤ 1 / 2 * y := mul_le_mul_of_nonneg_right h1 hy
  constructor
  · have d : 0 ≤ ε * (y - 2 * (ε * y)) := mul_nonneg h0 (by linarith)
    nlinarith
  · linarith

/-- The error bounds are small. -/
theorem half_bound {A : Nat} (h : A ≤ 2 ^ 50) : (A : ℚ) / 2 ^ 51 ≤ 1 / 2 := by
  have : (A : ℚ) ≤ 2 ^ 50 := by exact_mod_cast h
  rw [div_le_iff₀ (by positivity)]
  calc (A : ℚ) ≤ 2 ^ 50 := this
    _ = 1 / 2 * 2 ^ 51 := by norm_num

/-- The times of flight of accurate diagnostics. -/
theorem accurate_times {n M A : Nat} {layer : Nat → Nat} {S : Solution Double} {E : Solution (X ℚ)} (h : Accurate n M layer S E)
    (hlen : S.timeOfFlight.length = n) (hE : ∀ v < n, E.timeOfFlight[v]? = some (X.fin (fieldAt E.timeOfFlight v)))
    (hA : ∀ v < n, (layer v + 2) ^ 2 * (4 * M + 6) ≤ A) (hA' : A ≤ 2 ^ 50)
    (hbound : ∀ v < n, 1 / 2 ^ 99 ≤ fieldAt E.timeOfFlight v ∧ fieldAt E.timeOfFlight v ≤ 200 * 365 * 24 * 60 * 60) :
    S.timeOfFlight.map Double.val = arr n (doubleIn S.timeOfFlight) ∧
    ∀ v < n, (0 < doubleIn S.timeOfFlight v ∧ Ordinary (doubleIn S.timeOfFlight v)) ∧
      WithinFactor (1 + 2 * ((A : ℚ) / 2 ^ 51)) (fieldAt E.timeOfFlight v) (doubleIn S.timeOfFlight v) := by
  have key : ∀ v < n, ∃ (d : Double) (x : ℚ), S.timeOfFlight[v]? = some d ∧ d.val = X.fin x ∧
      |x - fieldAt E.timeOfFlight v| ≤ (A : ℚ) / 2 ^ 51 * fieldAt E.timeOfFlight v := by
    intro v hv
    have hv' : v < S.timeOfFlight.length := by rw [hlen]; exact hv
    rcases h.tof v hv with ⟨a, _⟩ | ⟨d, x, y, a, b, c, e⟩
    · rw [List.getElem?_eq_getElem hv'] at a; cases a
    · rw [hE v hv] at c
      cases c
      refine ⟨d, x, a, b, e.trans (mul_le_mul_of_nonneg_right ?_ (le_trans (by positivity) (hbound v hv).1))⟩
      have : (((layer v + 2) ^ 2 * (4 * M + 6) : ℕ) : ℚ) ≤ A := by exact_mod_cast hA v hv
      exact div_le_div_of_nonneg_right this (by positivity)
  have at_ : ∀ v < n, ∃ d, S.timeOfFlight[v]? = some d ∧ d.val = X.fin (doubleIn S.timeOfFlight v) ∧
      |doubleIn S.timeOfFlight v - fieldAt E.timeOfFlight v| ≤ (A : ℚ) / 2 ^ 51 * fieldAt E.timeOfFlight v := by
    intro v hv
    obtain ⟨d, x, a, b, c⟩ := key v hv
    have e : doubleIn S.timeOfFlight v = x := by unfold doubleIn; rw [a, Option.map_some, b]
    rw [e]
    exact ⟨d, a, b, c⟩
  have hε := half_bound hA'
  have hε0 : (0 : ℚ) ≤ (A : ℚ) / 2 ^ 51 := by positivity
  constructor
  · refine List.ext_getElem? fun v => ?_
    by_cases hv : v < n
    · obtain ⟨d, a, b, _⟩ := at_ v hv
      rw [List.getElem?_map, a, Option.map_some, b, arr_getElem? _ hv]
    · rw [List.getElem?_eq_none (by rw [List.length_map, hlen]; omega), List.getElem?_eq_none (by simp [arr]; omega)]
  · intro v hv
    obtain ⟨d, a, b, c⟩ := at_ v hv
    obtain ⟨lo, hi⟩ := hbound v hv
    have hy : 0 ≤ fieldAt E.timeOfFlight v := le_trans (by positivity) lo
    have c1 : (A : ℚ) / 2 ^ 51 * fieldAt E.timeOfFlight v ≤ 1 / 2 * fieldAt E.timeOfFlight v := mul_le_mul_of_nonneg_right hε hy
    have c2 := abs_le.mp c
    have l1 : 1 / 2 ^ 100 ≤ doubleIn S.timeOfFlight v := by
      have e : (1 : ℚ) / 2 ^ 100 = 1 / 2 * (1 / 2 ^ 99) := by norm_num
      rw [e]; linarith
    have l2 : doubleIn S.timeOfFlight v ≤ 2 ^ 100 := by
      have : (2 : ℚ) * (200 * 365 * 24 * 60 * 60) ≤ 2 ^ 100 := by norm_num
      linarith
    have p : 0 < doubleIn S.timeOfFlight v := lt_of_lt_of_le (by positivity) l1
    exact ⟨⟨p, .inr (by rw [abs_of_pos p]; exact ⟨l1, l2⟩)⟩, withinFactor_of_error hε0 hε hy c⟩

/-- The input of the curve that consists of times of flight computed with doubles. -/
def computedInput (P : Problem ℚ) (S T : Solution Double) (frac : ℚ) : CurveInput ℚ :=
  { n := P.n, inj := doubleIn S.timeOfFlight, prod := doubleIn T.timeOfFlight, pv := P.pv, frac := frac }

/-- Exact and computed input of the curve. -/
theorem computed_inputs {P : Problem ℚ} (hP : P.Valid) {M A : Nat} (hO : P.OfOrdinarySize M) {layer layer' : Nat → Nat}
    (hL : P.forward.Layered layer) (hL' : P.backward.Layered layer')
    (hA : ∀ v < P.n, (layer v + 2) ^ 2 * (4 * M + 6) ≤ A ∧ (layer' v + 2) ^ 2 * (4 * M + 6) ≤ A) (hA' : A ≤ 2 ^ 50)
    {g : ConnectivityGraph} {calls : List (Call Double)} (hS : P.StoredIn g calls)
    {g' : ConnectivityGraph} {calls' : List (Call (X ℚ))} (hG : P.GivenTo g' calls') {istarts pstarts : List CellSet}
    {E F : Solution (X ℚ)} (hE : InjectionReturns g' calls' istarts (.ok E)) (hF : ProductionReturns g' calls' pstarts (.ok F))
    (tE : NotTiny E) (tF : NotTiny F)
    (hlow : ∀ v < P.n, 1 / 2 ^ 99 ≤ fieldAt E.timeOfFlight v ∧ 1 / 2 ^ 99 ≤ fieldAt F.timeOfFlight v)
    (hpv : ∀ v < P.n, 0 < P.pv v) {pv : List Double} (hpvs : pv.map Double.val = arr P.n P.pv) {frac : ℚ} {fraction : Double}
    (hfrac : fraction.val = X.fin frac) (hfo : 0 < frac ∧ Ordinary frac)
    (hsome : ∃ v < P.n, 2 * P.pv v ≤ frac * ∑ u ∈ range P.n, P.pv u) :
    ∃ S T, InjectionReturns g calls istarts (.ok S) ∧ ProductionReturns g calls pstarts (.ok T) ∧ (curveInput P E F frac).Valid ∧
      (computedInput P S T frac).OfOrdinarySize ∧ (computedInput P S T frac).StoredAs S.timeOfFlight T.timeOfFlight pv fraction ∧
      ∀ v < P.n, WithinFactor (1 + 2 * ((A : ℚ) / 2 ^ 51)) ((curveInput P E F frac).time v) ((computedInput P S T frac).time v) := by
  have hsm : (2 : ℕ) ^ 50 ≤ 2 ^ 51 := by norm_num
  obtain ⟨S, rS, aS⟩ := C64_injection hP hO hL (fun v hv => ((hA v hv).1.trans hA').trans hsm) hS hG hE tE
  obtain ⟨T, rT, aT⟩ := C64_production hP hO hL' (fun v hv => ((hA v hv).2.trans hA').trans hsm) hS hG hF tF
  have lS : S.timeOfFlight.length = P.n := by
    obtain ⟨N, hN⟩ := rS
    rw [(C41_ids g calls noFailure N istarts S (.inl (hN N le_rfl))).2.2.1, hS.graph.cells]
  have lT : T.timeOfFlight.length = P.n := by
    obtain ⟨N, hN⟩ := rT
    rw [(C41_ids g calls noFailure N pstarts T (.inr (hN N le_rfl))).2.2.1, hS.graph.cells]
  obtain ⟨_, tI, vI⟩ := C63_curve hP hG hE hF id frac
  have hI : (curveInput P E F frac).Valid := vI hpv (by
    obtain ⟨v, hv, h⟩ := hsome
    have := hpv v hv
    exact ⟨v, hv, by linarith⟩)
  have dE := (diag_injection hP hG hE).times.2
  have dF := (diag_production hP hG hF).times.2
  obtain ⟨sS, bS⟩ := accurate_times aS lS (fun v hv => (tI v hv).1) (fun v hv => (hA v hv).1) hA' fun v hv => ⟨(hlow v hv).1, (dE v hv).2.1⟩
  obtain ⟨sT, bT⟩ := accurate_times aT lT (fun v hv => (tI v hv).2) (fun v hv => (hA v hv).2) hA' fun v hv => ⟨(hlow v hv).2, (dF v hv).2.1⟩
  refine ⟨S, T, rS, rT, hI, ?_, ⟨sS, sT, hpvs, hfrac⟩, fun v hv => ?_⟩
  · exact ⟨hP.int, fun v hv => ⟨(bS v hv).1.1.le, (bS v hv).1.2⟩, fun v hv => ⟨(bT v hv).1.1.le, (bT v hv).1.2⟩,
      fun v hv => ⟨(hpv v hv).le, hO.pv v hv⟩, fun v hv => add_pos (bS v hv).1.1 (bT v hv).1.1, hfo,
      by obtain ⟨v, hv, h⟩ := hsome; exact ⟨v, hv, hpv v hv, h⟩⟩
  · have a := (bS v hv).2
    have b := (bT v hv).2
    constructor
    · show fieldAt E.timeOfFlight v + fieldAt F.timeOfFlight v ≤ _ * (doubleIn S.timeOfFlight v + doubleIn T.timeOfFlight v)
      rw [mul_add]; exact add_le_add a.1 b.1
    · show doubleIn S.timeOfFlight v + doubleIn T.timeOfFlight v ≤ _ * (fieldAt E.timeOfFlight v + fieldAt F.timeOfFlight v)
      rw [mul_add]; exact add_le_add a.2 b.2

/-- **C108** Flow without cycles, data of ordinary magnitude.  If the Lorenz coefficient is computed from the data with doubles, by diagnostics in both
    directions and the F-Phi curve of their times of flight, the result differs from that of exact arithmetic by at most `(6 A + 10 n + 50) / 2^51`,
    where `A` bounds the errors of the times of flight in units of `2^-51` (C64).  No pore volume may lie within rounding errors of the cutoff. -/
theorem C108_lorenz {P : Problem ℚ} (hP : P.Valid) {M A : Nat} (hO : P.OfOrdinarySize M) {layer layer' : Nat → Nat}
    (hL : P.forward.Layered layer) (hL' : P.backward.Layered layer')
    (hA : ∀ v < P.n, (layer v + 2) ^ 2 * (4 * M + 6) ≤ A ∧ (layer' v + 2) ^ 2 * (4 * M + 6) ≤ A) (hA' : A ≤ 2 ^ 50)
    {g : ConnectivityGraph} {calls : List (Call Double)} (hS : P.StoredIn g calls)
    {g' : ConnectivityGraph} {calls' : List (Call (X ℚ))} (hG : P.GivenTo g' calls') {istarts pstarts : List CellSet}
    {E F : Solution (X ℚ)} (hE : InjectionReturns g' calls' istarts (.ok E)) (hF : ProductionReturns g' calls' pstarts (.ok F))
    (tE : NotTiny E) (tF : NotTiny F)
    (hlow : ∀ v < P.n, 1 / 2 ^ 99 ≤ fieldAt E.timeOfFlight v ∧ 1 / 2 ^ 99 ≤ fieldAt F.timeOfFlight v)
    (hpv : ∀ v < P.n, 0 < P.pv v) {pv : List Double} (hpvs : pv.map Double.val = arr P.n P.pv) {frac : ℚ} {fraction : Double}
    (hfrac : fraction.val = X.fin frac) (hfo : 0 < frac ∧ Ordinary frac)
    (hsome : ∃ v < P.n, 2 * P.pv v ≤ frac * ∑ u ∈ range P.n, P.pv u)
    (hclear : ∀ v < P.n, ∀ θ, |θ - frac| ≤ (P.n + 1) / 2 ^ 51 * frac →
      (P.pv v ≤ θ * ∑ u ∈ range P.n, P.pv u ↔ P.pv v ≤ frac * ∑ u ∈ range P.n, P.pv u))
    {sort : List (X ℚ × X ℚ) → List (X ℚ × X ℚ)} (hsort : StdSort sort)
    {sort' : List (Double × Double) → List (Double × Double)} (hsort' : SortsPairs sort') :
    ∃ S T C C' d x y, InjectionReturns g calls istarts (.ok S) ∧ ProductionReturns g calls pstarts (.ok T) ∧
      curveOf sort' S T pv fraction = .ok C ∧ lorenzCoefficient C = .ok d ∧ d.val = X.fin x ∧
      curveOf sort E F (arr P.n P.pv) (X.fin frac) = .ok C' ∧ lorenzCoefficient C' = .ok (X.fin y) ∧
      |x - y| ≤ (6 * A + 10 * P.n + 50) / 2 ^ 51 := by
  obtain ⟨S, T, rS, rT, hI, oJ, sJ, tJ⟩ := computed_inputs hP hO hL hL' hA hA' hS hG hE hF tE tF hlow hpv hpvs hfrac hfo hsome
  obtain ⟨eI, _, _⟩ := C63_curve hP hG hE hF sort frac
  obtain ⟨θ, hθ, C, d, x, c1, c2, c3, c4⟩ := C84_lorenz oJ sJ hsort'
  have vJ := withFraction_valid oJ hθ
  have hε0 : (0 : ℚ) ≤ (A : ℚ) / 2 ^ 51 := by positivity
  have hε := half_bound hA'
  obtain ⟨C', G', y, y', e1, e2, e3, e4, e5⟩ := C107_lorenz (s := 1) hI vJ (by linarith : (1 : ℚ) ≤ 1 + 2 * ((A : ℚ) / 2 ^ 51)) le_rfl rfl
    (fun v => and_congr_right fun hv => hclear v hv θ hθ)
    (fun v hv => WithinFactor.refl le_rfl (hpv v hv.1).le) (fun v hv => tJ v hv.1) hsort
  obtain ⟨G2, f3, f4⟩ := C83_meanDifference vJ hsort
  rw [e2] at f3; cases f3
  rw [e4] at f4
  injection f4 with f4; injection f4 with f4
  have m : ((computedInput P S T frac).withFraction θ).meanDifference = y' := f4.symm
  rw [m] at c4
  refine ⟨S, T, C, C', d, x, y, rS, rT, c1, c2, c3, eI.trans e1, e3, ?_⟩
  have a := abs_le.mp c4
  have b := abs_le.mp e5
  have sq : (1 : ℚ) ^ 4 * (1 + 2 * (A / 2 ^ 51)) ^ 2 - 1 ≤ 6 * (A / 2 ^ 51) := by
    have := mul_nonneg hε0 (sub_nonneg.mpr hε)
    nlinarith
  have e : (6 * (A : ℚ) + 10 * P.n + 50) / 2 ^ 51 = 6 * (A / 2 ^ 51) + (10 * P.n + 50) / 2 ^ 51 := by ring
  rw [e]
  have hn : ((10 : ℚ) * (computedInput P S T frac).n + 50) / 2 ^ 51 = (10 * P.n + 50) / 2 ^ 51 := rfl
  rw [hn] at a
  exact abs_le.mpr ⟨by linarith, by linarith⟩

/-- A check that no result is tiny, nor a time of flight below `2^-99`. -/
def okLarge (r : Res (Solution (X ℚ))) : Bool := match r with
  | .ok s => notTiny s && s.tof.all fun x => match x with
    | .fin t => decide (1 / 2 ^ 99 ≤ t)
    | _ => false
  | _ => false

theorem okLarge_spec {r : Res (Solution (X ℚ))} (h : okLarge r = true) : ∃ s, r = .ok s ∧ NotTiny s ∧
    ∀ v < s.timeOfFlight.length, 1 / 2 ^ 99 ≤ fieldAt s.timeOfFlight v := by
  unfold okLarge at h
  split at h
  · rename_i s
    rw [Bool.and_eq_true, List.all_eq_true] at h
    refine ⟨s, rfl, notTiny_spec h.1, fun v hv => ?_⟩
    have := h.2 _ (List.getElem_mem hv)
    unfold fieldAt
    rw [List.getElem?_eq_getElem hv]
    split at this
    · rename_i t ht
      have ht : s.timeOfFlight[v] = X.fin t := ht
      rw [ht]
      exact of_decide_eq_true this
    · cases this
  · cases h

set_option maxRecDepth 100000 in
/-- C108: for `accProblem` all hypotheses hold. -/
example : ∃ S T C d x y, InjectionReturns accGraph accCalls accInjectors (.ok S) ∧ ProductionReturns accGraph accCalls accProducers (.ok T) ∧
    curveOf (sortBy Double.rounded) S T [Arith.lit 1, Arith.lit 2, Arith.lit 2] (Arith.lit 1) = .ok C ∧ lorenzCoefficient C = .ok d ∧ d.val = X.fin x ∧
    |x - y| ≤ ((6 * 288 + 10 * 3 + 50) / 2 ^ 51 : ℚ) := by
  obtain ⟨E, h3, t3, l3⟩ := okLarge_spec
    (show okLarge (injectionOutcome accGraph accExact noFailure 100 accInjectors) = true by decide +kernel)
  obtain ⟨F, h4, t4, l4⟩ := okLarge_spec
    (show okLarge (productionOutcome accGraph accExact noFailure 100 accProducers) = true by decide +kernel)
  have n3 : E.timeOfFlight.length = 3 := (C41_ids _ _ _ _ _ _ (.inl h3)).2.2.1
  have n4 : F.timeOfFlight.length = 3 := (C41_ids _ _ _ _ _ _ (.inr h4)).2.2.1
  have h3 := (Fuel.injection_returns.mpr ⟨100, h3, by simp⟩).1
  have h4 := (Fuel.production_returns.mpr ⟨100, h4, by simp⟩).1
  have hsum : ∑ u ∈ range accProblem.n, accProblem.pv u = 5 := by
    show ∑ u ∈ range 3, _ = _
    simp [accProblem, sum_range_succ]; norm_num
  have hle : ∀ v, accProblem.pv v ≤ 2 := fun v => by
    show (if v = 0 then (1 : ℚ) else 2) ≤ 2
    split <;> norm_num
  obtain ⟨S, T, C, C', d, x, y, r1, r2, r3, r4, r5, _, _, r6⟩ := C108_lorenz (A := 288) (frac := 1) accProblem_valid acc_ordinary acc_forward acc_backward
    (fun v hv => by
      have hv : v < 3 := hv
      constructor
      · show (v + 2) ^ 2 * (4 * 3 + 6) ≤ 288
        interval_cases v <;> norm_num
      · show (2 - v + 2) ^ 2 * (4 * 3 + 6) ≤ 288
        interval_cases v <;> norm_num)
    (by norm_num) acc_stored acc_given h3 h4 t3 t4 (fun v hv => ⟨l3 v (by rw [n3]; exact hv), l4 v (by rw [n4]; exact hv)⟩)
    (fun v _ => by show (0 : ℚ) < if v = 0 then 1 else 2; split <;> norm_num)
    (pv := [Arith.lit 1, Arith.lit 2, Arith.lit 2]) (by decide +kernel) (fraction := Arith.lit 1) (by decide +kernel)
    ⟨one_pos, .inr (by norm_num)⟩ ⟨0, by decide, by rw [hsum]; norm_num [accProblem]⟩
    (fun v hv θ hθ => by
      rw [hsum]
      have a := abs_le.mp hθ
      change -((((3 : ℕ) : ℚ) + 1) / 2 ^ 51 * 1) ≤ θ - 1 ∧ _ at a
      norm_num at a
      have := hle v
      exact iff_of_true (by linarith) (by linarith))
    stdSort_mergeSort (sortsPairs_sortBy Double.rounded)
  exact ⟨S, T, C, d, x, y, r1, r2, r3, r4, r5, by exact_mod_cast r6⟩

end Verif.Props
