/-
C98: where only one well's fluid arrives, in flow with cycles.
-/
import Verif.Props.Communication
import Verif.Props.Sensitivity
import Verif.Props.GlobalTimes

namespace Verif.Props
open Verif.Spec Verif.Toolbox Verif.Solver Verif.Derived Finset

section
variable {K : Type} [Field K] [LinearOrder K] [IsStrictOrderedRing K] {F : Flow K} {wells : List (WellFlux K)}
  {cs : WellFlux K → List Nat} {f : WellFlux K → Nat → K}

/-- The exact concentration of a well is at most 1, and less if another well's fluid arrives.  It is 1 if there is no other well's
    fluid and all cells upstream are reached from a source. -/
theorem carries_alone (hF : F.Valid) (S : Side wells cs f F.n F.src) {w : WellFlux K} (hw : w ∈ wells) {x : Nat → K}
    (hx : F.Carries (cs w) (injected (cs w) (f w)) x) {v : Nat} (hv : v < F.n) :
    x v ≤ 1 ∧
    (x v = 1 → ∀ w' ∈ wells, w'.id ≠ w.id → ¬ ∃ p ∈ cs w', F.Reach p v) ∧
    ((∀ w' ∈ wells, w'.id ≠ w.id → ¬ ∃ p ∈ cs w', F.Reach p v) →
      (∀ u, F.Reach u v → ∃ p < F.n, 0 < F.src p ∧ F.Reach p u) → x v = 1) := by
  have hp := side_sources S hw
  have hle : ∀ u < F.n, x u ≤ 1 := carries_le_one hF hp hx fun u _ => (side_others S hw u).1
  have key : ∀ u < F.n, F.Downstream (cs w) u →
      F.total u * (1 - x u) = (∑ y ∈ range F.n, (1 - x y) * F.w y u) + (F.src u - injected (cs w) (f w) u) := by
    intro u hu hd
    have e : ∑ y ∈ range F.n, (1 - x y) * F.w y u = (∑ y ∈ range F.n, F.w y u) - ∑ y ∈ range F.n, x y * F.w y u := by
      rw [← sum_sub_distrib]; exact sum_congr rfl fun y _ => by ring
    have ht : F.total u = (∑ y ∈ range F.n, F.w y u) + F.src u := rfl
    rw [e, mul_sub, mul_one, hx.2 u hu hd, ht]; ring
  have hterm : ∀ u < F.n, ∀ y ∈ range F.n, 0 ≤ (1 - x y) * F.w y u := fun u hu y hy =>
    mul_nonneg (sub_nonneg.mpr (hle y (mem_range.mp hy))) (hF.w_nonneg y u (mem_range.mp hy) hu)
  have hdown : ∀ u < F.n, x u = 1 → F.Downstream (cs w) u := fun u hu h1 => by
    by_contra hn
    rw [hx.1 u hu hn] at h1
    exact zero_ne_one h1
  refine ⟨hle v hv, fun hone => ?_, fun hno hfed => ?_⟩
  · have back : ∀ u, F.Reach u v → u < F.n ∧ x u = 1 := by
      intro u hu
      induction hu using Relation.ReflTransGen.head_induction_on with
      | refl => exact ⟨hv, hone⟩
      | @head a b hab _ ih =>
        have k := key b ih.1 (hdown b ih.1 ih.2)
        rw [ih.2, sub_self, mul_zero] at k
        have hs0 := sum_nonneg (hterm b ih.1)
        have ho := (side_others S hw b).1
        have hz : ∑ y ∈ range F.n, (1 - x y) * F.w y b = 0 := by linarith
        have := (sum_eq_zero_iff_of_nonneg (hterm b ih.1)).mp hz a (mem_range.mpr hab.1)
        rcases mul_eq_zero.mp this with h | h
        · exact ⟨hab.1, by linarith⟩
        · exact absurd hab.2.2 (by rw [h]; exact lt_irrefl _)
    rintro w' hw' hne ⟨p, hp, hreach⟩
    obtain ⟨hpn, hpc⟩ := back p hreach
    have k := key p hpn (hdown p hpn hpc)
    rw [hpc, sub_self, mul_zero] at k
    have hs0 := sum_nonneg (hterm p hpn)
    obtain ⟨ho, hoi⟩ := side_others S hw p
    exact hoi.mp (by linarith) w' hw' hne hp
  · have h1 := max_upstream hF (S := fun u => u < F.n ∧ F.Reach u v) (e := fun u => 1 - x u)
      (fun a b hb hab => ⟨hab.1, .head hab hb.2⟩) (fun u hu hs => ?_) (fun u hu hs => hfed u hs.2) v hv ⟨hv, .refl⟩
    · exact le_antisymm (hle v hv) (sub_nonpos.mp h1)
    · have hsrc := (side_others S hw u).2.mpr fun w' hw' hne hmem => hno w' hw' hne ⟨u, hmem, hs.2⟩
      have hd : F.Downstream (cs w) u := by
        obtain ⟨p, hpn, hp0, hpu⟩ := hfed u hs.2
        rw [(side_others S hw p).2.mpr fun w' hw' hne hmem => hno w' hw' hne ⟨p, hmem, hpu.trans hs.2⟩] at hp0
        exact ⟨p, (injected_mem (S.pos w hw) p).mpr hp0, hpu⟩
      have k := key u hu hd
      rw [hsrc, sub_self, add_zero] at k
      exact k.le

end

section exact
variable {K : Type} [Field K] [LinearOrder K] [IsStrictOrderedRing K] [Archimedean K] {P : Problem K} {g : ConnectivityGraph}
  {calls : List (Call (X K))}

/-- **C98** (exact arithmetic, any cycles, no cell has a self-connection as its only cycle) Where another injector's fluid gets,
    the concentration of an injector is less than 1; where no other gets, and each cell upstream is reached from an injector, it
    is less than 1 by at most `1e-9 * m`, `m` as in C76. -/
theorem C98_alone_injection_cyclic (hP : P.Valid) (h : P.GivenTo g calls) (hself : ∀ v < P.n, ¬ P.forward.Loop v)
    {starts : List CellSet} {S : Solution (X K)} (hS : InjectionReturns g calls starts (.ok S)) {w : WellFlux K} (hw : w ∈ P.wells)
    (hi : ∃ s ∈ starts, s.id = w.id) :
    ∃ m, P.forward.Carries (posCells w) P.forward.cycleInflow m ∧ ∀ v < P.n,
      ((∃ w' ∈ P.wells, w'.id ≠ w.id ∧ P.forward.Downstream (posCells w') v) → valueAt (S.concentration w.id) v < 1) ∧
      ((∀ w' ∈ P.wells, w'.id ≠ w.id → ¬ P.forward.Downstream (posCells w') v) →
        (∀ u, P.forward.Reach u v → ∃ p < P.n, 0 < P.source p ∧ P.forward.Reach p u) →
        valueAt (S.concentration w.id) v ≤ 1 ∧ 1 - valueAt (S.concentration w.id) v ≤ 1 / 1000000000 * m v) := by
  obtain ⟨x, m, hx, hm, he⟩ := C76_injection hP h hself hS hw hi
  rw [← injected_pos_fun] at hx
  have hF : P.forward.Valid := by
    obtain ⟨d, st, h1, _⟩ := (diag_injection hP h hS).solved
    exact h1.valid
  refine ⟨m, hm, fun v hv => ?_⟩
  obtain ⟨h1, h2, h3⟩ := carries_alone (F := P.forward) hF (pos_side hP) hw hx hv
  obtain ⟨e1, e2⟩ := he v hv
  constructor
  · rintro ⟨w', hw', hne, hd⟩
    refine lt_of_le_of_ne (e1.trans h1) fun e => ?_
    exact h2 (le_antisymm h1 (e ▸ e1)) w' hw' hne hd
  · intro hno hfed
    have := h3 hno hfed
    exact ⟨e1.trans h1, this ▸ e2⟩

/-- **C98** The same for a producer, in the reversed flow. -/
theorem C98_alone_production_cyclic (hP : P.Valid) (h : P.GivenTo g calls) (hself : ∀ v < P.n, ¬ P.forward.Loop v)
    {starts : List CellSet} {T : Solution (X K)} (hT : ProductionReturns g calls starts (.ok T)) {w : WellFlux K} (hw : w ∈ P.wells)
    (hi : ∃ s ∈ starts, s.id = w.id) :
    ∃ m, P.backward.Carries (negCells w) P.backward.cycleInflow m ∧ ∀ v < P.n,
      ((∃ w' ∈ P.wells, w'.id ≠ w.id ∧ ∃ b ∈ negCells w', P.forward.Reach v b) → valueAt (T.concentration w.id) v < 1) ∧
      ((∀ w' ∈ P.wells, w'.id ≠ w.id → ¬ ∃ b ∈ negCells w', P.forward.Reach v b) →
        (∀ u, P.forward.Reach v u → ∃ p < P.n, 0 < P.sink p ∧ P.forward.Reach u p) →
        valueAt (T.concentration w.id) v ≤ 1 ∧ 1 - valueAt (T.concentration w.id) v ≤ 1 / 1000000000 * m v) := by
  obtain ⟨x, m, hx, hm, he⟩ := C76_production hP h hself hT hw hi
  rw [← injected_neg_fun] at hx
  have hF : P.backward.Valid := by
    obtain ⟨d, st, h1, _⟩ := (diag_production hP h hT).solved
    exact h1.valid
  refine ⟨m, hm, fun v hv => ?_⟩
  obtain ⟨h1, h2, h3⟩ := carries_alone (F := P.backward) hF (neg_side hP) hw hx hv
  obtain ⟨e1, e2⟩ := he v hv
  constructor
  · rintro ⟨w', hw', hne, b, hb, hd⟩
    refine lt_of_le_of_ne (e1.trans h1) fun e => ?_
    exact h2 (le_antisymm h1 (e ▸ e1)) w' hw' hne ⟨b, hb, backward_reach.mpr hd⟩
  · intro hno hfed
    have := h3 (fun w' hw' hne ⟨b, hb, hd⟩ => hno w' hw' hne ⟨b, hb, backward_reach.mp hd⟩) fun u hu => by
      obtain ⟨p, hpn, hp0, hpu⟩ := hfed u (backward_reach.mp hu)
      exact ⟨p, hpn, hp0, backward_reach.mpr hpu⟩
    exact ⟨e1.trans h1, this ▸ e2⟩

end exact

section doubles
variable {P : Problem ℚ} {M : Nat} {g : ConnectivityGraph} {calls : List (Call Double)} {starts : List CellSet}
  {sol : Solution Double}

/-- **C98** (doubles, any cycles) Where no other injector's fluid gets, and each cell upstream is reached from an injector, the
    concentration of an injector differs from 1 by at most the error bounded in C80. -/
theorem C98_alone_injection_double (hP : P.Valid) (hO : P.OfOrdinarySize M) (htotal : ∀ v < P.n, P.forward.total v ≤ 2 ^ 100)
    (hself : ∀ v < P.n, ¬ P.forward.Loop v) (hS : P.StoredIn g calls) (hr : InjectionReturns g calls starts (.ok sol))
    {w : WellFlux ℚ} (hw : w ∈ P.wells) (hask : ∃ s ∈ starts, s.id = w.id) :
    ∃ m h, P.forward.Carries (posCells w) P.forward.cycleInflow m ∧ P.forward.Carries (posCells w) P.forward.total h ∧
      ∀ v < P.n, (∀ w' ∈ P.wells, w'.id ≠ w.id → ¬ P.forward.Downstream (posCells w') v) →
        (∀ u, P.forward.Reach u v → ∃ p < P.n, 0 < P.source p ∧ P.forward.Reach p u) →
        |doubleAt (sol.concentration w.id) v - 1| ≤ 1 / 1000000000 * m v + ((4 * M + 6 : Nat) : ℚ) / 2 ^ 51 * h v := by
  obtain ⟨x, m, t, hx, hm, ht, he⟩ := C80_injection hP hO htotal hself hS hr hw hask
  rw [← injected_pos_fun] at hx
  have hF := (nearly_injection hP hO htotal hS hr).valid
  refine ⟨m, t, hm, ht, fun v hv hno hfed => ?_⟩
  have := (carries_alone (F := P.forward) hF (pos_side hP) hw hx hv).2.2 hno hfed
  have e := he v hv
  rwa [this] at e

/-- **C98** The same for a producer, in the reversed flow. -/
theorem C98_alone_production_double (hP : P.Valid) (hO : P.OfOrdinarySize M) (htotal : ∀ v < P.n, P.backward.total v ≤ 2 ^ 100)
    (hself : ∀ v < P.n, ¬ P.forward.Loop v) (hS : P.StoredIn g calls) (hr : ProductionReturns g calls starts (.ok sol))
    {w : WellFlux ℚ} (hw : w ∈ P.wells) (hask : ∃ s ∈ starts, s.id = w.id) :
    ∃ m h, P.backward.Carries (negCells w) P.backward.cycleInflow m ∧ P.backward.Carries (negCells w) P.backward.total h ∧
      ∀ v < P.n, (∀ w' ∈ P.wells, w'.id ≠ w.id → ¬ ∃ b ∈ negCells w', P.forward.Reach v b) →
        (∀ u, P.forward.Reach v u → ∃ p < P.n, 0 < P.sink p ∧ P.forward.Reach u p) →
        |doubleAt (sol.concentration w.id) v - 1| ≤ 1 / 1000000000 * m v + ((4 * M + 6 : Nat) : ℚ) / 2 ^ 51 * h v := by
  obtain ⟨x, m, t, hx, hm, ht, he⟩ := C80_production hP hO htotal hself hS hr hw hask
  rw [← injected_neg_fun] at hx
  have hF := (nearly_production hP hO htotal hS hr).valid
  refine ⟨m, t, hm, ht, fun v hv hno hfed => ?_⟩
  have := (carries_alone (F := P.backward) hF (neg_side hP) hw hx hv).2.2
    (fun w' hw' hne ⟨b, hb, hd⟩ => hno w' hw' hne ⟨b, hb, backward_reach.mp hd⟩) fun u hu => by
      obtain ⟨p, hpn, hp0, hpu⟩ := hfed u (backward_reach.mp hu)
      exact ⟨p, hpn, hp0, backward_reach.mpr hpu⟩
  have e := he v hv
  rwa [this] at e

end doubles

/-! ### Cases -/

set_option maxRecDepth 100000 in
/-- The whirl has one injector, whose fluid gets to all cells, through a cycle. -/
example : ∃ S, InjectionReturns whirlGraph whirlCalls [CellSet.ofCells ⟨[65]⟩ [0]] (.ok S) ∧
    ∃ m h, exWhirl.forward.Carries [0] exWhirl.forward.cycleInflow m ∧ exWhirl.forward.Carries [0] exWhirl.forward.total h ∧
      ∀ v < 4, |doubleAt (S.concentration ⟨[65]⟩) v - 1| ≤ 1 / 1000000000 * m v + ((4 * 4 + 6 : Nat) : ℚ) / 2 ^ 51 * h v := by
  obtain ⟨S, h1, _⟩ := quick_spec (i := ⟨[65]⟩)
    (r := injectionOutcome whirlGraph whirlCalls noFailure 100 [CellSet.ofCells ⟨[65]⟩ [0]]) (by decide +kernel)
  have hS := (Fuel.injection_returns.mpr ⟨100, h1, by simp⟩).1
  obtain ⟨m, t, hm, ht, he⟩ := C98_alone_injection_double exWhirl_valid whirl_ordinary whirl_total.1 whirl_not_loop whirl_stored hS
    (w := ⟨⟨[65]⟩, [0], fun _ => 2⟩) (.head _) ⟨_, .head _, rfl⟩
  have hcells : posCells (⟨⟨[65]⟩, [0], fun _ => 2⟩ : WellFlux ℚ) = [0] := by simp [posCells]
  rw [hcells] at hm ht
  refine ⟨S, hS, m, t, hm, ht, fun v hv => he v hv ?_ fun u hu => ⟨0, by decide, whirl_source, ?_⟩⟩
  · intro w' hw' hne
    rcases List.mem_cons.mp hw' with rfl | hw'
    · exact absurd rfl hne
    · cases List.mem_singleton.mp hw'
      rintro ⟨p, hp, _⟩
      simp [posCells] at hp
  · have hun : u < 4 := by
      rcases Relation.ReflTransGen.cases_head hu with rfl | ⟨_, e, _⟩
      · exact hv
      · exact e.1
    exact whirl_reached u hun

/-- Another injector's fluid gets to cell 3 of the fork, so that its concentration of injector 65 is less than 1. -/
example : ∃ g, ∃ calls : List (Call (X ℚ)), ∃ S, exFork.GivenTo g calls ∧
    InjectionReturns g calls [⟨⟨[65]⟩, []⟩] (.ok S) ∧ (∀ v < exFork.n, ¬ exFork.forward.Loop v) ∧
    valueAt (S.concentration ⟨[65]⟩) 3 < 1 := by
  obtain ⟨g, calls, h⟩ := exists_given exFork_valid (by decide)
  have hi : InjectionAccepts exFork.inflowMap [⟨⟨[65]⟩, []⟩] := by
    intro s hs
    cases List.mem_singleton.mp hs
    refine ⟨⟨_, .head _, rfl, _, .head _, ?_⟩, by intro c hc; simp [CellSet.cells] at hc⟩
    rw [X_zero, X_lt]; simp
  obtain ⟨S, hS⟩ := (C40_valid_problem exFork_valid h _).1 hi
  have hl : ∀ v < exFork.n, ¬ exFork.forward.Loop v := by
    intro v hv hl
    have e : exFork.forward.Edge v v :=
      ⟨hv, hv, lt_of_le_of_ne ((forward_valid exFork_valid).w_nonneg v v hv hv) (Ne.symm hl.1)⟩
    exact exFork_acyclic v (.single e)
  obtain ⟨m, _, hm⟩ := C98_alone_injection_cyclic exFork_valid h hl hS (w := ⟨⟨[65]⟩, [0], fun _ => 3⟩) (by simp [exFork])
    ⟨_, .head _, rfl⟩
  refine ⟨g, calls, S, h, hS, hl, (hm 3 (by decide)).1 ⟨⟨⟨[66]⟩, [2], fun _ => 2⟩, by simp [exFork], by decide, 2, ?_, ?_⟩⟩
  · simp [posCells]
  · exact .single exFork_edges.2.2

end Verif.Props
