/-
C72 for flow with cycles: larger pore volumes do not give shorter times, up to the tolerances of
the iteration.
-/
import Verif.Props.CyclicAccuracy
import Verif.Props.FlowChanges
import Verif.Props.PairDouble
import Verif.Props.Renumbering

namespace Verif.Props
open Verif.Spec Verif.Solver Verif.Toolbox Finset

variable {K : Type} [Field K] [LinearOrder K] [IsStrictOrderedRing K] [Archimedean K]

section diag
variable {F : Flow K} {wells : List (WellFlux K)} {cs : WellFlux K → List Nat} {f : WellFlux K → Nat → K}
  {starts : List CellSet} {sol sol' : Solution (X K)}

theorem Diag.larger (D : Diag F wells cs f starts sol) {pv' : Nat → K} (hpv : ∀ v < F.n, F.pv v ≤ pv' v)
    (D' : Diag { F with pv := pv' } wells cs f starts sol') (hself : ∀ v < F.n, ¬ F.Loop v) {w : WellFlux K}
    (hw : w ∈ wells) (hs : ∃ s ∈ starts, s.id = w.id) {a : K} (ha : a < cap)
    (hta : ∀ v, F.Downstream (cs w) v → valueAt (sol.timeOfFlightOf w.id) v ≤ a)
    (hta' : ∀ v, F.Downstream (cs w) v → valueAt (sol'.timeOfFlightOf w.id) v ≤ a) :
    ∃ x m p, F.Carries (cs w) (injected (cs w) (f w)) x ∧ F.Carries (cs w) F.cycleInflow m ∧
      F.Carries (cs w) (fun v => pv' v * m v) p ∧
      (∀ v < F.n, |valueAt (sol'.concentration w.id) v - valueAt (sol.concentration w.id) v| ≤ 1 / 1000000000 * m v) ∧
      ∀ v, F.Downstream (cs w) v →
        valueAt (sol.timeOfFlightOf w.id) v * x v
          ≤ valueAt (sol'.timeOfFlightOf w.id) v * x v + 1 / 1000000000 * p v
            + (2 * a / 1000000000 + cap / 1000000000000) * m v := by
  have hp : ∀ p ∈ cs w, p < F.n ∧ 0 < F.src p := fun p hp =>
    ⟨D.side.range w hw p hp, lt_of_lt_of_le (D.side.pos w hw p hp) (D.le_src hw hp)⟩
  have hv : F.Valid := by obtain ⟨d, st, h1, _⟩ := D.solved; exact h1.valid
  obtain ⟨x, hx⟩ := (C76_exact hv hp (injected (cs w) (f w))).1
  obtain ⟨m, hm⟩ := (C76_exact hv hp F.cycleInflow).1
  obtain ⟨q, hq⟩ := (C76_exact hv hp fun v => F.pv v * x v).1
  obtain ⟨q', hq'⟩ := (C76_exact hv hp fun v => pv' v * x v).1
  obtain ⟨p, hpm⟩ := (C76_exact hv hp fun v => F.pv v * m v).1
  obtain ⟨p', hpm'⟩ := (C76_exact hv hp fun v => pv' v * m v).1
  have hx0 : ∀ v < F.n, 0 ≤ x v := (C76_exact hv hp _).2.2 (fun v _ => by
    unfold injected
    split
    · rename_i hm
      exact (D.side.pos w hw v hm).le
    · exact le_rfl) x hx
  have e1 := D.time_error hself hw hs hx hm hq hpm ha hta
  have e2 := D'.time_error hself hw hs hx hm hq' hpm' ha hta'
  have c1 := D.error hself hw hs hx hm
  have c2 := D'.error hself hw hs hx hm
  refine ⟨x, m, p', hx, hm, hpm', fun v hvn => ?_, fun v hd => ?_⟩
  · have h1 := c1 v hvn
    have h2 := c2 v hvn
    rw [abs_le]
    constructor <;> linarith [h1.1, h1.2, h2.1, h2.2]
  · have hvn : v < F.n := by
      obtain ⟨p, h1, h2⟩ := hd
      exact reach_lt (hp p h1).1 h2
    have hqq := carries_le hv hp hq hq' (fun u hu => mul_le_mul_of_nonneg_right (hpv u hu) (hx0 u hu)) v hvn
    have h1 := (e1 v hd).1
    have h2 := (e2 v hd).2
    have e : (2 * a / 1000000000 + cap / 1000000000000) * m v =
        a / 1000000000 * m v + (a / 1000000000 + cap / 1000000000000) * m v := by ring
    rw [e]
    linarith

end diag

section toolbox
variable {P : Problem K} (hP : P.Valid) {g g' : ConnectivityGraph} {calls calls' : List (Call (X K))} (h : P.GivenTo g calls)
  {starts : List CellSet} {sol sol' : Solution (X K)}
include hP h

/-- **C72** Flow with cycles (no cell has a self-connection as its only cycle): if the times of an injector are at most `a` < 200
    years, then with larger pore volumes they are not smaller, but for the tolerances of the iteration, which the fields `m` and
    `p` carry downstream.  `x` are the exact concentrations.  The concentrations of both computations differ by at most the
    tolerance carried downstream. -/
theorem C72_cyclic_injection_partial {pv' : Nat → K} (hpv : ∀ v < P.n, P.pv v ≤ pv' v)
    (h' : (P.withPoreVolume pv').GivenTo g' calls') (hself : ∀ v < P.n, ¬ P.forward.Loop v)
    (hr : InjectionReturns g calls starts (.ok sol)) (hr' : InjectionReturns g' calls' starts (.ok sol'))
    {w : WellFlux K} (hw : w ∈ P.wells) (hs : ∃ s ∈ starts, s.id = w.id) {a : K} (ha : a < 200 * 365 * 24 * 60 * 60)
    (hta : ∀ v, P.forward.Downstream (posCells w) v → valueAt (sol.timeOfFlightOf w.id) v ≤ a)
    (hta' : ∀ v, P.forward.Downstream (posCells w) v → valueAt (sol'.timeOfFlightOf w.id) v ≤ a) :
    ∃ x m p, P.forward.Carries (posCells w) (fun v => max (Problem.wellAt w v) 0) x ∧
      P.forward.Carries (posCells w) P.forward.cycleInflow m ∧
      P.forward.Carries (posCells w) (fun v => pv' v * m v) p ∧
      (∀ v < P.n, |valueAt (sol'.concentration w.id) v - valueAt (sol.concentration w.id) v| ≤ 1 / 1000000000 * m v) ∧
      ∀ v, P.forward.Downstream (posCells w) v →
        valueAt (sol.timeOfFlightOf w.id) v * x v
          ≤ valueAt (sol'.timeOfFlightOf w.id) v * x v + 1 / 1000000000 * p v
            + (2 * a / 1000000000 + 200 * 365 * 24 * 60 * 60 / 1000000000000) * m v := by
  have hP' : (P.withPoreVolume pv').Valid :=
    ⟨hP.int, hP.pos, hP.some_connection, hP.range, fun v hv => (hP.pv v hv).trans (hpv v hv), hP.wells_sorted, hP.cells_sorted,
      hP.cells_range⟩
  have e : injected (posCells w) w.val = fun v => max (Problem.wellAt w v) 0 := funext fun v => injected_pos v
  have := (diag_injection hP h hr).larger hpv (diag_injection hP' h' hr') hself hw hs ha hta hta'
  rw [e] at this
  exact this

/-- **C72** The same for a producer, in the reversed flow. -/
theorem C72_cyclic_production_partial {pv' : Nat → K} (hpv : ∀ v < P.n, P.pv v ≤ pv' v)
    (h' : (P.withPoreVolume pv').GivenTo g' calls') (hself : ∀ v < P.n, ¬ P.forward.Loop v)
    (hr : ProductionReturns g calls starts (.ok sol)) (hr' : ProductionReturns g' calls' starts (.ok sol'))
    {w : WellFlux K} (hw : w ∈ P.wells) (hs : ∃ s ∈ starts, s.id = w.id) {a : K} (ha : a < 200 * 365 * 24 * 60 * 60)
    (hta : ∀ v, P.backward.Downstream (negCells w) v → valueAt (sol.timeOfFlightOf w.id) v ≤ a)
    (hta' : ∀ v, P.backward.Downstream (negCells w) v → valueAt (sol'.timeOfFlightOf w.id) v ≤ a) :
    ∃ x m p, P.backward.Carries (negCells w) (fun v => max (-Problem.wellAt w v) 0) x ∧
      P.backward.Carries (negCells w) P.backward.cycleInflow m ∧
      P.backward.Carries (negCells w) (fun v => pv' v * m v) p ∧
      (∀ v < P.n, |valueAt (sol'.concentration w.id) v - valueAt (sol.concentration w.id) v| ≤ 1 / 1000000000 * m v) ∧
      ∀ v, P.backward.Downstream (negCells w) v →
        valueAt (sol.timeOfFlightOf w.id) v * x v
          ≤ valueAt (sol'.timeOfFlightOf w.id) v * x v + 1 / 1000000000 * p v
            + (2 * a / 1000000000 + 200 * 365 * 24 * 60 * 60 / 1000000000000) * m v := by
  have hP' : (P.withPoreVolume pv').Valid :=
    ⟨hP.int, hP.pos, hP.some_connection, hP.range, fun v hv => (hP.pv v hv).trans (hpv v hv), hP.wells_sorted, hP.cells_sorted,
      hP.cells_range⟩
  have e : injected (negCells w) (fun v => - w.val v) = fun v => max (-Problem.wellAt w v) 0 :=
    funext fun v => injected_neg v
  have := (diag_production hP h hr).larger hpv (diag_production hP' h' hr') (backward_not_loop hself) hw hs ha hta hta'
  rw [e] at this
  exact this

end toolbox

section doubles
variable {P : Problem ℚ} {M : Nat} {g g' : ConnectivityGraph} {calls calls' : List (Call Double)} {starts : List CellSet}
  {sol sol' : Solution Double}

/-- **C72** Flow with cycles, `double`s: with larger pore volumes, the times of an injector are not smaller, but for the tolerances of
    the iteration and rounding errors. -/
theorem C72_doubles_cyclic_injection_partial (hP : P.Valid) (hO : P.OfOrdinarySize M) {pv' : Nat → ℚ} (hpv : ∀ v < P.n, P.pv v ≤ pv' v)
    (hO' : (P.withPoreVolume pv').OfOrdinarySize M) (htotal : ∀ v < P.n, P.forward.total v ≤ 2 ^ 100)
    (hself : ∀ v < P.n, ¬ P.forward.Loop v) (hS : P.StoredIn g calls) (hS' : (P.withPoreVolume pv').StoredIn g' calls')
    (hr : InjectionReturns g calls starts (.ok sol)) (hr' : InjectionReturns g' calls' starts (.ok sol'))
    {w : WellFlux ℚ} (hw : w ∈ P.wells) (hask : ∃ s ∈ starts, s.id = w.id) {a : ℚ} (ha : a < 200 * 365 * 24 * 60 * 60)
    (hta : ∀ v, P.forward.Downstream (posCells w) v →
      doubleAt (sol.timeOfFlightOf w.id) v ≤ a ∧ doubleAt (sol'.timeOfFlightOf w.id) v ≤ a)
    (htiny : ∀ v, P.forward.Downstream (posCells w) v →
      1 / 2 ^ 300 ≤ doubleAt (sol.concentration w.id) v ∧ 1 / 2 ^ 300 ≤ doubleAt (sol'.concentration w.id) v) :
    ∃ x m h p k, P.forward.Carries (posCells w) (fun v => max (Problem.wellAt w v) 0) x ∧
      P.forward.Carries (posCells w) P.forward.cycleInflow m ∧
      P.forward.Carries (posCells w) P.forward.total h ∧
      P.forward.Carries (posCells w) (fun v => pv' v * m v) p ∧
      P.forward.Carries (posCells w) (fun v => pv' v * h v) k ∧
      ∀ v, P.forward.Downstream (posCells w) v →
        doubleAt (sol.timeOfFlightOf w.id) v * x v ≤ doubleAt (sol'.timeOfFlightOf w.id) v * x v
          + 2 * (1 / 1000000000 * p v + (2 * a / 1000000000 + 200 * 365 * 24 * 60 * 60 / 1000000000000) * m v
            + ((4 * M + 8 : Nat) : ℚ) / 2 ^ 51 * (k v + (2 * a + 1) * h v)) := by
  have hP' : (P.withPoreVolume pv').Valid :=
    ⟨hP.int, hP.pos, hP.some_connection, hP.range, fun v hv => (hP.pv v hv).trans (hpv v hv), hP.wells_sorted, hP.cells_sorted,
      hP.cells_range⟩
  have N := nearly_injection hP hO htotal hS hr
  have hp := N.sources hw
  obtain ⟨x, m, h, q, p, k, c1, c2, c3, c4, c5, c6, c7⟩ := C81_injection hP hO htotal hself hS hr hw hask ha (fun v hv => (hta v hv).1)
    (fun v hv => (htiny v hv).1)
  obtain ⟨x', m', h', q', p', k', d1, d2, d3, d4, d5, d6, d7⟩ := C81_injection hP' hO' htotal hself hS' hr' hw hask ha
    (fun v hv => (hta v hv).2) (fun v hv => (htiny v hv).2)
  have hF := N.valid
  have ex := (C76_exact hF hp _).2.1 x x' c1 d1
  have em := (C76_exact hF hp _).2.1 m m' c2 d2
  have eh := (C76_exact hF hp _).2.1 h h' c3 d3
  have x0 := (C76_exact hF hp _).2.2 (fun v _ => le_max_right _ _) x c1
  have m0 := (C76_exact hF hp _).2.2 (fun v hv => (cycleInflow_bounds hF hv).1) m c2
  have h0 := (C76_exact hF hp _).2.2 (fun v hv => (cycleInflow_bounds hF hv).1.trans (cycleInflow_bounds hF hv).2) h c3
  refine ⟨x', m', h', p', k', d1, d2, d3, d5, d6, fun v hd => ?_⟩
  have hv : v < P.n := by
    obtain ⟨y, h1, h2⟩ := hd
    exact reach_lt (hp y h1).1 h2
  have l1 := carries_le hF hp c4 d4 (fun u hu => by rw [← ex u hu]; exact mul_le_mul_of_nonneg_right (hpv u hu) (x0 u hu)) v hv
  have l2 := carries_le hF hp c5 d5 (fun u hu => by rw [← em u hu]; exact mul_le_mul_of_nonneg_right (hpv u hu) (m0 u hu)) v hv
  have l3 := carries_le hF hp c6 d6 (fun u hu => by rw [← eh u hu]; exact mul_le_mul_of_nonneg_right (hpv u hu) (h0 u hu)) v hv
  have b1 := (abs_le.mp (c7 v hd)).2
  have b2 := (abs_le.mp (d7 v hd)).1
  rw [em v hv, eh v hv, ex v hv] at b1
  have b3 : ((4 * M + 8 : Nat) : ℚ) / 2 ^ 51 * (k v + (2 * a + 1) * h' v) ≤ ((4 * M + 8 : Nat) : ℚ) / 2 ^ 51 * (k' v + (2 * a + 1) * h' v) :=
    mul_le_mul_of_nonneg_left (by linarith) (by positivity)
  linarith

/-- **C72** The same for a producer, in the reversed flow. -/
theorem C72_doubles_cyclic_production_partial (hP : P.Valid) (hO : P.OfOrdinarySize M) {pv' : Nat → ℚ} (hpv : ∀ v < P.n, P.pv v ≤ pv' v)
    (hO' : (P.withPoreVolume pv').OfOrdinarySize M) (htotal : ∀ v < P.n, P.backward.total v ≤ 2 ^ 100)
    (hself : ∀ v < P.n, ¬ P.forward.Loop v) (hS : P.StoredIn g calls) (hS' : (P.withPoreVolume pv').StoredIn g' calls')
    (hr : ProductionReturns g calls starts (.ok sol)) (hr' : ProductionReturns g' calls' starts (.ok sol'))
    {w : WellFlux ℚ} (hw : w ∈ P.wells) (hask : ∃ s ∈ starts, s.id = w.id) {a : ℚ} (ha : a < 200 * 365 * 24 * 60 * 60)
    (hta : ∀ v, P.backward.Downstream (negCells w) v →
      doubleAt (sol.timeOfFlightOf w.id) v ≤ a ∧ doubleAt (sol'.timeOfFlightOf w.id) v ≤ a)
    (htiny : ∀ v, P.backward.Downstream (negCells w) v →
      1 / 2 ^ 300 ≤ doubleAt (sol.concentration w.id) v ∧ 1 / 2 ^ 300 ≤ doubleAt (sol'.concentration w.id) v) :
    ∃ x m h p k, P.backward.Carries (negCells w) (fun v => max (-Problem.wellAt w v) 0) x ∧
      P.backward.Carries (negCells w) P.backward.cycleInflow m ∧
      P.backward.Carries (negCells w) P.backward.total h ∧
      P.backward.Carries (negCells w) (fun v => pv' v * m v) p ∧
      P.backward.Carries (negCells w) (fun v => pv' v * h v) k ∧
      ∀ v, P.backward.Downstream (negCells w) v →
        doubleAt (sol.timeOfFlightOf w.id) v * x v ≤ doubleAt (sol'.timeOfFlightOf w.id) v * x v
          + 2 * (1 / 1000000000 * p v + (2 * a / 1000000000 + 200 * 365 * 24 * 60 * 60 / 1000000000000) * m v
            + ((4 * M + 8 : Nat) : ℚ) / 2 ^ 51 * (k v + (2 * a + 1) * h v)) := by
  have hP' : (P.withPoreVolume pv').Valid :=
    ⟨hP.int, hP.pos, hP.some_connection, hP.range, fun v hv => (hP.pv v hv).trans (hpv v hv), hP.wells_sorted, hP.cells_sorted,
      hP.cells_range⟩
  have N := nearly_production hP hO htotal hS hr
  have hp := N.sources hw
  obtain ⟨x, m, h, q, p, k, c1, c2, c3, c4, c5, c6, c7⟩ := C81_production hP hO htotal hself hS hr hw hask ha (fun v hv => (hta v hv).1)
    (fun v hv => (htiny v hv).1)
  obtain ⟨x', m', h', q', p', k', d1, d2, d3, d4, d5, d6, d7⟩ := C81_production hP' hO' htotal hself hS' hr' hw hask ha
    (fun v hv => (hta v hv).2) (fun v hv => (htiny v hv).2)
  have hF := N.valid
  have ex := (C76_exact hF hp _).2.1 x x' c1 d1
  have em := (C76_exact hF hp _).2.1 m m' c2 d2
  have eh := (C76_exact hF hp _).2.1 h h' c3 d3
  have x0 := (C76_exact hF hp _).2.2 (fun v _ => le_max_right _ _) x c1
  have m0 := (C76_exact hF hp _).2.2 (fun v hv => (cycleInflow_bounds hF hv).1) m c2
  have h0 := (C76_exact hF hp _).2.2 (fun v hv => (cycleInflow_bounds hF hv).1.trans (cycleInflow_bounds hF hv).2) h c3
  refine ⟨x', m', h', p', k', d1, d2, d3, d5, d6, fun v hd => ?_⟩
  have hv : v < P.n := by
    obtain ⟨y, h1, h2⟩ := hd
    exact reach_lt (hp y h1).1 h2
  have l1 := carries_le hF hp c4 d4 (fun u hu => by rw [← ex u hu]; exact mul_le_mul_of_nonneg_right (hpv u hu) (x0 u hu)) v hv
  have l2 := carries_le hF hp c5 d5 (fun u hu => by rw [← em u hu]; exact mul_le_mul_of_nonneg_right (hpv u hu) (m0 u hu)) v hv
  have l3 := carries_le hF hp c6 d6 (fun u hu => by rw [← eh u hu]; exact mul_le_mul_of_nonneg_right (hpv u hu) (h0 u hu)) v hv
  have b1 := (abs_le.mp (c7 v hd)).2
  have b2 := (abs_le.mp (d7 v hd)).1
  rw [em v hv, eh v hv, ex v hv] at b1
  have b3 : ((4 * M + 8 : Nat) : ℚ) / 2 ^ 51 * (k v + (2 * a + 1) * h' v) ≤ ((4 * M + 8 : Nat) : ℚ) / 2 ^ 51 * (k' v + (2 * a + 1) * h' v) :=
    mul_le_mul_of_nonneg_left (by linarith) (by positivity)
  linarith

/-- **C72** Flow with cycles, `double`s, global times: likewise. -/
theorem C72_doubles_cyclic_global_injection_partial (hP : P.Valid) (hO : P.OfOrdinarySize M) {pv' : Nat → ℚ} (hpv : ∀ v < P.n, P.pv v ≤ pv' v)
    (hO' : (P.withPoreVolume pv').OfOrdinarySize M) (htotal : ∀ v < P.n, P.forward.total v ≤ 2 ^ 100)
    (hself : ∀ v < P.n, ¬ P.forward.Loop v) (hS : P.StoredIn g calls) (hS' : (P.withPoreVolume pv').StoredIn g' calls')
    (hr : InjectionReturns g calls starts (.ok sol)) (hr' : InjectionReturns g' calls' starts (.ok sol')) :
    ∃ m h p k, P.forward.Carries ((List.range P.n).filter fun p => decide (0 < P.source p)) P.forward.cycleInflow m ∧
      P.forward.Carries ((List.range P.n).filter fun p => decide (0 < P.source p)) P.forward.total h ∧
      P.forward.Carries ((List.range P.n).filter fun p => decide (0 < P.source p)) (fun v => pv' v * m v) p ∧
      P.forward.Carries ((List.range P.n).filter fun p => decide (0 < P.source p)) (fun v => pv' v * h v) k ∧
      ∀ a < 200 * 365 * 24 * 60 * 60, ∀ v < P.n,
        (∀ u, P.forward.Reach u v → (∃ p < P.n, 0 < P.source p ∧ P.forward.Reach p u) ∧
          (doubleIn sol.tof u ≤ a ∧ doubleIn sol'.tof u ≤ a) ∧
          1 / 1000000000 * m u + ((4 * M + 6 : Nat) : ℚ) / 2 ^ 51 * h u ≤ 1 / 2) →
        doubleIn sol.tof v ≤ doubleIn sol'.tof v
          + 2 * (1 / 1000000000 * p v + (2 * a / 1000000000 + 200 * 365 * 24 * 60 * 60 / 1000000000000) * m v
            + ((4 * M + 8 : Nat) : ℚ) / 2 ^ 51 * (k v + (2 * a + 1) * h v)) := by
  have hP' : (P.withPoreVolume pv').Valid :=
    ⟨hP.int, hP.pos, hP.some_connection, hP.range, fun v hv => (hP.pv v hv).trans (hpv v hv), hP.wells_sorted, hP.cells_sorted,
      hP.cells_range⟩
  have hF : P.forward.Valid := (nearly_injection hP hO htotal hS hr).valid
  have hs : ∀ p, p ∈ (List.range P.n).filter (fun p => decide (0 < P.source p)) → p < P.forward.n ∧ 0 < P.forward.src p := by
    intro p; rw [List.mem_filter, List.mem_range, decide_eq_true_eq]; exact id
  obtain ⟨m, h, q, p, k, c2, c3, c4, c5, c6, c7⟩ := C82_injection hP hO htotal hself hS hr
  obtain ⟨m', h', q', p', k', d2, d3, d4, d5, d6, d7⟩ := C82_injection hP' hO' htotal hself hS' hr'
  have em := (C76_exact hF hs _).2.1 m m' c2 d2
  have eh := (C76_exact hF hs _).2.1 h h' c3 d3
  have m0 := (C76_exact hF hs _).2.2 (fun v hv => (cycleInflow_bounds hF hv).1) m c2
  have h0 := (C76_exact hF hs _).2.2 (fun v hv => (cycleInflow_bounds hF hv).1.trans (cycleInflow_bounds hF hv).2) h c3
  refine ⟨m', h', p', k', d2, d3, d5, d6, fun a ha v hv hup => ?_⟩
  have hlt : ∀ u, P.forward.Reach u v → u < P.n := fun u hu => by
    rcases Relation.ReflTransGen.cases_head hu with e | ⟨x, e, _⟩
    · rw [e]; exact hv
    · exact e.1
  have l1 := carries_le hF hs c4 d4 (fun u hu => hpv u hu) v hv
  have l2 := carries_le hF hs c5 d5 (fun u hu => by rw [← em u hu]; exact mul_le_mul_of_nonneg_right (hpv u hu) (m0 u hu)) v hv
  have l3 := carries_le hF hs c6 d6 (fun u hu => by rw [← eh u hu]; exact mul_le_mul_of_nonneg_right (hpv u hu) (h0 u hu)) v hv
  have b1 := (abs_le.mp (c7 a ha v hv fun u hu => ⟨(hup u hu).1, (hup u hu).2.1.1, by
    rw [em u (hlt u hu), eh u (hlt u hu)]; exact (hup u hu).2.2⟩)).2
  have b2 := (abs_le.mp (d7 a ha v hv fun u hu => ⟨(hup u hu).1, (hup u hu).2.1.2, (hup u hu).2.2⟩)).1
  rw [em v hv, eh v hv] at b1
  have b3 : ((4 * M + 8 : Nat) : ℚ) / 2 ^ 51 * (k v + (2 * a + 1) * h' v) ≤ ((4 * M + 8 : Nat) : ℚ) / 2 ^ 51 * (k' v + (2 * a + 1) * h' v) :=
    mul_le_mul_of_nonneg_left (by linarith) (by positivity)
  linarith

/-- **C72** Flow with cycles, `double`s, global times of production: likewise. -/
theorem C72_doubles_cyclic_global_production_partial (hP : P.Valid) (hO : P.OfOrdinarySize M) {pv' : Nat → ℚ} (hpv : ∀ v < P.n, P.pv v ≤ pv' v)
    (hO' : (P.withPoreVolume pv').OfOrdinarySize M) (htotal : ∀ v < P.n, P.backward.total v ≤ 2 ^ 100)
    (hself : ∀ v < P.n, ¬ P.forward.Loop v) (hS : P.StoredIn g calls) (hS' : (P.withPoreVolume pv').StoredIn g' calls')
    (hr : ProductionReturns g calls starts (.ok sol)) (hr' : ProductionReturns g' calls' starts (.ok sol')) :
    ∃ m h p k, P.backward.Carries ((List.range P.n).filter fun p => decide (0 < P.sink p)) P.backward.cycleInflow m ∧
      P.backward.Carries ((List.range P.n).filter fun p => decide (0 < P.sink p)) P.backward.total h ∧
      P.backward.Carries ((List.range P.n).filter fun p => decide (0 < P.sink p)) (fun v => pv' v * m v) p ∧
      P.backward.Carries ((List.range P.n).filter fun p => decide (0 < P.sink p)) (fun v => pv' v * h v) k ∧
      ∀ a < 200 * 365 * 24 * 60 * 60, ∀ v < P.n,
        (∀ u, P.forward.Reach v u → (∃ p < P.n, 0 < P.sink p ∧ P.forward.Reach u p) ∧
          (doubleIn sol.tof u ≤ a ∧ doubleIn sol'.tof u ≤ a) ∧
          1 / 1000000000 * m u + ((4 * M + 6 : Nat) : ℚ) / 2 ^ 51 * h u ≤ 1 / 2) →
        doubleIn sol.tof v ≤ doubleIn sol'.tof v
          + 2 * (1 / 1000000000 * p v + (2 * a / 1000000000 + 200 * 365 * 24 * 60 * 60 / 1000000000000) * m v
            + ((4 * M + 8 : Nat) : ℚ) / 2 ^ 51 * (k v + (2 * a + 1) * h v)) := by
  have hP' : (P.withPoreVolume pv').Valid :=
    ⟨hP.int, hP.pos, hP.some_connection, hP.range, fun v hv => (hP.pv v hv).trans (hpv v hv), hP.wells_sorted, hP.cells_sorted,
      hP.cells_range⟩
  have hF : P.backward.Valid := (nearly_production hP hO htotal hS hr).valid
  have hs : ∀ p, p ∈ (List.range P.n).filter (fun p => decide (0 < P.sink p)) → p < P.backward.n ∧ 0 < P.backward.src p := by
    intro p; rw [List.mem_filter, List.mem_range, decide_eq_true_eq]; exact id
  obtain ⟨m, h, q, p, k, c2, c3, c4, c5, c6, c7⟩ := C82_production hP hO htotal hself hS hr
  obtain ⟨m', h', q', p', k', d2, d3, d4, d5, d6, d7⟩ := C82_production hP' hO' htotal hself hS' hr'
  have em := (C76_exact hF hs _).2.1 m m' c2 d2
  have eh := (C76_exact hF hs _).2.1 h h' c3 d3
  have m0 := (C76_exact hF hs _).2.2 (fun v hv => (cycleInflow_bounds hF hv).1) m c2
  have h0 := (C76_exact hF hs _).2.2 (fun v hv => (cycleInflow_bounds hF hv).1.trans (cycleInflow_bounds hF hv).2) h c3
  refine ⟨m', h', p', k', d2, d3, d5, d6, fun a ha v hv hup => ?_⟩
  have hlt : ∀ u, P.forward.Reach v u → u < P.n := fun u hu => reach_lt (F := P.forward) hv hu
  have l1 := carries_le hF hs c4 d4 (fun u hu => hpv u hu) v hv
  have l2 := carries_le hF hs c5 d5 (fun u hu => by rw [← em u hu]; exact mul_le_mul_of_nonneg_right (hpv u hu) (m0 u hu)) v hv
  have l3 := carries_le hF hs c6 d6 (fun u hu => by rw [← eh u hu]; exact mul_le_mul_of_nonneg_right (hpv u hu) (h0 u hu)) v hv
  have b1 := (abs_le.mp (c7 a ha v hv fun u hu => ⟨(hup u hu).1, (hup u hu).2.1.1, by
    rw [em u (hlt u hu), eh u (hlt u hu)]; exact (hup u hu).2.2⟩)).2
  have b2 := (abs_le.mp (d7 a ha v hv fun u hu => ⟨(hup u hu).1, (hup u hu).2.1.2, (hup u hu).2.2⟩)).1
  rw [em v hv, eh v hv] at b1
  have b3 : ((4 * M + 8 : Nat) : ℚ) / 2 ^ 51 * (k v + (2 * a + 1) * h' v) ≤ ((4 * M + 8 : Nat) : ℚ) / 2 ^ 51 * (k' v + (2 * a + 1) * h' v) :=
    mul_le_mul_of_nonneg_left (by linarith) (by positivity)
  linarith

end doubles

/-! ### The hypotheses hold

The whirl, and the whirl with the pore volume 2 in each cell. -/

def whirlExact (k : Int) : List (Call (X ℚ)) :=
  [.assignPoreVolume [Arith.lit k, Arith.lit k, Arith.lit k, Arith.lit k],
   .assignConnectionFlux ⟨4, 1, [Arith.lit 2, Arith.lit 3, Arith.lit 3, Arith.lit 1]⟩,
   .assignInflowFlux [(⟨[65]⟩, [(0, Arith.lit 2)]), (⟨[80]⟩, [(3, Arith.lit (-2))])]]

theorem whirlExact_given (k : Int) : (exWhirl.withPoreVolume fun _ => (k : ℚ)).GivenTo whirlGraph (whirlExact k) where
  graph := whirl_stored.graph
  pv := rfl
  flux := by
    refine ⟨_, rfl, rfl, rfl, ?_⟩
    intro c hc p hp
    have hp : p = 0 := by have : p < 1 := hp; omega
    subst hp
    have hc : c < 4 := hc
    interval_cases c <;> rfl
  inflow := Or.inl rfl

def okBelow (i : CellSetID) (a : ℚ) (r : Res (Solution (X ℚ))) : Bool := match r with
  | .ok s => (List.range 4).all fun v => decide (valueAt (s.timeOfFlightOf i) v ≤ a)
  | _ => false

theorem okBelow_spec {i : CellSetID} {a : ℚ} {r : Res (Solution (X ℚ))} (h : okBelow i a r = true) :
    ∃ s, r = .ok s ∧ ∀ v < 4, valueAt (s.timeOfFlightOf i) v ≤ a := by
  unfold okBelow at h
  split at h
  · refine ⟨_, rfl, fun v hv => ?_⟩
    have := List.all_eq_true.mp h v (List.mem_range.mpr hv)
    simpa using this
  · cases h

set_option maxRecDepth 100000 in
theorem whirlExact_one : ∃ s, InjectionReturns whirlGraph (whirlExact 1) [CellSet.ofCells ⟨[65]⟩ [0]] (.ok s) ∧
    ∀ v < 4, valueAt (s.timeOfFlightOf ⟨[65]⟩) v ≤ 3 := by
  obtain ⟨s, h, h'⟩ := okBelow_spec
    (show okBelow ⟨[65]⟩ 3 (injectionOutcome whirlGraph (whirlExact 1) noFailure 100 [CellSet.ofCells ⟨[65]⟩ [0]]) = true by
      decide +kernel)
  exact ⟨s, (Fuel.injection_returns.mpr ⟨100, h, by simp⟩).1, h'⟩

set_option maxRecDepth 100000 in
theorem whirlExact_two : ∃ s, InjectionReturns whirlGraph (whirlExact 2) [CellSet.ofCells ⟨[65]⟩ [0]] (.ok s) ∧
    ∀ v < 4, valueAt (s.timeOfFlightOf ⟨[65]⟩) v ≤ 6 := by
  obtain ⟨s, h, h'⟩ := okBelow_spec
    (show okBelow ⟨[65]⟩ 6 (injectionOutcome whirlGraph (whirlExact 2) noFailure 100 [CellSet.ofCells ⟨[65]⟩ [0]]) = true by
      decide +kernel)
  exact ⟨s, (Fuel.injection_returns.mpr ⟨100, h, by simp⟩).1, h'⟩

example : ∃ s s', ∃ x m p : Nat → ℚ, InjectionReturns whirlGraph (whirlExact 1) [CellSet.ofCells ⟨[65]⟩ [0]] (.ok s) ∧
    InjectionReturns whirlGraph (whirlExact 2) [CellSet.ofCells ⟨[65]⟩ [0]] (.ok s') ∧
    exWhirl.forward.Carries [0] exWhirl.forward.cycleInflow m ∧ exWhirl.forward.Carries [0] (fun v => 2 * m v) p ∧
    valueAt (s.timeOfFlightOf ⟨[65]⟩) 3 * x 3 ≤ valueAt (s'.timeOfFlightOf ⟨[65]⟩) 3 * x 3 + 1 / 1000000000 * p 3
            + (2 * 6 / 1000000000 + 200 * 365 * 24 * 60 * 60 / 1000000000000) * m 3 := by
  obtain ⟨s, h1, b1⟩ := whirlExact_one
  obtain ⟨s', h2, b2⟩ := whirlExact_two
  have e : exWhirl.withPoreVolume (fun _ => ((1 : Int) : ℚ)) = exWhirl := by
    unfold Problem.withPoreVolume exWhirl; simp
  have g1 := whirlExact_given 1
  rw [e] at g1
  have hlt : ∀ v, exWhirl.forward.Downstream [0] v → v < 4 := fun v ⟨p, h1, h2⟩ =>
    reach_lt (F := exWhirl.forward) (by
      rw [List.mem_singleton.mp h1]; show 0 < 4; decide) h2
  obtain ⟨x, m, p, c1, c2, c3, c4, c5⟩ := C72_cyclic_injection_partial exWhirl_valid g1 (pv' := fun _ => ((2 : Int) : ℚ))
    (fun v _ => by show (1 : ℚ) ≤ ((2 : Int) : ℚ); norm_num) (whirlExact_given 2) whirl_not_loop h1 h2
    (w := ⟨⟨[65]⟩, [0], fun _ => 2⟩) (List.mem_cons_self ..) ⟨_, List.mem_singleton.mpr rfl, rfl⟩ (a := 6) (by norm_num)
    (fun v hv => (b1 v (hlt v hv)).trans (by norm_num)) (fun v hv => b2 v (hlt v hv))
  refine ⟨s, s', x, m, p, h1, h2, c2, c3, c5 3 ⟨0, ?_, whirl_reached 3 (by decide)⟩⟩
  show 0 ∈ posCells _
  simp [posCells]

def whirlCallsTwo : List (Call Double) :=
  [.assignPoreVolume [Arith.lit 2, Arith.lit 2, Arith.lit 2, Arith.lit 2],
   .assignConnectionFlux ⟨4, 1, [Arith.lit 2, Arith.lit 3, Arith.lit 3, Arith.lit 1]⟩,
   .assignInflowFlux [(⟨[65]⟩, [(0, Arith.lit 2)]), (⟨[80]⟩, [(3, Arith.lit (-2))])]]

theorem whirlTwo_stored : (exWhirl.withPoreVolume fun _ => 2).StoredIn whirlGraph whirlCallsTwo where
  graph := whirl_stored.graph
  pv := ⟨_, rfl, by decide +kernel⟩
  flux := by
    refine ⟨1, fun c _ => if c = 0 then Arith.lit 2 else if c = 3 then Arith.lit 1 else Arith.lit 3, ⟨_, rfl, rfl, rfl, ?_⟩, ?_⟩
    · intro c hc p hp
      have hp : p = 0 := by omega
      subst hp
      have hc : c < 4 := hc
      interval_cases c <;> rfl
    · intro c hc
      have hc : c < 4 := hc
      show _ = X.fin (exWhirl.net c)
      rw [whirl_net]
      interval_cases c <;> decide +kernel
  inflow := by decide +kernel

theorem whirlTwo_ordinary : (exWhirl.withPoreVolume fun _ => 2).OfOrdinarySize 4 where
  flux := whirl_ordinary.flux
  well := whirl_ordinary.well
  pv v hv := by
    right
    show (_ : ℚ) ≤ |2| ∧ |(2 : ℚ)| ≤ _
    norm_num
  degree := whirl_ordinary.degree
  wells := whirl_ordinary.wells
  bound := whirl_ordinary.bound

def tameTimes (r : Res (Solution Double)) : Bool := match r with
  | .ok s => (List.range 4).all fun v => decide (doubleIn s.tof v ≤ 10 ∧ doubleAt (s.timeOfFlightOf ⟨[65]⟩) v ≤ 10 ∧
      1 / 2 ^ 300 ≤ doubleAt (s.concentration ⟨[65]⟩) v)
  | _ => false

theorem tame_times {r : Res (Solution Double)} (h : tameTimes r = true) : ∃ s, r = .ok s ∧ ∀ v < 4, doubleIn s.tof v ≤ 10 ∧
    doubleAt (s.timeOfFlightOf ⟨[65]⟩) v ≤ 10 ∧ 1 / 2 ^ 300 ≤ doubleAt (s.concentration ⟨[65]⟩) v := by
  unfold tameTimes at h
  split at h
  · exact ⟨_, rfl, fun v hv => of_decide_eq_true (List.all_eq_true.mp h v (List.mem_range.mpr hv))⟩
  · cases h

set_option maxRecDepth 100000 in
theorem whirl_tameTimes : ∃ S, InjectionReturns whirlGraph whirlCalls [CellSet.ofCells ⟨[65]⟩ [0]] (.ok S) ∧
    ∀ v < 4, doubleIn S.tof v ≤ 10 ∧ doubleAt (S.timeOfFlightOf ⟨[65]⟩) v ≤ 10 ∧ 1 / 2 ^ 300 ≤ doubleAt (S.concentration ⟨[65]⟩) v := by
  obtain ⟨S, hS, key⟩ := tame_times
    (show tameTimes (injectionOutcome whirlGraph whirlCalls noFailure 100 [CellSet.ofCells ⟨[65]⟩ [0]]) = true by decide +kernel)
  exact ⟨S, (Fuel.injection_returns.mpr ⟨100, hS, by simp⟩).1, key⟩

set_option maxRecDepth 100000 in
theorem whirlTwo_tameTimes : ∃ S, InjectionReturns whirlGraph whirlCallsTwo [CellSet.ofCells ⟨[65]⟩ [0]] (.ok S) ∧
    ∀ v < 4, doubleIn S.tof v ≤ 10 ∧ doubleAt (S.timeOfFlightOf ⟨[65]⟩) v ≤ 10 ∧ 1 / 2 ^ 300 ≤ doubleAt (S.concentration ⟨[65]⟩) v := by
  obtain ⟨S, hS, key⟩ := tame_times
    (show tameTimes (injectionOutcome whirlGraph whirlCallsTwo noFailure 100 [CellSet.ofCells ⟨[65]⟩ [0]]) = true by decide +kernel)
  exact ⟨S, (Fuel.injection_returns.mpr ⟨100, hS, by simp⟩).1, key⟩

/-- With `double`s. -/
example : ∃ S S', InjectionReturns whirlGraph whirlCalls [CellSet.ofCells ⟨[65]⟩ [0]] (.ok S) ∧
    InjectionReturns whirlGraph whirlCallsTwo [CellSet.ofCells ⟨[65]⟩ [0]] (.ok S') ∧
    (∃ x m h p k : Nat → ℚ, doubleAt (S.timeOfFlightOf ⟨[65]⟩) 3 * x 3 ≤ doubleAt (S'.timeOfFlightOf ⟨[65]⟩) 3 * x 3
          + 2 * (1 / 1000000000 * p 3 + (2 * 10 / 1000000000 + 200 * 365 * 24 * 60 * 60 / 1000000000000) * m 3
            + ((4 * 4 + 8 : Nat) : ℚ) / 2 ^ 51 * (k 3 + (2 * 10 + 1) * h 3))) ∧
    ∃ m h p k : Nat → ℚ, ∀ v < 4, doubleIn S.tof v ≤ doubleIn S'.tof v
          + 2 * (1 / 1000000000 * p v + (2 * 10 / 1000000000 + 200 * 365 * 24 * 60 * 60 / 1000000000000) * m v
            + ((4 * 4 + 8 : Nat) : ℚ) / 2 ^ 51 * (k v + (2 * 10 + 1) * h v)) := by
  obtain ⟨S, h1, b1⟩ := whirl_tameTimes
  obtain ⟨S', h2, b2⟩ := whirlTwo_tameTimes
  have hlt : ∀ v, exWhirl.forward.Downstream [0] v → v < 4 := fun v ⟨p, h1, h2⟩ =>
    reach_lt (F := exWhirl.forward) (by
      rw [List.mem_singleton.mp h1]; show 0 < 4; decide) h2
  have hle : ∀ v < exWhirl.n, exWhirl.pv v ≤ 2 := fun v _ => by show (1 : ℚ) ≤ 2; norm_num
  obtain ⟨x, m, h, p, k, _, _, _, _, _, c⟩ := C72_doubles_cyclic_injection_partial exWhirl_valid whirl_ordinary hle
    whirlTwo_ordinary whirl_total.1 whirl_not_loop whirl_stored whirlTwo_stored h1 h2
    (w := ⟨⟨[65]⟩, [0], fun _ => 2⟩) (List.mem_cons_self ..) ⟨_, List.mem_singleton.mpr rfl, rfl⟩ (a := 10) (by norm_num)
    (fun v hv => ⟨(b1 v (hlt v hv)).2.1, (b2 v (hlt v hv)).2.1⟩) (fun v hv => ⟨(b1 v (hlt v hv)).2.2, (b2 v (hlt v hv)).2.2⟩)
  obtain ⟨m', h', p', k', e1, e2, _, _, d⟩ := C72_doubles_cyclic_global_injection_partial exWhirl_valid whirl_ordinary hle
    whirlTwo_ordinary whirl_total.1 whirl_not_loop whirl_stored whirlTwo_stored h1 h2
  refine ⟨S, S', h1, h2, ⟨x, m, h, p, k, c 3 ⟨0, ?_, whirl_reached 3 (by decide)⟩⟩, m', h', p', k', fun v hv => d 10 (by norm_num) v hv ?_⟩
  · show 0 ∈ posCells _
    simp [posCells]
  · intro u hr
    have hu : u < 4 := by
      rcases Relation.ReflTransGen.cases_head hr with rfl | ⟨y, he, _⟩
      · exact hv
      · exact he.1
    exact ⟨⟨0, by decide, whirl_source, whirl_reached u hu⟩, ⟨(b1 u hu).1, (b2 u hu).1⟩, whirl_fields e1 e2 u hu⟩

end Verif.Props
