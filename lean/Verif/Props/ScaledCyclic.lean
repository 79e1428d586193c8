/-
C73 in flow with cycles, and with doubles: other units, or all rates multiplied by one number.
-/
import Verif.Props.NearTimes

namespace Verif.Props
open Verif.Spec Verif.Toolbox Verif.Solver Verif.Derived Finset

section flow
variable {K : Type} [Field K] [LinearOrder K] [IsStrictOrderedRing K] [Archimedean K] {k m : K} {F G : Flow K}
  (hG : Flow.Proportional k F G)
include hG

omit [Archimedean K] in
theorem prop_downstream {s : List Nat} {v : Nat} : G.Downstream s v ↔ F.Downstream s v := by
  unfold Flow.Downstream; simp only [prop_reach hG]

omit [Archimedean K] in
theorem prop_loop {v : Nat} : G.Loop v ↔ F.Loop v := by
  unfold Flow.Loop Flow.SameCycle
  simp only [prop_reach hG, hG.flux, ne_eq, mul_eq_zero, hG.pos.ne', false_or]

omit [Archimedean K] in
theorem prop_cycleInflow : G.cycleInflow = fun v => k * F.cycleInflow v := by
  funext v
  unfold Flow.cycleInflow Flow.SameCycle
  rw [hG.size, mul_sum]
  refine sum_congr rfl fun u _ => ?_
  rw [mul_ite, mul_zero, hG.flux]
  have e : (G.Reach u v ∧ G.Reach v u) ↔ F.Reach u v ∧ F.Reach v u := and_congr (prop_reach hG) (prop_reach hG)
  by_cases hh : F.Reach u v ∧ F.Reach v u
  · rw [if_pos (e.mpr hh), if_pos hh]
  · rw [if_neg fun h => hh (e.mp h), if_neg hh]

omit [Archimedean K] in
/-- A flow with all fluxes multiplied by `k` carries the same field if the cells add `k` times as much. -/
theorem prop_carries {s : List Nat} {q x : Nat → K} (h : F.Carries s q x) : G.Carries s (fun v => k * q v) x := by
  refine ⟨fun v hv hd => h.1 v (hG.size ▸ hv) fun hd' => hd ((prop_downstream hG).mpr hd'), fun v hv hd => ?_⟩
  rw [prop_total hG, prop_sum hG, mul_assoc, h.2 v (hG.size ▸ hv) ((prop_downstream hG).mp hd), mul_add]

omit [Archimedean K] in
/-- The cells add `m` times as much. -/
theorem prop_carries_mul {s : List Nat} {q x : Nat → K} (h : F.Carries s q x) :
    G.Carries s (fun v => m * q v) fun v => m / k * x v := by
  have h' := prop_carries hG h
  refine ⟨fun v hv hd => ?_, fun v hv hd => ?_⟩
  · show m / k * x v = 0
    rw [h'.1 v hv hd, mul_zero]
  · have e : ∑ u ∈ range G.n, m / k * x u * G.w u v = m / k * ∑ u ∈ range G.n, x u * G.w u v := by
      rw [mul_sum]; exact sum_congr rfl fun u _ => by ring
    have hk : m / k * (k * q v) = m * q v := by rw [← mul_assoc, div_mul_cancel₀ _ hG.pos.ne']
    rw [e]
    linear_combination m / k * h'.2 v hv hd + hk

theorem Diag.units {wells wells' : List (WellFlux K)} {cs : WellFlux K → List Nat} {f : WellFlux K → Nat → K}
    {starts starts' : List CellSet} {sol sol' : Solution (X K)} (D : Diag F wells cs f starts sol)
    (D' : Diag G wells' cs f starts' sol') (hm : 0 < m) (hpv : ∀ v, G.pv v = m * F.pv v) (hself : ∀ v < F.n, ¬ F.Loop v)
    {w w' : WellFlux K} (hw : w ∈ wells) (hw' : w' ∈ wells') (hid : w'.id = w.id) (hcs : cs w' = cs w) (hf : ∀ v, f w' v = k * f w v)
    (hs : ∃ s ∈ starts, s.id = w.id) (hs' : ∃ s ∈ starts', s.id = w.id) {c p : Nat → K} (hc : F.Carries (cs w) F.cycleInflow c)
    (hp : F.Carries (cs w) (fun v => F.pv v * c v) p) :
    (∀ v < F.n, |valueAt (sol'.concentration w.id) v - valueAt (sol.concentration w.id) v| ≤ 1 / 1000000000 * c v) ∧
    ∀ a : K, 0 ≤ a → a < cap → m / k * a < cap → (∀ v < F.n, valueAt (sol.timeOfFlightOf w.id) v ≤ a) →
      (∀ v < F.n, valueAt (sol'.timeOfFlightOf w.id) v ≤ m / k * a) → ∀ v < F.n,
      |valueAt (sol'.concentration w.id) v * valueAt (sol'.timeOfFlightOf w.id) v
          - m / k * (valueAt (sol.concentration w.id) v * valueAt (sol.timeOfFlightOf w.id) v)|
        ≤ m / k * (2 / 1000000000 * p v + 4 * a / 1000000000 * c v) + (1 + m / k) * cap / 1000000000000 * c v := by
  have hF : F.Valid := by obtain ⟨d, st, h1, _⟩ := D.solved; exact h1.valid
  have hGv : G.Valid := by obtain ⟨d, st, h1, _⟩ := D'.solved; exact h1.valid
  have hsrc := side_sources D.side hw
  have hsrc' := side_sources D'.side hw'
  have hmk : 0 < m / k := div_pos hm hG.pos
  have hself' : ∀ v < G.n, ¬ G.Loop v := fun v hv hl => hself v (hG.size ▸ hv) ((prop_loop hG).mp hl)
  obtain ⟨x, hx⟩ := (C76_exact hF hsrc (injected (cs w) (f w))).1
  obtain ⟨q, hq⟩ := (C76_exact hF hsrc fun v => F.pv v * x v).1
  have hx' : G.Carries (cs w') (injected (cs w') (f w')) x := by
    have e : injected (cs w') (f w') = fun v => k * injected (cs w) (f w) v := by
      funext v
      unfold injected
      rw [hcs, hf, mul_ite, mul_zero]
    rw [e, hcs]
    exact prop_carries hG hx
  have hc' : G.Carries (cs w') G.cycleInflow c := by
    rw [hcs, prop_cycleInflow hG]
    exact prop_carries hG hc
  have hq' : G.Carries (cs w') (fun v => G.pv v * x v) fun v => m / k * q v := by
    have e : (fun v => G.pv v * x v) = fun v => m * (F.pv v * x v) := by funext v; rw [hpv, mul_assoc]
    rw [e, hcs]
    exact prop_carries_mul hG hq
  have hp' : G.Carries (cs w') (fun v => G.pv v * c v) fun v => m / k * p v := by
    have e : (fun v => G.pv v * c v) = fun v => m * (F.pv v * c v) := by funext v; rw [hpv, mul_assoc]
    rw [e, hcs]
    exact prop_carries_mul hG hp
  rw [← hid] at hs'
  constructor
  · intro v hv
    obtain ⟨a1, a2⟩ := D.error hself hw hs hx hc v hv
    obtain ⟨b1, b2⟩ := D'.error hself' hw' hs' hx' hc' v (hG.size.symm ▸ hv)
    rw [hid] at b1 b2
    rw [abs_le]
    constructor <;> linarith
  · intro a ha0 ha ha' hta hta' v hv
    have b1 := D.well_time hF hself hw hs ha0 ha hta hsrc (fun p hp => hp) hc hp hx hq hv
    have b2 := D'.well_time hGv hself' hw' hs' (mul_nonneg hmk.le ha0) ha' (by rw [hid, hG.size]; exact hta') hsrc' (fun p hp => hp) hc'
      hp' hx' hq' (hG.size.symm ▸ hv)
    rw [hid] at b2
    generalize valueAt (sol'.concentration w.id) v * valueAt (sol'.timeOfFlightOf w.id) v = y' at *
    generalize valueAt (sol.concentration w.id) v * valueAt (sol.timeOfFlightOf w.id) v = y at *
    have b3 := mul_le_mul_of_nonneg_left b1 hmk.le
    rw [← abs_of_nonneg hmk.le, ← abs_mul, abs_of_nonneg hmk.le] at b3
    calc |y' - m / k * y| = |(y' - m / k * q v) + -(m / k * (y - q v))| := by congr 1; ring
      _ ≤ |y' - m / k * q v| + |m / k * (y - q v)| := by rw [← abs_neg (m / k * (y - q v))]; exact abs_add_le _ _
      _ ≤ _ := add_le_add b2 b3
      _ = _ := by ring

end flow

section exact
variable {K : Type} [Field K] [LinearOrder K] [IsStrictOrderedRing K] [Archimedean K] {k m : K} {P : Problem K} (hP : P.Valid)
  {g g' : ConnectivityGraph} {calls calls' : List (Call (X K))} (h : P.GivenTo g calls)
  {starts starts' : List CellSet} {sol sol' : Solution (X K)} (hk : 0 < k) (hm : 0 < m) (h' : (P.scaled k m).GivenTo g' calls')
  (hself : ∀ v < P.n, ¬ P.forward.Loop v) {w : WellFlux K} (hw : w ∈ P.wells)
  (hs : ∃ s ∈ starts, s.id = w.id) (hs' : ∃ s ∈ starts', s.id = w.id)
include hP h hk hm h' hself hw hs hs'

/-- **C73** (exact arithmetic, any cycles, no cell has a self-connection as its only cycle) If all fluxes and inflow values are
    multiplied by `k` and all pore volumes by `m`, the concentrations of an injector change at most by 1e-9 times the number of
    cells on cycles that the fluid has passed on the average, `c`.  Products of concentration and time of flight are multiplied by
    `m / k` up to the tolerance of the solver, if no time of the injector is above `a` before and above `m / k * a` after, both
    below 200 years.  Here `p` is carried by the flow when each cell adds its pore volume times `c`. -/
theorem C73_injection_cyclic (hr : InjectionReturns g calls starts (.ok sol)) (hr' : InjectionReturns g' calls' starts' (.ok sol'))
    {c p : Nat → K} (hc : P.forward.Carries (posCells w) P.forward.cycleInflow c)
    (hp : P.forward.Carries (posCells w) (fun v => P.pv v * c v) p) :
    (∀ v < P.n, |valueAt (sol'.concentration w.id) v - valueAt (sol.concentration w.id) v| ≤ 1 / 1000000000 * c v) ∧
    ∀ a : K, 0 ≤ a → a < 200 * 365 * 24 * 60 * 60 → m / k * a < 200 * 365 * 24 * 60 * 60 →
      (∀ v < P.n, valueAt (sol.timeOfFlightOf w.id) v ≤ a) →
      (∀ v < P.n, valueAt (sol'.timeOfFlightOf w.id) v ≤ m / k * a) → ∀ v < P.n,
      |valueAt (sol'.concentration w.id) v * valueAt (sol'.timeOfFlightOf w.id) v
          - m / k * (valueAt (sol.concentration w.id) v * valueAt (sol.timeOfFlightOf w.id) v)|
        ≤ m / k * (2 / 1000000000 * p v + 4 * a / 1000000000 * c v)
          + (1 + m / k) * (200 * 365 * 24 * 60 * 60) / 1000000000000 * c v := by
  have hG : Flow.Proportional k P.forward (P.scaled k m).forward :=
    ⟨hk, rfl, scaled_flux hk, fun v => (scaled_source hk v).1⟩
  exact (diag_injection hP h hr).units hG (diag_injection (scaled_valid hP hm.le) h' hr') hm (fun _ => rfl) hself hw
    (List.mem_map_of_mem hw) rfl (by simp only [posCells, mul_pos_iff_of_pos_left hk]) (fun _ => rfl) hs hs' hc hp

/-- **C73** The same for production, in the reversed flow. -/
theorem C73_production_cyclic (hr : ProductionReturns g calls starts (.ok sol)) (hr' : ProductionReturns g' calls' starts' (.ok sol'))
    {c p : Nat → K} (hc : P.backward.Carries (negCells w) P.backward.cycleInflow c)
    (hp : P.backward.Carries (negCells w) (fun v => P.pv v * c v) p) :
    (∀ v < P.n, |valueAt (sol'.concentration w.id) v - valueAt (sol.concentration w.id) v| ≤ 1 / 1000000000 * c v) ∧
    ∀ a : K, 0 ≤ a → a < 200 * 365 * 24 * 60 * 60 → m / k * a < 200 * 365 * 24 * 60 * 60 →
      (∀ v < P.n, valueAt (sol.timeOfFlightOf w.id) v ≤ a) →
      (∀ v < P.n, valueAt (sol'.timeOfFlightOf w.id) v ≤ m / k * a) → ∀ v < P.n,
      |valueAt (sol'.concentration w.id) v * valueAt (sol'.timeOfFlightOf w.id) v
          - m / k * (valueAt (sol.concentration w.id) v * valueAt (sol.timeOfFlightOf w.id) v)|
        ≤ m / k * (2 / 1000000000 * p v + 4 * a / 1000000000 * c v)
          + (1 + m / k) * (200 * 365 * 24 * 60 * 60) / 1000000000000 * c v := by
  have hG : Flow.Proportional k P.backward (P.scaled k m).backward :=
    ⟨hk, rfl, fun u v => scaled_flux hk v u, fun v => (scaled_source hk v).2⟩
  have hneg : ∀ x, k * x < 0 ↔ x < 0 := fun x => by
    rw [← neg_pos, ← mul_neg, mul_pos_iff_of_pos_left hk, neg_pos]
  exact (diag_production hP h hr).units hG (diag_production (scaled_valid hP hm.le) h' hr') hm (fun _ => rfl) (backward_not_loop hself)
    hw (List.mem_map_of_mem hw) rfl (by simp only [negCells, hneg]) (fun _ => (mul_neg _ _).symm) hs hs' hc hp

end exact

/-! ### Doubles -/

theorem Nearly.units {k m : ℚ} {F G : Flow ℚ} (hG : Flow.Proportional k F G) {wells wells' : List (WellFlux ℚ)}
    {cs : WellFlux ℚ → List Nat} {f : WellFlux ℚ → Nat → ℚ} {starts starts' : List CellSet} {sol sol' : Solution Double} {M : Nat}
    (N : Nearly F wells cs f starts sol M) (N' : Nearly G wells' cs f starts' sol' M) (T : Timely F wells cs starts sol M)
    (T' : Timely G wells' cs starts' sol' M) (hm : 0 < m) (hpv : ∀ v, G.pv v = m * F.pv v) (hself : ∀ v < F.n, ¬ F.Loop v)
    {w w' : WellFlux ℚ} (hw : w ∈ wells) (hw' : w' ∈ wells') (hid : w'.id = w.id) (hcs : cs w' = cs w) (hf : ∀ v, f w' v = k * f w v)
    (hs : ∃ s ∈ starts, s.id = w.id) (hs' : ∃ s ∈ starts', s.id = w.id) {c p t z : Nat → ℚ} (hc : F.Carries (cs w) F.cycleInflow c)
    (hp : F.Carries (cs w) (fun v => F.pv v * c v) p) (ht : F.Carries (cs w) F.total t)
    (hz : F.Carries (cs w) (fun v => F.pv v * t v) z) :
    (∀ v < F.n, |doubleAt (sol'.concentration w.id) v - doubleAt (sol.concentration w.id) v|
      ≤ 2 / 1000000000 * c v + ((4 * M + 6 : Nat) : ℚ) / 2 ^ 50 * t v) ∧
    ∀ a : ℚ, 0 ≤ a → a < 200 * 365 * 24 * 60 * 60 → m / k * a < 200 * 365 * 24 * 60 * 60 →
      (∀ v, F.Downstream (cs w) v → doubleAt (sol.timeOfFlightOf w.id) v ≤ a ∧ doubleAt (sol'.timeOfFlightOf w.id) v ≤ m / k * a ∧
        1 / 2 ^ 300 ≤ doubleAt (sol.concentration w.id) v ∧ 1 / 2 ^ 300 ≤ doubleAt (sol'.concentration w.id) v) → ∀ v < F.n,
      |doubleAt (sol'.concentration w.id) v * doubleAt (sol'.timeOfFlightOf w.id) v
          - m / k * (doubleAt (sol.concentration w.id) v * doubleAt (sol.timeOfFlightOf w.id) v)|
        ≤ m / k * (2 / 1000000000 * p v + 6 * a / 1000000000 * c v) + (1 + m / k) * (200 * 365 * 24 * 60 * 60) / 1000000000000 * c v
          + ((4 * M + 8 : Nat) : ℚ) / 2 ^ 51 * (m / k * (2 * z v + 6 * a * t v) + (1 + m / k) * t v) := by
  have hF := N.valid
  have hGv := N'.valid
  have hsrc := N.sources hw
  have hsrc' := N'.sources hw'
  have hmk : 0 < m / k := div_pos hm hG.pos
  have hself' : ∀ v < G.n, ¬ G.Loop v := fun v hv hl => hself v (hG.size ▸ hv) ((prop_loop hG).mp hl)
  obtain ⟨x, hx⟩ := (C76_exact hF hsrc (injected (cs w) (f w))).1
  obtain ⟨q, hq⟩ := (C76_exact hF hsrc fun v => F.pv v * x v).1
  have hx' : G.Carries (cs w') (injected (cs w') (f w')) x := by
    have e : injected (cs w') (f w') = fun v => k * injected (cs w) (f w) v := by
      funext v
      unfold injected
      rw [hcs, hf, mul_ite, mul_zero]
    rw [e, hcs]
    exact prop_carries hG hx
  have hc' : G.Carries (cs w') G.cycleInflow c := by
    rw [hcs, prop_cycleInflow hG]
    exact prop_carries hG hc
  have ht' : G.Carries (cs w') G.total t := by
    rw [hcs, show G.total = fun v => k * F.total v from funext (prop_total hG)]
    exact prop_carries hG ht
  have pvs : ∀ {y q : Nat → ℚ}, F.Carries (cs w) (fun v => F.pv v * y v) q →
      G.Carries (cs w') (fun v => G.pv v * y v) fun v => m / k * q v := by
    intro y q hq
    have e : (fun v => G.pv v * y v) = fun v => m * (F.pv v * y v) := by funext v; rw [hpv, mul_assoc]
    rw [e, hcs]
    exact prop_carries_mul hG hq
  rw [← hid] at hs'
  constructor
  · intro v hv
    have a1 := abs_le.mp (N.error hself hw hs hx hc ht v hv)
    have b1 := abs_le.mp (N'.error hself' hw' hs' hx' hc' ht' v (hG.size.symm ▸ hv))
    rw [hid] at b1
    have e : ((4 * M + 6 : Nat) : ℚ) / 2 ^ 50 * t v = 2 * (((4 * M + 6 : Nat) : ℚ) / 2 ^ 51 * t v) := by ring
    rw [abs_le, e]
    constructor <;> linarith
  · intro a ha0 ha ha' hta v hv
    have b1 := N.well_time T hself hw hs ha0 ha (fun v hd => (hta v hd).1) (fun v hd => (hta v hd).2.2.1) hsrc (fun p hp => hp) hc ht hp hz
      hx hq hv
    have hd' : ∀ v, G.Downstream (cs w') v → F.Downstream (cs w) v := fun v hd => (prop_downstream hG).mp (hcs ▸ hd)
    have b2 := N'.well_time T' hself' hw' hs' (mul_nonneg hmk.le ha0) ha' (by rw [hid]; exact fun v hd => (hta v (hd' v hd)).2.1)
      (by rw [hid]; exact fun v hd => (hta v (hd' v hd)).2.2.2) hsrc' (fun p hp => hp) hc' ht' (pvs hp) (pvs hz) hx' (pvs hq)
      (hG.size.symm ▸ hv)
    rw [hid] at b2
    generalize doubleAt (sol'.concentration w.id) v * doubleAt (sol'.timeOfFlightOf w.id) v = y' at *
    generalize doubleAt (sol.concentration w.id) v * doubleAt (sol.timeOfFlightOf w.id) v = y at *
    have b3 := mul_le_mul_of_nonneg_left b1 hmk.le
    rw [← abs_of_nonneg hmk.le, ← abs_mul, abs_of_nonneg hmk.le] at b3
    calc |y' - m / k * y| = |(y' - m / k * q v) + -(m / k * (y - q v))| := by congr 1; ring
      _ ≤ |y' - m / k * q v| + |m / k * (y - q v)| := by rw [← abs_neg (m / k * (y - q v))]; exact abs_add_le _ _
      _ ≤ _ := add_le_add b2 b3
      _ = _ := by ring

section double
variable {k m : ℚ} {P : Problem ℚ} (hP : P.Valid) {M : Nat} (hO : P.OfOrdinarySize M) (hO' : (P.scaled k m).OfOrdinarySize M)
  {g g' : ConnectivityGraph} {calls calls' : List (Call Double)} (h : P.StoredIn g calls)
  {starts starts' : List CellSet} {sol sol' : Solution Double} (hk : 0 < k) (hm : 0 < m) (h' : (P.scaled k m).StoredIn g' calls')
  (hself : ∀ v < P.n, ¬ P.forward.Loop v) {w : WellFlux ℚ} (hw : w ∈ P.wells)
  (hs : ∃ s ∈ starts, s.id = w.id) (hs' : ∃ s ∈ starts', s.id = w.id)
include hP hO hO' h hk hm h' hself hw hs hs'

/-- **C73** (doubles, any cycles) The same, with rounding errors; `t` is the number of cells that the fluid has passed on the
    average, and `z` is carried when each cell adds its pore volume times `t`.  For times of flight no concentration downstream of
    the injector is below 2^-300. -/
theorem C73_injection_double (htotal : ∀ v < P.n, P.forward.total v ≤ 2 ^ 100) (htotal' : ∀ v < P.n, k * P.forward.total v ≤ 2 ^ 100)
    (hr : InjectionReturns g calls starts (.ok sol)) (hr' : InjectionReturns g' calls' starts' (.ok sol'))
    {c p t z : Nat → ℚ} (hc : P.forward.Carries (posCells w) P.forward.cycleInflow c)
    (hp : P.forward.Carries (posCells w) (fun v => P.pv v * c v) p) (ht : P.forward.Carries (posCells w) P.forward.total t)
    (hz : P.forward.Carries (posCells w) (fun v => P.pv v * t v) z) :
    (∀ v < P.n, |doubleAt (sol'.concentration w.id) v - doubleAt (sol.concentration w.id) v|
      ≤ 2 / 1000000000 * c v + ((4 * M + 6 : Nat) : ℚ) / 2 ^ 50 * t v) ∧
    ∀ a : ℚ, 0 ≤ a → a < 200 * 365 * 24 * 60 * 60 → m / k * a < 200 * 365 * 24 * 60 * 60 →
      (∀ v, P.forward.Downstream (posCells w) v → doubleAt (sol.timeOfFlightOf w.id) v ≤ a ∧
        doubleAt (sol'.timeOfFlightOf w.id) v ≤ m / k * a ∧
        1 / 2 ^ 300 ≤ doubleAt (sol.concentration w.id) v ∧ 1 / 2 ^ 300 ≤ doubleAt (sol'.concentration w.id) v) → ∀ v < P.n,
      |doubleAt (sol'.concentration w.id) v * doubleAt (sol'.timeOfFlightOf w.id) v
          - m / k * (doubleAt (sol.concentration w.id) v * doubleAt (sol.timeOfFlightOf w.id) v)|
        ≤ m / k * (2 / 1000000000 * p v + 6 * a / 1000000000 * c v) + (1 + m / k) * (200 * 365 * 24 * 60 * 60) / 1000000000000 * c v
          + ((4 * M + 8 : Nat) : ℚ) / 2 ^ 51 * (m / k * (2 * z v + 6 * a * t v) + (1 + m / k) * t v) := by
  have hG : Flow.Proportional k P.forward (P.scaled k m).forward :=
    ⟨hk, rfl, scaled_flux hk, fun v => (scaled_source hk v).1⟩
  have ht2 : ∀ v < (P.scaled k m).n, (P.scaled k m).forward.total v ≤ 2 ^ 100 := fun v hv => by
    rw [prop_total hG]; exact htotal' v hv
  have hV := scaled_valid (k := k) hP hm.le
  exact Nearly.units hG (nearly_injection hP hO htotal h hr) (nearly_injection hV hO' ht2 h' hr')
    (timely_injection hP hO htotal h hr) (timely_injection hV hO' ht2 h' hr') hm (fun _ => rfl) hself hw
    (List.mem_map_of_mem hw) rfl (by simp only [posCells, mul_pos_iff_of_pos_left hk]) (fun _ => rfl) hs hs' hc hp ht hz

/-- **C73** The same for production, in the reversed flow. -/
theorem C73_production_double (htotal : ∀ v < P.n, P.backward.total v ≤ 2 ^ 100) (htotal' : ∀ v < P.n, k * P.backward.total v ≤ 2 ^ 100)
    (hr : ProductionReturns g calls starts (.ok sol)) (hr' : ProductionReturns g' calls' starts' (.ok sol'))
    {c p t z : Nat → ℚ} (hc : P.backward.Carries (negCells w) P.backward.cycleInflow c)
    (hp : P.backward.Carries (negCells w) (fun v => P.pv v * c v) p) (ht : P.backward.Carries (negCells w) P.backward.total t)
    (hz : P.backward.Carries (negCells w) (fun v => P.pv v * t v) z) :
    (∀ v < P.n, |doubleAt (sol'.concentration w.id) v - doubleAt (sol.concentration w.id) v|
      ≤ 2 / 1000000000 * c v + ((4 * M + 6 : Nat) : ℚ) / 2 ^ 50 * t v) ∧
    ∀ a : ℚ, 0 ≤ a → a < 200 * 365 * 24 * 60 * 60 → m / k * a < 200 * 365 * 24 * 60 * 60 →
      (∀ v, P.backward.Downstream (negCells w) v → doubleAt (sol.timeOfFlightOf w.id) v ≤ a ∧
        doubleAt (sol'.timeOfFlightOf w.id) v ≤ m / k * a ∧
        1 / 2 ^ 300 ≤ doubleAt (sol.concentration w.id) v ∧ 1 / 2 ^ 300 ≤ doubleAt (sol'.concentration w.id) v) → ∀ v < P.n,
      |doubleAt (sol'.concentration w.id) v * doubleAt (sol'.timeOfFlightOf w.id) v
          - m / k * (doubleAt (sol.concentration w.id) v * doubleAt (sol.timeOfFlightOf w.id) v)|
        ≤ m / k * (2 / 1000000000 * p v + 6 * a / 1000000000 * c v) + (1 + m / k) * (200 * 365 * 24 * 60 * 60) / 1000000000000 * c v
          + ((4 * M + 8 : Nat) : ℚ) / 2 ^ 51 * (m / k * (2 * z v + 6 * a * t v) + (1 + m / k) * t v) := by
  have hG : Flow.Proportional k P.backward (P.scaled k m).backward :=
    ⟨hk, rfl, fun u v => scaled_flux hk v u, fun v => (scaled_source hk v).2⟩
  have hneg : ∀ x, k * x < 0 ↔ x < 0 := fun x => by
    rw [← neg_pos, ← mul_neg, mul_pos_iff_of_pos_left hk, neg_pos]
  have ht2 : ∀ v < (P.scaled k m).n, (P.scaled k m).backward.total v ≤ 2 ^ 100 := fun v hv => by
    rw [prop_total hG]; exact htotal' v hv
  have hV := scaled_valid (k := k) hP hm.le
  exact Nearly.units hG (nearly_production hP hO htotal h hr) (nearly_production hV hO' ht2 h' hr')
    (timely_production hP hO htotal h hr) (timely_production hV hO' ht2 h' hr') hm (fun _ => rfl) (backward_not_loop hself) hw
    (List.mem_map_of_mem hw) rfl (by simp only [negCells, hneg]) (fun _ => (mul_neg _ _).symm) hs hs' hc hp ht hz

end double

/-! ### A concrete case: a cycle, all fluxes and rates multiplied by 3 and all pore volumes by 6 -/

def tripleExact : List (Call (X ℚ)) :=
  [.assignPoreVolume [Arith.lit 6, Arith.lit 6, Arith.lit 6, Arith.lit 6],
   .assignConnectionFlux ⟨4, 1, [Arith.lit 6, Arith.lit 9, Arith.lit 9, Arith.lit 3]⟩,
   .assignInflowFlux [(⟨[65]⟩, [(0, Arith.lit 6)]), (⟨[80]⟩, [(3, Arith.lit (-6))])]]

def tripleCalls : List (Call Double) :=
  [.assignPoreVolume [Arith.lit 6, Arith.lit 6, Arith.lit 6, Arith.lit 6],
   .assignConnectionFlux ⟨4, 1, [Arith.lit 6, Arith.lit 9, Arith.lit 9, Arith.lit 3]⟩,
   .assignInflowFlux [(⟨[65]⟩, [(0, Arith.lit 6)]), (⟨[80]⟩, [(3, Arith.lit (-6))])]]

theorem triple_given : (exWhirl.scaled 3 6).GivenTo whirlGraph tripleExact where
  graph := whirl_stored.graph
  pv := by decide +kernel
  flux := by
    refine ⟨_, rfl, rfl, rfl, ?_⟩
    intro c hc p hp
    have hp : p = 0 := by have : p < 1 := hp; omega
    subst hp
    have hc : c < 4 := hc
    interval_cases c
    · exact congrArg (fun x : ℚ => Res.ok (X.fin x)) (by norm_num : (6 : ℚ) = 3 * 2)
    · exact congrArg (fun x : ℚ => Res.ok (X.fin x)) (by norm_num : (9 : ℚ) = 3 * 3)
    · exact congrArg (fun x : ℚ => Res.ok (X.fin x)) (by norm_num : (9 : ℚ) = 3 * 3)
    · exact congrArg (fun x : ℚ => Res.ok (X.fin x)) (by norm_num : (3 : ℚ) = 3 * 1)
  inflow := Or.inl (by decide +kernel)

theorem triple_net (c : Nat) : (exWhirl.scaled 3 6).net c = if c = 0 then 6 else if c = 3 then 3 else 9 := by
  unfold Problem.net Problem.scaled exWhirl
  simp
  split <;> [norm_num; split <;> norm_num]

theorem triple_stored : (exWhirl.scaled 3 6).StoredIn whirlGraph tripleCalls where
  graph := whirl_stored.graph
  pv := ⟨_, rfl, by decide +kernel⟩
  flux := by
    refine ⟨1, fun c _ => if c = 0 then Arith.lit 6 else if c = 3 then Arith.lit 3 else Arith.lit 9, ⟨_, rfl, rfl, rfl, ?_⟩, ?_⟩
    · intro c hc p hp
      have hp : p = 0 := by omega
      subst hp
      have hc : c < 4 := hc
      interval_cases c <;> rfl
    · intro c hc
      have hc : c < 4 := hc
      rw [triple_net]
      interval_cases c <;> decide +kernel
  inflow := by decide +kernel

theorem triple_ordinary : (exWhirl.scaled 3 6).OfOrdinarySize 4 where
  flux c _ := by
    rw [triple_net]
    right
    split <;> [norm_num; split <;> norm_num]
  well w hw v hv := by
    simp only [Problem.scaled, exWhirl, List.map_cons, List.map_nil, List.mem_cons, List.not_mem_nil, or_false] at hw
    right
    rcases hw with rfl | rfl <;> norm_num
  pv v _ := by
    right
    show (_ : ℚ) ≤ |6 * 1| ∧ |(6 * 1 : ℚ)| ≤ _
    norm_num
  degree v := (List.length_filter_le _ _).trans (by decide)
  wells v := (List.length_filter_le _ _).trans (by decide)
  bound := by norm_num

theorem triple_total : (∀ v < exWhirl.n, 3 * exWhirl.forward.total v ≤ 2 ^ 100) ∧ ∀ v < exWhirl.n, 3 * exWhirl.backward.total v ≤ 2 ^ 100 := by
  constructor
  · intro v hv
    have hv : v < 4 := hv
    unfold Flow.total Flow.inflow
    simp only [Problem.forward]
    interval_cases v <;>
      simp [exWhirl, Finset.sum_range_succ, Problem.source, Problem.wellAt, Problem.flux, Problem.carried, Problem.net] <;> norm_num
  · intro v hv
    have hv : v < 4 := hv
    unfold Flow.total Flow.inflow
    simp only [Problem.backward]
    interval_cases v <;>
      simp [exWhirl, Finset.sum_range_succ, Problem.sink, Problem.wellAt, Problem.flux, Problem.carried, Problem.net] <;> norm_num

set_option maxRecDepth 100000 in
/-- C73, exact arithmetic, for an injector. -/
example : ∃ s s', InjectionReturns whirlGraph (whirlExact 1) [CellSet.ofCells ⟨[65]⟩ [0]] (.ok s) ∧
    InjectionReturns whirlGraph tripleExact [CellSet.ofCells ⟨[65]⟩ [0]] (.ok s') ∧
    ∃ c p : Nat → ℚ, (∀ v < 4, |valueAt (s'.concentration ⟨[65]⟩) v - valueAt (s.concentration ⟨[65]⟩) v| ≤ 1 / 1000000000 * c v) ∧
    ∀ v < 4, |valueAt (s'.concentration ⟨[65]⟩) v * valueAt (s'.timeOfFlightOf ⟨[65]⟩) v
          - 6 / 3 * (valueAt (s.concentration ⟨[65]⟩) v * valueAt (s.timeOfFlightOf ⟨[65]⟩) v)|
        ≤ 6 / 3 * (2 / 1000000000 * p v + 4 * 5 / 1000000000 * c v)
          + (1 + 6 / 3) * (200 * 365 * 24 * 60 * 60) / 1000000000000 * c v := by
  obtain ⟨s, h1, b1⟩ := okBelow_spec (i := ⟨[65]⟩) (a := 5)
    (r := injectionOutcome whirlGraph (whirlExact 1) noFailure 100 [CellSet.ofCells ⟨[65]⟩ [0]]) (by decide +kernel)
  obtain ⟨s', h2, b2⟩ := okBelow_spec (i := ⟨[65]⟩) (a := 6 / 3 * 5)
    (r := injectionOutcome whirlGraph tripleExact noFailure 100 [CellSet.ofCells ⟨[65]⟩ [0]]) (by decide +kernel)
  have hr := (Fuel.injection_returns.mpr ⟨100, h1, by simp⟩).1
  have hr' := (Fuel.injection_returns.mpr ⟨100, h2, by simp⟩).1
  have f1 := diag_injection exWhirl_valid whirl_given hr
  have c1 := side_sources f1.side (show (⟨⟨[65]⟩, [0], fun _ => 2⟩ : WellFlux ℚ) ∈ exWhirl.wells from .head _)
  have hF : exWhirl.forward.Valid := by obtain ⟨_, _, h, _⟩ := f1.solved; exact h.valid
  obtain ⟨c, hc⟩ := (C76_exact hF c1 exWhirl.forward.cycleInflow).1
  obtain ⟨p, hp⟩ := (C76_exact hF c1 fun v => exWhirl.pv v * c v).1
  obtain ⟨e1, e2⟩ := C73_injection_cyclic exWhirl_valid whirl_given (by norm_num) (by norm_num) triple_given whirl_noLoop (.head _)
    ⟨_, .head _, rfl⟩ ⟨_, .head _, rfl⟩ hr hr' hc hp
  exact ⟨s, s', hr, hr', c, p, e1, e2 5 (by norm_num) (by norm_num) (by norm_num) b1 b2⟩

set_option maxRecDepth 100000 in
/-- C73, doubles, for an injector. -/
example : ∃ s s', InjectionReturns whirlGraph whirlCalls [CellSet.ofCells ⟨[65]⟩ [0]] (.ok s) ∧
    InjectionReturns whirlGraph tripleCalls [CellSet.ofCells ⟨[65]⟩ [0]] (.ok s') ∧
    ∃ c p t z : Nat → ℚ, (∀ v < 4, |doubleAt (s'.concentration ⟨[65]⟩) v - doubleAt (s.concentration ⟨[65]⟩) v|
        ≤ 2 / 1000000000 * c v + ((4 * 4 + 6 : Nat) : ℚ) / 2 ^ 50 * t v) ∧
    ∀ v < 4, |doubleAt (s'.concentration ⟨[65]⟩) v * doubleAt (s'.timeOfFlightOf ⟨[65]⟩) v
          - 6 / 3 * (doubleAt (s.concentration ⟨[65]⟩) v * doubleAt (s.timeOfFlightOf ⟨[65]⟩) v)|
        ≤ 6 / 3 * (2 / 1000000000 * p v + 6 * 10 / 1000000000 * c v)
          + (1 + 6 / 3) * (200 * 365 * 24 * 60 * 60) / 1000000000000 * c v
          + ((4 * 4 + 8 : Nat) : ℚ) / 2 ^ 51 * (6 / 3 * (2 * z v + 6 * 10 * t v) + (1 + 6 / 3) * t v) := by
  obtain ⟨s, hr, b1⟩ := whirl_tameTimes
  obtain ⟨s', h2, b2⟩ := tenAndQuarterIn_spec (n := 4) (i := ⟨[65]⟩)
    (r := injectionOutcome whirlGraph tripleCalls noFailure 100 [CellSet.ofCells ⟨[65]⟩ [0]]) (by decide +kernel)
  have hr' := (Fuel.injection_returns.mpr ⟨100, h2, by simp⟩).1
  have N := nearly_injection exWhirl_valid whirl_ordinary whirl_total.1 whirl_stored hr
  have c1 := N.sources (show (⟨⟨[65]⟩, [0], fun _ => 2⟩ : WellFlux ℚ) ∈ exWhirl.wells from .head _)
  obtain ⟨c, hc⟩ := (C76_exact N.valid c1 exWhirl.forward.cycleInflow).1
  obtain ⟨p, hp⟩ := (C76_exact N.valid c1 fun v => exWhirl.pv v * c v).1
  obtain ⟨t, ht⟩ := (C76_exact N.valid c1 exWhirl.forward.total).1
  obtain ⟨z, hz⟩ := (C76_exact N.valid c1 fun v => exWhirl.pv v * t v).1
  obtain ⟨e1, e2⟩ := C73_injection_double exWhirl_valid whirl_ordinary triple_ordinary whirl_stored (by norm_num) (by norm_num)
    triple_stored whirl_noLoop (.head _) ⟨_, .head _, rfl⟩ ⟨_, .head _, rfl⟩ whirl_total.1 triple_total.1 hr hr' hc hp ht hz
  refine ⟨s, s', hr, hr', c, p, t, z, e1, e2 10 (by norm_num) (by norm_num) (by norm_num) fun v hd => ?_⟩
  have hv : v < 4 := by
    obtain ⟨p, h1, h2⟩ := hd
    exact reach_lt (F := exWhirl.forward) (c1 p h1).1 h2
  exact ⟨(b1 v hv).2.1, (b2 v hv).1.trans (by norm_num), (b1 v hv).2.2, (b2 v hv).2⟩

set_option maxRecDepth 100000 in
/-- C73, doubles, for a producer. -/
example : ∃ s s', ProductionReturns whirlGraph whirlCalls [CellSet.ofCells ⟨[80]⟩ [3]] (.ok s) ∧
    ProductionReturns whirlGraph tripleCalls [CellSet.ofCells ⟨[80]⟩ [3]] (.ok s') ∧
    ∃ c p t z : Nat → ℚ, (∀ v < 4, |doubleAt (s'.concentration ⟨[80]⟩) v - doubleAt (s.concentration ⟨[80]⟩) v|
        ≤ 2 / 1000000000 * c v + ((4 * 4 + 6 : Nat) : ℚ) / 2 ^ 50 * t v) ∧
    ∀ v < 4, |doubleAt (s'.concentration ⟨[80]⟩) v * doubleAt (s'.timeOfFlightOf ⟨[80]⟩) v
          - 6 / 3 * (doubleAt (s.concentration ⟨[80]⟩) v * doubleAt (s.timeOfFlightOf ⟨[80]⟩) v)|
        ≤ 6 / 3 * (2 / 1000000000 * p v + 6 * 10 / 1000000000 * c v)
          + (1 + 6 / 3) * (200 * 365 * 24 * 60 * 60) / 1000000000000 * c v
          + ((4 * 4 + 8 : Nat) : ℚ) / 2 ^ 51 * (6 / 3 * (2 * z v + 6 * 10 * t v) + (1 + 6 / 3) * t v) := by
  obtain ⟨s, hr, b1⟩ := whirl_producerTimes
  obtain ⟨s', h2, b2⟩ := tenAndQuarterIn_spec (n := 4) (i := ⟨[80]⟩)
    (r := productionOutcome whirlGraph tripleCalls noFailure 100 [CellSet.ofCells ⟨[80]⟩ [3]]) (by decide +kernel)
  have hr' := (Fuel.production_returns.mpr ⟨100, h2, by simp⟩).1
  have N := nearly_production exWhirl_valid whirl_ordinary whirl_total.2 whirl_stored hr
  have c1 := N.sources (show (⟨⟨[80]⟩, [3], fun _ => -2⟩ : WellFlux ℚ) ∈ exWhirl.wells from .tail _ (.head _))
  obtain ⟨c, hc⟩ := (C76_exact N.valid c1 exWhirl.backward.cycleInflow).1
  obtain ⟨p, hp⟩ := (C76_exact N.valid c1 fun v => exWhirl.pv v * c v).1
  obtain ⟨t, ht⟩ := (C76_exact N.valid c1 exWhirl.backward.total).1
  obtain ⟨z, hz⟩ := (C76_exact N.valid c1 fun v => exWhirl.pv v * t v).1
  obtain ⟨e1, e2⟩ := C73_production_double exWhirl_valid whirl_ordinary triple_ordinary whirl_stored (by norm_num) (by norm_num)
    triple_stored whirl_noLoop (.tail _ (.head _)) ⟨_, .head _, rfl⟩ ⟨_, .head _, rfl⟩ whirl_total.2 triple_total.2 hr hr' hc hp ht hz
  refine ⟨s, s', hr, hr', c, p, t, z, e1, e2 10 (by norm_num) (by norm_num) (by norm_num) fun v hd => ?_⟩
  have hv : v < 4 := by
    obtain ⟨p, h1, h2⟩ := hd
    exact reach_lt (F := exWhirl.backward) (c1 p h1).1 h2
  exact ⟨(b1 v hv).1, (b2 v hv).1.trans (by norm_num), (b1 v hv).2, (b2 v hv).2⟩

end Verif.Props
