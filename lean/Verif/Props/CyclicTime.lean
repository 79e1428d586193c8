/-
C81: how far times of flight computed with `double`s are from the exact ones in flow with cycles.
-/
import Verif.Props.CyclicDouble
import Verif.Proofs.SlackTimeLocal

namespace Verif.Props
open Verif.Spec Verif.Toolbox Verif.Solver Verif.Rounding Finset

/-! ### Numbers -/

theorem double_ninf : Double.rounded.rnd X.ninf = X.ninf := by
  show Double.rnd X.ninf = X.ninf
  simp [Double.rnd]

theorem time_residual_le {M : Nat} (hM : M ≤ 2 ^ 40) {a c b : ℚ} (ha : 0 ≤ a) (hc : 0 ≤ c) (hcb : c ≤ b) :
    (a * ((1 / 1000000000 * (1 + 1 / 2 ^ 52) + tiny ℚ) * (1 + 1 / 2 ^ 52)) + timeTol ℚ (1 + 1 / 2 ^ 52)) * c
        + (a * ((1 + 1 / 2 ^ 52) ^ (4 * M + 6) - 1) + 2 * timeSlack ℚ) * b
      ≤ (a / 1000000000 + 200 * 365 * 24 * 60 * 60 / 1000000000000) * c + (a + 1) * (((4 * M + 8 : Nat) : ℚ) / 2 ^ 51) * b := by
  have h1 := Double.pow_le (4 * M + 6) (by omega)
  have ht : tiny ℚ ≤ 1 / 2 ^ 60 := by
    unfold tiny
    exact one_div_le_one_div_of_le (by positivity) (pow_le_pow_right₀ one_le_two (by norm_num))
  have hs : timeSlack ℚ ≤ 1 / 2 ^ 60 := by
    unfold timeSlack
    exact one_div_le_one_div_of_le (by positivity) (pow_le_pow_right₀ one_le_two (by norm_num))
  have htt : timeTol ℚ (1 + 1 / 2 ^ 52) ≤ 200 * 365 * 24 * 60 * 60 / 1000000000000 + 1 / 2 ^ 53 := by
    unfold timeTol cap
    generalize tiny ℚ = t at *
    have : (200 * 365 * 24 * 60 * 60 / 1000000000000 * (1 + 1 / 2 ^ 52) ^ 2 + t) * (1 + 1 / 2 ^ 52)
        ≤ (200 * 365 * 24 * 60 * 60 / 1000000000000 * (1 + 1 / 2 ^ 52) ^ 2 + 1 / 2 ^ 60) * (1 + 1 / 2 ^ 52 : ℚ) :=
      mul_le_mul_of_nonneg_right (by linarith) (by norm_num)
    refine this.trans ?_
    norm_num
  generalize timeTol ℚ (1 + 1 / 2 ^ 52) = tt at *
  generalize tiny ℚ = t at *
  generalize timeSlack ℚ = s at *
  generalize ((1 : ℚ) + 1 / 2 ^ 52) ^ (4 * M + 6) = p at *
  have hb : 0 ≤ b := hc.trans hcb
  have h2 : (1 / 1000000000 * (1 + 1 / 2 ^ 52) + t) * (1 + 1 / 2 ^ 52) ≤ 1 / 1000000000 + 1 / 2 ^ 52 := by
    have : (1 / 1000000000 * (1 + 1 / 2 ^ 52) + t) * (1 + 1 / 2 ^ 52)
        ≤ (1 / 1000000000 * (1 + 1 / 2 ^ 52) + 1 / 2 ^ 60) * (1 + 1 / 2 ^ 52 : ℚ) :=
      mul_le_mul_of_nonneg_right (by linarith) (by norm_num)
    refine this.trans ?_
    norm_num
  generalize (1 / 1000000000 * (1 + 1 / 2 ^ 52) + t) * (1 + 1 / 2 ^ 52) = y at *
  have h3 : (a * y + tt) * c ≤ (a * (1 / 1000000000 + 1 / 2 ^ 52) + (200 * 365 * 24 * 60 * 60 / 1000000000000 + 1 / 2 ^ 53)) * c :=
    mul_le_mul_of_nonneg_right (add_le_add (mul_le_mul_of_nonneg_left h2 ha) htt) hc
  have h4 : (a * (p - 1) + 2 * s) * b ≤ (a * ((4 * M + 6 : Nat) / 2 ^ 51) + 1 / 2 ^ 53) * b := by
    refine mul_le_mul_of_nonneg_right (add_le_add (mul_le_mul_of_nonneg_left (by linarith) ha) ?_) hb
    have : (2 : ℚ) * (1 / 2 ^ 60) ≤ 1 / 2 ^ 53 := by norm_num
    linarith
  have h5 : (a * (1 / 2 ^ 52) + 1 / 2 ^ 53) * c ≤ (a * (1 / 2 ^ 52) + 1 / 2 ^ 53) * b :=
    mul_le_mul_of_nonneg_left hcb (add_nonneg (mul_nonneg ha (by norm_num)) (by norm_num))
  have hab : 0 ≤ a * b := mul_nonneg ha hb
  have hMb : 0 ≤ (M : ℚ) * b := mul_nonneg (Nat.cast_nonneg M) hb
  push_cast at h4 ⊢
  nlinarith

/-! ### One side of the problem -/

section nearly
variable {F : Flow ℚ} {wells : List (WellFlux ℚ)} {cs : WellFlux ℚ → List Nat} {f : WellFlux ℚ → Nat → ℚ}
  {starts : List CellSet} {sol : Solution Double} {M : Nat}

/-- A result whose times of flight nearly balance, unless they reach 200 years. -/
def Timely (F : Flow ℚ) (wells : List (WellFlux ℚ)) (cs : WellFlux ℚ → List Nat) (starts : List CellSet) (sol : Solution Double)
    (M : Nat) : Prop :=
  ∀ w ∈ wells, (∃ s ∈ starts, s.id = w.id) → ∀ a : ℚ, a < 200 * 365 * 24 * 60 * 60 →
    (∀ v, F.Downstream (cs w) v → doubleAt (sol.timeOfFlightOf w.id) v ≤ a) →
    (∀ v, F.Downstream (cs w) v → 1 / 2 ^ 300 ≤ doubleAt (sol.concentration w.id) v) →
    ∀ v, F.Downstream (cs w) v → 0 ≤ doubleAt (sol.timeOfFlightOf w.id) v ∧ (¬ F.Loop v →
      |F.pv v * doubleAt (sol.concentration w.id) v
          + (∑ u ∈ range F.n, doubleAt (sol.timeOfFlightOf w.id) u * doubleAt (sol.concentration w.id) u * F.w u v)
          - F.total v * (doubleAt (sol.timeOfFlightOf w.id) v * doubleAt (sol.concentration w.id) v)|
        ≤ (a / 1000000000 + 200 * 365 * 24 * 60 * 60 / 1000000000000) * F.cycleInflow v
          + (a + 1) * (((4 * M + 8 : Nat) : ℚ) / 2 ^ 51) * F.total v)

theorem timely_of {D : List (Int × Int × Double)} {pv : List Double} {l : List (CellSetID × Int × Double)}
    {DK : List (Nat × Nat × ℚ)}
    (h : Inputs Double.rounded D pv l F DK wells cs f M) (hM : M ≤ 2 ^ 40) (hm : ∀ v < F.n, Sized F v) {fuel : Nat}
    (hfuel : F.n + numEdges F.n (graphsOf F.n D).1.startPointers ≤ fuel)
    (hs : computeSolution (graphsOf F.n D).1 (graphsOf F.n D).2 pv (gather l).only (gather l).byId noFailure fuel starts = .ok sol) :
    Timely F wells cs starts sol M := by
  intro w hw hask a ha hta htiny v hd
  have key := computeSolution_time (w := w) Double.precise Double.gradual double_odd double_ninf (Double.pow_clear hM)
    (Double.pow_le_two (by omega)) (by
      have : (M : ℚ) ≤ 2 ^ 40 := by exact_mod_cast hM
      refine le_trans (add_le_add_left this 1) ?_
      norm_num) h hm hfuel hs hw hask (a := a) ha (fun v hv => by rw [numOf_double]; exact hta v hv)
      (fun v hv => by
        rw [numOf_double]
        have := mul_le_mul_of_nonneg_right (htiny v hv) (by positivity : (0 : ℚ) ≤ 2 ^ 300)
        rwa [one_div, inv_mul_cancel₀ (by positivity)] at this) v hd
  simp only [numOf_double] at key
  refine ⟨key.1, fun hl => ?_⟩
  have hv : v < F.n := by
    obtain ⟨p, h1, h2⟩ := hd
    exact reach_lt (h.side.range w hw p h1) h2
  obtain ⟨c0, c1⟩ := cycleInflow_bounds h.valid hv
  exact (key.2 hl).trans (time_residual_le hM (key.1.trans (hta v hd)) c0 c1)

theorem Nearly.time_error (N : Nearly F wells cs f starts sol M) (T : Timely F wells cs starts sol M)
    (hself : ∀ v < F.n, ¬ F.Loop v) {w : WellFlux ℚ} (hw : w ∈ wells) (hask : ∃ s ∈ starts, s.id = w.id) {a : ℚ}
    (ha : a < 200 * 365 * 24 * 60 * 60) (hta : ∀ v, F.Downstream (cs w) v → doubleAt (sol.timeOfFlightOf w.id) v ≤ a)
    (htiny : ∀ v, F.Downstream (cs w) v → 1 / 2 ^ 300 ≤ doubleAt (sol.concentration w.id) v)
    {x m h q p k : Nat → ℚ} (hx : F.Carries (cs w) (injected (cs w) (f w)) x)
    (hm : F.Carries (cs w) F.cycleInflow m) (hh : F.Carries (cs w) F.total h)
    (hq : F.Carries (cs w) (fun v => F.pv v * x v) q) (hpm : F.Carries (cs w) (fun v => F.pv v * m v) p)
    (hk : F.Carries (cs w) (fun v => F.pv v * h v) k) :
    ∀ v, F.Downstream (cs w) v → |doubleAt (sol.timeOfFlightOf w.id) v * x v - q v|
      ≤ 1 / 1000000000 * p v + (2 * a / 1000000000 + 200 * 365 * 24 * 60 * 60 / 1000000000000) * m v
        + ((4 * M + 8 : Nat) : ℚ) / 2 ^ 51 * (k v + (2 * a + 1) * h v) := by
  have hT := T w hw hask a ha hta htiny
  have hc := N.error hself hw hask hx hm hh
  have hin : ∀ v, F.Downstream (cs w) v → v < F.n := fun v ⟨p, h1, h2⟩ => reach_lt (N.sources hw p h1).1 h2
  have hh0 := (C76_exact N.valid (N.sources hw) F.total).2.2
    (fun v hv => (cycleInflow_bounds N.valid hv).1.trans (cycleInflow_bounds N.valid hv).2) h hh
  have hm0 := (C76_exact N.valid (N.sources hw) F.cycleInflow).2.2 (fun v hv => (cycleInflow_bounds N.valid hv).1) m hm
  have hle : ((4 * M + 6 : Nat) : ℚ) / 2 ^ 51 ≤ ((4 * M + 8 : Nat) : ℚ) / 2 ^ 51 :=
    div_le_div_of_nonneg_right (by exact_mod_cast by omega) (by positivity)
  generalize ((4 * M + 8 : Nat) : ℚ) / 2 ^ 51 = ε at *
  have hc : ∀ v < F.n, |doubleAt (sol.concentration w.id) v - x v| ≤ 1 / 1000000000 * m v + ε * h v := fun v hv =>
    (hc v hv).trans (by have := mul_le_mul_of_nonneg_right hle (hh0 v hv); linarith)
  have hz : ∀ u, ¬ F.Downstream (cs w) u → doubleAt (sol.concentration w.id) u = 0 := fun u hu => N.zero hw hask hu
  set c := doubleAt (sol.concentration w.id) with hcdef
  set t := doubleAt (sol.timeOfFlightOf w.id) with htdef
  have key := field_error N.valid (S := F.Downstream (cs w)) (c := fun v => t v * c v) (x := q) (q := fun v => F.pv v * x v)
    (r := fun v => (a / 1000000000 + 200 * 365 * 24 * 60 * 60 / 1000000000000) * F.cycleInflow v + (a + 1) * ε * F.total v
      + F.pv v * (1 / 1000000000 * m v + ε * h v))
    (b := fun v => 1 / 1000000000 * p v + (a / 1000000000 + 200 * 365 * 24 * 60 * 60 / 1000000000000) * m v
      + ε * (k v + (a + 1) * h v))
    (fun v hv hd => by
      have h1 := (hT v hd).2 (hself v hv)
      have h2 : |F.pv v * (x v - c v)| ≤ F.pv v * (1 / 1000000000 * m v + ε * h v) := by
        rw [abs_mul, abs_of_nonneg (N.valid.pv_nonneg v hv), abs_sub_comm]
        exact mul_le_mul_of_nonneg_left (hc v hv) (N.valid.pv_nonneg v hv)
      refine le_trans (le_of_eq_of_le ?_ (abs_add_le _ _)) (add_le_add h1 h2)
      congr 1
      ring) hq.2
    (fun v hv hd => by
      have e : ∑ u ∈ range F.n, (1 / 1000000000 * p u + (a / 1000000000 + 200 * 365 * 24 * 60 * 60 / 1000000000000) * m u
            + ε * (k u + (a + 1) * h u)) * F.w u v =
          1 / 1000000000 * (∑ u ∈ range F.n, p u * F.w u v)
            + (a / 1000000000 + 200 * 365 * 24 * 60 * 60 / 1000000000000) * (∑ u ∈ range F.n, m u * F.w u v)
            + ε * ((∑ u ∈ range F.n, k u * F.w u v) + (a + 1) * ∑ u ∈ range F.n, h u * F.w u v) := by
        rw [mul_add, mul_sum, mul_sum, mul_sum, mul_sum, mul_sum, ← sum_add_distrib, ← sum_add_distrib, ← sum_add_distrib]
        exact sum_congr rfl fun u _ => by ring
      rw [e]
      linear_combination 1 / 1000000000 * hpm.2 v hv hd
        + (a / 1000000000 + 200 * 365 * 24 * 60 * 60 / 1000000000000) * hm.2 v hv hd
        + ε * hk.2 v hv hd + ε * (a + 1) * hh.2 v hv hd)
    (fun v _ u he => by
      by_cases hu : F.Downstream (cs w) u
      · exact Or.inl hu
      · refine Or.inr ?_
        rw [hz u hu, hq.1 u he.1 hu, hm.1 u he.1 hu, hh.1 u he.1 hu, hpm.1 u he.1 hu, hk.1 u he.1 hu]
        simp)
    (fun v _ ⟨p, h1, h2⟩ => ⟨p, (N.sources hw p h1).1, (N.sources hw p h1).2, h2⟩)
  intro v hd
  have hv := hin v hd
  have h1 := key v hv hd
  have ht0 := (hT v hd).1
  have h2 : |t v * (x v - c v)| ≤ a * (1 / 1000000000 * m v + ε * h v) := by
    rw [abs_mul, abs_of_nonneg ht0, abs_sub_comm]
    exact mul_le_mul (hta v hd) (hc v hv) (abs_nonneg _) (ht0.trans (hta v hd))
  have h3 : |t v * x v - q v| ≤ |t v * c v - q v| + |t v * (x v - c v)| := by
    refine le_of_eq_of_le ?_ (abs_add_le _ _)
    congr 1
    ring
  refine (h3.trans (add_le_add h1 h2)).trans (le_of_eq ?_)
  ring

end nearly

/-! ### Both sides -/

variable {P : Problem ℚ} {M : Nat} {g : ConnectivityGraph} {calls : List (Call Double)} {starts : List CellSet} {sol : Solution Double}

theorem timely_injection (hP : P.Valid) (hO : P.OfOrdinarySize M) (htotal : ∀ v < P.n, P.forward.total v ≤ 2 ^ 100)
    (hS : P.StoredIn g calls) (hr : InjectionReturns g calls starts (.ok sol)) :
    Timely P.forward P.wells posCells starts sol M := by
  have hg := stored_connectivity hP hS
  obtain ⟨pv, hpv, hpvv⟩ := hS.pv
  obtain ⟨np, phi, hf, hphi⟩ := hS.flux
  have hI := inputs_forward hP hO hphi hpvv hS.inflow
  obtain ⟨N, hN⟩ := hr
  exact timely_of hI hO.bound (sized_of hI htotal hO.pv) (le_max_right N _)
    ((outcomes_ok hg (stored_complete hP hS) hpv hf).1 (hN _ (le_max_left N _)))

theorem timely_production (hP : P.Valid) (hO : P.OfOrdinarySize M) (htotal : ∀ v < P.n, P.backward.total v ≤ 2 ^ 100)
    (hS : P.StoredIn g calls) (hr : ProductionReturns g calls starts (.ok sol)) :
    Timely P.backward P.wells negCells starts sol M := by
  have hg := stored_connectivity hP hS
  obtain ⟨pv, hpv, hpvv⟩ := hS.pv
  obtain ⟨np, phi, hf, hphi⟩ := hS.flux
  have hI := inputs_backward hP hO hphi hpvv hS.inflow
  obtain ⟨N, hN⟩ := hr
  exact timely_of hI hO.bound (sized_of hI htotal hO.pv) (le_max_right N _)
    ((outcomes_ok hg (stored_complete hP hS) hpv hf).2 (hN _ (le_max_left N _)))

/-- **C81** (flows into cells of ordinary size, none of the times above `a` < 200 years, no concentration below 2^-300)
    Times-of-flight of an injector computed with `double`s are not negative.  In every cell reached, except those with a
    self-connection as their only cycle, they balance: pore volume of the injector's water in the cell, plus time carried
    in, is time carried out.  This holds up to `a * 1e-9 + 200 years * 1e-12` times the flux that the cell receives from
    its own cycle and a few rounding errors of `a + 1` times the total flux. -/
theorem C81_injection_balance (hP : P.Valid) (hO : P.OfOrdinarySize M) (htotal : ∀ v < P.n, P.forward.total v ≤ 2 ^ 100)
    (hS : P.StoredIn g calls) (hr : InjectionReturns g calls starts (.ok sol)) {w : WellFlux ℚ} (hw : w ∈ P.wells)
    (hask : ∃ s ∈ starts, s.id = w.id) {a : ℚ} (ha : a < 200 * 365 * 24 * 60 * 60)
    (hta : ∀ v, P.forward.Downstream (posCells w) v → doubleAt (sol.timeOfFlightOf w.id) v ≤ a)
    (htiny : ∀ v, P.forward.Downstream (posCells w) v → 1 / 2 ^ 300 ≤ doubleAt (sol.concentration w.id) v) :
    ∀ v, P.forward.Downstream (posCells w) v → 0 ≤ doubleAt (sol.timeOfFlightOf w.id) v ∧ (¬ P.forward.Loop v →
      |P.pv v * doubleAt (sol.concentration w.id) v
          + (∑ u ∈ range P.n, doubleAt (sol.timeOfFlightOf w.id) u * doubleAt (sol.concentration w.id) u * P.flux u v)
          - P.forward.total v * (doubleAt (sol.timeOfFlightOf w.id) v * doubleAt (sol.concentration w.id) v)|
        ≤ (a / 1000000000 + 200 * 365 * 24 * 60 * 60 / 1000000000000) * P.forward.cycleInflow v
          + (a + 1) * (((4 * M + 8 : Nat) : ℚ) / 2 ^ 51) * P.forward.total v) :=
  timely_injection hP hO htotal hS hr w hw hask a ha hta htiny

/-- **C81** The same for a producer, in the reversed flow. -/
theorem C81_production_balance (hP : P.Valid) (hO : P.OfOrdinarySize M) (htotal : ∀ v < P.n, P.backward.total v ≤ 2 ^ 100)
    (hS : P.StoredIn g calls) (hr : ProductionReturns g calls starts (.ok sol)) {w : WellFlux ℚ} (hw : w ∈ P.wells)
    (hask : ∃ s ∈ starts, s.id = w.id) {a : ℚ} (ha : a < 200 * 365 * 24 * 60 * 60)
    (hta : ∀ v, P.backward.Downstream (negCells w) v → doubleAt (sol.timeOfFlightOf w.id) v ≤ a)
    (htiny : ∀ v, P.backward.Downstream (negCells w) v → 1 / 2 ^ 300 ≤ doubleAt (sol.concentration w.id) v) :
    ∀ v, P.backward.Downstream (negCells w) v → 0 ≤ doubleAt (sol.timeOfFlightOf w.id) v ∧ (¬ P.backward.Loop v →
      |P.pv v * doubleAt (sol.concentration w.id) v
          + (∑ u ∈ range P.n, doubleAt (sol.timeOfFlightOf w.id) u * doubleAt (sol.concentration w.id) u * P.flux v u)
          - P.backward.total v * (doubleAt (sol.timeOfFlightOf w.id) v * doubleAt (sol.concentration w.id) v)|
        ≤ (a / 1000000000 + 200 * 365 * 24 * 60 * 60 / 1000000000000) * P.backward.cycleInflow v
          + (a + 1) * (((4 * M + 8 : Nat) : ℚ) / 2 ^ 51) * P.backward.total v) :=
  timely_production hP hO htotal hS hr w hw hask a ha hta htiny

/-- **C81** (no cell has a self-connection as its only cycle, none of the times above `a` < 200 years, no concentration
    below 2^-300) Times-of-flight of an injector computed with `double`s, against the exact ones `q v / x v`: `x` are the
    exact concentrations and `q` is the field that the flow carries when each cell adds its pore volume times `x`.  The
    error is bounded by the fields `m` and `h` of C80 and by those, `p` and `k`, that the flow carries when each cell
    adds its pore volume times `m`, respectively `h`. -/
theorem C81_injection (hP : P.Valid) (hO : P.OfOrdinarySize M) (htotal : ∀ v < P.n, P.forward.total v ≤ 2 ^ 100)
    (hself : ∀ v < P.n, ¬ P.forward.Loop v) (hS : P.StoredIn g calls) (hr : InjectionReturns g calls starts (.ok sol))
    {w : WellFlux ℚ} (hw : w ∈ P.wells) (hask : ∃ s ∈ starts, s.id = w.id) {a : ℚ} (ha : a < 200 * 365 * 24 * 60 * 60)
    (hta : ∀ v, P.forward.Downstream (posCells w) v → doubleAt (sol.timeOfFlightOf w.id) v ≤ a)
    (htiny : ∀ v, P.forward.Downstream (posCells w) v → 1 / 2 ^ 300 ≤ doubleAt (sol.concentration w.id) v) :
    ∃ x m h q p k, P.forward.Carries (posCells w) (fun v => max (Problem.wellAt w v) 0) x ∧
      P.forward.Carries (posCells w) P.forward.cycleInflow m ∧
      P.forward.Carries (posCells w) P.forward.total h ∧
      P.forward.Carries (posCells w) (fun v => P.pv v * x v) q ∧
      P.forward.Carries (posCells w) (fun v => P.pv v * m v) p ∧
      P.forward.Carries (posCells w) (fun v => P.pv v * h v) k ∧
      ∀ v, P.forward.Downstream (posCells w) v → |doubleAt (sol.timeOfFlightOf w.id) v * x v - q v|
        ≤ 1 / 1000000000 * p v + (2 * a / 1000000000 + 200 * 365 * 24 * 60 * 60 / 1000000000000) * m v
          + ((4 * M + 8 : Nat) : ℚ) / 2 ^ 51 * (k v + (2 * a + 1) * h v) := by
  have N := nearly_injection hP hO htotal hS hr
  have hp := N.sources hw
  obtain ⟨x, hx⟩ := (C76_exact N.valid hp (injected (posCells w) w.val)).1
  obtain ⟨m, hm⟩ := (C76_exact N.valid hp P.forward.cycleInflow).1
  obtain ⟨h, hh⟩ := (C76_exact N.valid hp P.forward.total).1
  obtain ⟨q, hq⟩ := (C76_exact N.valid hp fun v => P.pv v * x v).1
  obtain ⟨p, hpm⟩ := (C76_exact N.valid hp fun v => P.pv v * m v).1
  obtain ⟨k, hk⟩ := (C76_exact N.valid hp fun v => P.pv v * h v).1
  have e : injected (posCells w) w.val = fun v => max (Problem.wellAt w v) 0 := funext fun v => injected_pos v
  exact ⟨x, m, h, q, p, k, e ▸ hx, hm, hh, hq, hpm, hk,
    N.time_error (timely_injection hP hO htotal hS hr) hself hw hask ha hta htiny hx hm hh hq hpm hk⟩

/-- **C81** The same for a producer, in the reversed flow. -/
theorem C81_production (hP : P.Valid) (hO : P.OfOrdinarySize M) (htotal : ∀ v < P.n, P.backward.total v ≤ 2 ^ 100)
    (hself : ∀ v < P.n, ¬ P.forward.Loop v) (hS : P.StoredIn g calls) (hr : ProductionReturns g calls starts (.ok sol))
    {w : WellFlux ℚ} (hw : w ∈ P.wells) (hask : ∃ s ∈ starts, s.id = w.id) {a : ℚ} (ha : a < 200 * 365 * 24 * 60 * 60)
    (hta : ∀ v, P.backward.Downstream (negCells w) v → doubleAt (sol.timeOfFlightOf w.id) v ≤ a)
    (htiny : ∀ v, P.backward.Downstream (negCells w) v → 1 / 2 ^ 300 ≤ doubleAt (sol.concentration w.id) v) :
    ∃ x m h q p k, P.backward.Carries (negCells w) (fun v => max (-Problem.wellAt w v) 0) x ∧
      P.backward.Carries (negCells w) P.backward.cycleInflow m ∧
      P.backward.Carries (negCells w) P.backward.total h ∧
      P.backward.Carries (negCells w) (fun v => P.pv v * x v) q ∧
      P.backward.Carries (negCells w) (fun v => P.pv v * m v) p ∧
      P.backward.Carries (negCells w) (fun v => P.pv v * h v) k ∧
      ∀ v, P.backward.Downstream (negCells w) v → |doubleAt (sol.timeOfFlightOf w.id) v * x v - q v|
        ≤ 1 / 1000000000 * p v + (2 * a / 1000000000 + 200 * 365 * 24 * 60 * 60 / 1000000000000) * m v
          + ((4 * M + 8 : Nat) : ℚ) / 2 ^ 51 * (k v + (2 * a + 1) * h v) := by
  have N := nearly_production hP hO htotal hS hr
  have hp := N.sources hw
  obtain ⟨x, hx⟩ := (C76_exact N.valid hp (injected (negCells w) fun v => - w.val v)).1
  obtain ⟨m, hm⟩ := (C76_exact N.valid hp P.backward.cycleInflow).1
  obtain ⟨h, hh⟩ := (C76_exact N.valid hp P.backward.total).1
  obtain ⟨q, hq⟩ := (C76_exact N.valid hp fun v => P.pv v * x v).1
  obtain ⟨p, hpm⟩ := (C76_exact N.valid hp fun v => P.pv v * m v).1
  obtain ⟨k, hk⟩ := (C76_exact N.valid hp fun v => P.pv v * h v).1
  have e : injected (negCells w) (fun v => - w.val v) = fun v => max (-Problem.wellAt w v) 0 :=
    funext fun v => injected_neg v
  exact ⟨x, m, h, q, p, k, e ▸ hx, hm, hh, hq, hpm, hk,
    N.time_error (timely_production hP hO htotal hS hr) (backward_not_loop hself) hw hask ha hta htiny hx hm hh hq hpm hk⟩

/-! ### A case -/

/-- Whether a result has times below ten seconds and concentrations above a half in four cells. -/
def quick (i : CellSetID) (r : Res (Solution Double)) : Bool := match r with
  | .ok s => (List.range 4).all fun v =>
      decide (doubleAt (s.timeOfFlightOf i) v ≤ 10) && decide (1 / 2 ≤ doubleAt (s.concentration i) v)
  | _ => false

theorem quick_spec {i : CellSetID} {r : Res (Solution Double)} (h : quick i r = true) : ∃ s, r = .ok s ∧
    ∀ v < 4, doubleAt (s.timeOfFlightOf i) v ≤ 10 ∧ 1 / 2 ≤ doubleAt (s.concentration i) v := by
  unfold quick at h
  split at h
  · refine ⟨_, rfl, fun v hv => ?_⟩
    have := List.all_eq_true.mp h v (List.mem_range.mpr hv)
    simpa using this
  · cases h

set_option maxRecDepth 100000 in
/-- C81: the hypotheses hold in flow with a cycle, in both directions, with `a` ten seconds. -/
example : ∃ S T, InjectionReturns whirlGraph whirlCalls [CellSet.ofCells ⟨[65]⟩ [0]] (.ok S) ∧
    ProductionReturns whirlGraph whirlCalls [CellSet.ofCells ⟨[80]⟩ [3]] (.ok T) ∧
    (∀ v < 4, doubleAt (S.timeOfFlightOf ⟨[65]⟩) v ≤ 10 ∧ 1 / 2 ≤ doubleAt (S.concentration ⟨[65]⟩) v) ∧
    (∀ v < 4, doubleAt (T.timeOfFlightOf ⟨[80]⟩) v ≤ 10 ∧ 1 / 2 ≤ doubleAt (T.concentration ⟨[80]⟩) v) := by
  obtain ⟨S, h1, h3⟩ := quick_spec (i := ⟨[65]⟩)
    (r := injectionOutcome whirlGraph whirlCalls noFailure 100 [CellSet.ofCells ⟨[65]⟩ [0]]) (by decide +kernel)
  obtain ⟨T, h2, h4⟩ := quick_spec (i := ⟨[80]⟩)
    (r := productionOutcome whirlGraph whirlCalls noFailure 100 [CellSet.ofCells ⟨[80]⟩ [3]]) (by decide +kernel)
  exact ⟨S, T, (Fuel.injection_returns.mpr ⟨100, h1, by simp⟩).1, (Fuel.production_returns.mpr ⟨100, h2, by simp⟩).1, h3, h4⟩

end Verif.Props
