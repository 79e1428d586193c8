/-
C97 in flow with cycles: times of flight change little if the data change little.
-/
import Verif.Props.MeanTime
import Verif.Props.Sensitivity
import Verif.Props.RefineTimes

namespace Verif.Props
open Verif.Spec Verif.Toolbox Verif.Solver Verif.Derived Finset

section flow
variable {K : Type} [Field K] [LinearOrder K] [IsStrictOrderedRing K] {r : K} {F G : Flow K}

omit [IsStrictOrderedRing K] in
theorem carries_three {s : List Nat} {q₁ q₂ q₃ x₁ x₂ x₃ : Nat → K} (h₁ : F.Carries s q₁ x₁) (h₂ : F.Carries s q₂ x₂)
    (h₃ : F.Carries s q₃ x₃) (a b c : K) :
    F.Carries s (fun v => a * q₁ v + b * q₂ v + c * q₃ v) fun v => a * x₁ v + b * x₂ v + c * x₃ v := by
  refine ⟨fun v hv hd => ?_, fun v hv hd => ?_⟩
  · show a * x₁ v + b * x₂ v + c * x₃ v = 0
    rw [h₁.1 v hv hd, h₂.1 v hv hd, h₃.1 v hv hd]
    ring
  · have e : ∑ u ∈ range F.n, (a * x₁ u + b * x₂ u + c * x₃ u) * F.w u v
        = a * ∑ u ∈ range F.n, x₁ u * F.w u v + b * ∑ u ∈ range F.n, x₂ u * F.w u v + c * ∑ u ∈ range F.n, x₃ u * F.w u v := by
      rw [mul_sum, mul_sum, mul_sum, ← sum_add_distrib, ← sum_add_distrib]
      exact sum_congr rfl fun u _ => by ring
    rw [e]
    linear_combination a * h₁.2 v hv hd + b * h₂.2 v hv hd + c * h₃.2 v hv hd

/-- Carried fields of two flows that differ at most by a factor, where what the cells add differs by at most `δ`. -/
theorem NearFlow.carried_within (h : NearFlow r F G) (hr : 1 ≤ r) (hF : F.Valid) {s s' : List Nat}
    (hs : ∀ v, v ∈ s ↔ v ∈ s') (hp : ∀ p ∈ s, p < F.n ∧ 0 < F.src p) {q q' x x' δ d : Nat → K} {b : K}
    (hb : ∀ v < F.n, 0 ≤ x' v ∧ x' v ≤ b) (hqq : ∀ v < F.n, |q' v - q v| ≤ δ v) (hx : F.Carries s q x) (hx' : G.Carries s' q' x')
    (hd : F.Carries s (fun v => δ v + 2 * (r - 1) * b * F.total v) d) : ∀ v < F.n, |x' v - x v| ≤ d v := by
  have hr1 : 0 ≤ r - 1 := sub_nonneg.mpr hr
  have hdown := h.downstream hr hs
  let ρ : Nat → K := fun v => (q' v - q v) + (∑ u ∈ range F.n, x' u * (G.w u v - F.w u v)) + (F.total v - G.total v) * x' v
  have hdiff : F.Carries s ρ fun v => x' v - x v := by
    constructor
    · intro v hv hn
      show x' v - x v = 0
      rw [hx.1 v hv hn, hx'.1 v (by rw [h.size]; exact hv) fun hc => hn ((hdown v).mp hc), sub_zero]
    · intro v hv hdv
      have e1 := hx.2 v hv hdv
      have e2 := hx'.2 v (by rw [h.size]; exact hv) ((hdown v).mpr hdv)
      rw [h.size] at e2
      have e3 : ∑ u ∈ range F.n, (x' u - x u) * F.w u v = (∑ u ∈ range F.n, x' u * F.w u v) - ∑ u ∈ range F.n, x u * F.w u v := by
        rw [← sum_sub_distrib]; exact sum_congr rfl fun u _ => by ring
      have e4 : ∑ u ∈ range F.n, x' u * (G.w u v - F.w u v) = (∑ u ∈ range F.n, x' u * G.w u v) - ∑ u ∈ range F.n, x' u * F.w u v := by
        rw [← sum_sub_distrib]; exact sum_congr rfl fun u _ => by ring
      show F.total v * (x' v - x v) = (∑ u ∈ range F.n, (x' u - x u) * F.w u v) + ρ v
      simp only [ρ]
      rw [e3, e4]
      linarith [mul_sub (F.total v) (x' v) (x v), sub_mul (F.total v) (G.total v) (x' v)]
  have hρ : ∀ v < F.n, |ρ v| ≤ δ v + 2 * (r - 1) * b * F.total v := by
    intro v hv
    have hb0 : 0 ≤ b := (hb v hv).1.trans (hb v hv).2
    have hw : ∀ u ∈ range F.n, 0 ≤ F.w u v := fun u hu => hF.w_nonneg u v (mem_range.mp hu) hv
    have hsv := hF.src_nonneg v hv
    have hT : 0 ≤ F.total v := add_nonneg (sum_nonneg hw) hsv
    have a2 : |∑ u ∈ range F.n, x' u * (G.w u v - F.w u v)| ≤ (r - 1) * b * ∑ u ∈ range F.n, F.w u v := by
      rw [mul_sum]
      refine (abs_sum_le_sum_abs _ _).trans (sum_le_sum fun u hu => ?_)
      have hun := mem_range.mp hu
      rw [abs_mul, abs_of_nonneg (hb u hun).1]
      calc x' u * |G.w u v - F.w u v| ≤ b * |G.w u v - F.w u v| := mul_le_mul_of_nonneg_right (hb u hun).2 (abs_nonneg _)
        _ ≤ b * ((r - 1) * F.w u v) := mul_le_mul_of_nonneg_left ((h.flux u hun v hv).abs hr (hw u hu)) hb0
        _ = (r - 1) * b * F.w u v := by ring
    have a3 : |(F.total v - G.total v) * x' v| ≤ (r - 1) * b * F.total v := by
      rw [abs_mul, abs_of_nonneg (hb v hv).1, abs_sub_comm]
      calc |G.total v - F.total v| * x' v ≤ |G.total v - F.total v| * b := mul_le_mul_of_nonneg_left (hb v hv).2 (abs_nonneg _)
        _ ≤ (r - 1) * F.total v * b := mul_le_mul_of_nonneg_right ((h.total hv).abs hr hT) hb0
        _ = (r - 1) * b * F.total v := by ring
    have a4 : (r - 1) * b * ∑ u ∈ range F.n, F.w u v ≤ (r - 1) * b * F.total v :=
      mul_le_mul_of_nonneg_left (by show _ ≤ (∑ u ∈ range F.n, F.w u v) + F.src v; linarith) (mul_nonneg hr1 hb0)
    have a5 : |ρ v| ≤ |q' v - q v| + |∑ u ∈ range F.n, x' u * (G.w u v - F.w u v)| + |(F.total v - G.total v) * x' v| :=
      (abs_add_le _ _).trans (add_le_add (abs_add_le _ _) le_rfl)
    linarith [hqq v hv]
  have hneg : F.Carries s (fun v => -ρ v) fun v => -(x' v - x v) := by
    constructor
    · intro v hv hn
      exact neg_eq_zero.mpr (hdiff.1 v hv hn)
    · intro v hv hdv
      have e : F.total v * (x' v - x v) = (∑ u ∈ range F.n, (x' u - x u) * F.w u v) + ρ v := hdiff.2 v hv hdv
      have e3 : ∑ u ∈ range F.n, -(x' u - x u) * F.w u v = -∑ u ∈ range F.n, (x' u - x u) * F.w u v := by
        rw [← sum_neg_distrib]; exact sum_congr rfl fun u _ => by ring
      rw [e3]
      linarith [mul_neg (F.total v) (x' v - x v)]
  intro v hv
  refine abs_le.mpr ⟨?_, ?_⟩
  · have := carries_le hF hp hneg hd (fun v hv => (neg_le_abs _).trans (hρ v hv)) v hv
    linarith
  · exact carries_le hF hp hdiff hd (fun v hv => (le_abs_self _).trans (hρ v hv)) v hv

/-- The exact products of concentration and time. -/
theorem NearFlow.carried_time (h : NearFlow r F G) (hr : 1 ≤ r) (hF : F.Valid) (hG : G.Valid) {s s' : List Nat}
    (hs : ∀ v, v ∈ s ↔ v ∈ s') (hp : ∀ p ∈ s, p < F.n ∧ 0 < F.src p) {i i' x x' q q' t z z' k : Nat → K} {b : K}
    (hi : ∀ v < F.n, 0 ≤ i v ∧ i v ≤ F.src v) (hi' : ∀ v < G.n, 0 ≤ i' v ∧ i' v ≤ G.src v)
    (hii : ∀ v < F.n, WithinFactor r (i v) (i' v)) (hx : F.Carries s i x) (hx' : G.Carries s' i' x')
    (hq : F.Carries s (fun v => F.pv v * x v) q) (hq' : G.Carries s' (fun v => G.pv v * x' v) q') (ht : F.Carries s F.total t)
    (hz : F.Carries s F.pv z) (hk : F.Carries s (fun v => F.pv v * t v) k) (hz' : G.Carries s' G.pv z') (hb : ∀ v < F.n, z' v ≤ b) :
    ∀ v < F.n, |q' v - q v| ≤ (r - 1) * (z v + 2 * k v + 2 * b * t v) := by
  have hr1 : 0 ≤ r - 1 := sub_nonneg.mpr hr
  have hp' : ∀ p ∈ s', p < G.n ∧ 0 < G.src p := fun p hps => by
    obtain ⟨a, b⟩ := hp p ((hs p).mpr hps)
    exact ⟨by rw [h.size]; exact a, ((h.src p a).pos hr).mp b⟩
  have h1 := carries_le_one hG hp' hx' fun v hv => (hi' v hv).2
  have h0 := (C76_exact hG hp' i').2.2 (fun v hv => (hi' v hv).1) x' hx'
  have q0 := (C76_exact hG hp' fun v => G.pv v * x' v).2.2 (fun v hv => mul_nonneg (hG.pv_nonneg v hv) (h0 v hv)) q' hq'
  have qz := carries_le hG hp' hq' hz' fun v hv => by
    have := mul_le_mul_of_nonneg_left (h1 v hv) (hG.pv_nonneg v hv)
    rwa [mul_one] at this
  rw [h.size] at h1 h0 q0 qz
  have hxx := h.carried hr hF hG hs hp hi hi' hii hx hx' ht
  have big := carries_three hz hk ht (r - 1) (2 * (r - 1)) (2 * (r - 1) * b)
  intro v hv
  refine (h.carried_within hr hF hs hp (b := b) (fun v hv => ⟨q0 v hv, (qz v hv).trans (hb v hv)⟩)
    (δ := fun v => (r - 1) * F.pv v + 2 * (r - 1) * (F.pv v * t v)) (fun v hv => ?_) hq hq' big v hv).trans (le_of_eq (by ring))
  have a1 := (h.pv v hv).abs hr (hF.pv_nonneg v hv)
  have a2 : |(G.pv v - F.pv v) * x' v| ≤ (r - 1) * F.pv v := by
    rw [abs_mul, abs_of_nonneg (h0 v hv)]
    calc |G.pv v - F.pv v| * x' v ≤ |G.pv v - F.pv v| * 1 := mul_le_mul_of_nonneg_left (h1 v hv) (abs_nonneg _)
      _ ≤ (r - 1) * F.pv v := by rw [mul_one]; exact a1
  have a3 : |F.pv v * (x' v - x v)| ≤ 2 * (r - 1) * (F.pv v * t v) := by
    rw [abs_mul, abs_of_nonneg (hF.pv_nonneg v hv)]
    calc F.pv v * |x' v - x v| ≤ F.pv v * (2 * (r - 1) * t v) := mul_le_mul_of_nonneg_left (hxx v hv) (hF.pv_nonneg v hv)
      _ = 2 * (r - 1) * (F.pv v * t v) := by ring
  show |G.pv v * x' v - F.pv v * x v| ≤ (r - 1) * F.pv v + 2 * (r - 1) * (F.pv v * t v)
  rw [show G.pv v * x' v - F.pv v * x v = (G.pv v - F.pv v) * x' v + F.pv v * (x' v - x v) by ring]
  exact (abs_add_le _ _).trans (add_le_add a2 a3)

end flow

section exact
variable {K : Type} [Field K] [LinearOrder K] [IsStrictOrderedRing K] [Archimedean K] {r : K}

theorem Diag.near_time_cyclic {F G : Flow K} {wells wells' : List (WellFlux K)} {cs : WellFlux K → List Nat} {f : WellFlux K → Nat → K}
    {starts starts' : List CellSet} {sol sol' : Solution (X K)} (D : Diag F wells cs f starts sol)
    (D' : Diag G wells' cs f starts' sol') (h : NearFlow r F G) (hr : 1 ≤ r) (hself : ∀ v < F.n, ¬ F.Loop v)
    (hself' : ∀ v < G.n, ¬ G.Loop v) {w w' : WellFlux K} (hw : w ∈ wells) (hw' : w' ∈ wells') (hs : ∃ s ∈ starts, s.id = w.id)
    (hs' : ∃ s ∈ starts', s.id = w'.id) (hin : ∀ v < F.n, WithinFactor r (injected (cs w) (f w) v) (injected (cs w') (f w') v))
    {a : K} (ha0 : 0 ≤ a) (ha : a < cap) (hta : ∀ v < F.n, valueAt (sol.timeOfFlightOf w.id) v ≤ a)
    (hta' : ∀ v < G.n, valueAt (sol'.timeOfFlightOf w'.id) v ≤ a)
    {m m' p p' t z z' k : Nat → K} (hm : F.Carries (cs w) F.cycleInflow m) (hm' : G.Carries (cs w') G.cycleInflow m')
    (hp : F.Carries (cs w) (fun v => F.pv v * m v) p) (hp' : G.Carries (cs w') (fun v => G.pv v * m' v) p')
    (ht : F.Carries (cs w) F.total t) (hz : F.Carries (cs w) F.pv z) (hk : F.Carries (cs w) (fun v => F.pv v * t v) k)
    (hz' : G.Carries (cs w') G.pv z') {b : K} (hb : ∀ v < F.n, z' v ≤ b) :
    ∀ v < F.n, |valueAt (sol'.concentration w'.id) v * valueAt (sol'.timeOfFlightOf w'.id) v
        - valueAt (sol.concentration w.id) v * valueAt (sol.timeOfFlightOf w.id) v|
      ≤ (r - 1) * (z v + 2 * k v + 2 * b * t v) + 1 / 1000000000 * (p v + p' v)
        + (2 * a / 1000000000 + cap / 1000000000000) * (m v + m' v) := by
  have hF : F.Valid := by obtain ⟨d, st, h1, _⟩ := D.solved; exact h1.valid
  have hG : G.Valid := by obtain ⟨d, st, h1, _⟩ := D'.solved; exact h1.valid
  have hc := side_sources D.side hw
  have hc' := side_sources D'.side hw'
  obtain ⟨x, hx⟩ := (C76_exact hF hc (injected (cs w) (f w))).1
  obtain ⟨y, hy⟩ := (C76_exact hG hc' (injected (cs w') (f w'))).1
  obtain ⟨q, hq⟩ := (C76_exact hF hc fun v => F.pv v * x v).1
  obtain ⟨q', hq'⟩ := (C76_exact hG hc' fun v => G.pv v * y v).1
  obtain ⟨i1, i2, i3⟩ := injected_within D.side D'.side h hr hw hw' hin
  intro v hv
  have hvG : v < G.n := by rw [h.size]; exact hv
  have e := abs_le.mp (h.carried_time hr hF hG i1 hc i2 i3 hin hx hy hq hq' ht hz hk hz' hb v hv)
  have b1 := abs_le.mp (D.well_time hF hself hw hs ha0 ha hta hc (fun p hp => hp) hm hp hx hq hv)
  have b2 := abs_le.mp (D'.well_time hG hself' hw' hs' ha0 ha hta' hc' (fun p hp => hp) hm' hp' hy hq' hvG)
  have d := mul_add (2 * a / 1000000000 + cap / 1000000000000) (m v) (m' v)
  rw [abs_le]
  constructor <;> linarith

variable {P Q : Problem K} (hP : P.Valid) (hQ : Q.Valid) (hr : 1 ≤ r) (hnear : Problem.Near r P Q)
  {g g' : ConnectivityGraph} {calls calls' : List (Call (X K))} (h : P.GivenTo g calls) (h' : Q.GivenTo g' calls')
  (hself : ∀ v < P.n, ¬ P.forward.Loop v) (hself' : ∀ v < Q.n, ¬ Q.forward.Loop v) {w w' : WellFlux K} (hw : w ∈ P.wells)
  (hw' : w' ∈ Q.wells) (hid : w.id = w'.id) {starts starts' : List CellSet} {sol sol' : Solution (X K)}
  (hs : ∃ s ∈ starts, s.id = w.id) (hs' : ∃ s ∈ starts', s.id = w'.id) {a : K} (ha0 : 0 ≤ a) (ha : a < 200 * 365 * 24 * 60 * 60)
  (hta : ∀ v < P.n, valueAt (sol.timeOfFlightOf w.id) v ≤ a) (hta' : ∀ v < Q.n, valueAt (sol'.timeOfFlightOf w'.id) v ≤ a)
include hP hQ hr hnear h h' hself hself' hw hw' hid hs hs' ha0 ha hta hta'

/-- **C97** (exact arithmetic, any cycles, no cell has a self-connection as its only cycle, no time above `a` < 200 years) If the data
    of two problems differ at most by a factor `r`, then the products of concentration and time of flight of an injector differ by
    at most `(r - 1) (z + 2 k + 2 b t)` and the tolerance of the solver in both problems.  Here `t` is the number of cells that the
    fluid has passed on the average; `z` is carried by the flow when each cell adds its pore volume, `k` when it adds its pore volume
    times `t`; `b` bounds the `z` of the other problem. -/
theorem C97_time_injection_cyclic (hret : InjectionReturns g calls starts (.ok sol))
    (hret' : InjectionReturns g' calls' starts' (.ok sol')) {m m' p p' t z z' k : Nat → K}
    (hm : P.forward.Carries (posCells w) P.forward.cycleInflow m) (hm' : Q.forward.Carries (posCells w') Q.forward.cycleInflow m')
    (hp : P.forward.Carries (posCells w) (fun v => P.pv v * m v) p)
    (hp' : Q.forward.Carries (posCells w') (fun v => Q.pv v * m' v) p')
    (ht : P.forward.Carries (posCells w) P.forward.total t) (hz : P.forward.Carries (posCells w) P.pv z)
    (hk : P.forward.Carries (posCells w) (fun v => P.pv v * t v) k) (hz' : Q.forward.Carries (posCells w') Q.pv z')
    {b : K} (hb : ∀ v < P.n, z' v ≤ b) :
    ∀ v < P.n, |valueAt (sol'.concentration w'.id) v * valueAt (sol'.timeOfFlightOf w'.id) v
        - valueAt (sol.concentration w.id) v * valueAt (sol.timeOfFlightOf w.id) v|
      ≤ (r - 1) * (z v + 2 * k v + 2 * b * t v) + 1 / 1000000000 * (p v + p' v)
        + (2 * a / 1000000000 + 200 * 365 * 24 * 60 * 60 / 1000000000000) * (m v + m' v) :=
  (diag_injection hP h hret).near_time_cyclic (diag_injection hQ h' hret') hnear.forward hr hself hself' hw hw' hs hs'
    (fun v hv => by rw [injected_pos, injected_pos]; exact (near_pair hQ hnear hw hw' hid v hv).1) ha0 ha hta hta' hm hm' hp hp' ht hz hk
    hz' hb

/-- **C97** The same for production, in the reversed flow. -/
theorem C97_time_production_cyclic (hret : ProductionReturns g calls starts (.ok sol))
    (hret' : ProductionReturns g' calls' starts' (.ok sol')) {m m' p p' t z z' k : Nat → K}
    (hm : P.backward.Carries (negCells w) P.backward.cycleInflow m) (hm' : Q.backward.Carries (negCells w') Q.backward.cycleInflow m')
    (hp : P.backward.Carries (negCells w) (fun v => P.pv v * m v) p)
    (hp' : Q.backward.Carries (negCells w') (fun v => Q.pv v * m' v) p')
    (ht : P.backward.Carries (negCells w) P.backward.total t) (hz : P.backward.Carries (negCells w) P.pv z)
    (hk : P.backward.Carries (negCells w) (fun v => P.pv v * t v) k) (hz' : Q.backward.Carries (negCells w') Q.pv z')
    {b : K} (hb : ∀ v < P.n, z' v ≤ b) :
    ∀ v < P.n, |valueAt (sol'.concentration w'.id) v * valueAt (sol'.timeOfFlightOf w'.id) v
        - valueAt (sol.concentration w.id) v * valueAt (sol.timeOfFlightOf w.id) v|
      ≤ (r - 1) * (z v + 2 * k v + 2 * b * t v) + 1 / 1000000000 * (p v + p' v)
        + (2 * a / 1000000000 + 200 * 365 * 24 * 60 * 60 / 1000000000000) * (m v + m' v) :=
  (diag_production hP h hret).near_time_cyclic (diag_production hQ h' hret') hnear.backward hr (backward_not_loop hself)
    (backward_not_loop hself') hw hw' hs hs'
    (fun v hv => by rw [injected_neg, injected_neg]; exact (near_pair hQ hnear hw hw' hid v hv).2) ha0 ha hta hta' hm hm' hp hp' ht hz hk
    hz' hb

end exact

/-! ### Doubles -/

section double
variable {r : ℚ}

theorem Nearly.near_time {F G : Flow ℚ} {wells wells' : List (WellFlux ℚ)} {cs : WellFlux ℚ → List Nat}
    {f : WellFlux ℚ → Nat → ℚ} {starts starts' : List CellSet} {sol sol' : Solution Double} {M : Nat}
    (N : Nearly F wells cs f starts sol M) (N' : Nearly G wells' cs f starts' sol' M) (T : Timely F wells cs starts sol M)
    (T' : Timely G wells' cs starts' sol' M) (h : NearFlow r F G) (hr : 1 ≤ r)
    (hself : ∀ v < F.n, ¬ F.Loop v) (hself' : ∀ v < G.n, ¬ G.Loop v) {w w' : WellFlux ℚ} (hw : w ∈ wells) (hw' : w' ∈ wells')
    (hs : ∃ s ∈ starts, s.id = w.id) (hs' : ∃ s ∈ starts', s.id = w'.id)
    (hin : ∀ v < F.n, WithinFactor r (injected (cs w) (f w) v) (injected (cs w') (f w') v))
    {a : ℚ} (ha0 : 0 ≤ a) (ha : a < 200 * 365 * 24 * 60 * 60)
    (hta : ∀ v, F.Downstream (cs w) v → doubleAt (sol.timeOfFlightOf w.id) v ≤ a ∧ 1 / 2 ^ 300 ≤ doubleAt (sol.concentration w.id) v)
    (hta' : ∀ v, G.Downstream (cs w') v → doubleAt (sol'.timeOfFlightOf w'.id) v ≤ a ∧
      1 / 2 ^ 300 ≤ doubleAt (sol'.concentration w'.id) v) {m m' t t' p p' k k' z z' : Nat → ℚ}
    (hm : F.Carries (cs w) F.cycleInflow m) (hm' : G.Carries (cs w') G.cycleInflow m') (ht : F.Carries (cs w) F.total t)
    (ht' : G.Carries (cs w') G.total t')
    (hp : F.Carries (cs w) (fun v => F.pv v * m v) p) (hp' : G.Carries (cs w') (fun v => G.pv v * m' v) p')
    (hk : F.Carries (cs w) (fun v => F.pv v * t v) k) (hk' : G.Carries (cs w') (fun v => G.pv v * t' v) k')
    (hz : F.Carries (cs w) F.pv z) (hz' : G.Carries (cs w') G.pv z') {b : ℚ} (hb : ∀ v < F.n, z' v ≤ b) :
    ∀ v < F.n, |doubleAt (sol'.concentration w'.id) v * doubleAt (sol'.timeOfFlightOf w'.id) v
        - doubleAt (sol.concentration w.id) v * doubleAt (sol.timeOfFlightOf w.id) v|
      ≤ (r - 1) * (z v + 2 * k v + 2 * b * t v) + 1 / 1000000000 * (p v + p' v)
        + (3 * a / 1000000000 + 200 * 365 * 24 * 60 * 60 / 1000000000000) * (m v + m' v)
        + ((4 * M + 8 : Nat) : ℚ) / 2 ^ 51 * (k v + k' v + (3 * a + 1) * (t v + t' v)) := by
  obtain ⟨x, hx⟩ := (C76_exact N.valid (N.sources hw) (injected (cs w) (f w))).1
  obtain ⟨y, hy⟩ := (C76_exact N'.valid (N'.sources hw') (injected (cs w') (f w'))).1
  obtain ⟨q, hq⟩ := (C76_exact N.valid (N.sources hw) fun v => F.pv v * x v).1
  obtain ⟨q', hq'⟩ := (C76_exact N'.valid (N'.sources hw') fun v => G.pv v * y v).1
  obtain ⟨i1, i2, i3⟩ := injected_within N.side N'.side h hr hw hw' hin
  intro v hv
  have hvG : v < G.n := by rw [h.size]; exact hv
  have e := abs_le.mp (h.carried_time hr N.valid N'.valid i1 (N.sources hw) i2 i3 hin hx hy hq hq' ht hz hk hz' hb v hv)
  have b1 := abs_le.mp (N.well_time T hself hw hs ha0 ha (fun v hd => (hta v hd).1) (fun v hd => (hta v hd).2) (N.sources hw)
    (fun p hp => hp) hm ht hp hk hx hq hv)
  have b2 := abs_le.mp (N'.well_time T' hself' hw' hs' ha0 ha (fun v hd => (hta' v hd).1) (fun v hd => (hta' v hd).2) (N'.sources hw')
    (fun p hp => hp) hm' ht' hp' hk' hy hq' hvG)
  have d := mul_add (3 * a / 1000000000 + 200 * 365 * 24 * 60 * 60 / 1000000000000) (m v) (m' v)
  have d' : ((4 * M + 8 : Nat) : ℚ) / 2 ^ 51 * (k v + k' v + (3 * a + 1) * (t v + t' v))
      = ((4 * M + 8 : Nat) : ℚ) / 2 ^ 51 * (k v + (3 * a + 1) * t v)
        + ((4 * M + 8 : Nat) : ℚ) / 2 ^ 51 * (k' v + (3 * a + 1) * t' v) := by ring
  rw [abs_le]
  constructor <;> linarith

variable {P Q : Problem ℚ} (hP : P.Valid) (hQ : Q.Valid) {M : Nat} (hO : P.OfOrdinarySize M) (hO' : Q.OfOrdinarySize M)
  (hr : 1 ≤ r) (hnear : Problem.Near r P Q) {g g' : ConnectivityGraph} {calls calls' : List (Call Double)}
  (h : P.StoredIn g calls) (h' : Q.StoredIn g' calls') (hself : ∀ v < P.n, ¬ P.forward.Loop v)
  (hself' : ∀ v < Q.n, ¬ Q.forward.Loop v) {w w' : WellFlux ℚ} (hw : w ∈ P.wells) (hw' : w' ∈ Q.wells) (hid : w.id = w'.id)
  {starts starts' : List CellSet} {sol sol' : Solution Double} (hs : ∃ s ∈ starts, s.id = w.id) (hs' : ∃ s ∈ starts', s.id = w'.id)
  {a : ℚ} (ha0 : 0 ≤ a) (ha : a < 200 * 365 * 24 * 60 * 60)
include hP hQ hO hO' hr hnear h h' hself hself' hw hw' hid hs hs' ha0 ha

/-- **C97** (doubles, any cycles, no time above `a` < 200 years and no concentration below 2^-300 downstream) The same, with rounding
    errors. -/
theorem C97_time_injection_double (htotal : ∀ v < P.n, P.forward.total v ≤ 2 ^ 100) (htotal' : ∀ v < Q.n, Q.forward.total v ≤ 2 ^ 100)
    (hret : InjectionReturns g calls starts (.ok sol)) (hret' : InjectionReturns g' calls' starts' (.ok sol'))
    (hta : ∀ v, P.forward.Downstream (posCells w) v → doubleAt (sol.timeOfFlightOf w.id) v ≤ a ∧
      1 / 2 ^ 300 ≤ doubleAt (sol.concentration w.id) v)
    (hta' : ∀ v, Q.forward.Downstream (posCells w') v → doubleAt (sol'.timeOfFlightOf w'.id) v ≤ a ∧
      1 / 2 ^ 300 ≤ doubleAt (sol'.concentration w'.id) v) {m m' t t' p p' k k' z z' : Nat → ℚ}
    (hm : P.forward.Carries (posCells w) P.forward.cycleInflow m) (hm' : Q.forward.Carries (posCells w') Q.forward.cycleInflow m')
    (ht : P.forward.Carries (posCells w) P.forward.total t) (ht' : Q.forward.Carries (posCells w') Q.forward.total t')
    (hp : P.forward.Carries (posCells w) (fun v => P.pv v * m v) p)
    (hp' : Q.forward.Carries (posCells w') (fun v => Q.pv v * m' v) p')
    (hk : P.forward.Carries (posCells w) (fun v => P.pv v * t v) k)
    (hk' : Q.forward.Carries (posCells w') (fun v => Q.pv v * t' v) k')
    (hz : P.forward.Carries (posCells w) P.pv z) (hz' : Q.forward.Carries (posCells w') Q.pv z') {b : ℚ} (hb : ∀ v < P.n, z' v ≤ b) :
    ∀ v < P.n, |doubleAt (sol'.concentration w'.id) v * doubleAt (sol'.timeOfFlightOf w'.id) v
        - doubleAt (sol.concentration w.id) v * doubleAt (sol.timeOfFlightOf w.id) v|
      ≤ (r - 1) * (z v + 2 * k v + 2 * b * t v) + 1 / 1000000000 * (p v + p' v)
        + (3 * a / 1000000000 + 200 * 365 * 24 * 60 * 60 / 1000000000000) * (m v + m' v)
        + ((4 * M + 8 : Nat) : ℚ) / 2 ^ 51 * (k v + k' v + (3 * a + 1) * (t v + t' v)) :=
  (nearly_injection hP hO htotal h hret).near_time (nearly_injection hQ hO' htotal' h' hret') (timely_injection hP hO htotal h hret)
    (timely_injection hQ hO' htotal' h' hret') hnear.forward hr hself hself' hw hw' hs hs'
    (fun v hv => by rw [injected_pos, injected_pos]; exact (near_pair hQ hnear hw hw' hid v hv).1) ha0 ha hta hta' hm hm' ht ht' hp hp' hk
    hk' hz hz' hb

/-- **C97** The same for production, in the reversed flow. -/
theorem C97_time_production_double (htotal : ∀ v < P.n, P.backward.total v ≤ 2 ^ 100)
    (htotal' : ∀ v < Q.n, Q.backward.total v ≤ 2 ^ 100)
    (hret : ProductionReturns g calls starts (.ok sol)) (hret' : ProductionReturns g' calls' starts' (.ok sol'))
    (hta : ∀ v, P.backward.Downstream (negCells w) v → doubleAt (sol.timeOfFlightOf w.id) v ≤ a ∧
      1 / 2 ^ 300 ≤ doubleAt (sol.concentration w.id) v)
    (hta' : ∀ v, Q.backward.Downstream (negCells w') v → doubleAt (sol'.timeOfFlightOf w'.id) v ≤ a ∧
      1 / 2 ^ 300 ≤ doubleAt (sol'.concentration w'.id) v) {m m' t t' p p' k k' z z' : Nat → ℚ}
    (hm : P.backward.Carries (negCells w) P.backward.cycleInflow m) (hm' : Q.backward.Carries (negCells w') Q.backward.cycleInflow m')
    (ht : P.backward.Carries (negCells w) P.backward.total t) (ht' : Q.backward.Carries (negCells w') Q.backward.total t')
    (hp : P.backward.Carries (negCells w) (fun v => P.pv v * m v) p)
    (hp' : Q.backward.Carries (negCells w') (fun v => Q.pv v * m' v) p')
    (hk : P.backward.Carries (negCells w) (fun v => P.pv v * t v) k)
    (hk' : Q.backward.Carries (negCells w') (fun v => Q.pv v * t' v) k')
    (hz : P.backward.Carries (negCells w) P.pv z) (hz' : Q.backward.Carries (negCells w') Q.pv z') {b : ℚ} (hb : ∀ v < P.n, z' v ≤ b) :
    ∀ v < P.n, |doubleAt (sol'.concentration w'.id) v * doubleAt (sol'.timeOfFlightOf w'.id) v
        - doubleAt (sol.concentration w.id) v * doubleAt (sol.timeOfFlightOf w.id) v|
      ≤ (r - 1) * (z v + 2 * k v + 2 * b * t v) + 1 / 1000000000 * (p v + p' v)
        + (3 * a / 1000000000 + 200 * 365 * 24 * 60 * 60 / 1000000000000) * (m v + m' v)
        + ((4 * M + 8 : Nat) : ℚ) / 2 ^ 51 * (k v + k' v + (3 * a + 1) * (t v + t' v)) :=
  (nearly_production hP hO htotal h hret).near_time (nearly_production hQ hO' htotal' h' hret') (timely_production hP hO htotal h hret)
    (timely_production hQ hO' htotal' h' hret') hnear.backward hr (backward_not_loop hself) (backward_not_loop hself') hw hw' hs hs'
    (fun v hv => by rw [injected_neg, injected_neg]; exact (near_pair hQ hnear hw hw' hid v hv).2) ha0 ha hta hta' hm hm' ht ht' hp hp' hk
    hk' hz hz' hb

end double

/-! ### A concrete case: a cycle, with more flow round it -/

def fasterExact : List (Call (X ℚ)) :=
  [.assignPoreVolume [Arith.lit 1, Arith.lit 1, Arith.lit 1, Arith.lit 1],
   .assignConnectionFlux ⟨4, 1, [Arith.lit 2, Arith.lit 4, Arith.lit 4, Arith.lit 1]⟩,
   .assignInflowFlux [(⟨[65]⟩, [(0, Arith.lit 2)]), (⟨[80]⟩, [(3, Arith.lit (-2))])]]

theorem fasterExact_given : exFaster.GivenTo whirlGraph fasterExact where
  graph := whirl_stored.graph
  pv := rfl
  flux := by
    refine ⟨_, rfl, rfl, rfl, ?_⟩
    intro c hc p hp
    have hp : p = 0 := by have : p < 1 := hp; omega
    subst hp
    have hc : c < 4 := hc
    interval_cases c <;> rfl
  inflow := Or.inl rfl

set_option maxRecDepth 100000 in
/-- C97, times, exact arithmetic. -/
example : ∃ s s', InjectionReturns whirlGraph (whirlExact 1) [CellSet.ofCells ⟨[65]⟩ [0]] (.ok s) ∧
    InjectionReturns whirlGraph fasterExact [CellSet.ofCells ⟨[65]⟩ [0]] (.ok s') ∧
    ∃ (m m' p p' t z k : Nat → ℚ) (b : ℚ), ∀ v < 4, |valueAt (s'.concentration ⟨[65]⟩) v * valueAt (s'.timeOfFlightOf ⟨[65]⟩) v
        - valueAt (s.concentration ⟨[65]⟩) v * valueAt (s.timeOfFlightOf ⟨[65]⟩) v|
      ≤ (4 / 3 - 1) * (z v + 2 * k v + 2 * b * t v) + 1 / 1000000000 * (p v + p' v)
        + (2 * 5 / 1000000000 + 200 * 365 * 24 * 60 * 60 / 1000000000000) * (m v + m' v) := by
  obtain ⟨s, h1, b1⟩ := okBelow_spec (i := ⟨[65]⟩) (a := 5)
    (r := injectionOutcome whirlGraph (whirlExact 1) noFailure 100 [CellSet.ofCells ⟨[65]⟩ [0]]) (by decide +kernel)
  obtain ⟨s', h2, b2⟩ := okBelow_spec (i := ⟨[65]⟩) (a := 5)
    (r := injectionOutcome whirlGraph fasterExact noFailure 100 [CellSet.ofCells ⟨[65]⟩ [0]]) (by decide +kernel)
  have hr := (Fuel.injection_returns.mpr ⟨100, h1, by simp⟩).1
  have hr' := (Fuel.injection_returns.mpr ⟨100, h2, by simp⟩).1
  have f1 := diag_injection exWhirl_valid whirl_given hr
  have f2 := diag_injection exFaster_valid fasterExact_given hr'
  have c1 := side_sources f1.side (show (⟨⟨[65]⟩, [0], fun _ => 2⟩ : WellFlux ℚ) ∈ exWhirl.wells from .head _)
  have c2 := side_sources f2.side (show (⟨⟨[65]⟩, [0], fun _ => 2⟩ : WellFlux ℚ) ∈ exFaster.wells from .head _)
  have hF : exWhirl.forward.Valid := by obtain ⟨_, _, h, _⟩ := f1.solved; exact h.valid
  have hG : exFaster.forward.Valid := by obtain ⟨_, _, h, _⟩ := f2.solved; exact h.valid
  obtain ⟨m, hm⟩ := (C76_exact hF c1 exWhirl.forward.cycleInflow).1
  obtain ⟨m', hm'⟩ := (C76_exact hG c2 exFaster.forward.cycleInflow).1
  obtain ⟨p, hp⟩ := (C76_exact hF c1 fun v => exWhirl.pv v * m v).1
  obtain ⟨p', hp'⟩ := (C76_exact hG c2 fun v => exFaster.pv v * m' v).1
  obtain ⟨t, ht⟩ := (C76_exact hF c1 exWhirl.forward.total).1
  obtain ⟨k, hk⟩ := (C76_exact hF c1 fun v => exWhirl.pv v * t v).1
  obtain ⟨z, hz⟩ := (C76_exact hF c1 exWhirl.pv).1
  obtain ⟨z', hz'⟩ := (C76_exact hG c2 exFaster.pv).1
  have hz0 := (C76_exact hG c2 exFaster.pv).2.2 (fun v _ => by show (0 : ℚ) ≤ 1; norm_num) z' hz'
  refine ⟨s, s', hr, hr', m, m', p, p', t, z, k, ∑ v ∈ range 4, z' v, ?_⟩
  exact C97_time_injection_cyclic exWhirl_valid exFaster_valid (by norm_num) faster_near whirl_given fasterExact_given whirl_noLoop
    faster_noLoop (.head _) (.head _) rfl ⟨_, .head _, rfl⟩ ⟨_, .head _, rfl⟩ (a := 5) (by norm_num) (by norm_num) b1 b2 hr hr'
    hm hm' hp hp' ht hz hk hz'
    fun v hv => single_le_sum (f := z') (s := range 4) (fun u hu => hz0 u (mem_range.mp hu)) (mem_range.mpr hv)

set_option maxRecDepth 100000 in
/-- C97, times, doubles, for an injector. -/
example : ∃ s s', InjectionReturns whirlGraph whirlCalls [CellSet.ofCells ⟨[65]⟩ [0]] (.ok s) ∧
    InjectionReturns whirlGraph fasterCalls [CellSet.ofCells ⟨[65]⟩ [0]] (.ok s') ∧
    ∃ (m m' p p' t t' z k k' : Nat → ℚ) (b : ℚ), ∀ v < 4,
      |doubleAt (s'.concentration ⟨[65]⟩) v * doubleAt (s'.timeOfFlightOf ⟨[65]⟩) v
        - doubleAt (s.concentration ⟨[65]⟩) v * doubleAt (s.timeOfFlightOf ⟨[65]⟩) v|
      ≤ (4 / 3 - 1) * (z v + 2 * k v + 2 * b * t v) + 1 / 1000000000 * (p v + p' v)
        + (3 * 10 / 1000000000 + 200 * 365 * 24 * 60 * 60 / 1000000000000) * (m v + m' v)
        + ((4 * 4 + 8 : Nat) : ℚ) / 2 ^ 51 * (k v + k' v + (3 * 10 + 1) * (t v + t' v)) := by
  obtain ⟨s, hr, b1⟩ := whirl_tameTimes
  obtain ⟨s', h2, b2⟩ := tenAndQuarterIn_spec (n := 4) (i := ⟨[65]⟩)
    (r := injectionOutcome whirlGraph fasterCalls noFailure 100 [CellSet.ofCells ⟨[65]⟩ [0]]) (by decide +kernel)
  have hr' := (Fuel.injection_returns.mpr ⟨100, h2, by simp⟩).1
  have N := nearly_injection exWhirl_valid whirl_ordinary whirl_total.1 whirl_stored hr
  have N' := nearly_injection exFaster_valid faster_ordinary faster_total.1 faster_stored hr'
  have c1 := N.sources (show (⟨⟨[65]⟩, [0], fun _ => 2⟩ : WellFlux ℚ) ∈ exWhirl.wells from .head _)
  have c2 := N'.sources (show (⟨⟨[65]⟩, [0], fun _ => 2⟩ : WellFlux ℚ) ∈ exFaster.wells from .head _)
  obtain ⟨m, hm⟩ := (C76_exact N.valid c1 exWhirl.forward.cycleInflow).1
  obtain ⟨m', hm'⟩ := (C76_exact N'.valid c2 exFaster.forward.cycleInflow).1
  obtain ⟨p, hp⟩ := (C76_exact N.valid c1 fun v => exWhirl.pv v * m v).1
  obtain ⟨p', hp'⟩ := (C76_exact N'.valid c2 fun v => exFaster.pv v * m' v).1
  obtain ⟨t, ht⟩ := (C76_exact N.valid c1 exWhirl.forward.total).1
  obtain ⟨t', ht'⟩ := (C76_exact N'.valid c2 exFaster.forward.total).1
  obtain ⟨k, hk⟩ := (C76_exact N.valid c1 fun v => exWhirl.pv v * t v).1
  obtain ⟨k', hk'⟩ := (C76_exact N'.valid c2 fun v => exFaster.pv v * t' v).1
  obtain ⟨z, hz⟩ := (C76_exact N.valid c1 exWhirl.pv).1
  obtain ⟨z', hz'⟩ := (C76_exact N'.valid c2 exFaster.pv).1
  have hz0 := (C76_exact N'.valid c2 exFaster.pv).2.2 (fun v _ => by show (0 : ℚ) ≤ 1; norm_num) z' hz'
  refine ⟨s, s', hr, hr', m, m', p, p', t, t', z, k, k', ∑ v ∈ range 4, z' v,
    C97_time_injection_double exWhirl_valid exFaster_valid whirl_ordinary faster_ordinary (by norm_num) faster_near whirl_stored
      faster_stored whirl_noLoop faster_noLoop (.head _) (.head _) rfl ⟨_, .head _, rfl⟩ ⟨_, .head _, rfl⟩ (a := 10) (by norm_num)
      (by norm_num) whirl_total.1 faster_total.1 hr hr' (fun v hd => (b1 v ?_).2) (fun v hd => b2 v ?_) hm hm' ht ht' hp hp' hk hk' hz hz'
      fun v hv => single_le_sum (f := z') (s := range 4) (fun u hu => hz0 u (mem_range.mp hu)) (mem_range.mpr hv)⟩
  · obtain ⟨p, h1, h2⟩ := hd
    exact reach_lt (F := exWhirl.forward) (c1 p h1).1 h2
  · obtain ⟨p, h1, h2⟩ := hd
    exact reach_lt (F := exFaster.forward) (c2 p h1).1 h2

set_option maxRecDepth 100000 in
theorem whirl_producerTimes : ∃ s, ProductionReturns whirlGraph whirlCalls [CellSet.ofCells ⟨[80]⟩ [3]] (.ok s) ∧
    ∀ v < 4, doubleAt (s.timeOfFlightOf ⟨[80]⟩) v ≤ 10 ∧ 1 / 2 ^ 300 ≤ doubleAt (s.concentration ⟨[80]⟩) v := by
  obtain ⟨s, h1, b1⟩ := tenAndQuarterIn_spec (n := 4) (i := ⟨[80]⟩)
    (r := productionOutcome whirlGraph whirlCalls noFailure 100 [CellSet.ofCells ⟨[80]⟩ [3]]) (by decide +kernel)
  exact ⟨s, (Fuel.production_returns.mpr ⟨100, h1, by simp⟩).1, b1⟩

set_option maxRecDepth 100000 in
/-- C97, times, doubles, for a producer. -/
example : ∃ s s', ProductionReturns whirlGraph whirlCalls [CellSet.ofCells ⟨[80]⟩ [3]] (.ok s) ∧
    ProductionReturns whirlGraph fasterCalls [CellSet.ofCells ⟨[80]⟩ [3]] (.ok s') ∧
    ∃ (m m' p p' t t' z k k' : Nat → ℚ) (b : ℚ), ∀ v < 4,
      |doubleAt (s'.concentration ⟨[80]⟩) v * doubleAt (s'.timeOfFlightOf ⟨[80]⟩) v
        - doubleAt (s.concentration ⟨[80]⟩) v * doubleAt (s.timeOfFlightOf ⟨[80]⟩) v|
      ≤ (4 / 3 - 1) * (z v + 2 * k v + 2 * b * t v) + 1 / 1000000000 * (p v + p' v)
        + (3 * 10 / 1000000000 + 200 * 365 * 24 * 60 * 60 / 1000000000000) * (m v + m' v)
        + ((4 * 4 + 8 : Nat) : ℚ) / 2 ^ 51 * (k v + k' v + (3 * 10 + 1) * (t v + t' v)) := by
  obtain ⟨s, hr, b1⟩ := whirl_producerTimes
  obtain ⟨s', h2, b2⟩ := tenAndQuarterIn_spec (n := 4) (i := ⟨[80]⟩)
    (r := productionOutcome whirlGraph fasterCalls noFailure 100 [CellSet.ofCells ⟨[80]⟩ [3]]) (by decide +kernel)
  have hr' := (Fuel.production_returns.mpr ⟨100, h2, by simp⟩).1
  have N := nearly_production exWhirl_valid whirl_ordinary whirl_total.2 whirl_stored hr
  have N' := nearly_production exFaster_valid faster_ordinary faster_total.2 faster_stored hr'
  have c1 := N.sources (show (⟨⟨[80]⟩, [3], fun _ => -2⟩ : WellFlux ℚ) ∈ exWhirl.wells from .tail _ (.head _))
  have c2 := N'.sources (show (⟨⟨[80]⟩, [3], fun _ => -2⟩ : WellFlux ℚ) ∈ exFaster.wells from .tail _ (.head _))
  obtain ⟨m, hm⟩ := (C76_exact N.valid c1 exWhirl.backward.cycleInflow).1
  obtain ⟨m', hm'⟩ := (C76_exact N'.valid c2 exFaster.backward.cycleInflow).1
  obtain ⟨p, hp⟩ := (C76_exact N.valid c1 fun v => exWhirl.pv v * m v).1
  obtain ⟨p', hp'⟩ := (C76_exact N'.valid c2 fun v => exFaster.pv v * m' v).1
  obtain ⟨t, ht⟩ := (C76_exact N.valid c1 exWhirl.backward.total).1
  obtain ⟨t', ht'⟩ := (C76_exact N'.valid c2 exFaster.backward.total).1
  obtain ⟨k, hk⟩ := (C76_exact N.valid c1 fun v => exWhirl.pv v * t v).1
  obtain ⟨k', hk'⟩ := (C76_exact N'.valid c2 fun v => exFaster.pv v * t' v).1
  obtain ⟨z, hz⟩ := (C76_exact N.valid c1 exWhirl.pv).1
  obtain ⟨z', hz'⟩ := (C76_exact N'.valid c2 exFaster.pv).1
  have hz0 := (C76_exact N'.valid c2 exFaster.pv).2.2 (fun v _ => by show (0 : ℚ) ≤ 1; norm_num) z' hz'
  refine ⟨s, s', hr, hr', m, m', p, p', t, t', z, k, k', ∑ v ∈ range 4, z' v,
    C97_time_production_double exWhirl_valid exFaster_valid whirl_ordinary faster_ordinary (by norm_num) faster_near whirl_stored
      faster_stored whirl_noLoop faster_noLoop (.tail _ (.head _)) (.tail _ (.head _)) rfl ⟨_, .head _, rfl⟩ ⟨_, .head _, rfl⟩
      (a := 10) (by norm_num) (by norm_num) whirl_total.2 faster_total.2 hr hr' (fun v hd => b1 v ?_) (fun v hd => b2 v ?_) hm hm' ht
      ht' hp hp' hk hk' hz hz'
      fun v hv => single_le_sum (f := z') (s := range 4) (fun u hu => hz0 u (mem_range.mp hu)) (mem_range.mpr hv)⟩
  · obtain ⟨p, h1, h2⟩ := hd
    exact reach_lt (F := exWhirl.backward) (c1 p h1).1 h2
  · obtain ⟨p, h1, h2⟩ := hd
    exact reach_lt (F := exFaster.backward) (c2 p h1).1 h2

end Verif.Props
