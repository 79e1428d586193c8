/-
C101 in flow with cycles: times of flight where a cell is left, in a grid and in a refinement of it.
-/
import Verif.Props.MeanTime
import Verif.Props.Refine

namespace Verif.Props
open Verif.Spec Verif.Toolbox Verif.Solver Verif.Derived Finset

section flow
variable {K : Type} [Field K] [LinearOrder K] [IsStrictOrderedRing K] {F G : Flow K} {whole last : Nat → Nat} {share : Nat → K}

/-- A field carried by the refined flow is, in the parts through which the cells are left, carried by the flow. -/
theorem _root_.Verif.Spec.Flow.Refined.carries_outlet (hF : F.Valid) (hG : G.Valid) (h : F.Refined whole share G)
    (hsrc : ∀ v < G.n, G.src v = share v * F.src (whole v)) (ho : F.OneOutlet whole last G) (hall : AllShared F.n G.n whole share)
    {starts starts' : List Nat} (hps : ∀ p ∈ starts', p < G.n) (hs : StartParts whole share G.n starts starts') {q q' y : Nat → K}
    (hq : ∀ p < F.n, ∑ u ∈ range G.n with whole u = p, q' u = q p) (hy : G.Carries starts' q' y) :
    F.Carries starts q fun p => y (last p) := by
  refine ⟨fun p hp hd => ?_, fun p hp hd => ?_⟩
  · obtain ⟨hl1, hl2⟩ := ho.part p hp
    exact hy.1 _ hl1 fun hc => hd (by have := (h.downstream hF hG hps hs hl1).mp hc; rwa [hl2] at this)
  obtain ⟨hl1, hl2⟩ := ho.part p hp
  have hlm : last p ∈ (range G.n).filter fun u => whole u = p := mem_filter.mpr ⟨mem_range.mpr hl1, hl2⟩
  have hinner : ∀ y : Nat → K, ∑ v ∈ range G.n with whole v = p, ∑ u ∈ range G.n with whole u = p, y u * G.w u v
      = ∑ u ∈ ((range G.n).filter fun u => whole u = p).erase (last p), y u * G.total u := by
    intro y
    rw [sum_comm, ← add_sum_erase _ _ hlm, sum_eq_zero, zero_add]
    · refine sum_congr rfl fun u hu => ?_
      obtain ⟨h1, h2⟩ := mem_erase.mp hu
      obtain ⟨h2, h3⟩ := mem_filter.mp h2
      rw [← mul_sum, ← ho.stays u (mem_range.mp h2) (by rw [h3]; exact h1), h3]
    · intro v hv
      obtain ⟨h2, h3⟩ := mem_filter.mp hv
      have := ho.ends v (mem_range.mp h2)
      rw [h3] at this
      rw [this, mul_zero]
  have htotal : G.total (last p) = F.total p - F.w p p := by
    have e1 : ∑ v ∈ range G.n with whole v = p, G.total v
        = (∑ v ∈ range G.n with whole v = p, ∑ u ∈ range G.n with whole u = p, 1 * G.w u v) + (F.total p - F.w p p) := by
      have : ∀ v ∈ (range G.n).filter fun v => whole v = p, G.total v
          = (∑ u ∈ range G.n with whole u = p, 1 * G.w u v) + share v * (F.total p - F.w p p) := by
        intro v hv
        obtain ⟨h2, h3⟩ := mem_filter.mp hv
        rw [h.total hsrc (mem_range.mp h2), h3]
        simp only [one_mul]
      rw [sum_congr rfl this, sum_add_distrib, ← sum_mul, hall p hp, one_mul]
    rw [hinner, ← add_sum_erase _ _ hlm] at e1
    simp only [one_mul] at e1
    linarith
  have houter : ∀ v ∈ (range G.n).filter fun v => whole v = p,
      ∑ u ∈ range G.n, y u * G.w u v = (∑ u ∈ range G.n with whole u = p, y u * G.w u v)
        + share v * ∑ r ∈ (range F.n).erase p, y (last r) * F.w r p := by
    intro v hv
    obtain ⟨hvn, hvp⟩ := mem_filter.mp hv
    have hvn := mem_range.mp hvn
    rw [h.fibers, ← add_sum_erase _ _ (mem_range.mpr hp), mul_sum]
    congr 1
    refine sum_congr rfl fun r hr => ?_
    obtain ⟨hrp, hrn⟩ := mem_erase.mp hr
    have hrn := mem_range.mp hrn
    obtain ⟨a1, a2⟩ := ho.part r hrn
    have hone : ∀ y : Nat → K, ∑ u ∈ range G.n with whole u = r, y u * G.w u v = y (last r) * G.w (last r) v := by
      intro y
      refine sum_eq_single_of_mem _ (mem_filter.mpr ⟨mem_range.mpr a1, a2⟩) fun u hu hne => ?_
      obtain ⟨h2, h3⟩ := mem_filter.mp hu
      rw [ho.leaves u (mem_range.mp h2) v hvn (by rw [h3, hvp]; exact hrp) (by rw [h3]; exact hne), mul_zero]
    have hw : G.w (last r) v = share v * F.w r p := by
      have := h.flux v hvn r hrn (by rw [hvp]; exact hrp)
      rw [hvp] at this
      rw [← this]
      have h1 := hone fun _ => 1
      simp only [one_mul] at h1
      exact h1.symm
    rw [hone, hw]
    ring
  have e2 : ∑ v ∈ range G.n with whole v = p, y v * G.total v
      = (∑ u ∈ ((range G.n).filter fun u => whole u = p).erase (last p), y u * G.total u)
        + ∑ r ∈ (range F.n).erase p, y (last r) * F.w r p + q p := by
    have : ∀ v ∈ (range G.n).filter fun v => whole v = p, y v * G.total v
        = (∑ u ∈ range G.n with whole u = p, y u * G.w u v) + share v * (∑ r ∈ (range F.n).erase p, y (last r) * F.w r p) + q' v := by
      intro v hv
      obtain ⟨hvn, hvp⟩ := mem_filter.mp hv
      have hvn' := mem_range.mp hvn
      have := hy.2 v hvn' ((h.downstream hF hG hps hs hvn').mpr (by rw [hvp]; exact hd))
      rw [← houter v hv]
      linarith
    rw [sum_congr rfl this, sum_add_distrib, sum_add_distrib, ← sum_mul, hall p hp, one_mul, hinner, hq p hp]
  rw [← add_sum_erase _ _ hlm, htotal] at e2
  rw [← add_sum_erase (range F.n) (fun r => y (last r) * F.w r p) (mem_range.mpr hp)]
  linear_combination e2

/-- The exact products of concentration and time agree where a cell is left. -/
theorem _root_.Verif.Spec.Flow.Refined.same_time {wells wells' : List (WellFlux K)} {cs : WellFlux K → List Nat}
    {f : WellFlux K → Nat → K} (h : F.Refined whole share G) (hF : F.Valid) (hG : G.Valid)
    (hsrc : ∀ v < G.n, G.src v = share v * F.src (whole v)) (ho : F.OneOutlet whole last G) (hall : AllShared F.n G.n whole share)
    (hpv : ∀ p < F.n, ∑ u ∈ range G.n with whole u = p, G.pv u = F.pv p)
    (S : Side wells cs f F.n F.src) (S' : Side wells' cs f G.n G.src) {w w' : WellFlux K} (hw : w ∈ wells) (hw' : w' ∈ wells')
    (hin : ∀ v < G.n, injected (cs w') (f w') v = share v * injected (cs w) (f w) (whole v)) {x y q r : Nat → K}
    (hx : F.Carries (cs w) (injected (cs w) (f w)) x) (hy : G.Carries (cs w') (injected (cs w') (f w')) y)
    (hq : F.Carries (cs w) (fun v => F.pv v * x v) q) (hr : G.Carries (cs w') (fun v => G.pv v * y v) r) :
    ∀ p < F.n, r (last p) = q p := by
  have e := h.same hF hG hsrc S S' hw hw' hin hx hy
  refine (C76_exact hF (side_sources S hw) _).2.1 _ _
    (h.carries_outlet hF hG hsrc ho hall (S'.range w' hw') (h.starts S S' hw hw' hin) (fun p hp => ?_) hr) hq
  rw [← hpv p hp, sum_mul]
  refine sum_congr rfl fun u hu => ?_
  obtain ⟨h1, h2⟩ := mem_filter.mp hu
  rw [e u (mem_range.mp h1), h2]

end flow

section exact
variable {K : Type} [Field K] [LinearOrder K] [IsStrictOrderedRing K] [Archimedean K] {whole last : Nat → Nat} {share : Nat → K}

theorem Diag.refined_time_cyclic {F G : Flow K} {wells wells' : List (WellFlux K)} {cs : WellFlux K → List Nat}
    {f : WellFlux K → Nat → K} {starts starts' : List CellSet} {sol sol' : Solution (X K)} (D : Diag F wells cs f starts sol)
    (D' : Diag G wells' cs f starts' sol') (h : F.Refined whole share G) (hsrc : ∀ v < G.n, G.src v = share v * F.src (whole v))
    (ho : F.OneOutlet whole last G) (hall : AllShared F.n G.n whole share)
    (hpv : ∀ p < F.n, ∑ u ∈ Finset.range G.n with whole u = p, G.pv u = F.pv p)
    (hself : ∀ v < F.n, ¬ F.Loop v) (hself' : ∀ v < G.n, ¬ G.Loop v)
    {w w' : WellFlux K} (hw : w ∈ wells) (hw' : w' ∈ wells') (hs : ∃ s ∈ starts, s.id = w.id) (hs' : ∃ s ∈ starts', s.id = w'.id)
    (hin : ∀ v < G.n, injected (cs w') (f w') v = share v * injected (cs w) (f w) (whole v)) {a : K} (ha0 : 0 ≤ a) (ha : a < cap)
    (hta : ∀ v < F.n, valueAt (sol.timeOfFlightOf w.id) v ≤ a) (hta' : ∀ v < G.n, valueAt (sol'.timeOfFlightOf w'.id) v ≤ a)
    {m m' p p' : Nat → K} (hm : F.Carries (cs w) F.cycleInflow m) (hm' : G.Carries (cs w') G.cycleInflow m')
    (hp : F.Carries (cs w) (fun v => F.pv v * m v) p) (hp' : G.Carries (cs w') (fun v => G.pv v * m' v) p') :
    ∀ v < F.n, |valueAt (sol'.concentration w'.id) (last v) * valueAt (sol'.timeOfFlightOf w'.id) (last v)
        - valueAt (sol.concentration w.id) v * valueAt (sol.timeOfFlightOf w.id) v|
      ≤ 1 / 1000000000 * (p v + p' (last v)) + (2 * a / 1000000000 + cap / 1000000000000) * (m v + m' (last v)) := by
  have hF : F.Valid := by obtain ⟨d, st, h1, _⟩ := D.solved; exact h1.valid
  have hG : G.Valid := by obtain ⟨d, st, h1, _⟩ := D'.solved; exact h1.valid
  have hc := side_sources D.side hw
  have hc' := side_sources D'.side hw'
  obtain ⟨x, hx⟩ := (C76_exact hF hc (injected (cs w) (f w))).1
  obtain ⟨y, hy⟩ := (C76_exact hG hc' (injected (cs w') (f w'))).1
  obtain ⟨q, hq⟩ := (C76_exact hF hc fun v => F.pv v * x v).1
  obtain ⟨r, hr⟩ := (C76_exact hG hc' fun v => G.pv v * y v).1
  intro v hv
  have e := h.same_time hF hG hsrc ho hall hpv D.side D'.side hw hw' hin hx hy hq hr v hv
  have b := abs_le.mp (D.well_time hF hself hw hs ha0 ha hta hc (fun p hp => hp) hm hp hx hq hv)
  have b' := abs_le.mp (D'.well_time hG hself' hw' hs' ha0 ha hta' hc' (fun p hp => hp) hm' hp' hy hr (ho.part v hv).1)
  have d := mul_add (2 * a / 1000000000 + cap / 1000000000000) (m v) (m' (last v))
  rw [e] at b'
  rw [abs_le]
  constructor <;> linarith

variable {P Q : Problem K} (hP : P.Valid) (hQ : Q.Valid) {g g' : ConnectivityGraph} {calls calls' : List (Call (X K))}
  (h : P.GivenTo g calls) (h' : Q.GivenTo g' calls') {starts starts' : List CellSet} {sol sol' : Solution (X K)}
  (hall : AllShared P.n Q.n whole share) (hpv : ∀ p < P.n, ∑ u ∈ range Q.n with whole u = p, Q.pv u = P.pv p)
  {w w' : WellFlux K} (hw : w ∈ P.wells) (hw' : w' ∈ Q.wells) (hid : w.id = w'.id) (hs : ∃ s ∈ starts, s.id = w.id)
  (hs' : ∃ s ∈ starts', s.id = w'.id) (hself : ∀ v < P.n, ¬ P.forward.Loop v) (hself' : ∀ v < Q.n, ¬ Q.forward.Loop v)
  {a : K} (ha0 : 0 ≤ a) (ha : a < 200 * 365 * 24 * 60 * 60) (hta : ∀ v < P.n, valueAt (sol.timeOfFlightOf w.id) v ≤ a)
  (hta' : ∀ u < Q.n, valueAt (sol'.timeOfFlightOf w'.id) u ≤ a)
include hP hQ h h' hall hpv hw hw' hid hs hs' hself hself' ha0 ha hta hta'

/-- **C101** (exact arithmetic, any cycles, no cell has a self-connection as its only cycle, no time above `a` < 200 years) If each
    cell is left through one of its parts, then the product of concentration and time of flight of an injector in that part is that
    in the cell, up to the tolerance of the solver in both grids: `1e-9 * p + (2 a * 1e-9 + 200 years * 1e-12) * m`, where `m` is carried
    by the flow when each cell adds the flux it gets from its own cycle, `p` when it adds its pore volume times `m`. -/
theorem C101_time_injection_cyclic (href : P.forward.Refined whole share Q.forward) (hinj : P.InjectsShares whole share Q)
    (hout : P.forward.OneOutlet whole last Q.forward)
    (hret : InjectionReturns g calls starts (.ok sol)) (hret' : InjectionReturns g' calls' starts' (.ok sol')) {m m' p p' : Nat → K}
    (hm : P.forward.Carries (posCells w) P.forward.cycleInflow m) (hm' : Q.forward.Carries (posCells w') Q.forward.cycleInflow m')
    (hp : P.forward.Carries (posCells w) (fun v => P.pv v * m v) p)
    (hp' : Q.forward.Carries (posCells w') (fun v => Q.pv v * m' v) p') :
    ∀ v < P.n, |valueAt (sol'.concentration w'.id) (last v) * valueAt (sol'.timeOfFlightOf w'.id) (last v)
        - valueAt (sol.concentration w.id) v * valueAt (sol.timeOfFlightOf w.id) v|
      ≤ 1 / 1000000000 * (p v + p' (last v))
        + (2 * a / 1000000000 + 200 * 365 * 24 * 60 * 60 / 1000000000000) * (m v + m' (last v)) :=
  (diag_injection hP h hret).refined_time_cyclic (diag_injection hQ h' hret') href hinj.source hout hall hpv hself hself' hw hw' hs hs'
    (hinj.well hQ hw hw' hid) ha0 ha hta hta' hm hm' hp hp'

/-- **C101** The same for production, in the reversed flow: each cell is entered through one of its parts. -/
theorem C101_time_production_cyclic (href : P.backward.Refined whole share Q.backward) (hprod : P.ProducesShares whole share Q)
    (hout : P.backward.OneOutlet whole last Q.backward)
    (hret : ProductionReturns g calls starts (.ok sol)) (hret' : ProductionReturns g' calls' starts' (.ok sol'))
    {m m' p p' : Nat → K} (hm : P.backward.Carries (negCells w) P.backward.cycleInflow m)
    (hm' : Q.backward.Carries (negCells w') Q.backward.cycleInflow m')
    (hp : P.backward.Carries (negCells w) (fun v => P.pv v * m v) p)
    (hp' : Q.backward.Carries (negCells w') (fun v => Q.pv v * m' v) p') :
    ∀ v < P.n, |valueAt (sol'.concentration w'.id) (last v) * valueAt (sol'.timeOfFlightOf w'.id) (last v)
        - valueAt (sol.concentration w.id) v * valueAt (sol.timeOfFlightOf w.id) v|
      ≤ 1 / 1000000000 * (p v + p' (last v))
        + (2 * a / 1000000000 + 200 * 365 * 24 * 60 * 60 / 1000000000000) * (m v + m' (last v)) :=
  (diag_production hP h hret).refined_time_cyclic (diag_production hQ h' hret') href hprod.sink hout hall hpv (backward_not_loop hself)
    (backward_not_loop hself') hw hw' hs hs' (hprod.well hQ hw hw' hid) ha0 ha hta hta' hm hm' hp hp'

end exact

/-! ### Doubles -/

section double
variable {whole last : Nat → Nat} {share : Nat → ℚ}

theorem Nearly.refined_time {F G : Flow ℚ} {wells wells' : List (WellFlux ℚ)} {cs : WellFlux ℚ → List Nat}
    {f : WellFlux ℚ → Nat → ℚ} {starts starts' : List CellSet} {sol sol' : Solution Double} {M : Nat}
    (N : Nearly F wells cs f starts sol M) (N' : Nearly G wells' cs f starts' sol' M) (T : Timely F wells cs starts sol M)
    (T' : Timely G wells' cs starts' sol' M) (h : F.Refined whole share G) (hsrc : ∀ v < G.n, G.src v = share v * F.src (whole v))
    (ho : F.OneOutlet whole last G) (hall : AllShared F.n G.n whole share)
    (hpv : ∀ p < F.n, ∑ u ∈ Finset.range G.n with whole u = p, G.pv u = F.pv p)
    (hself : ∀ v < F.n, ¬ F.Loop v) (hself' : ∀ v < G.n, ¬ G.Loop v) {w w' : WellFlux ℚ} (hw : w ∈ wells) (hw' : w' ∈ wells')
    (hs : ∃ s ∈ starts, s.id = w.id) (hs' : ∃ s ∈ starts', s.id = w'.id)
    (hin : ∀ v < G.n, injected (cs w') (f w') v = share v * injected (cs w) (f w) (whole v))
    {a : ℚ} (ha0 : 0 ≤ a) (ha : a < 200 * 365 * 24 * 60 * 60)
    (hta : ∀ v, F.Downstream (cs w) v → doubleAt (sol.timeOfFlightOf w.id) v ≤ a ∧ 1 / 2 ^ 300 ≤ doubleAt (sol.concentration w.id) v)
    (hta' : ∀ v, G.Downstream (cs w') v → doubleAt (sol'.timeOfFlightOf w'.id) v ≤ a ∧
      1 / 2 ^ 300 ≤ doubleAt (sol'.concentration w'.id) v) {m m' t t' p p' k k' : Nat → ℚ}
    (hm : F.Carries (cs w) F.cycleInflow m) (hm' : G.Carries (cs w') G.cycleInflow m') (ht : F.Carries (cs w) F.total t)
    (ht' : G.Carries (cs w') G.total t')
    (hp : F.Carries (cs w) (fun v => F.pv v * m v) p) (hp' : G.Carries (cs w') (fun v => G.pv v * m' v) p')
    (hk : F.Carries (cs w) (fun v => F.pv v * t v) k) (hk' : G.Carries (cs w') (fun v => G.pv v * t' v) k') :
    ∀ v < F.n, |doubleAt (sol'.concentration w'.id) (last v) * doubleAt (sol'.timeOfFlightOf w'.id) (last v)
        - doubleAt (sol.concentration w.id) v * doubleAt (sol.timeOfFlightOf w.id) v|
      ≤ 1 / 1000000000 * (p v + p' (last v))
        + (3 * a / 1000000000 + 200 * 365 * 24 * 60 * 60 / 1000000000000) * (m v + m' (last v))
        + ((4 * M + 8 : Nat) : ℚ) / 2 ^ 51 * (k v + k' (last v) + (3 * a + 1) * (t v + t' (last v))) := by
  obtain ⟨x, hx⟩ := (C76_exact N.valid (N.sources hw) (injected (cs w) (f w))).1
  obtain ⟨y, hy⟩ := (C76_exact N'.valid (N'.sources hw') (injected (cs w') (f w'))).1
  obtain ⟨q, hq⟩ := (C76_exact N.valid (N.sources hw) fun v => F.pv v * x v).1
  obtain ⟨r, hr⟩ := (C76_exact N'.valid (N'.sources hw') fun v => G.pv v * y v).1
  intro v hv
  have e := h.same_time N.valid N'.valid hsrc ho hall hpv N.side N'.side hw hw' hin hx hy hq hr v hv
  have b := abs_le.mp (N.well_time T hself hw hs ha0 ha (fun v hd => (hta v hd).1) (fun v hd => (hta v hd).2) (N.sources hw)
    (fun p hp => hp) hm ht hp hk hx hq hv)
  have b' := abs_le.mp (N'.well_time T' hself' hw' hs' ha0 ha (fun v hd => (hta' v hd).1) (fun v hd => (hta' v hd).2) (N'.sources hw')
    (fun p hp => hp) hm' ht' hp' hk' hy hr (ho.part v hv).1)
  have d := mul_add (3 * a / 1000000000 + 200 * 365 * 24 * 60 * 60 / 1000000000000) (m v) (m' (last v))
  have d' : ((4 * M + 8 : Nat) : ℚ) / 2 ^ 51 * (k v + k' (last v) + (3 * a + 1) * (t v + t' (last v)))
      = ((4 * M + 8 : Nat) : ℚ) / 2 ^ 51 * (k v + (3 * a + 1) * t v)
        + ((4 * M + 8 : Nat) : ℚ) / 2 ^ 51 * (k' (last v) + (3 * a + 1) * t' (last v)) := by ring
  rw [e] at b'
  rw [abs_le]
  constructor <;> linarith

variable {P Q : Problem ℚ} (hP : P.Valid) (hQ : Q.Valid) {M : Nat} (hO : P.OfOrdinarySize M)
  (hO' : Q.OfOrdinarySize M) {g g' : ConnectivityGraph} {calls calls' : List (Call Double)}
  (h : P.StoredIn g calls) (h' : Q.StoredIn g' calls') (hself : ∀ v < P.n, ¬ P.forward.Loop v)
  (hself' : ∀ v < Q.n, ¬ Q.forward.Loop v) (hall : AllShared P.n Q.n whole share)
  (hpv : ∀ p < P.n, ∑ u ∈ range Q.n with whole u = p, Q.pv u = P.pv p)
  {w w' : WellFlux ℚ} (hw : w ∈ P.wells) (hw' : w' ∈ Q.wells) (hid : w.id = w'.id)
  {starts starts' : List CellSet} {sol sol' : Solution Double} (hs : ∃ s ∈ starts, s.id = w.id) (hs' : ∃ s ∈ starts', s.id = w'.id)
  {a : ℚ} (ha0 : 0 ≤ a) (ha : a < 200 * 365 * 24 * 60 * 60)
include hP hQ hO hO' h h' hself hself' hall hpv hw hw' hid hs hs' ha0 ha

/-- **C101** (doubles, any cycles, no time above `a` < 200 years and no concentration below 2^-300 downstream) The same with rounding
    errors, where `t` and `k` are carried by the flow when each cell adds its total flux and its pore volume times `t`. -/
theorem C101_time_injection_double (href : P.forward.Refined whole share Q.forward) (hinj : P.InjectsShares whole share Q)
    (hout : P.forward.OneOutlet whole last Q.forward)
    (htotal : ∀ v < P.n, P.forward.total v ≤ 2 ^ 100) (htotal' : ∀ v < Q.n, Q.forward.total v ≤ 2 ^ 100)
    (hret : InjectionReturns g calls starts (.ok sol)) (hret' : InjectionReturns g' calls' starts' (.ok sol'))
    (hta : ∀ v, P.forward.Downstream (posCells w) v → doubleAt (sol.timeOfFlightOf w.id) v ≤ a ∧
      1 / 2 ^ 300 ≤ doubleAt (sol.concentration w.id) v)
    (hta' : ∀ u, Q.forward.Downstream (posCells w') u → doubleAt (sol'.timeOfFlightOf w'.id) u ≤ a ∧
      1 / 2 ^ 300 ≤ doubleAt (sol'.concentration w'.id) u) {m m' t t' p p' k k' : Nat → ℚ}
    (hm : P.forward.Carries (posCells w) P.forward.cycleInflow m) (hm' : Q.forward.Carries (posCells w') Q.forward.cycleInflow m')
    (ht : P.forward.Carries (posCells w) P.forward.total t) (ht' : Q.forward.Carries (posCells w') Q.forward.total t')
    (hp : P.forward.Carries (posCells w) (fun v => P.pv v * m v) p)
    (hp' : Q.forward.Carries (posCells w') (fun v => Q.pv v * m' v) p')
    (hk : P.forward.Carries (posCells w) (fun v => P.pv v * t v) k)
    (hk' : Q.forward.Carries (posCells w') (fun v => Q.pv v * t' v) k') :
    ∀ v < P.n, |doubleAt (sol'.concentration w'.id) (last v) * doubleAt (sol'.timeOfFlightOf w'.id) (last v)
        - doubleAt (sol.concentration w.id) v * doubleAt (sol.timeOfFlightOf w.id) v|
      ≤ 1 / 1000000000 * (p v + p' (last v))
        + (3 * a / 1000000000 + 200 * 365 * 24 * 60 * 60 / 1000000000000) * (m v + m' (last v))
        + ((4 * M + 8 : Nat) : ℚ) / 2 ^ 51 * (k v + k' (last v) + (3 * a + 1) * (t v + t' (last v))) :=
  (nearly_injection hP hO htotal h hret).refined_time (nearly_injection hQ hO' htotal' h' hret') (timely_injection hP hO htotal h hret)
    (timely_injection hQ hO' htotal' h' hret') href hinj.source hout hall hpv hself hself' hw hw' hs hs' (hinj.well hQ hw hw' hid)
    ha0 ha hta hta' hm hm' ht ht' hp hp' hk hk'

/-- **C101** The same for production, in the reversed flow: each cell is entered through one of its parts. -/
theorem C101_time_production_double (href : P.backward.Refined whole share Q.backward) (hprod : P.ProducesShares whole share Q)
    (hout : P.backward.OneOutlet whole last Q.backward)
    (htotal : ∀ v < P.n, P.backward.total v ≤ 2 ^ 100) (htotal' : ∀ v < Q.n, Q.backward.total v ≤ 2 ^ 100)
    (hret : ProductionReturns g calls starts (.ok sol)) (hret' : ProductionReturns g' calls' starts' (.ok sol'))
    (hta : ∀ v, P.backward.Downstream (negCells w) v → doubleAt (sol.timeOfFlightOf w.id) v ≤ a ∧
      1 / 2 ^ 300 ≤ doubleAt (sol.concentration w.id) v)
    (hta' : ∀ u, Q.backward.Downstream (negCells w') u → doubleAt (sol'.timeOfFlightOf w'.id) u ≤ a ∧
      1 / 2 ^ 300 ≤ doubleAt (sol'.concentration w'.id) u) {m m' t t' p p' k k' : Nat → ℚ}
    (hm : P.backward.Carries (negCells w) P.backward.cycleInflow m) (hm' : Q.backward.Carries (negCells w') Q.backward.cycleInflow m')
    (ht : P.backward.Carries (negCells w) P.backward.total t) (ht' : Q.backward.Carries (negCells w') Q.backward.total t')
    (hp : P.backward.Carries (negCells w) (fun v => P.pv v * m v) p)
    (hp' : Q.backward.Carries (negCells w') (fun v => Q.pv v * m' v) p')
    (hk : P.backward.Carries (negCells w) (fun v => P.pv v * t v) k)
    (hk' : Q.backward.Carries (negCells w') (fun v => Q.pv v * t' v) k') :
    ∀ v < P.n, |doubleAt (sol'.concentration w'.id) (last v) * doubleAt (sol'.timeOfFlightOf w'.id) (last v)
        - doubleAt (sol.concentration w.id) v * doubleAt (sol.timeOfFlightOf w.id) v|
      ≤ 1 / 1000000000 * (p v + p' (last v))
        + (3 * a / 1000000000 + 200 * 365 * 24 * 60 * 60 / 1000000000000) * (m v + m' (last v))
        + ((4 * M + 8 : Nat) : ℚ) / 2 ^ 51 * (k v + k' (last v) + (3 * a + 1) * (t v + t' (last v))) :=
  (nearly_production hP hO htotal h hret).refined_time (nearly_production hQ hO' htotal' h' hret') (timely_production hP hO htotal h hret)
    (timely_production hQ hO' htotal' h' hret') href hprod.sink hout hall hpv (backward_not_loop hself) (backward_not_loop hself') hw hw'
    hs hs' (hprod.well hQ hw hw' hid) ha0 ha hta hta' hm hm' ht ht' hp hp' hk hk'

end double

/-! ### A concrete case: a cell on a cycle is divided in two, each with half of its pore volume -/

/-- `exWhirl` with the pore volume 2 in cell 2. -/
def exHeavy : Problem ℚ := exWhirl.withPoreVolume fun v => if v = 2 then 2 else 1

def heavyLast (p : Nat) : Nat := if p = 2 then 4 else p

theorem heavy_valid : exHeavy.Valid :=
  { exWhirl_valid with pv := fun v _ => by show (0 : ℚ) ≤ if v = 2 then 2 else 1; split <;> norm_num }

theorem heavy_refined : exHeavy.forward.Refined whirlWhole whirlShare exWhirlFine.forward :=
  ⟨whirlFine_refined.1.cell, whirlFine_refined.1.share_nonneg, whirlFine_refined.1.flux, whirlFine_refined.1.fed⟩

theorem heavy_outlet : exHeavy.forward.OneOutlet whirlWhole heavyLast exWhirlFine.forward where
  part p hp := by
    have hp : p < 4 := hp
    show heavyLast p < 5 ∧ _
    unfold heavyLast whirlWhole
    interval_cases p <;> decide
  leaves u hu v hv := by
    have hu : u < 5 := hu
    have hv : v < 5 := hv
    show whirlWhole u ≠ whirlWhole v → _ → exWhirlFine.flux u v = 0
    rw [whirlFine_flux u hu v hv]
    unfold whirlWhole heavyLast
    interval_cases u <;> interval_cases v <;> simp
  stays u hu := by
    have hu : u < 5 := hu
    intro hne
    have h2 : u = 2 := by
      revert hne
      unfold whirlWhole heavyLast
      interval_cases u <;> simp
    subst h2
    have hw : ∀ a < 5, ∀ b < 5, exWhirlFine.forward.w a b = exWhirlFine.flux a b := fun _ _ _ _ => rfl
    have hsrc : exWhirlFine.forward.src 2 = 0 := by
      show exWhirlFine.source 2 = 0
      unfold Problem.source exWhirlFine Problem.wellAt
      simp
    rw [show exWhirlFine.forward.n = 5 from rfl, show whirlWhole 2 = 2 from rfl, whirlFine_parts _ (by decide)]
    unfold Flow.total Flow.inflow
    rw [show exWhirlFine.forward.n = 5 from rfl, hsrc]
    simp only [sum_range_succ, sum_range_zero]
    rw [hw 2 (by decide) 2 (by decide), hw 2 (by decide) 4 (by decide), hw 0 (by decide) 2 (by decide), hw 1 (by decide) 2 (by decide),
      hw 3 (by decide) 2 (by decide), hw 4 (by decide) 2 (by decide)]
    simp only [whirlFine_flux 2 (by decide) 2 (by decide), whirlFine_flux 2 (by decide) 4 (by decide),
      whirlFine_flux 0 (by decide) 2 (by decide), whirlFine_flux 1 (by decide) 2 (by decide),
      whirlFine_flux 3 (by decide) 2 (by decide), whirlFine_flux 4 (by decide) 2 (by decide)]
    norm_num
  ends v hv := by
    have hv : v < 5 := hv
    show exWhirlFine.flux (heavyLast (whirlWhole v)) v = 0
    have hl : heavyLast (whirlWhole v) < 5 := by unfold heavyLast whirlWhole; interval_cases v <;> decide
    rw [whirlFine_flux _ hl v hv]
    unfold whirlWhole heavyLast
    interval_cases v <;> simp

theorem heavy_shared : AllShared exHeavy.n exWhirlFine.n whirlWhole whirlShare := fun p hp => by
  have hp : p < 4 := hp
  rw [show exWhirlFine.n = 5 from rfl, whirlFine_parts _ hp]
  unfold whirlShare
  interval_cases p <;> simp

theorem heavy_pv : ∀ p < exHeavy.n, ∑ u ∈ range exWhirlFine.n with whirlWhole u = p, exWhirlFine.pv u = exHeavy.pv p := fun p hp => by
  have hp : p < 4 := hp
  rw [show exWhirlFine.n = 5 from rfl, whirlFine_parts _ hp]
  show (1 : ℚ) + (if p = 2 then 1 else 0) = if p = 2 then 2 else 1
  split <;> norm_num

def heavyExact : List (Call (X ℚ)) :=
  [.assignPoreVolume [Arith.lit 1, Arith.lit 1, Arith.lit 2, Arith.lit 1],
   .assignConnectionFlux ⟨4, 1, [Arith.lit 2, Arith.lit 3, Arith.lit 3, Arith.lit 1]⟩,
   .assignInflowFlux [(⟨[65]⟩, [(0, Arith.lit 2)]), (⟨[80]⟩, [(3, Arith.lit (-2))])]]

theorem heavyExact_given : exHeavy.GivenTo whirlGraph heavyExact where
  graph := whirl_stored.graph
  pv := rfl
  flux := by
    refine ⟨_, rfl, rfl, rfl, ?_⟩
    intro c hc p hp
    have hp : p = 0 := by have : p < 1 := hp; omega
    subst hp
    have hc : c < 4 := hc
    interval_cases c <;> rfl
  inflow := Or.inl rfl

def whirlFineExact : List (Call (X ℚ)) :=
  [.assignPoreVolume [Arith.lit 1, Arith.lit 1, Arith.lit 1, Arith.lit 1, Arith.lit 1],
   .assignConnectionFlux ⟨5, 1, [Arith.lit 2, Arith.lit 3, Arith.lit 3, Arith.lit 3, Arith.lit 1]⟩,
   .assignInflowFlux [(⟨[65]⟩, [(0, Arith.lit 2)]), (⟨[80]⟩, [(3, Arith.lit (-2))])]]

theorem whirlFineExact_given : exWhirlFine.GivenTo whirlFineGraph whirlFineExact where
  graph := whirlFine_stored.graph
  pv := rfl
  flux := by
    refine ⟨_, rfl, rfl, rfl, ?_⟩
    intro c hc p hp
    have hp : p = 0 := by have : p < 1 := hp; omega
    subst hp
    have hc : c < 5 := hc
    interval_cases c <;> rfl
  inflow := Or.inl rfl

/-- In the first five cells all times of well `i` are at most `a`. -/
def belowInFive (i : CellSetID) (a : ℚ) : Res (Solution (X ℚ)) → Bool
  | .ok s => (List.range 5).all fun v => decide (valueAt (s.timeOfFlightOf i) v ≤ a)
  | _ => false

theorem belowInFive_spec {i : CellSetID} {a : ℚ} {r : Res (Solution (X ℚ))} (h : belowInFive i a r = true) :
    ∃ s, r = .ok s ∧ ∀ v < 5, valueAt (s.timeOfFlightOf i) v ≤ a := by
  unfold belowInFive at h
  split at h
  · refine ⟨_, rfl, fun v hv => ?_⟩
    have := List.all_eq_true.mp h v (List.mem_range.mpr hv)
    simpa using this
  · cases h

set_option maxRecDepth 100000 in
/-- C101, times, exact arithmetic: the second half of cell 2 against the cell. -/
example : ∃ s s', InjectionReturns whirlGraph heavyExact [CellSet.ofCells ⟨[65]⟩ [0]] (.ok s) ∧
    InjectionReturns whirlFineGraph whirlFineExact [CellSet.ofCells ⟨[65]⟩ [0]] (.ok s') ∧
    ∃ m m' p p' : Nat → ℚ, |valueAt (s'.concentration ⟨[65]⟩) 4 * valueAt (s'.timeOfFlightOf ⟨[65]⟩) 4
        - valueAt (s.concentration ⟨[65]⟩) 2 * valueAt (s.timeOfFlightOf ⟨[65]⟩) 2|
      ≤ 1 / 1000000000 * (p 2 + p' 4) + (2 * 5 / 1000000000 + 200 * 365 * 24 * 60 * 60 / 1000000000000) * (m 2 + m' 4) := by
  obtain ⟨s, h1, b1⟩ := belowInFive_spec (i := ⟨[65]⟩) (a := 5)
    (r := injectionOutcome whirlGraph heavyExact noFailure 100 [CellSet.ofCells ⟨[65]⟩ [0]]) (by decide +kernel)
  obtain ⟨s', h2, b2⟩ := belowInFive_spec (i := ⟨[65]⟩) (a := 5)
    (r := injectionOutcome whirlFineGraph whirlFineExact noFailure 100 [CellSet.ofCells ⟨[65]⟩ [0]]) (by decide +kernel)
  have hr := (Fuel.injection_returns.mpr ⟨100, h1, by simp⟩).1
  have hr' := (Fuel.injection_returns.mpr ⟨100, h2, by simp⟩).1
  have c1 := side_sources (diag_injection heavy_valid heavyExact_given hr).side
    (show (⟨⟨[65]⟩, [0], fun _ => 2⟩ : WellFlux ℚ) ∈ exHeavy.wells from .head _)
  have c2 := side_sources (diag_injection whirlFine_valid whirlFineExact_given hr').side
    (show (⟨⟨[65]⟩, [0], fun _ => 2⟩ : WellFlux ℚ) ∈ exWhirlFine.wells from .head _)
  have f1 := diag_injection heavy_valid heavyExact_given hr
  have hF : exHeavy.forward.Valid := by obtain ⟨_, _, h, _⟩ := f1.solved; exact h.valid
  have f2 := diag_injection whirlFine_valid whirlFineExact_given hr'
  have hG : exWhirlFine.forward.Valid := by obtain ⟨_, _, h, _⟩ := f2.solved; exact h.valid
  obtain ⟨m, hm⟩ := (C76_exact hF c1 exHeavy.forward.cycleInflow).1
  obtain ⟨m', hm'⟩ := (C76_exact hG c2 exWhirlFine.forward.cycleInflow).1
  obtain ⟨p, hp⟩ := (C76_exact hF c1 fun v => exHeavy.pv v * m v).1
  obtain ⟨p', hp'⟩ := (C76_exact hG c2 fun v => exWhirlFine.pv v * m' v).1
  exact ⟨s, s', hr, hr', m, m', p, p', C101_time_injection_cyclic heavy_valid whirlFine_valid heavyExact_given whirlFineExact_given
    heavy_shared heavy_pv (.head _) (.head _) rfl ⟨_, .head _, rfl⟩ ⟨_, .head _, rfl⟩ whirl_noLoop whirlFine_noLoop
    (a := 5) (by norm_num) (by norm_num) (fun v hv => b1 v (by have : v < 4 := hv; omega)) b2 heavy_refined whirlFine_shares.1 heavy_outlet
    hr hr' hm hm' hp hp' 2 (by decide)⟩

def heavyCalls : List (Call Double) :=
  [.assignPoreVolume [Arith.lit 1, Arith.lit 1, Arith.lit 2, Arith.lit 1],
   .assignConnectionFlux ⟨4, 1, [Arith.lit 2, Arith.lit 3, Arith.lit 3, Arith.lit 1]⟩,
   .assignInflowFlux [(⟨[65]⟩, [(0, Arith.lit 2)]), (⟨[80]⟩, [(3, Arith.lit (-2))])]]

theorem heavy_stored : exHeavy.StoredIn whirlGraph heavyCalls where
  graph := whirl_stored.graph
  pv := ⟨_, rfl, by decide +kernel⟩
  flux := whirl_stored.flux
  inflow := whirl_stored.inflow

theorem heavy_ordinary : exHeavy.OfOrdinarySize 5 where
  flux := whirl_ordinary.flux
  well := whirl_ordinary.well
  pv v _ := by
    right
    show (_ : ℚ) ≤ |if v = 2 then 2 else 1| ∧ |(if v = 2 then 2 else 1 : ℚ)| ≤ _
    split <;> norm_num
  degree v := (whirl_ordinary.degree v).trans (by decide)
  wells v := (whirl_ordinary.wells v).trans (by decide)
  bound := by norm_num

/-- In the first `n` cells all times of well `i` are at most ten and all its concentrations at least a quarter. -/
def tenAndQuarterIn (n : Nat) (i : CellSetID) : Res (Solution Double) → Bool
  | .ok s => (List.range n).all fun v => decide (doubleAt (s.timeOfFlightOf i) v ≤ 10) && decide (1 / 4 ≤ doubleAt (s.concentration i) v)
  | _ => false

theorem tenAndQuarterIn_spec {n : Nat} {i : CellSetID} {r : Res (Solution Double)} (h : tenAndQuarterIn n i r = true) :
    ∃ s, r = .ok s ∧ ∀ v < n, doubleAt (s.timeOfFlightOf i) v ≤ 10 ∧ 1 / 2 ^ 300 ≤ doubleAt (s.concentration i) v := by
  have small : (1 : ℚ) / 2 ^ 300 ≤ 1 / 4 :=
    one_div_le_one_div_of_le (by norm_num) (le_trans (by norm_num) (pow_le_pow_right₀ one_le_two (show 2 ≤ 300 by norm_num)))
  unfold tenAndQuarterIn at h
  split at h
  · rename_i s
    refine ⟨s, rfl, fun v hv => ?_⟩
    have := List.all_eq_true.mp h v (List.mem_range.mpr hv)
    rw [Bool.and_eq_true, decide_eq_true_eq, decide_eq_true_eq] at this
    exact ⟨this.1, small.trans this.2⟩
  · cases h

set_option maxRecDepth 100000 in
/-- C101, times, doubles. -/
example : ∃ s s', InjectionReturns whirlGraph heavyCalls [CellSet.ofCells ⟨[65]⟩ [0]] (.ok s) ∧
    InjectionReturns whirlFineGraph whirlFineCalls [CellSet.ofCells ⟨[65]⟩ [0]] (.ok s') ∧
    ∃ m m' t t' p p' k k' : Nat → ℚ, |doubleAt (s'.concentration ⟨[65]⟩) 4 * doubleAt (s'.timeOfFlightOf ⟨[65]⟩) 4
        - doubleAt (s.concentration ⟨[65]⟩) 2 * doubleAt (s.timeOfFlightOf ⟨[65]⟩) 2|
      ≤ 1 / 1000000000 * (p 2 + p' 4) + (3 * 10 / 1000000000 + 200 * 365 * 24 * 60 * 60 / 1000000000000) * (m 2 + m' 4)
        + ((4 * 5 + 8 : Nat) : ℚ) / 2 ^ 51 * (k 2 + k' 4 + (3 * 10 + 1) * (t 2 + t' 4)) := by
  obtain ⟨s, h1, b1⟩ := tenAndQuarterIn_spec (n := 4) (i := ⟨[65]⟩)
    (r := injectionOutcome whirlGraph heavyCalls noFailure 100 [CellSet.ofCells ⟨[65]⟩ [0]]) (by decide +kernel)
  obtain ⟨s', h2, b2⟩ := tenAndQuarterIn_spec (n := 5) (i := ⟨[65]⟩)
    (r := injectionOutcome whirlFineGraph whirlFineCalls noFailure 100 [CellSet.ofCells ⟨[65]⟩ [0]]) (by decide +kernel)
  have hr := (Fuel.injection_returns.mpr ⟨100, h1, by simp⟩).1
  have hr' := (Fuel.injection_returns.mpr ⟨100, h2, by simp⟩).1
  have N := nearly_injection heavy_valid heavy_ordinary whirl_total.1 heavy_stored hr
  have N' := nearly_injection whirlFine_valid whirlFine_ordinary whirlFine_total.1 whirlFine_stored hr'
  have c1 := N.sources (show (⟨⟨[65]⟩, [0], fun _ => 2⟩ : WellFlux ℚ) ∈ exHeavy.wells from .head _)
  have c2 := N'.sources (show (⟨⟨[65]⟩, [0], fun _ => 2⟩ : WellFlux ℚ) ∈ exWhirlFine.wells from .head _)
  obtain ⟨m, hm⟩ := (C76_exact N.valid c1 exHeavy.forward.cycleInflow).1
  obtain ⟨m', hm'⟩ := (C76_exact N'.valid c2 exWhirlFine.forward.cycleInflow).1
  obtain ⟨t, ht⟩ := (C76_exact N.valid c1 exHeavy.forward.total).1
  obtain ⟨t', ht'⟩ := (C76_exact N'.valid c2 exWhirlFine.forward.total).1
  obtain ⟨p, hp⟩ := (C76_exact N.valid c1 fun v => exHeavy.pv v * m v).1
  obtain ⟨p', hp'⟩ := (C76_exact N'.valid c2 fun v => exWhirlFine.pv v * m' v).1
  obtain ⟨k, hk⟩ := (C76_exact N.valid c1 fun v => exHeavy.pv v * t v).1
  obtain ⟨k', hk'⟩ := (C76_exact N'.valid c2 fun v => exWhirlFine.pv v * t' v).1
  refine ⟨s, s', hr, hr', m, m', t, t', p, p', k, k', C101_time_injection_double heavy_valid whirlFine_valid heavy_ordinary
    whirlFine_ordinary heavy_stored whirlFine_stored whirl_noLoop whirlFine_noLoop heavy_shared heavy_pv
    (w := ⟨⟨[65]⟩, [0], fun _ => 2⟩) (w' := ⟨⟨[65]⟩, [0], fun _ => 2⟩) (.head _) (.head _) rfl
    ⟨_, .head _, rfl⟩ ⟨_, .head _, rfl⟩ (a := 10) (by norm_num) (by norm_num) heavy_refined whirlFine_shares.1 heavy_outlet
    whirl_total.1 whirlFine_total.1 hr hr' (fun v hd => b1 v ?_) (fun v hd => b2 v ?_) hm hm' ht ht' hp hp' hk hk' 2 (by decide)⟩
  · obtain ⟨p, h1, h2⟩ := hd
    exact reach_lt (F := exHeavy.forward) (c1 p h1).1 h2
  · obtain ⟨p, h1, h2⟩ := hd
    exact reach_lt (F := exWhirlFine.forward) (c2 p h1).1 h2

end Verif.Props
