/-
C70-C73: laws that relate the computed fields to each other and to the fields of other flow problems.
Exact arithmetic, cycle-free flow.
-/
import Verif.Props.Pairs

namespace Verif.Props
open Verif.Spec Verif.Toolbox Verif.Solver Verif.Derived Finset

variable {K : Type} [Field K] [LinearOrder K] [IsStrictOrderedRing K] [Archimedean K]

/-! ### C70: the global time-of-flight is the mean of the times-of-flight of the wells -/

section solver
variable {F : Flow K} {d : SolverData (X K)} {st : SolverState (X K)}

omit [IsStrictOrderedRing K] [Archimedean K] in
/-- What a cell not downstream of the start cells receives from cells downstream of them. -/
theorem facts_off {V start : Nat → Prop} {inj τ c : Nat → K} (hf : Facts F V start inj τ c) (hw : F.Valid)
    (hV : ∀ u v, V u → F.Edge u v → V v) {v : Nat} (hv : v < F.n) (hn : ¬ V v) (q : Nat → K) :
    ∑ u ∈ range F.n, q u * c u * F.w u v = 0 := by
  apply sum_eq_zero
  intro u hu
  have hun := mem_range.mp hu
  rcases (hw.w_nonneg u v hun hv).lt_or_eq with h | h
  · rw [hf.off u fun hu => hn (hV u v hu ⟨hun, hv, h⟩)]; ring
  · rw [← h]; ring

omit [IsStrictOrderedRing K] [Archimedean K] in
theorem downstream_edge {starts : List Nat} {u v : Nat} (h : F.Downstream starts u) (e : F.Edge u v) :
    F.Downstream starts v := by
  obtain ⟨p, hp, hr⟩ := h
  exact ⟨p, hp, hr.tail e⟩

variable {m : Nat} {starts : Fin m → List Nat} {ls : Fin m → Nat → K} {sol : Fin m → LocalSolution (X K)}

/-- **C70** If the start values of all tracers add up to the sources, the mean of the times-of-flight of the tracers, weighted
    with the concentrations, is the global time-of-flight, as long as none of them is 200 years; it is never more. -/
theorem C70_mean (h : SolverFor F d st) (hacy : F.Acyclic) (hp : ∀ k, ∀ p ∈ starts k, p < F.n)
    (hls : ∀ k, ∀ p ∈ starts k, 0 ≤ ls k p)
    (hsplit : ∀ v < F.n, ∑ k, injected (starts k) (ls k) v = F.src v)
    (hr : ∀ k, LocalReturns d st (valuesOf (starts k) (ls k)) (.ok (sol k)))
    {l : List (X K)} (hl : GlobalReturns d st (.ok l)) :
    ∀ v < F.n, (∀ u, F.Reach u v → 0 < F.total u) →
      ∑ k, valueAt (sol k).concentration v * valueAt (sol k).tof v ≤ fieldAt l v ∧
      ((∀ k, valueAt (sol k).tof v < cap) →
        ∑ k, valueAt (sol k).concentration v * valueAt (sol k).tof v = fieldAt l v) := by
  have hone := C31_sum_eq_one h hacy hp hls hsplit hr
  obtain ⟨τ, c, hg⟩ := C27_tof_balance_global h hacy hl
  choose t hf hv using fun k => local_values h (hp k) (hls k) (hr k)
  have hsum : ∀ v < F.n, (∀ u, F.Reach u v → 0 < F.total u) →
      c v = 1 ∧ ∑ k, valueAt (sol k).concentration v * t k v = τ v := by
    refine acyclic_induction hacy (P := fun v => (∀ u, F.Reach u v → 0 < F.total u) → _) ?_
    intro v hvn ih hpos
    have ht := hpos v Relation.ReflTransGen.refl
    have hone' := hone v hvn hpos
    obtain ⟨_, h2, h3, h4⟩ := hg v hvn
    have ih' : ∀ u, F.Edge u v → c u = 1 ∧ ∑ k, valueAt (sol k).concentration u * t k u = τ u := fun u hu =>
      ih u hu fun x hx => hpos x (hx.tail hu)
    have hc : c v = 1 := by
      have e : ∑ u ∈ range F.n, c u * F.w u v = F.inflow v := by
        apply sum_congr rfl
        intro u hu
        have hun := mem_range.mp hu
        rcases (h.valid.w_nonneg u v hun hvn).lt_or_eq with hw | hw
        · rw [(ih' u ⟨hun, hvn, hw⟩).1, one_mul]
        · rw [← hw]; ring
      rw [e] at h2
      have : F.total v * c v = F.total v * 1 := by rw [h2, mul_one]; rfl
      exact mul_left_cancel₀ ht.ne' this
    refine ⟨hc, ?_⟩
    by_cases hs : F.Slow v
    · rw [h3 (Or.inl hs)]
      have : ∀ k, valueAt (sol k).concentration v * t k v = valueAt (sol k).concentration v * cap := by
        intro k
        by_cases hd : F.Downstream (starts k) v
        · rw [(hf k).capped v hd (Or.inl hs)]
        · rw [(hf k).off v hd]; ring
      rw [sum_congr rfl fun k _ => this k, ← sum_mul, hone', one_mul]
    · have e1 := h4 hs (by rw [hc]; exact one_pos)
      have e2 : ∀ k, F.total v * (valueAt (sol k).concentration v * t k v)
          = F.pv v * valueAt (sol k).concentration v
            + ∑ u ∈ range F.n, t k u * valueAt (sol k).concentration u * F.w u v := by
        intro k
        by_cases hd : F.Downstream (starts k) v
        · rw [← (hf k).texact v hd hs (hv k v hd).1 (hacy v)]; ring
        · rw [facts_off (hf k) h.valid (fun _ _ => downstream_edge) hvn hd, (hf k).off v hd]; ring
      apply mul_left_cancel₀ ht.ne'
      rw [mul_sum, sum_congr rfl fun k _ => e2 k, sum_add_distrib, ← mul_sum, hone', sum_comm]
      rw [hc, mul_one, mul_one] at e1
      rw [e1, mul_one]
      congr 1
      apply sum_congr rfl
      intro u hu
      have hun := mem_range.mp hu
      rw [← sum_mul]
      rcases (h.valid.w_nonneg u v hun hvn).lt_or_eq with hw | hw
      · obtain ⟨i1, i2⟩ := ih' u ⟨hun, hvn, hw⟩
        rw [i1, mul_one, ← i2]
        congr 1
        apply sum_congr rfl
        intros; ring
      · rw [← hw]; ring
  intro v hvn hpos
  obtain ⟨_, he⟩ := hsum v hvn hpos
  have hcn : ∀ k, 0 ≤ valueAt (sol k).concentration v := fun k => ((hf k).nonneg v hvn).2
  have hcell : ∀ k, valueAt (sol k).concentration v * valueAt (sol k).tof v
      = valueAt (sol k).concentration v * min (t k v) cap := by
    intro k
    by_cases hd : F.Downstream (starts k) v
    · rw [(hv k v hd).2.1]
    · rw [(hf k).off v hd]; ring
  rw [(hg v hvn).1]
  constructor
  · rw [sum_congr rfl fun k _ => hcell k]
    apply le_min
    · rw [← he]
      exact sum_le_sum fun k _ => mul_le_mul_of_nonneg_left (min_le_left _ _) (hcn k)
    · calc _ ≤ ∑ k, valueAt (sol k).concentration v * cap :=
            sum_le_sum fun k _ => mul_le_mul_of_nonneg_left (min_le_right _ _) (hcn k)
        _ = cap := by rw [← sum_mul, hone v hvn hpos, one_mul]
  · intro hlt
    have hex : ∀ k, valueAt (sol k).concentration v * valueAt (sol k).tof v = valueAt (sol k).concentration v * t k v
        ∧ valueAt (sol k).concentration v * t k v ≤ valueAt (sol k).concentration v * cap := by
      intro k
      by_cases hd : F.Downstream (starts k) v
      · have h1 := hlt k
        rw [(hv k v hd).2.1] at h1 ⊢
        have h2 : t k v < cap := by
          by_contra hc; rw [min_eq_right (not_lt.mp hc)] at h1; exact lt_irrefl _ h1
        rw [min_eq_left h2.le]
        exact ⟨rfl, mul_le_mul_of_nonneg_left h2.le (hcn k)⟩
      · rw [(hf k).off v hd]; simp
    rw [sum_congr rfl fun k _ => (hex k).1, he, min_eq_left]
    rw [← he]
    calc _ ≤ ∑ k, valueAt (sol k).concentration v * cap := sum_le_sum fun k _ => (hex k).2
      _ = cap := by rw [← sum_mul, hone v hvn hpos, one_mul]

end solver

section diag
variable {F : Flow K} {wells : List (WellFlux K)} {cs : WellFlux K → List Nat} {f : WellFlux K → Nat → K}
  {starts : List CellSet} {sol : Solution (X K)}

theorem Diag.mean (D : Diag F wells cs f starts sol) (hacy : F.Acyclic)
    (hall : ∀ w ∈ wells, cs w ≠ [] → w.id ∈ sol.startPoints) :
    ∀ v < F.n, (∀ u, F.Reach u v → 0 < F.total u) →
      (sol.startPoints.map fun i => valueAt (sol.concentration i) v * valueAt (sol.timeOfFlightOf i) v).sum
        ≤ fieldAt sol.timeOfFlight v ∧
      ((∀ i ∈ sol.startPoints, valueAt (sol.timeOfFlightOf i) v < cap) →
        (sol.startPoints.map fun i => valueAt (sol.concentration i) v * valueAt (sol.timeOfFlightOf i) v).sum
          = fieldAt sol.timeOfFlight v) := by
  obtain ⟨d, st, h1, h2, h3⟩ := D.solved
  have hmem : ∀ k : Fin (asked wells sol).length, (asked wells sol)[k] ∈ wells ∧
      (asked wells sol)[k].id ∈ sol.startPoints := fun k =>
    mem_asked.mp (List.getElem_mem (l := asked wells sol) k.isLt)
  have hk : ∀ k : Fin (asked wells sol).length, ∃ l,
      LocalReturns d st (valuesOf (cs (asked wells sol)[k]) (f (asked wells sol)[k])) (.ok l) ∧
      sol.timeOfFlightOf (asked wells sol)[k].id = l.tof ∧
      sol.concentration (asked wells sol)[k].id = l.concentration := by
    intro k
    obtain ⟨hw, hi⟩ := hmem k
    exact h3 _ hw ((D.points _).mp hi)
  choose l hl e1 e2 using hk
  intro v hv hpos
  have hsum : (sol.startPoints.map fun i => valueAt (sol.concentration i) v * valueAt (sol.timeOfFlightOf i) v).sum
      = ∑ k, valueAt (l k).concentration v * valueAt (l k).tof v := by
    rw [D.startPoints_eq, List.map_map]
    have : ∀ k, valueAt (l k).concentration v * valueAt (l k).tof v
        = valueAt (sol.concentration (asked wells sol)[k].id) v * valueAt (sol.timeOfFlightOf (asked wells sol)[k].id) v := by
      intro k; rw [e1 k, e2 k]
    rw [Finset.sum_congr rfl fun k _ => this k]
    exact (Fin.sum_univ_fun_getElem (asked wells sol) fun w =>
      valueAt (sol.concentration w.id) v * valueAt (sol.timeOfFlightOf w.id) v).symm
  rw [hsum]
  obtain ⟨a, b⟩ := C70_mean h1 hacy (fun k => D.side.range _ (hmem k).1)
    (fun k p hp => (D.side.pos _ (hmem k).1 p hp).le)
    (fun v _ => (D.injected_sum v).1.trans ((D.injected_sum v).2.2 hall)) hl h2 v hv hpos
  exact ⟨a, fun hlt => b fun k => by rw [← e1 k]; exact hlt _ (hmem k).2⟩

end diag

section toolbox
variable {P : Problem K} (hP : P.Valid) {g : ConnectivityGraph} {calls : List (Call (X K))} (h : P.GivenTo g calls)
  {starts : List CellSet} {sol : Solution (X K)}
include hP h

/-- **C70** If all injectors are asked for, the global time-of-flight of a cell is the mean of the times-of-flight of the
    injectors, weighted with their concentrations, unless one of them is 200 years; the mean is never more. -/
theorem C70_injection (hacy : P.forward.Acyclic) (hr : InjectionReturns g calls starts (.ok sol))
    (hall : ∀ w ∈ P.wells, (∃ v ∈ w.cells, 0 < w.val v) → ∃ s ∈ starts, s.id = w.id) :
    ∀ v < P.n, (∀ u, P.forward.Reach u v → 0 < (∑ x ∈ range P.n, P.flux x u) + P.source u) →
      (sol.startPoints.map fun i => valueAt (sol.concentration i) v * valueAt (sol.timeOfFlightOf i) v).sum
        ≤ fieldAt sol.timeOfFlight v ∧
      ((∀ i ∈ sol.startPoints, valueAt (sol.timeOfFlightOf i) v < 200 * 365 * 24 * 60 * 60) →
        (sol.startPoints.map fun i => valueAt (sol.concentration i) v * valueAt (sol.timeOfFlightOf i) v).sum
          = fieldAt sol.timeOfFlight v) := by
  have D := diag_injection hP h hr
  apply D.mean hacy
  intro w hw hne
  rw [D.points]
  apply hall w hw
  obtain ⟨v, hv⟩ := List.exists_mem_of_ne_nil _ hne
  obtain ⟨a, b⟩ := List.mem_filter.mp hv
  exact ⟨v, a, by simpa using b⟩

/-- **C70** The same for producers. -/
theorem C70_production (hacy : P.forward.Acyclic) (hr : ProductionReturns g calls starts (.ok sol))
    (hall : ∀ w ∈ P.wells, (∃ v ∈ w.cells, w.val v < 0) → ∃ s ∈ starts, s.id = w.id) :
    ∀ v < P.n, (∀ u, P.forward.Reach v u → 0 < (∑ x ∈ range P.n, P.flux u x) + P.sink u) →
      (sol.startPoints.map fun i => valueAt (sol.concentration i) v * valueAt (sol.timeOfFlightOf i) v).sum
        ≤ fieldAt sol.timeOfFlight v ∧
      ((∀ i ∈ sol.startPoints, valueAt (sol.timeOfFlightOf i) v < 200 * 365 * 24 * 60 * 60) →
        (sol.startPoints.map fun i => valueAt (sol.concentration i) v * valueAt (sol.timeOfFlightOf i) v).sum
          = fieldAt sol.timeOfFlight v) := by
  have D := diag_production hP h hr
  intro v hv hpos
  apply D.mean (backward_acyclic hacy) _ v hv
  · intro u hu; exact hpos u (backward_reach.mp hu)
  intro w hw hne
  rw [D.points]
  apply hall w hw
  obtain ⟨v, hv⟩ := List.exists_mem_of_ne_nil _ hne
  obtain ⟨a, b⟩ := List.mem_filter.mp hv
  exact ⟨v, a, by simpa using b⟩

end toolbox

/-! ### C71: volumes are rates times arrival times -/

omit [Archimedean K] in
/-- Summation by parts: `c` and `τ` belong to the flow `w`, `e` to the reversed flow. -/
theorem swept_eq {n : Nat} {w : Nat → Nat → K} {total pv c τ e out : Nat → K}
    (hb : ∀ v < n, e v ≠ 0 → total v * (c v * τ v) = pv v * c v + ∑ u ∈ range n, τ u * c u * w u v)
    (he : ∀ v < n, total v * e v = (∑ u ∈ range n, e u * w v u) + out v) :
    ∑ v ∈ range n, pv v * c v * e v = ∑ v ∈ range n, out v * (c v * τ v) := by
  have s1 : ∑ v ∈ range n, total v * (c v * τ v) * e v
      = (∑ v ∈ range n, pv v * c v * e v) + ∑ v ∈ range n, ∑ u ∈ range n, τ u * c u * w u v * e v := by
    rw [← sum_add_distrib]
    apply sum_congr rfl
    intro v hv
    by_cases h0 : e v = 0
    · rw [h0]; simp
    · rw [hb v (mem_range.mp hv) h0, add_mul, sum_mul]
  have s2 : ∑ v ∈ range n, total v * (c v * τ v) * e v
      = (∑ v ∈ range n, ∑ u ∈ range n, τ v * c v * w v u * e u) + ∑ v ∈ range n, out v * (c v * τ v) := by
    rw [← sum_add_distrib]
    apply sum_congr rfl
    intro v hv
    rw [mul_right_comm, he v (mem_range.mp hv), add_mul, sum_mul]
    congr 1
    apply sum_congr rfl
    intros; ring
  have s3 : ∑ v ∈ range n, ∑ u ∈ range n, τ u * c u * w u v * e v
      = ∑ v ∈ range n, ∑ u ∈ range n, τ v * c v * w v u * e u := sum_comm
  linarith

section diag
variable {F : Flow K} {wells : List (WellFlux K)} {cs : WellFlux K → List Nat} {f : WellFlux K → Nat → K}
  {starts : List CellSet} {sol : Solution (X K)}

/-- `e` belongs to the reversed flow, and `out` is where it comes from. -/
theorem Diag.swept (D : Diag F wells cs f starts sol) (hacy : F.Acyclic) {w : WellFlux K} (hw : w ∈ wells)
    (hs : ∃ s ∈ starts, s.id = w.id) {e out : Nat → K} (he0 : ∀ v < F.n, 0 ≤ e v) (hout : ∀ v < F.n, 0 ≤ out v)
    (he : ∀ v < F.n, F.total v * e v = (∑ u ∈ Finset.range F.n, e u * F.w v u) + out v)
    (hlt : ∀ v < F.n, e v ≠ 0 → valueAt (sol.timeOfFlightOf w.id) v < cap) :
    ∑ v ∈ Finset.range F.n, F.pv v * valueAt (sol.concentration w.id) v * e v
      = ∑ v ∈ Finset.range F.n, out v * (valueAt (sol.concentration w.id) v * valueAt (sol.timeOfFlightOf w.id) v) := by
  obtain ⟨d, st, h1, h2, h3⟩ := D.solved
  obtain ⟨l, hl, e1, e2⟩ := h3 w hw hs
  rw [e1] at hlt ⊢
  rw [e2]
  obtain ⟨t, hf, hv⟩ := local_values h1 (D.side.range w hw) (fun p hp => (D.side.pos w hw p hp).le) hl
  have ht : ∀ v < F.n, e v ≠ 0 → F.Downstream (cs w) v → t v < cap ∧ valueAt l.tof v = t v := by
    intro v hvn h0 hd
    have := hlt v hvn h0
    rw [(hv v hd).2.1] at this ⊢
    have h2 : t v < cap := by
      by_contra hc; rw [min_eq_right (not_lt.mp hc)] at this; exact lt_irrefl _ this
    exact ⟨h2, min_eq_left h2.le⟩
  rw [swept_eq (τ := t) _ he]
  · apply sum_congr rfl
    intro v hvm
    have hvn := mem_range.mp hvm
    by_cases hd : F.Downstream (cs w) v
    · by_cases h0 : e v = 0
      · have : out v = 0 := by
          have h4 := he v hvn
          rw [h0, mul_zero] at h4
          have h5 : 0 ≤ ∑ u ∈ Finset.range F.n, e u * F.w v u := sum_nonneg fun u hu =>
            mul_nonneg (he0 u (mem_range.mp hu)) (h1.valid.w_nonneg v u hvn (mem_range.mp hu))
          linarith [hout v hvn]
        rw [this]; ring
      · rw [(ht v hvn h0 hd).2]
    · rw [hf.off v hd]; ring
  · intro v hvn h0
    by_cases hd : F.Downstream (cs w) v
    · have hslow : ¬ F.Slow v := fun hc => by
        have := (ht v hvn h0 hd).1
        rw [hf.capped v hd (Or.inl hc)] at this
        exact lt_irrefl _ this
      rw [← hf.texact v hd hslow (hv v hd).1 (hacy v)]; ring
    · rw [facts_off hf h1.valid (fun _ _ => downstream_edge) hvn hd, hf.off v hd]; ring

/-- The same for the global field. -/
theorem Diag.swept_all (D : Diag F wells cs f starts sol) (hacy : F.Acyclic) {out : Nat → K}
    (he : ∀ v < F.n, F.total v = (∑ u ∈ Finset.range F.n, F.w v u) + out v)
    (hlt : ∀ v < F.n, fieldAt sol.timeOfFlight v < cap) :
    ∑ v ∈ Finset.range F.n, F.pv v = ∑ v ∈ Finset.range F.n, out v * fieldAt sol.timeOfFlight v := by
  obtain ⟨d, st, h1, h2, h3⟩ := D.solved
  obtain ⟨τ, c, hr, _, hf⟩ := global_facts h1
  have e := h2.unique hr
  have ht : ∀ v < F.n, fieldAt sol.timeOfFlight v = τ v ∧ τ v < cap := by
    intro v hv
    have h4 := hlt v hv
    have e' : sol.timeOfFlight = arr F.n fun v => min (τ v) cap := by injection e
    rw [e', arr_fieldAt _ _ hv] at h4 ⊢
    have h2 : τ v < cap := by
      by_contra hc; rw [min_eq_right (not_lt.mp hc)] at h4; exact lt_irrefl _ h4
    exact ⟨min_eq_left h2.le, h2⟩
  have hcpos : ∀ v < F.n, 0 < c v := by
    intro v hv
    refine lt_of_le_of_ne (hf.nonneg v hv).2 fun hc => ?_
    have := (ht v hv).2
    rw [hf.capped v hv (Or.inr hc.symm)] at this
    exact lt_irrefl _ this
  have htot : ∀ v < F.n, 0 < F.total v := by
    intro v hv
    have hw : ∀ u ∈ Finset.range F.n, 0 ≤ F.w u v := fun u hu => h1.valid.w_nonneg u v (mem_range.mp hu) hv
    rcases (add_nonneg (sum_nonneg hw) (h1.valid.src_nonneg v hv)).lt_or_eq with hlt | heq
    · exact hlt
    · exfalso
      obtain ⟨p, hpn, _, _, hsrc, hreach⟩ := hf.source v hv (hcpos v hv)
      have h0 : ∑ u ∈ Finset.range F.n, F.w u v = 0 := by linarith [sum_nonneg hw, h1.valid.src_nonneg v hv]
      have h0' : F.src v = 0 := by linarith
      rcases Relation.ReflTransGen.cases_tail hreach with e | ⟨x, _, hx⟩
      · rw [e] at h0'; rw [h0'] at hsrc; exact lt_irrefl _ hsrc
      · have := (sum_eq_zero_iff_of_nonneg hw).mp h0 x (mem_range.mpr hx.1)
        have hx3 := hx.2.2
        rw [this] at hx3; exact lt_irrefl _ hx3
  have hc : ∀ v < F.n, c v = 1 := by
    refine acyclic_induction hacy (P := fun v => c v = 1) ?_
    intro v hvn ih
    have h4 := hf.exact v hvn (fun hd => by
      have := hf.dead v hvn hd.1 hd.2
      exact (hcpos v hvn).ne' this) (hacy v)
    have e : ∑ u ∈ Finset.range F.n, c u * F.w u v = F.inflow v := by
      apply sum_congr rfl
      intro u hu
      have hun := mem_range.mp hu
      rcases (h1.valid.w_nonneg u v hun hvn).lt_or_eq with hw | hw
      · rw [ih u ⟨hun, hvn, hw⟩, one_mul]
      · rw [← hw]; ring
    rw [e] at h4
    exact mul_left_cancel₀ (htot v hvn).ne' (h4.trans (mul_one _).symm)
  have := swept_eq (n := F.n) (w := F.w) (total := F.total) (pv := F.pv) (c := c) (τ := τ) (e := fun _ => 1) (out := out)
    (by
      intro v hvn _
      have hslow : ¬ F.Slow v := fun hs => by
        have := (ht v hvn).2
        rw [hf.capped v hvn (Or.inl hs)] at this
        exact lt_irrefl _ this
      rw [← hf.texact v hvn hslow (hcpos v hvn) (hacy v)]; ring)
    (by intro v hvn; rw [mul_one, he v hvn]; simp)
  calc ∑ v ∈ Finset.range F.n, F.pv v = ∑ v ∈ Finset.range F.n, F.pv v * c v * 1 := by
        apply sum_congr rfl; intro v hv; rw [hc v (mem_range.mp hv)]; ring
    _ = ∑ v ∈ Finset.range F.n, out v * (c v * τ v) := this
    _ = _ := by
        apply sum_congr rfl; intro v hv; rw [hc v (mem_range.mp hv), (ht v (mem_range.mp hv)).1, one_mul]

end diag

section pairs
variable {P : Problem K} (hP : P.Valid) {g : ConnectivityGraph} {calls : List (Call (X K))} (h : P.GivenTo g calls)
  {istarts pstarts : List CellSet} {S T : Solution (X K)}
include hP h

/-- **C71** If every cell's total inflow equals its total outflow and no time is 200 years, the total pore volume is what the
    producers produce times the time it takes to arrive at them. -/
theorem C71_total (hacy : P.forward.Acyclic)
    (hinc : ∀ v < P.n, (∑ u ∈ range P.n, P.flux u v) + P.source v = (∑ u ∈ range P.n, P.flux v u) + P.sink v)
    (hi : InjectionReturns g calls istarts (.ok S)) (hlt : ∀ v < P.n, fieldAt S.timeOfFlight v < 200 * 365 * 24 * 60 * 60) :
    ∑ v ∈ range P.n, P.pv v = ∑ v ∈ range P.n, P.sink v * fieldAt S.timeOfFlight v :=
  (diag_injection hP h hi).swept_all hacy hinc hlt

/-- **C71** The same with what the injectors inject and the time it takes from them to the producers. -/
theorem C71_total_production (hacy : P.forward.Acyclic)
    (hinc : ∀ v < P.n, (∑ u ∈ range P.n, P.flux u v) + P.source v = (∑ u ∈ range P.n, P.flux v u) + P.sink v)
    (hp : ProductionReturns g calls pstarts (.ok T)) (hlt : ∀ v < P.n, fieldAt T.timeOfFlight v < 200 * 365 * 24 * 60 * 60) :
    ∑ v ∈ range P.n, P.pv v = ∑ v ∈ range P.n, P.source v * fieldAt T.timeOfFlight v :=
  (diag_production hP h hp).swept_all (backward_acyclic hacy) (fun v hv => (hinc v hv).symm) hlt

variable (hi : InjectionReturns g calls istarts (.ok S)) (hp : ProductionReturns g calls pstarts (.ok T))
include hi hp

/-- **C71** The volume of a pair is the rate at which the producer produces what the injector injected, times the time that takes
    to arrive. -/
theorem C71_pair_arrival (hacy : P.forward.Acyclic)
    (hinc : ∀ v < P.n, (∑ u ∈ range P.n, P.flux u v) + P.source v = (∑ u ∈ range P.n, P.flux v u) + P.sink v)
    {w w' : WellFlux K} (hw : w ∈ P.wells) (hws : w.id ∈ S.startPoints) (hw' : w' ∈ P.wells) (hws' : w'.id ∈ T.startPoints)
    (hlt : ∀ v < P.n, valueAt (T.concentration w'.id) v ≠ 0 → valueAt (S.timeOfFlightOf w.id) v < 200 * 365 * 24 * 60 * 60) :
    pairVolume S T (arr P.n P.pv) w.id w'.id = .ok (X.fin (∑ v ∈ range P.n,
      max (-Problem.wellAt w' v) 0 * (valueAt (S.concentration w.id) v * valueAt (S.timeOfFlightOf w.id) v))) := by
  have DS := diag_injection hP h hi
  have DT := diag_production hP h hp
  rw [C49_value (n := P.n) (DS.tracer _) (DT.tracer _)]
  congr 2
  exact DS.swept hacy hw ((DS.points _).mp hws) (fun v _ => tracer_nonneg (DT.tracer _) v) (fun v _ => le_max_right _ _)
    (fun v hv => (congrArg (· * _) (hinc v hv)).trans (C26_toolbox_production hP h hacy hp hw' ((DT.points _).mp hws') v hv)) hlt

/-- **C71** It is also the rate at which the injector injects what the producer produces, times the time that takes to get
    there. -/
theorem C71_pair_departure (hacy : P.forward.Acyclic)
    (hinc : ∀ v < P.n, (∑ u ∈ range P.n, P.flux u v) + P.source v = (∑ u ∈ range P.n, P.flux v u) + P.sink v)
    {w w' : WellFlux K} (hw : w ∈ P.wells) (hws : w.id ∈ S.startPoints) (hw' : w' ∈ P.wells) (hws' : w'.id ∈ T.startPoints)
    (hlt : ∀ v < P.n, valueAt (S.concentration w.id) v ≠ 0 → valueAt (T.timeOfFlightOf w'.id) v < 200 * 365 * 24 * 60 * 60) :
    pairVolume S T (arr P.n P.pv) w.id w'.id = .ok (X.fin (∑ v ∈ range P.n,
      max (Problem.wellAt w v) 0 * (valueAt (T.concentration w'.id) v * valueAt (T.timeOfFlightOf w'.id) v))) := by
  have DS := diag_injection hP h hi
  have DT := diag_production hP h hp
  rw [C49_value (n := P.n) (DS.tracer _) (DT.tracer _)]
  congr 2
  refine Eq.trans (sum_congr rfl fun v _ => ?_) (DT.swept (backward_acyclic hacy) hw' ((DT.points _).mp hws')
    (fun v _ => tracer_nonneg (DS.tracer w.id) v) (fun v _ => le_max_right _ _)
    (fun v hv => (congrArg (· * _) (hinc v hv).symm).trans
      (C26_toolbox_injection hP h hacy hi hw ((DS.points _).mp hws) v hv)) hlt)
  exact mul_right_comm _ _ _

end pairs
end Verif.Props
