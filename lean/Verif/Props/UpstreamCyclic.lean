/-
C95 in flow with cycles: what is computed for a cell depends, up to the tolerance of the solver, only on what lies
upstream of it.
-/
import Verif.Props.Grouping
import Verif.Props.Upstream

namespace Verif.Props
open Verif.Spec Verif.Solver Verif.Toolbox Finset

section fields
variable {K : Type} [Field K] [LinearOrder K]

/-- Two flows agree on the cells `U`, and nothing enters `U`. -/
structure AgreeOn (U : Nat → Prop) (F G : Flow K) : Prop where
  cells : ∀ v, U v → v < F.n ∧ v < G.n
  flux : ∀ v, U v → ∀ u, G.w u v = F.w u v
  src : ∀ v, U v → G.src v = F.src v
  closed : ∀ u v, U v → F.w u v ≠ 0 → U u

variable {U : Nat → Prop} {F G : Flow K}

omit [LinearOrder K] in
theorem AgreeOn.symm (h : AgreeOn U F G) : AgreeOn U G F where
  cells v hv := (h.cells v hv).symm
  flux v hv u := (h.flux v hv u).symm
  src v hv := (h.src v hv).symm
  closed u v hv hw := h.closed u v hv (by rwa [← h.flux v hv u])

theorem AgreeOn.edge (h : AgreeOn U F G) {u v : Nat} (hv : U v) (he : F.Edge u v) : U u ∧ G.Edge u v := by
  have hu := h.closed u v hv he.2.2.ne'
  exact ⟨hu, (h.cells u hu).2, (h.cells v hv).2, by rw [h.flux v hv u]; exact he.2.2⟩

theorem AgreeOn.reach (h : AgreeOn U F G) {p v : Nat} (hv : U v) (hr : F.Reach p v) : U p ∧ G.Reach p v := by
  induction hr using Relation.ReflTransGen.head_induction_on with
  | refl => exact ⟨hv, .refl⟩
  | head he _ ih =>
    obtain ⟨a, b⟩ := ih
    obtain ⟨c, d⟩ := h.edge a he
    exact ⟨c, .head d b⟩

theorem AgreeOn.sameCycle (h : AgreeOn U F G) {u v : Nat} (hv : U v) (hc : F.SameCycle u v) : U u ∧ G.SameCycle u v := by
  obtain ⟨a, b⟩ := h.reach hv hc.1
  exact ⟨a, b, (h.reach a hc.2).2⟩

omit [LinearOrder K] in
theorem AgreeOn.sum (h : AgreeOn U F G) {a b : Nat → K} (ha : ∀ u < F.n, ¬ U u → a u = 0) (hb : ∀ u < G.n, ¬ U u → b u = 0)
    (hab : ∀ u, U u → a u = b u) : ∑ u ∈ range F.n, a u = ∑ u ∈ range G.n, b u := by
  classical
  rw [← sum_filter_of_ne (s := range F.n) (p := U) (f := a), ← sum_filter_of_ne (s := range G.n) (p := U) (f := b)]
  · have : (range F.n).filter U = (range G.n).filter U := by
      ext u
      simp only [mem_filter, mem_range]
      exact ⟨fun ⟨_, hu⟩ => ⟨(h.cells u hu).2, hu⟩, fun ⟨_, hu⟩ => ⟨(h.cells u hu).1, hu⟩⟩
    rw [this]
    exact sum_congr rfl fun u hu => hab u (mem_filter.mp hu).2
  · intro u hu hne
    by_contra hn
    exact hne (hb u (mem_range.mp hu) hn)
  · intro u hu hne
    by_contra hn
    exact hne (ha u (mem_range.mp hu) hn)

theorem AgreeOn.zero (h : AgreeOn U F G) {u v : Nat} (hv : U v) (hu : ¬ U u) : F.w u v = 0 ∧ G.w u v = 0 := by
  have : F.w u v = 0 := by
    by_contra hn
    exact hu (h.closed u v hv hn)
  exact ⟨this, by rw [h.flux v hv u, this]⟩

theorem AgreeOn.total (h : AgreeOn U F G) {v : Nat} (hv : U v) : G.total v = F.total v := by
  unfold Flow.total Flow.inflow
  rw [h.src v hv, h.sum (a := fun u => F.w u v) (b := fun u => G.w u v) (fun u _ hu => (h.zero hv hu).1)
    (fun u _ hu => (h.zero hv hu).2) fun u _ => (h.flux v hv u).symm]

theorem AgreeOn.cycleInflow (h : AgreeOn U F G) {v : Nat} (hv : U v) : G.cycleInflow v = F.cycleInflow v := by
  classical
  unfold Flow.cycleInflow
  refine (h.sum (fun u _ hu => ?_) (fun u _ hu => ?_) fun u hu => ?_).symm
  · rw [(h.zero hv hu).1, ite_self]
  · rw [(h.zero hv hu).2, ite_self]
  · have : F.SameCycle u v ↔ G.SameCycle u v := ⟨fun c => (h.sameCycle hv c).2, fun c => (h.symm.sameCycle hv c).2⟩
    by_cases hc : F.SameCycle u v
    · rw [if_pos hc, if_pos (this.mp hc), h.flux v hv u]
    · rw [if_neg hc, if_neg fun c => hc (this.mpr c)]

variable [IsStrictOrderedRing K]

/-- Carried fields depend on what lies upstream. -/
theorem AgreeOn.carries (h : AgreeOn U F G) (hF : F.Valid) {s s' : List Nat} (hp : ∀ p ∈ s, p < F.n ∧ 0 < F.src p)
    (hs : ∀ v, U v → (v ∈ s ↔ v ∈ s')) {q q' : Nat → K} (hq : ∀ v, U v → q' v = q v) {x y : Nat → K} (hx : F.Carries s q x)
    (hy : G.Carries s' q' y) : ∀ v, U v → y v = x v := by
  classical
  have hdown : ∀ v, U v → (F.Downstream s v ↔ G.Downstream s' v) := by
    intro v hv
    constructor
    · rintro ⟨p, h1, h2⟩
      obtain ⟨a, b⟩ := h.reach hv h2
      exact ⟨p, (hs p a).mp h1, b⟩
    · rintro ⟨p, h1, h2⟩
      obtain ⟨a, b⟩ := h.symm.reach hv h2
      exact ⟨p, (hs p a).mpr h1, b⟩
  -- the flow inside `U`, and the difference
  let F' : Flow K := { F with w := fun u v => if U v then F.w u v else 0 }
  have hF' : F'.Valid := ⟨fun u v hu hv => by
    show 0 ≤ if U v then F.w u v else 0
    split
    · exact hF.w_nonneg u v hu hv
    · exact le_rfl, hF.pv_nonneg, hF.src_nonneg, hF.int⟩
  have hA : AgreeOn U F F' := ⟨fun v hv => ⟨(h.cells v hv).1, (h.cells v hv).1⟩, fun v hv u => if_pos hv, fun _ _ => rfl, h.closed⟩
  have hd : F'.Carries s (fun _ => 0) fun v => if U v then x v - y v else 0 := by
    constructor
    · intro v hv hn
      by_cases hU : U v
      · have h1 : ¬ F.Downstream s v := fun ⟨p, h1, h2⟩ => hn ⟨p, h1, (hA.reach hU h2).2⟩
        show (if U v then x v - y v else 0) = 0
        rw [if_pos hU, hx.1 v (h.cells v hU).1 h1, hy.1 v (h.cells v hU).2 fun c => h1 ((hdown v hU).mpr c), sub_zero]
      · exact if_neg hU
    · intro v hv hdv
      by_cases hU : U v
      · have h1 : F.Downstream s v := by
          obtain ⟨p, h1, h2⟩ := hdv
          exact ⟨p, h1, (hA.symm.reach hU h2).2⟩
        have e1 := hx.2 v (h.cells v hU).1 h1
        have e2 := hy.2 v (h.cells v hU).2 ((hdown v hU).mp h1)
        have e3 : ∑ u ∈ range F.n, (if U u then x u - y u else 0) * F'.w u v
            = (∑ u ∈ range F.n, x u * F.w u v) - ∑ u ∈ range G.n, y u * G.w u v := by
          have : ∑ u ∈ range G.n, y u * G.w u v = ∑ u ∈ range F.n, y u * F.w u v := by
            refine (h.sum (fun u _ hu => ?_) (fun u _ hu => ?_) fun u hu => ?_).symm
            · rw [(h.zero hU hu).1, mul_zero]
            · rw [(h.zero hU hu).2, mul_zero]
            · rw [h.flux v hU u]
          rw [this, ← sum_sub_distrib]
          refine sum_congr rfl fun u _ => ?_
          rw [hA.flux v hU u]
          by_cases hu : U u
          · rw [if_pos hu, sub_mul]
          · rw [(h.zero hU hu).1, mul_zero, mul_zero, mul_zero, sub_zero]
        show F'.total v * (if U v then x v - y v else 0) = (∑ u ∈ range F.n, (if U u then x u - y u else 0) * F'.w u v) + 0
        rw [e3, hA.total hU, if_pos hU, add_zero]
        rw [h.total hU, hq v hU] at e2
        rw [mul_sub, e1, e2]
        ring
      · show F'.total v * (if U v then x v - y v else 0) = (∑ u ∈ range F.n, (if U u then x u - y u else 0) * F'.w u v) + 0
        rw [if_neg hU, mul_zero, add_zero]
        symm
        exact sum_eq_zero fun u _ => by
          show (if U u then x u - y u else 0) * (if U v then F.w u v else 0) = 0
          rw [if_neg hU, mul_zero]
  have h0 : F'.Carries s (fun _ => 0) fun _ => 0 := ⟨fun _ _ _ => rfl, fun v _ _ => by simp⟩
  intro v hv
  have := (C76_exact hF' hp (fun _ => 0)).2.1 _ _ hd h0 v (h.cells v hv).1
  rw [if_pos hv] at this
  exact (sub_eq_zero.mp this).symm

end fields

/-- Nothing flows from or to cells that do not exist. -/
theorem flux_outside {K : Type} [Field K] [LinearOrder K] {P : Problem K} (hP : P.Valid) {u v : Nat} (h : P.flux u v ≠ 0) :
    u < P.n ∧ v < P.n := by
  by_contra hn
  refine h (sum_eq_zero fun c _ => ?_)
  unfold Problem.carried
  rw [if_neg, if_neg, add_zero]
  · intro e
    exact hn (hP.range _ (List.mem_of_getElem? e)).symm
  · intro e
    exact hn (hP.range _ (List.mem_of_getElem? e))

section agree
variable {K : Type} [Field K] [LinearOrder K] [IsStrictOrderedRing K] {P Q : Problem K} {v : Nat}

theorem agree_forward (hP : P.Valid) (hv : v < P.n)
    (hsame : ∀ u, P.forward.Reach u v → u < Q.n ∧ Q.source u = P.source u ∧ ∀ x, Q.flux x u = P.flux x u) :
    AgreeOn (fun u => P.forward.Reach u v) P.forward Q.forward where
  cells u hu := by
    refine ⟨?_, (hsame u hu).1⟩
    rcases Relation.ReflTransGen.cases_head hu with rfl | ⟨w, h, _⟩
    · exact hv
    · exact h.1
  flux u hu x := (hsame u hu).2.2 x
  src u hu := (hsame u hu).2.1
  closed x u hu hw := by
    have h1 := flux_outside hP (show P.flux x u ≠ 0 from hw)
    exact .head ⟨h1.1, h1.2, lt_of_le_of_ne ((forward_valid hP).w_nonneg x u h1.1 h1.2) (Ne.symm hw)⟩ hu

theorem agree_backward (hP : P.Valid) (hv : v < P.n)
    (hsame : ∀ u, P.forward.Reach v u → u < Q.n ∧ Q.sink u = P.sink u ∧ ∀ x, Q.flux u x = P.flux u x) :
    AgreeOn (fun u => P.forward.Reach v u) P.backward Q.backward where
  cells u hu := by
    refine ⟨?_, (hsame u hu).1⟩
    rcases Relation.ReflTransGen.cases_tail hu with rfl | ⟨w, _, h⟩
    · exact hv
    · exact h.2.1
  flux u hu x := (hsame u hu).2.2 x
  src u hu := (hsame u hu).2.1
  closed x u hu hw := by
    have h1 := flux_outside hP (show P.flux u x ≠ 0 from hw)
    exact .tail hu ⟨h1.1, h1.2, lt_of_le_of_ne ((forward_valid hP).w_nonneg u x h1.1 h1.2) (Ne.symm hw)⟩

theorem mem_pos {w : WellFlux K} {u : Nat} : u ∈ posCells w ↔ 0 < max (Problem.wellAt w u) 0 := by
  rw [← injected_pos]
  unfold injected
  split
  · rename_i h
    have := (List.mem_filter.mp h).2
    simp only [h, true_iff]
    simpa using this
  · rename_i h
    simp [h]

theorem mem_neg {w : WellFlux K} {u : Nat} : u ∈ negCells w ↔ 0 < max (-Problem.wellAt w u) 0 := by
  rw [← injected_neg]
  unfold injected
  split
  · rename_i h
    have := (List.mem_filter.mp h).2
    simp only [h, true_iff]
    simpa using this
  · rename_i h
    simp [h]

end agree

section exact
variable {K : Type} [Field K] [LinearOrder K] [IsStrictOrderedRing K] [Archimedean K]

theorem Diag.upstream {F G : Flow K} {wells wells' : List (WellFlux K)} {cs : WellFlux K → List Nat} {f : WellFlux K → Nat → K}
    {starts starts' : List CellSet} {sol sol' : Solution (X K)} (D : Diag F wells cs f starts sol)
    (D' : Diag G wells' cs f starts' sol') (hself : ∀ v < F.n, ¬ F.Loop v) (hself' : ∀ v < G.n, ¬ G.Loop v) {U : Nat → Prop}
    (h : AgreeOn U F G) {w w' : WellFlux K} (hw : w ∈ wells) (hw' : w' ∈ wells') (hs : ∃ s ∈ starts, s.id = w.id)
    (hs' : ∃ s ∈ starts', s.id = w'.id) (hcells : ∀ u, U u → (u ∈ cs w ↔ u ∈ cs w'))
    (hrates : ∀ u, U u → injected (cs w') (f w') u = injected (cs w) (f w) u) {m : Nat → K}
    (hm : F.Carries (cs w) F.cycleInflow m) :
    ∀ v, U v → |valueAt (sol'.concentration w'.id) v - valueAt (sol.concentration w.id) v| ≤ 1 / 1000000000 * m v := by
  have hF : F.Valid := by obtain ⟨d, st, h1, _⟩ := D.solved; exact h1.valid
  have hG : G.Valid := by obtain ⟨d, st, h1, _⟩ := D'.solved; exact h1.valid
  have hpF : ∀ p ∈ cs w, p < F.n ∧ 0 < F.src p := fun p hp =>
    ⟨D.side.range w hw p hp, lt_of_lt_of_le (D.side.pos w hw p hp) (D.le_src hw hp)⟩
  have hpG : ∀ p ∈ cs w', p < G.n ∧ 0 < G.src p := fun p hp =>
    ⟨D'.side.range w' hw' p hp, lt_of_lt_of_le (D'.side.pos w' hw' p hp) (D'.le_src hw' hp)⟩
  obtain ⟨x, hx⟩ := (C76_exact hF hpF (injected (cs w) (f w))).1
  obtain ⟨y, hy⟩ := (C76_exact hG hpG (injected (cs w') (f w'))).1
  obtain ⟨m', hm'⟩ := (C76_exact hG hpG G.cycleInflow).1
  intro v hv
  obtain ⟨a1, a2⟩ := D.error hself hw hs hx hm v (h.cells v hv).1
  obtain ⟨b1, b2⟩ := D'.error hself' hw' hs' hy hm' v (h.cells v hv).2
  rw [h.carries hF hpF hcells hrates hx hy v hv] at b1 b2
  rw [h.carries hF hpF hcells (fun v hv => h.cycleInflow hv) hm hm' v hv] at b2
  exact abs_le.mpr ⟨by linarith, by linarith⟩

variable {P Q : Problem K} (hP : P.Valid) (hQ : Q.Valid) {g g' : ConnectivityGraph} {calls calls' : List (Call (X K))}
  (h : P.GivenTo g calls) (h' : Q.GivenTo g' calls') (hself : ∀ v < P.n, ¬ P.forward.Loop v)
  (hself' : ∀ v < Q.n, ¬ Q.forward.Loop v) {v : Nat} (hv : v < P.n) {w w' : WellFlux K} (hw : w ∈ P.wells) (hw' : w' ∈ Q.wells)
include hP hQ h h' hself hself' hv hw hw'

/-- **C95** (exact arithmetic, cycles anywhere, no cell has a self-connection as its only cycle) If cell `v` and the cells
    upstream of it have in two problems the same fluxes into them, the same total rates of injection and the same rates of wells `w` and
    `w'`, then the concentrations of `w` and `w'` in `v` differ by at most `1e-9 * m v`, where `m` is the field carried by the flow
    when each cell adds the flux that it gets from its own cycle. -/
theorem C95_injection_cyclic
    (hsame : ∀ u, P.forward.Reach u v → u < Q.n ∧ Q.source u = P.source u ∧ (∀ x, Q.flux x u = P.flux x u) ∧
      max (Problem.wellAt w' u) 0 = max (Problem.wellAt w u) 0)
    {starts starts' : List CellSet} {sol sol' : Solution (X K)} (hs : ∃ s ∈ starts, s.id = w.id) (hs' : ∃ s ∈ starts', s.id = w'.id)
    (hr : InjectionReturns g calls starts (.ok sol)) (hr' : InjectionReturns g' calls' starts' (.ok sol')) :
    ∀ m, P.forward.Carries (posCells w) P.forward.cycleInflow m →
      |valueAt (sol'.concentration w'.id) v - valueAt (sol.concentration w.id) v| ≤ 1 / 1000000000 * m v := by
  intro m hm
  have hA := agree_forward hP hv fun u hu => ⟨(hsame u hu).1, (hsame u hu).2.1, (hsame u hu).2.2.1⟩
  refine (diag_injection hP h hr).upstream (diag_injection hQ h' hr') hself hself' hA hw hw' hs hs' (fun u hu => ?_) (fun u hu => ?_)
    hm v .refl
  · rw [mem_pos, mem_pos, (hsame u hu).2.2.2]
  · rw [injected_pos, injected_pos, (hsame u hu).2.2.2]

/-- **C95** The same for production, with the cells downstream, the fluxes out of them and the rates of production. -/
theorem C95_production_cyclic
    (hsame : ∀ u, P.forward.Reach v u → u < Q.n ∧ Q.sink u = P.sink u ∧ (∀ x, Q.flux u x = P.flux u x) ∧
      max (-Problem.wellAt w' u) 0 = max (-Problem.wellAt w u) 0)
    {starts starts' : List CellSet} {sol sol' : Solution (X K)} (hs : ∃ s ∈ starts, s.id = w.id) (hs' : ∃ s ∈ starts', s.id = w'.id)
    (hr : ProductionReturns g calls starts (.ok sol)) (hr' : ProductionReturns g' calls' starts' (.ok sol')) :
    ∀ m, P.backward.Carries (negCells w) P.backward.cycleInflow m →
      |valueAt (sol'.concentration w'.id) v - valueAt (sol.concentration w.id) v| ≤ 1 / 1000000000 * m v := by
  intro m hm
  have hA := agree_backward hP hv fun u hu => ⟨(hsame u hu).1, (hsame u hu).2.1, (hsame u hu).2.2.1⟩
  refine (diag_production hP h hr).upstream (diag_production hQ h' hr') (backward_not_loop hself) (backward_not_loop hself') hA hw hw'
    hs hs' (fun u hu => ?_) (fun u hu => ?_) hm v .refl
  · rw [mem_neg, mem_neg, (hsame u hu).2.2.2]
  · rw [injected_neg, injected_neg, (hsame u hu).2.2.2]

end exact

section double

theorem Nearly.upstream {F G : Flow ℚ} {wells wells' : List (WellFlux ℚ)} {cs : WellFlux ℚ → List Nat} {f : WellFlux ℚ → Nat → ℚ}
    {starts starts' : List CellSet} {sol sol' : Solution Double} {M : Nat} (N : Nearly F wells cs f starts sol M)
    (N' : Nearly G wells' cs f starts' sol' M) (hself : ∀ v < F.n, ¬ F.Loop v) (hself' : ∀ v < G.n, ¬ G.Loop v) {U : Nat → Prop}
    (h : AgreeOn U F G) {w w' : WellFlux ℚ} (hw : w ∈ wells) (hw' : w' ∈ wells') (hs : ∃ s ∈ starts, s.id = w.id)
    (hs' : ∃ s ∈ starts', s.id = w'.id) (hcells : ∀ u, U u → (u ∈ cs w ↔ u ∈ cs w'))
    (hrates : ∀ u, U u → injected (cs w') (f w') u = injected (cs w) (f w) u) {m t : Nat → ℚ}
    (hm : F.Carries (cs w) F.cycleInflow m) (ht : F.Carries (cs w) F.total t) :
    ∀ v, U v → |doubleAt (sol'.concentration w'.id) v - doubleAt (sol.concentration w.id) v|
      ≤ 2 * (1 / 1000000000 * m v + ((4 * M + 6 : Nat) : ℚ) / 2 ^ 51 * t v) := by
  have hF := N.valid
  have hG := N'.valid
  have hpF := N.sources hw
  have hpG := N'.sources hw'
  obtain ⟨x, hx⟩ := (C76_exact hF hpF (injected (cs w) (f w))).1
  obtain ⟨y, hy⟩ := (C76_exact hG hpG (injected (cs w') (f w'))).1
  obtain ⟨m', hm'⟩ := (C76_exact hG hpG G.cycleInflow).1
  obtain ⟨t', ht'⟩ := (C76_exact hG hpG G.total).1
  intro v hv
  have a := abs_le.mp (N.error hself hw hs hx hm ht v (h.cells v hv).1)
  have b := abs_le.mp (N'.error hself' hw' hs' hy hm' ht' v (h.cells v hv).2)
  rw [h.carries hF hpF hcells hrates hx hy v hv, h.carries hF hpF hcells (fun v hv => h.cycleInflow hv) hm hm' v hv,
    h.carries hF hpF hcells (fun v hv => h.total hv) ht ht' v hv] at b
  exact abs_le.mpr ⟨by linarith, by linarith⟩

variable {P Q : Problem ℚ} (hP : P.Valid) (hQ : Q.Valid) {M : Nat} (hO : P.OfOrdinarySize M) (hO' : Q.OfOrdinarySize M)
  {g g' : ConnectivityGraph} {calls calls' : List (Call Double)} (h : P.StoredIn g calls) (h' : Q.StoredIn g' calls')
  (hself : ∀ v < P.n, ¬ P.forward.Loop v) (hself' : ∀ v < Q.n, ¬ Q.forward.Loop v) {v : Nat} (hv : v < P.n) {w w' : WellFlux ℚ}
  (hw : w ∈ P.wells) (hw' : w' ∈ Q.wells)
include hP hQ hO hO' h h' hself hself' hv hw hw'

/-- **C95** (doubles, cycles anywhere) The concentrations differ by at most twice the error bounded in C80. -/
theorem C95_injection_double (htotal : ∀ v < P.n, P.forward.total v ≤ 2 ^ 100) (htotal' : ∀ v < Q.n, Q.forward.total v ≤ 2 ^ 100)
    (hsame : ∀ u, P.forward.Reach u v → u < Q.n ∧ Q.source u = P.source u ∧ (∀ x, Q.flux x u = P.flux x u) ∧
      max (Problem.wellAt w' u) 0 = max (Problem.wellAt w u) 0)
    {starts starts' : List CellSet} {sol sol' : Solution Double} (hs : ∃ s ∈ starts, s.id = w.id) (hs' : ∃ s ∈ starts', s.id = w'.id)
    (hr : InjectionReturns g calls starts (.ok sol)) (hr' : InjectionReturns g' calls' starts' (.ok sol')) :
    ∀ m t, P.forward.Carries (posCells w) P.forward.cycleInflow m → P.forward.Carries (posCells w) P.forward.total t →
      |doubleAt (sol'.concentration w'.id) v - doubleAt (sol.concentration w.id) v|
        ≤ 2 * (1 / 1000000000 * m v + ((4 * M + 6 : Nat) : ℚ) / 2 ^ 51 * t v) := by
  intro m t hm ht
  have hA := agree_forward hP hv fun u hu => ⟨(hsame u hu).1, (hsame u hu).2.1, (hsame u hu).2.2.1⟩
  refine (nearly_injection hP hO htotal h hr).upstream (nearly_injection hQ hO' htotal' h' hr') hself hself' hA hw hw' hs hs'
    (fun u hu => ?_) (fun u hu => ?_) hm ht v .refl
  · rw [mem_pos, mem_pos, (hsame u hu).2.2.2]
  · rw [injected_pos, injected_pos, (hsame u hu).2.2.2]

/-- **C95** The same for production. -/
theorem C95_production_double (htotal : ∀ v < P.n, P.backward.total v ≤ 2 ^ 100) (htotal' : ∀ v < Q.n, Q.backward.total v ≤ 2 ^ 100)
    (hsame : ∀ u, P.forward.Reach v u → u < Q.n ∧ Q.sink u = P.sink u ∧ (∀ x, Q.flux u x = P.flux u x) ∧
      max (-Problem.wellAt w' u) 0 = max (-Problem.wellAt w u) 0)
    {starts starts' : List CellSet} {sol sol' : Solution Double} (hs : ∃ s ∈ starts, s.id = w.id) (hs' : ∃ s ∈ starts', s.id = w'.id)
    (hr : ProductionReturns g calls starts (.ok sol)) (hr' : ProductionReturns g' calls' starts' (.ok sol')) :
    ∀ m t, P.backward.Carries (negCells w) P.backward.cycleInflow m → P.backward.Carries (negCells w) P.backward.total t →
      |doubleAt (sol'.concentration w'.id) v - doubleAt (sol.concentration w.id) v|
        ≤ 2 * (1 / 1000000000 * m v + ((4 * M + 6 : Nat) : ℚ) / 2 ^ 51 * t v) := by
  intro m t hm ht
  have hA := agree_backward hP hv fun u hu => ⟨(hsame u hu).1, (hsame u hu).2.1, (hsame u hu).2.2.1⟩
  refine (nearly_production hP hO htotal h hr).upstream (nearly_production hQ hO' htotal' h' hr') (backward_not_loop hself)
    (backward_not_loop hself') hA hw hw' hs hs' (fun u hu => ?_) (fun u hu => ?_) hm ht v .refl
  · rw [mem_neg, mem_neg, (hsame u hu).2.2.2]
  · rw [injected_neg, injected_neg, (hsame u hu).2.2.2]

end double

/-! ### A case

`exWhirl`, with its cycle 1 → 2 → 3 → 1, and the same flow on a larger grid, with other pore volumes and wells of another flow beside. -/

def exWider : Problem ℚ where
  n := 6
  conns := [(0, 1), (1, 2), (2, 3), (3, 1), (4, 5)]
  nphase := 1
  phi c _ := if c = 0 then 2 else if c = 3 then 1 else if c = 4 then 5 else 3
  pv _ := 7
  wells := [⟨⟨[65]⟩, [0], fun _ => 2⟩, ⟨⟨[66]⟩, [4], fun _ => 5⟩, ⟨⟨[80]⟩, [3], fun _ => -2⟩, ⟨⟨[81]⟩, [5], fun _ => -5⟩]

theorem exWider_valid : exWider.Valid where
  int := by decide
  pos := by decide
  some_connection := by decide
  range := by decide
  pv v _ := by show (0 : ℚ) ≤ 7; norm_num
  wells_sorted := by unfold exWider; simp; decide
  cells_sorted := by unfold exWider; simp
  cells_range := by unfold exWider; simp

theorem wider_net (c : Nat) : exWider.net c = if c = 0 then 2 else if c = 3 then 1 else if c = 4 then 5 else 3 := by
  unfold Problem.net exWider; simp

theorem wider_noLoop : ∀ v < exWider.n, ¬ exWider.forward.Loop v := by
  intro v hv hl
  refine hl.1 ?_
  change v < 6 at hv
  interval_cases v <;> simp [Problem.forward, Problem.flux, Problem.carried, exWider, sum_range_succ]

theorem wider_flux {u v : Nat} (h : u < 4 ∨ v < 4) : exWider.flux u v = exWhirl.flux u v := by
  have n1 : exWhirl.conns = [(0, 1), (1, 2), (2, 3), (3, 1)] := rfl
  have n2 : exWider.conns = [(0, 1), (1, 2), (2, 3), (3, 1), (4, 5)] := rfl
  unfold Problem.flux
  rw [n1, n2, show [(0, 1), (1, 2), (2, 3), (3, 1), ((4 : Nat), (5 : Nat))].length = 5 from rfl,
    show [(0, 1), (1, 2), (2, 3), ((3 : Nat), (1 : Nat))].length = 4 from rfl, sum_range_succ]
  have h4 : exWider.carried 4 u v = 0 := by
    unfold Problem.carried
    rw [n2]
    simp only [List.getElem?_cons_succ, List.getElem?_cons_zero, Option.some.injEq, Prod.mk.injEq]
    rw [if_neg (by omega), if_neg (by omega), add_zero]
  rw [h4, add_zero]
  refine sum_congr rfl fun c hc => ?_
  have hc := mem_range.mp hc
  unfold Problem.carried
  rw [n1, n2, whirl_net, wider_net]
  interval_cases c <;> simp

theorem wider_source {u : Nat} (hu : u < 4) : exWider.source u = exWhirl.source u ∧ exWider.sink u = exWhirl.sink u := by
  unfold Problem.source Problem.sink Problem.wellAt exWider exWhirl
  interval_cases u <;> simp

theorem whirl_reach_lt {u v : Nat} (hv : v < 4) (h : exWhirl.forward.Reach u v ∨ exWhirl.forward.Reach v u) : u < 4 := by
  rcases h with h | h
  · rcases Relation.ReflTransGen.cases_head h with rfl | ⟨w, h, _⟩
    · exact hv
    · exact h.1
  · exact reach_lt (F := exWhirl.forward) hv h

def widerGraph : ConnectivityGraph := ⟨6, [0, 1, 1, 2, 2, 3, 3, 1, 4, 5]⟩

def widerCalls : List (Call Double) :=
  [.assignPoreVolume [Arith.lit 7, Arith.lit 7, Arith.lit 7, Arith.lit 7, Arith.lit 7, Arith.lit 7],
   .assignConnectionFlux ⟨5, 1, [Arith.lit 2, Arith.lit 3, Arith.lit 3, Arith.lit 1, Arith.lit 5]⟩,
   .assignInflowFlux [(⟨[65]⟩, [(0, Arith.lit 2)]), (⟨[66]⟩, [(4, Arith.lit 5)]), (⟨[80]⟩, [(3, Arith.lit (-2))]),
     (⟨[81]⟩, [(5, Arith.lit (-5))])]]

theorem wider_stored : exWider.StoredIn widerGraph widerCalls where
  graph := {
    cells := rfl
    count := rfl
    connection := by
      intro i hi
      have hi : i < 5 := hi
      interval_cases i <;> rfl }
  pv := ⟨_, rfl, by decide +kernel⟩
  flux := by
    refine ⟨1, fun c _ => if c = 0 then Arith.lit 2 else if c = 3 then Arith.lit 1 else if c = 4 then Arith.lit 5 else Arith.lit 3,
      ⟨_, rfl, rfl, rfl, ?_⟩, ?_⟩
    · intro c hc p hp
      have hp : p = 0 := by omega
      subst hp
      have hc : c < 5 := hc
      interval_cases c <;> rfl
    · intro c hc
      have hc : c < 5 := hc
      rw [wider_net]
      interval_cases c <;> decide +kernel
  inflow := by decide +kernel

theorem wider_ordinary : exWider.OfOrdinarySize 4 where
  flux c _ := by
    rw [wider_net]
    right
    split <;> [norm_num; split <;> [norm_num; split <;> norm_num]]
  well w hw v hv := by
    simp only [exWider, List.mem_cons, List.not_mem_nil, or_false] at hw
    right
    rcases hw with rfl | rfl | rfl | rfl <;> norm_num
  pv v _ := by
    right
    unfold exWider
    norm_num
  degree v := by
    by_cases h : v = 4 ∨ v = 5
    · rcases h with rfl | rfl <;> decide
    · refine le_trans ?_ (show 4 ≤ 4 by decide)
      unfold exWider
      simp only
      rw [show [(0, 1), (1, 2), (2, 3), (3, 1), ((4 : Nat), (5 : Nat))] = [(0, 1), (1, 2), (2, 3), (3, 1)] ++ [(4, 5)] from rfl, List.filter_append,
        List.length_append, show List.filter (fun e => decide (e.1 = v ∨ e.2 = v)) [((4 : Nat), (5 : Nat))] = [] by simp; omega]
      exact (List.length_filter_le _ _).trans (by decide)
  wells v := (List.length_filter_le _ _).trans (by decide)
  bound := by norm_num

theorem wider_total : (∀ v < exWider.n, exWider.forward.total v ≤ 2 ^ 100) ∧ ∀ v < exWider.n, exWider.backward.total v ≤ 2 ^ 100 := by
  constructor
  · intro v hv
    have hv : v < 6 := hv
    unfold Flow.total Flow.inflow
    simp only [Problem.forward]
    interval_cases v <;>
      simp [exWider, Finset.sum_range_succ, Problem.source, Problem.wellAt, Problem.flux, Problem.carried, Problem.net] <;> norm_num
  · intro v hv
    have hv : v < 6 := hv
    unfold Flow.total Flow.inflow
    simp only [Problem.backward]
    interval_cases v <;>
      simp [exWider, Finset.sum_range_succ, Problem.sink, Problem.wellAt, Problem.flux, Problem.carried, Problem.net] <;> norm_num

set_option maxRecDepth 100000 in
theorem wider_injection : ∃ S, InjectionReturns widerGraph widerCalls [CellSet.ofCells ⟨[65]⟩ [0]] (.ok S) := by
  obtain ⟨S, hS⟩ := isOk_spec
    (show isOk (injectionOutcome widerGraph widerCalls noFailure 100 [CellSet.ofCells ⟨[65]⟩ [0]]) = true by decide +kernel)
  exact ⟨S, (Fuel.injection_returns.mpr ⟨100, hS, by simp⟩).1⟩

set_option maxRecDepth 100000 in
theorem wider_production : ∃ S, ProductionReturns widerGraph widerCalls [CellSet.ofCells ⟨[80]⟩ [3]] (.ok S) := by
  obtain ⟨S, hS⟩ := isOk_spec
    (show isOk (productionOutcome widerGraph widerCalls noFailure 100 [CellSet.ofCells ⟨[80]⟩ [3]]) = true by decide +kernel)
  exact ⟨S, (Fuel.production_returns.mpr ⟨100, hS, by simp⟩).1⟩

/-- C95 with `double`s and with a cycle upstream: the hypotheses hold in both directions. -/
example : ∃ S T S' T', InjectionReturns whirlGraph whirlCalls [CellSet.ofCells ⟨[65]⟩ [0]] (.ok S) ∧
    ProductionReturns whirlGraph whirlCalls [CellSet.ofCells ⟨[80]⟩ [3]] (.ok T) ∧
    InjectionReturns widerGraph widerCalls [CellSet.ofCells ⟨[65]⟩ [0]] (.ok S') ∧
    ProductionReturns widerGraph widerCalls [CellSet.ofCells ⟨[80]⟩ [3]] (.ok T') ∧
    (∀ m t, exWhirl.forward.Carries (posCells ⟨⟨[65]⟩, [0], fun _ => (2 : ℚ)⟩) exWhirl.forward.cycleInflow m →
      exWhirl.forward.Carries (posCells ⟨⟨[65]⟩, [0], fun _ => (2 : ℚ)⟩) exWhirl.forward.total t →
      |doubleAt (S'.concentration ⟨[65]⟩) 3 - doubleAt (S.concentration ⟨[65]⟩) 3|
        ≤ 2 * (1 / 1000000000 * m 3 + ((4 * 4 + 6 : Nat) : ℚ) / 2 ^ 51 * t 3)) ∧
    ∀ m t, exWhirl.backward.Carries (negCells ⟨⟨[80]⟩, [3], fun _ => (-2 : ℚ)⟩) exWhirl.backward.cycleInflow m →
      exWhirl.backward.Carries (negCells ⟨⟨[80]⟩, [3], fun _ => (-2 : ℚ)⟩) exWhirl.backward.total t →
      |doubleAt (T'.concentration ⟨[80]⟩) 0 - doubleAt (T.concentration ⟨[80]⟩) 0|
        ≤ 2 * (1 / 1000000000 * m 0 + ((4 * 4 + 6 : Nat) : ℚ) / 2 ^ 51 * t 0) := by
  obtain ⟨S, hS, _⟩ := whirl_injection
  obtain ⟨⟨T, hT⟩, _⟩ := whirl_production
  obtain ⟨S', hS'⟩ := wider_injection
  obtain ⟨T', hT'⟩ := wider_production
  refine ⟨S, T, S', T', hS, hT, hS', hT',
    C95_injection_double exWhirl_valid exWider_valid whirl_ordinary wider_ordinary whirl_stored wider_stored whirl_noLoop wider_noLoop
      (v := 3) (by decide) (w := ⟨⟨[65]⟩, [0], fun _ => 2⟩) (w' := ⟨⟨[65]⟩, [0], fun _ => 2⟩) (.head _) (.head _) whirl_total.1 wider_total.1
      (fun u hu => ?_) ⟨_, .head _, rfl⟩ ⟨_, .head _, rfl⟩ hS hS',
    C95_production_double exWhirl_valid exWider_valid whirl_ordinary wider_ordinary whirl_stored wider_stored whirl_noLoop wider_noLoop
      (v := 0) (by decide) (w := ⟨⟨[80]⟩, [3], fun _ => -2⟩) (w' := ⟨⟨[80]⟩, [3], fun _ => -2⟩) (.tail _ (.head _))
      (.tail _ (.tail _ (.head _))) whirl_total.2 wider_total.2 (fun u hu => ?_) ⟨_, .head _, rfl⟩ ⟨_, .head _, rfl⟩ hT hT'⟩
  · have h4 := whirl_reach_lt (by decide) (.inl hu)
    exact ⟨by show u < 6; omega, (wider_source h4).1, fun x => wider_flux (.inr h4), rfl⟩
  · have h4 := whirl_reach_lt (by decide) (.inr hu)
    exact ⟨by show u < 6; omega, (wider_source h4).2, fun x => wider_flux (.inl h4), rfl⟩

/-- C95 in exact arithmetic with a cycle upstream: the two problems can be given to toolboxes, and they agree upstream of each
    cell. -/
example : (∃ g, ∃ calls : List (Call (X ℚ)), exWhirl.GivenTo g calls) ∧ (∃ g, ∃ calls : List (Call (X ℚ)), exWider.GivenTo g calls) ∧
    (∀ v < 4, ∀ u, exWhirl.forward.Reach u v → u < exWider.n ∧ exWider.source u = exWhirl.source u ∧
      ∀ x, exWider.flux x u = exWhirl.flux x u) ∧
    ∀ v < 4, ∀ u, exWhirl.forward.Reach v u → u < exWider.n ∧ exWider.sink u = exWhirl.sink u ∧
      ∀ x, exWider.flux u x = exWhirl.flux u x := by
  refine ⟨exists_given exWhirl_valid (by decide), exists_given exWider_valid (by decide), fun v hv u hu => ?_, fun v hv u hu => ?_⟩
  · have h4 := whirl_reach_lt hv (.inl hu)
    exact ⟨by show u < 6; omega, (wider_source h4).1, fun x => wider_flux (.inr h4)⟩
  · have h4 := whirl_reach_lt hv (.inr hu)
    exact ⟨by show u < 6; omega, (wider_source h4).2, fun x => wider_flux (.inl h4)⟩

end Verif.Props
