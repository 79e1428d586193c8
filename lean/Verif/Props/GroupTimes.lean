/-
C96 in flow with cycles: the times-of-flight of a group of wells against the mean of those of its members, in exact arithmetic
and with `double`s.
-/
import Verif.Props.MeanTime

namespace Verif.Props
open Verif.Spec Verif.Toolbox Verif.Solver Verif.Derived Finset

section flow
variable {K : Type} [Field K] [LinearOrder K] [IsStrictOrderedRing K] {F : Flow K} {l : List (WellFlux K)}
  {cs : WellFlux K → List Nat} {f : WellFlux K → Nat → K}


theorem sum_near {ι : Type} {l : List ι} {c q : ι → K} {E : K} (h : ∀ w ∈ l, |c w - q w| ≤ E) :
    |(l.map c).sum - (l.map q).sum| ≤ l.length * E := by
  induction l with
  | nil => simp
  | cons w l ih =>
    have a1 := ih fun w hw => h w (.tail _ hw)
    have a2 := h w (.head _)
    rw [List.map_cons, List.sum_cons, List.map_cons, List.sum_cons, List.length_cons, Nat.cast_succ]
    have a3 := abs_add_le (c w - q w) ((l.map c).sum - (l.map q).sum)
    rw [show c w + (l.map c).sum - (q w + (l.map q).sum) = c w - q w + ((l.map c).sum - (l.map q).sum) by ring]
    linarith

/-- If times, times concentrations, of a group and of its members are near the exact ones, that of the group is near the sum. -/
theorem group_time_error (hF : F.Valid) {W : WellFlux K} (hp : ∀ p ∈ cs W, p < F.n ∧ 0 < F.src p)
    (hmem : ∀ p, p ∈ cs W ↔ ∃ w ∈ l, p ∈ cs w)
    (hsplit : ∀ v < F.n, injected (cs W) (f W) v = (l.map fun w => injected (cs w) (f w) v).sum)
    {c : WellFlux K → K} {ca E : K} {v : Nat}
    (hc : ∀ w ∈ l, ∀ x q, F.Carries (cs w) (injected (cs w) (f w)) x → F.Carries (cs w) (fun v => F.pv v * x v) q → |c w - q v| ≤ E)
    (hca : ∀ x q, F.Carries (cs W) (injected (cs W) (f W)) x → F.Carries (cs W) (fun v => F.pv v * x v) q → |ca - q v| ≤ E) :
    |ca - (l.map c).sum| ≤ ((l.length + 1 : Nat) : K) * E := by
  have hpw : ∀ w ∈ l, ∀ p ∈ cs w, p < F.n ∧ 0 < F.src p := fun w hw p h => hp p ((hmem p).mpr ⟨w, hw, h⟩)
  have hx : ∀ w, ∃ x, w ∈ l → F.Carries (cs w) (injected (cs w) (f w)) x := fun w => by
    by_cases h : w ∈ l
    · obtain ⟨x, hx⟩ := (C76_exact hF (hpw w h) (injected (cs w) (f w))).1
      exact ⟨x, fun _ => hx⟩
    · exact ⟨fun _ => 0, fun h' => absurd h' h⟩
  choose x hx using hx
  have hq : ∀ w, ∃ q, w ∈ l → F.Carries (cs w) (fun v => F.pv v * x w v) q := fun w => by
    by_cases h : w ∈ l
    · obtain ⟨q, hq⟩ := (C76_exact hF (hpw w h) fun v => F.pv v * x w v).1
      exact ⟨q, fun _ => hq⟩
    · exact ⟨fun _ => 0, fun h' => absurd h' h⟩
  choose q hq using hq
  have hdown : ∀ v, F.Downstream (cs W) v ↔ ∃ w ∈ l, F.Downstream (cs w) v := by
    intro v
    constructor
    · rintro ⟨p, h1, h2⟩
      obtain ⟨k, hk, hs⟩ := (hmem p).mp h1
      exact ⟨k, hk, p, hs, h2⟩
    · rintro ⟨k, hk, p, h1, h2⟩
      exact ⟨p, (hmem p).mpr ⟨k, hk, h1⟩, h2⟩
  have X := carries_sum hF hdown (fun w _ v _ hd => injected_off hd) hx
  have X' : F.Carries (cs W) (injected (cs W) (f W)) fun v => (l.map fun w => x w v).sum :=
    ⟨X.1, fun v hv hd => by rw [X.2 v hv hd, hsplit v hv]⟩
  have Y := carries_sum hF hdown (fun w hw v hv hd => by
    show F.pv v * x w v = 0
    rw [(hx w hw).1 v hv hd, mul_zero]) hq
  have Y' : F.Carries (cs W) (fun v => F.pv v * (l.map fun w => x w v).sum) fun v => (l.map fun w => q w v).sum :=
    ⟨Y.1, fun v hv hd => by
      rw [Y.2 v hv hd]
      beta_reduce
      rw [List.sum_map_mul_left]⟩
  have h1 := hca _ _ X' Y'
  have h2 := sum_near (l := l) (c := c) (q := fun w => q w v) fun w hw => hc w hw _ _ (hx w hw) (hq w hw)
  rw [abs_sub_comm] at h2
  have h3 := abs_sub_le ca (l.map fun w => q w v).sum (l.map c).sum
  push_cast
  linarith

end flow

section exact
variable {K : Type} [Field K] [LinearOrder K] [IsStrictOrderedRing K] [Archimedean K]

theorem Diag.group_time {F G : Flow K} {wells wells' : List (WellFlux K)} {cs : WellFlux K → List Nat} {f : WellFlux K → Nat → K}
    {starts starts' : List CellSet} {sol sol' : Solution (X K)} (D : Diag F wells cs f starts sol)
    (D' : Diag G wells' cs f starts' sol') (hren : Renumbered id F G) (hself : ∀ v < F.n, ¬ F.Loop v) {W : WellFlux K}
    (hW : W ∈ wells') (hs : ∃ s ∈ starts', s.id = W.id) {ws : List (WellFlux K)} (hws : ∀ w ∈ ws, w ∈ wells)
    (hask : ∀ w ∈ ws, cs w ≠ [] → ∃ s ∈ starts, s.id = w.id)
    (hsplit : ∀ v < F.n, injected (cs W) (f W) v = (ws.map fun w => injected (cs w) (f w) v).sum)
    {a : K} (ha0 : 0 ≤ a) (ha : a < cap) (hta : ∀ w ∈ ws, ∀ v < F.n, valueAt (sol.timeOfFlightOf w.id) v ≤ a)
    (hta' : ∀ v < F.n, valueAt (sol'.timeOfFlightOf W.id) v ≤ a) :
    ∃ m p, F.Carries (cs W) F.cycleInflow m ∧ F.Carries (cs W) (fun v => F.pv v * m v) p ∧ ∀ v < F.n,
      |valueAt (sol'.concentration W.id) v * valueAt (sol'.timeOfFlightOf W.id) v
          - (ws.map fun w => valueAt (sol.concentration w.id) v * valueAt (sol.timeOfFlightOf w.id) v).sum|
        ≤ ((ws.length + 1 : Nat) : K) * (1 / 1000000000 * p v + (2 * a / 1000000000 + cap / 1000000000000) * m v) := by
  have hF : F.Valid := by obtain ⟨d, st, h1, _⟩ := D.solved; exact h1.valid
  have hG : G.Valid := by obtain ⟨d, st, h1, _⟩ := D'.solved; exact h1.valid
  have hpG : ∀ p ∈ cs W, p < G.n ∧ 0 < G.src p := side_sources D'.side hW
  have hpF : ∀ p ∈ cs W, p < F.n ∧ 0 < F.src p := fun p hp => by
    have hpn : p < F.n := by have := (hpG p hp).1; rwa [hren.size] at this
    refine ⟨hpn, ?_⟩
    have : G.src p = F.src p := hren.src p hpn
    rw [← this]; exact (hpG p hp).2
  have hmem := group_mem (n := F.n) (fun p hp => ⟨(hpF p hp).1, D'.side.pos W hW p hp⟩)
    (fun w hw p hp => ⟨D.side.range w (hws w hw) p hp, D.side.pos w (hws w hw) p hp⟩) hsplit
  have toF : ∀ {q q' x : Nat → K}, (∀ v < F.n, q' v = q v) → G.Carries (cs W) q' x → F.Carries (cs W) q x := fun hq hx =>
    carries_renumber hren (fun _ _ => Iff.rfl) (fun p hp => (hpF p hp).1) (fun p hp => (hpF p hp).1) hq hx
  obtain ⟨m, hm⟩ := (C76_exact hG hpG G.cycleInflow).1
  obtain ⟨p, hp⟩ := (C76_exact hG hpG fun v => G.pv v * m v).1
  obtain ⟨x, hx⟩ := (C76_exact hG hpG (injected (cs W) (f W))).1
  obtain ⟨q, hq⟩ := (C76_exact hG hpG fun v => G.pv v * x v).1
  have hmF := toF (fun v hv => cycleInflow_renumber hren hv) hm
  have hpv : ∀ (y : Nat → K) v, v < F.n → G.pv v * y v = F.pv v * y v := fun y v hv => by
    have : G.pv v = F.pv v := hren.pv v hv
    rw [this]
  have hpmF := toF (hpv m) hp
  have hxF := toF (fun v _ => rfl) hx
  have hqF := toF (hpv x) hq
  refine ⟨m, p, hmF, hpmF, fun v hv => group_time_error hF hpF hmem hsplit (v := v) (fun w hw y r hy hr => ?_) fun y r hy hr => ?_⟩
  · by_cases hne : cs w = []
    · have hcy : ∀ v < F.n, 0 ≤ F.cycleInflow v := fun v hv => by
        classical
        unfold Flow.cycleInflow
        refine sum_nonneg fun u hu => ?_
        split
        · exact hF.w_nonneg u v (mem_range.mp hu) hv
        · exact le_rfl
      have hm0 := (C76_exact hF hpF F.cycleInflow).2.2 hcy m hmF
      have hp0 := (C76_exact hF hpF fun v => F.pv v * m v).2.2 (fun v hv => mul_nonneg (hF.pv_nonneg v hv) (hm0 v hv)) p hpmF v hv
      have hm0 := hm0 v hv
      have hcap : (0 : K) ≤ cap := by unfold cap; norm_num
      rw [(D.nothing (hws w hw) hne).2, hr.1 v hv (by rw [hne]; rintro ⟨p, h, _⟩; simp at h)]
      show |0 * _ - 0| ≤ _
      rw [zero_mul, sub_zero, abs_zero]
      positivity
    · exact D.well_time hF hself (hws w hw) (hask w hw hne) ha0 ha (hta w hw) hpF (fun p hp => (hmem p).mpr ⟨w, hw, hp⟩) hmF hpmF hy hr hv
  · have e1 := (C76_exact hF hpF _).2.1 _ _ hy hxF
    have hr' : F.Carries (cs W) (fun v => F.pv v * x v) r := ⟨hr.1, fun v hv hd => by
      rw [hr.2 v hv hd]
      beta_reduce
      rw [e1 v hv]⟩
    rw [(C76_exact hF hpF _).2.1 _ _ hr' hqF v hv]
    exact D'.well_time hG (noLoop_renumber hren hself) hW hs ha0 ha (fun v hv => hta' v (by rwa [← hren.size])) hpG (fun p hp => hp) hm hp
      hx hq (by rw [hren.size]; exact hv)

variable {P Q : Problem K} (hP : P.Valid) (hQ : Q.Valid) {γ : CellSetID → CellSetID} (hgroup : P.Grouped γ Q)
  {g g' : ConnectivityGraph} {calls calls' : List (Call (X K))} (h : P.GivenTo g calls) (h' : Q.GivenTo g' calls')
  (hself : ∀ v < P.n, ¬ P.forward.Loop v)
include hP hQ hgroup h h' hself

/-- **C96** (exact arithmetic, any cycles, no cell has a self-connection as its only cycle, no time above `a` < 200 years) The time
    of flight of a group of injectors is the mean of those of its members, up to an error of `1e-9 * p + (2 a * 1e-9 +
    200 years * 1e-12) * m` in its product with the concentration, for each member and once more; `m` is carried by the flow when each
    cell adds the flux that it gets from its own cycle, `p` when it adds its pore volume times `m`. -/
theorem C96_time_injection_cyclic {starts starts' : List CellSet} {sol sol' : Solution (X K)}
    (hr : InjectionReturns g calls starts (.ok sol)) (hr' : InjectionReturns g' calls' starts' (.ok sol')) {W : WellFlux K}
    (hW : W ∈ Q.wells) (hs : ∃ s ∈ starts', s.id = W.id)
    (hask : ∀ w ∈ P.members γ W.id, (∃ v ∈ w.cells, 0 < w.val v) → ∃ s ∈ starts, s.id = w.id)
    {a : K} (ha0 : 0 ≤ a) (ha : a < 200 * 365 * 24 * 60 * 60)
    (hta : ∀ w ∈ P.members γ W.id, ∀ v < P.n, valueAt (sol.timeOfFlightOf w.id) v ≤ a)
    (hta' : ∀ v < P.n, valueAt (sol'.timeOfFlightOf W.id) v ≤ a) :
    ∃ m p, P.forward.Carries (posCells W) P.forward.cycleInflow m ∧ P.forward.Carries (posCells W) (fun v => P.pv v * m v) p ∧
      ∀ v < P.n, |valueAt (sol'.concentration W.id) v * valueAt (sol'.timeOfFlightOf W.id) v
          - ((P.members γ W.id).map fun w => valueAt (sol.concentration w.id) v * valueAt (sol.timeOfFlightOf w.id) v).sum|
        ≤ (((P.members γ W.id).length + 1 : Nat) : K)
          * (1 / 1000000000 * p v + (2 * a / 1000000000 + 200 * 365 * 24 * 60 * 60 / 1000000000000) * m v) := by
  refine (diag_injection hP h hr).group_time (diag_injection hQ h' hr') (Grouped.forward hQ hgroup) hself hW hs
    (fun w hw => (List.mem_filter.mp hw).1) (fun w hw hne => hask w hw ?_) (fun v hv => ?_) ha0 ha hta hta'
  · obtain ⟨v, hv⟩ := List.exists_mem_of_ne_nil _ hne
    obtain ⟨a, b⟩ := List.mem_filter.mp hv
    exact ⟨v, a, by simpa using b⟩
  · rw [injected_pos, hgroup.injected W hW v hv]
    simp only [injected_pos]
    rfl

/-- **C96** The same for producers, in the reversed flow. -/
theorem C96_time_production_cyclic {starts starts' : List CellSet} {sol sol' : Solution (X K)}
    (hr : ProductionReturns g calls starts (.ok sol)) (hr' : ProductionReturns g' calls' starts' (.ok sol')) {W : WellFlux K}
    (hW : W ∈ Q.wells) (hs : ∃ s ∈ starts', s.id = W.id)
    (hask : ∀ w ∈ P.members γ W.id, (∃ v ∈ w.cells, w.val v < 0) → ∃ s ∈ starts, s.id = w.id)
    {a : K} (ha0 : 0 ≤ a) (ha : a < 200 * 365 * 24 * 60 * 60)
    (hta : ∀ w ∈ P.members γ W.id, ∀ v < P.n, valueAt (sol.timeOfFlightOf w.id) v ≤ a)
    (hta' : ∀ v < P.n, valueAt (sol'.timeOfFlightOf W.id) v ≤ a) :
    ∃ m p, P.backward.Carries (negCells W) P.backward.cycleInflow m ∧ P.backward.Carries (negCells W) (fun v => P.pv v * m v) p ∧
      ∀ v < P.n, |valueAt (sol'.concentration W.id) v * valueAt (sol'.timeOfFlightOf W.id) v
          - ((P.members γ W.id).map fun w => valueAt (sol.concentration w.id) v * valueAt (sol.timeOfFlightOf w.id) v).sum|
        ≤ (((P.members γ W.id).length + 1 : Nat) : K)
          * (1 / 1000000000 * p v + (2 * a / 1000000000 + 200 * 365 * 24 * 60 * 60 / 1000000000000) * m v) := by
  refine (diag_production hP h hr).group_time (diag_production hQ h' hr') (Grouped.backward hQ hgroup) (backward_not_loop hself) hW hs
    (fun w hw => (List.mem_filter.mp hw).1) (fun w hw hne => hask w hw ?_) (fun v hv => ?_) ha0 ha hta hta'
  · obtain ⟨v, hv⟩ := List.exists_mem_of_ne_nil _ hne
    obtain ⟨a, b⟩ := List.mem_filter.mp hv
    exact ⟨v, a, by simpa using b⟩
  · rw [injected_neg, hgroup.produced W hW v hv]
    simp only [injected_neg]
    rfl

end exact

/-! ### Doubles -/

section double

theorem Nearly.group_time {F G : Flow ℚ} {wells wells' : List (WellFlux ℚ)} {cs : WellFlux ℚ → List Nat} {f : WellFlux ℚ → Nat → ℚ}
    {starts starts' : List CellSet} {sol sol' : Solution Double} {M : Nat} (N : Nearly F wells cs f starts sol M)
    (N' : Nearly G wells' cs f starts' sol' M) (T : Timely F wells cs starts sol M) (T' : Timely G wells' cs starts' sol' M)
    (hother : ∀ i, (¬ ∃ s ∈ starts, s.id = i) → sol.concentration i = [])
    (hren : Renumbered id F G) (hself : ∀ v < F.n, ¬ F.Loop v) {W : WellFlux ℚ}
    (hW : W ∈ wells') (hs : ∃ s ∈ starts', s.id = W.id) {ws : List (WellFlux ℚ)} (hws : ∀ w ∈ ws, w ∈ wells)
    (hask : ∀ w ∈ ws, cs w ≠ [] → ∃ s ∈ starts, s.id = w.id)
    (hsplit : ∀ v < F.n, injected (cs W) (f W) v = (ws.map fun w => injected (cs w) (f w) v).sum)
    {a : ℚ} (ha0 : 0 ≤ a) (ha : a < 200 * 365 * 24 * 60 * 60)
    (hta : ∀ w ∈ ws, ∀ v, F.Downstream (cs w) v → doubleAt (sol.timeOfFlightOf w.id) v ≤ a ∧
      1 / 2 ^ 300 ≤ doubleAt (sol.concentration w.id) v)
    (hta' : ∀ v, F.Downstream (cs W) v → doubleAt (sol'.timeOfFlightOf W.id) v ≤ a ∧
      1 / 2 ^ 300 ≤ doubleAt (sol'.concentration W.id) v) :
    ∃ m h p k, F.Carries (cs W) F.cycleInflow m ∧ F.Carries (cs W) F.total h ∧ F.Carries (cs W) (fun v => F.pv v * m v) p ∧
      F.Carries (cs W) (fun v => F.pv v * h v) k ∧ ∀ v < F.n,
      |doubleAt (sol'.concentration W.id) v * doubleAt (sol'.timeOfFlightOf W.id) v
          - (ws.map fun w => doubleAt (sol.concentration w.id) v * doubleAt (sol.timeOfFlightOf w.id) v).sum|
        ≤ ((ws.length + 1 : Nat) : ℚ) * (1 / 1000000000 * p v
          + (3 * a / 1000000000 + 200 * 365 * 24 * 60 * 60 / 1000000000000) * m v
          + ((4 * M + 8 : Nat) : ℚ) / 2 ^ 51 * (k v + (3 * a + 1) * h v)) := by
  have hF := N.valid
  have hG := N'.valid
  have hpG := N'.sources hW
  have hpF : ∀ p ∈ cs W, p < F.n ∧ 0 < F.src p := fun p hp => by
    have hpn : p < F.n := by have := (hpG p hp).1; rwa [hren.size] at this
    refine ⟨hpn, ?_⟩
    have : G.src p = F.src p := hren.src p hpn
    rw [← this]; exact (hpG p hp).2
  have hmem := group_mem (n := F.n) (fun p hp => ⟨(hpF p hp).1, N'.side.pos W hW p hp⟩)
    (fun w hw p hp => ⟨N.side.range w (hws w hw) p hp, N.side.pos w (hws w hw) p hp⟩) hsplit
  have toF : ∀ {q q' x : Nat → ℚ}, (∀ v < F.n, q' v = q v) → G.Carries (cs W) q' x → F.Carries (cs W) q x := fun hq hx =>
    carries_renumber hren (fun _ _ => Iff.rfl) (fun p hp => (hpF p hp).1) (fun p hp => (hpF p hp).1) hq hx
  obtain ⟨m, hm⟩ := (C76_exact hG hpG G.cycleInflow).1
  obtain ⟨h, hh⟩ := (C76_exact hG hpG G.total).1
  obtain ⟨p, hp⟩ := (C76_exact hG hpG fun v => G.pv v * m v).1
  obtain ⟨k, hk⟩ := (C76_exact hG hpG fun v => G.pv v * h v).1
  obtain ⟨x, hx⟩ := (C76_exact hG hpG (injected (cs W) (f W))).1
  obtain ⟨q, hq⟩ := (C76_exact hG hpG fun v => G.pv v * x v).1
  have hpv : ∀ (y : Nat → ℚ) v, v < F.n → G.pv v * y v = F.pv v * y v := fun y v hv => by
    have : G.pv v = F.pv v := hren.pv v hv
    rw [this]
  have hmF := toF (fun v hv => cycleInflow_renumber hren hv) hm
  have hhF := toF (fun v hv => total_renumber hren hv) hh
  have hpmF := toF (hpv m) hp
  have hkF := toF (hpv h) hk
  have hxF := toF (fun v _ => rfl) hx
  have hqF := toF (hpv x) hq
  refine ⟨m, h, p, k, hmF, hhF, hpmF, hkF, fun v hv => group_time_error hF hpF hmem hsplit (v := v) (fun w hw y r hy hr => ?_)
    fun y r hy hr => ?_⟩
  · by_cases hac : ∃ s ∈ starts, s.id = w.id
    · exact N.well_time T hself (hws w hw) hac ha0 ha (fun v hd => (hta w hw v hd).1) (fun v hd => (hta w hw v hd).2) hpF
        (fun p hp => (hmem p).mpr ⟨w, hw, hp⟩) hmF hhF hpmF hkF hy hr hv
    · have hne : cs w = [] := by
        by_contra hc
        exact hac (hask w hw hc)
      have hcy : ∀ v < F.n, 0 ≤ F.cycleInflow v := fun v hv => (cycleInflow_bounds hF hv).1
      have hto : ∀ v < F.n, 0 ≤ F.total v := fun v hv => (hcy v hv).trans (cycleInflow_bounds hF hv).2
      have hm0 := (C76_exact hF hpF F.cycleInflow).2.2 hcy m hmF
      have hh0 := (C76_exact hF hpF F.total).2.2 hto h hhF
      have hp0 := (C76_exact hF hpF fun v => F.pv v * m v).2.2 (fun v hv => mul_nonneg (hF.pv_nonneg v hv) (hm0 v hv)) p hpmF v hv
      have hk0 := (C76_exact hF hpF fun v => F.pv v * h v).2.2 (fun v hv => mul_nonneg (hF.pv_nonneg v hv) (hh0 v hv)) k hkF v hv
      have hm0 := hm0 v hv
      have hh0 := hh0 v hv
      rw [hother _ hac, hr.1 v hv (by rw [hne]; rintro ⟨p, h, _⟩; simp at h)]
      show |0 * _ - 0| ≤ _
      rw [zero_mul, sub_zero, abs_zero]
      positivity
  · have e1 := (C76_exact hF hpF _).2.1 _ _ hy hxF
    have hr' : F.Carries (cs W) (fun v => F.pv v * x v) r := ⟨hr.1, fun v hv hd => by
      rw [hr.2 v hv hd]
      beta_reduce
      rw [e1 v hv]⟩
    rw [(C76_exact hF hpF _).2.1 _ _ hr' hqF v hv]
    have hd : ∀ v, G.Downstream (cs W) v → F.Downstream (cs W) v := fun v hd => by
      obtain ⟨p, h1, h2⟩ := hd
      have hvG := reach_lt (hpG p h1).1 h2
      rw [hren.size] at hvG
      exact (downstream_renumber hren (fun _ _ => Iff.rfl) (fun p hp => (hpF p hp).1) (fun p hp => (hpF p hp).1) hvG).mp ⟨p, h1, h2⟩
    exact N'.well_time T' (noLoop_renumber hren hself) hW hs ha0 ha (fun v hv => (hta' v (hd v hv)).1) (fun v hv => (hta' v (hd v hv)).2)
      hpG (fun p hp => hp) hm hh hp hk hx hq (by rw [hren.size]; exact hv)

variable {P Q : Problem ℚ} (hP : P.Valid) (hQ : Q.Valid) {M : Nat} (hO : P.OfOrdinarySize M) (hO' : Q.OfOrdinarySize M)
  {γ : CellSetID → CellSetID} (hgroup : P.Grouped γ Q) (hself : ∀ v < P.n, ¬ P.forward.Loop v)
  {g g' : ConnectivityGraph} {calls calls' : List (Call Double)} (h : P.StoredIn g calls) (h' : Q.StoredIn g' calls')
  {starts starts' : List CellSet} {sol sol' : Solution Double}
include hP hQ hO hO' hgroup hself h h'

/-- **C96** (doubles, any cycles, no time above `a` < 200 years and no concentration below 2^-300 downstream) The time of flight of a
    group of injectors is the mean of those of its members, up to an error in its product with the concentration, for each member and
    once more.  Beside the `m` and `p` of the exact theorem it has `t` and `k`, carried when each cell adds its total flux and its pore
    volume times `t`, with a factor of some rounding units. -/
theorem C96_time_injection_double (htotal : ∀ v < P.n, P.forward.total v ≤ 2 ^ 100)
    (hr : InjectionReturns g calls starts (.ok sol)) (hr' : InjectionReturns g' calls' starts' (.ok sol')) {W : WellFlux ℚ}
    (hW : W ∈ Q.wells) (hs : ∃ s ∈ starts', s.id = W.id)
    (hask : ∀ w ∈ P.members γ W.id, (∃ v ∈ w.cells, 0 < w.val v) → ∃ s ∈ starts, s.id = w.id)
    {a : ℚ} (ha0 : 0 ≤ a) (ha : a < 200 * 365 * 24 * 60 * 60)
    (hta : ∀ w ∈ P.members γ W.id, ∀ v, P.forward.Downstream (posCells w) v → doubleAt (sol.timeOfFlightOf w.id) v ≤ a ∧
      1 / 2 ^ 300 ≤ doubleAt (sol.concentration w.id) v)
    (hta' : ∀ v, P.forward.Downstream (posCells W) v → doubleAt (sol'.timeOfFlightOf W.id) v ≤ a ∧
      1 / 2 ^ 300 ≤ doubleAt (sol'.concentration W.id) v) :
    ∃ m t p k, P.forward.Carries (posCells W) P.forward.cycleInflow m ∧ P.forward.Carries (posCells W) P.forward.total t ∧
      P.forward.Carries (posCells W) (fun v => P.pv v * m v) p ∧ P.forward.Carries (posCells W) (fun v => P.pv v * t v) k ∧
      ∀ v < P.n, |doubleAt (sol'.concentration W.id) v * doubleAt (sol'.timeOfFlightOf W.id) v
          - ((P.members γ W.id).map fun w => doubleAt (sol.concentration w.id) v * doubleAt (sol.timeOfFlightOf w.id) v).sum|
        ≤ (((P.members γ W.id).length + 1 : Nat) : ℚ) * (1 / 1000000000 * p v
          + (3 * a / 1000000000 + 200 * 365 * 24 * 60 * 60 / 1000000000000) * m v
          + ((4 * M + 8 : Nat) : ℚ) / 2 ^ 51 * (k v + (3 * a + 1) * t v)) := by
  have hren := Grouped.forward hQ hgroup
  have htotal' : ∀ v < Q.n, Q.forward.total v ≤ 2 ^ 100 := fun v hv => by
    rw [hgroup.size] at hv
    have : Q.forward.total v = P.forward.total v := total_renumber hren hv
    rw [this]; exact htotal v hv
  refine (nearly_injection hP hO htotal h hr).group_time (nearly_injection hQ hO' htotal' h' hr') (timely_injection hP hO htotal h hr)
    (timely_injection hQ hO' htotal' h' hr') (fun i hi => ?_) hren hself hW hs
    (fun w hw => (List.mem_filter.mp hw).1) (fun w hw hne => hask w hw ?_) (fun v hv => ?_) ha0 ha hta hta'
  · obtain ⟨N, hN⟩ := hr
    exact ((C41_ids _ _ _ N _ _ (Or.inl (hN N le_rfl))).2.2.2 i hi).2
  · obtain ⟨v, hv⟩ := List.exists_mem_of_ne_nil _ hne
    obtain ⟨a, b⟩ := List.mem_filter.mp hv
    exact ⟨v, a, by simpa using b⟩
  · rw [injected_pos, hgroup.injected W hW v hv]
    simp only [injected_pos]
    rfl

/-- **C96** The same for producers, in the reversed flow. -/
theorem C96_time_production_double (htotal : ∀ v < P.n, P.backward.total v ≤ 2 ^ 100)
    (hr : ProductionReturns g calls starts (.ok sol)) (hr' : ProductionReturns g' calls' starts' (.ok sol')) {W : WellFlux ℚ}
    (hW : W ∈ Q.wells) (hs : ∃ s ∈ starts', s.id = W.id)
    (hask : ∀ w ∈ P.members γ W.id, (∃ v ∈ w.cells, w.val v < 0) → ∃ s ∈ starts, s.id = w.id)
    {a : ℚ} (ha0 : 0 ≤ a) (ha : a < 200 * 365 * 24 * 60 * 60)
    (hta : ∀ w ∈ P.members γ W.id, ∀ v, P.backward.Downstream (negCells w) v → doubleAt (sol.timeOfFlightOf w.id) v ≤ a ∧
      1 / 2 ^ 300 ≤ doubleAt (sol.concentration w.id) v)
    (hta' : ∀ v, P.backward.Downstream (negCells W) v → doubleAt (sol'.timeOfFlightOf W.id) v ≤ a ∧
      1 / 2 ^ 300 ≤ doubleAt (sol'.concentration W.id) v) :
    ∃ m t p k, P.backward.Carries (negCells W) P.backward.cycleInflow m ∧ P.backward.Carries (negCells W) P.backward.total t ∧
      P.backward.Carries (negCells W) (fun v => P.pv v * m v) p ∧ P.backward.Carries (negCells W) (fun v => P.pv v * t v) k ∧
      ∀ v < P.n, |doubleAt (sol'.concentration W.id) v * doubleAt (sol'.timeOfFlightOf W.id) v
          - ((P.members γ W.id).map fun w => doubleAt (sol.concentration w.id) v * doubleAt (sol.timeOfFlightOf w.id) v).sum|
        ≤ (((P.members γ W.id).length + 1 : Nat) : ℚ) * (1 / 1000000000 * p v
          + (3 * a / 1000000000 + 200 * 365 * 24 * 60 * 60 / 1000000000000) * m v
          + ((4 * M + 8 : Nat) : ℚ) / 2 ^ 51 * (k v + (3 * a + 1) * t v)) := by
  have hren := Grouped.backward hQ hgroup
  have htotal' : ∀ v < Q.n, Q.backward.total v ≤ 2 ^ 100 := fun v hv => by
    rw [hgroup.size] at hv
    have : Q.backward.total v = P.backward.total v := total_renumber hren hv
    rw [this]; exact htotal v hv
  refine (nearly_production hP hO htotal h hr).group_time (nearly_production hQ hO' htotal' h' hr') (timely_production hP hO htotal h hr)
    (timely_production hQ hO' htotal' h' hr') (fun i hi => ?_) hren (backward_not_loop hself) hW hs
    (fun w hw => (List.mem_filter.mp hw).1) (fun w hw hne => hask w hw ?_) (fun v hv => ?_) ha0 ha hta hta'
  · obtain ⟨N, hN⟩ := hr
    exact ((C41_ids _ _ _ N _ _ (Or.inr (hN N le_rfl))).2.2.2 i hi).2
  · obtain ⟨v, hv⟩ := List.exists_mem_of_ne_nil _ hne
    obtain ⟨a, b⟩ := List.mem_filter.mp hv
    exact ⟨v, a, by simpa using b⟩
  · rw [injected_neg, hgroup.produced W hW v hv]
    simp only [injected_neg]
    rfl

end double

/-! ### A concrete case: a cycle of two cells, two injectors in one cell against one injector of their total -/

set_option maxRecDepth 100000 in
/-- C96, times, exact arithmetic. -/
example : ∃ s s', InjectionReturns whirlGraph whirlPartsExact [CellSet.ofCells ⟨[65]⟩ [0], CellSet.ofCells ⟨[66]⟩ [0]] (.ok s) ∧
    InjectionReturns whirlGraph (whirlExact 1) [CellSet.ofCells ⟨[65]⟩ [0]] (.ok s') ∧
    ∃ m p : Nat → ℚ, ∀ v < 4,
      |valueAt (s'.concentration ⟨[65]⟩) v * valueAt (s'.timeOfFlightOf ⟨[65]⟩) v
          - (valueAt (s.concentration ⟨[65]⟩) v * valueAt (s.timeOfFlightOf ⟨[65]⟩) v
            + valueAt (s.concentration ⟨[66]⟩) v * valueAt (s.timeOfFlightOf ⟨[66]⟩) v)|
        ≤ 3 * (1 / 1000000000 * p v + (2 * 3 / 1000000000 + 200 * 365 * 24 * 60 * 60 / 1000000000000) * m v) := by
  obtain ⟨s, h2, b2⟩ := okBelow_spec (i := ⟨[65]⟩) (a := 3)
    (r := injectionOutcome whirlGraph whirlPartsExact noFailure 100 [CellSet.ofCells ⟨[65]⟩ [0], CellSet.ofCells ⟨[66]⟩ [0]])
    (by decide +kernel)
  obtain ⟨s1, h3, b3⟩ := okBelow_spec (i := ⟨[66]⟩) (a := 3)
    (r := injectionOutcome whirlGraph whirlPartsExact noFailure 100 [CellSet.ofCells ⟨[65]⟩ [0], CellSet.ofCells ⟨[66]⟩ [0]])
    (by decide +kernel)
  obtain rfl : s = s1 := Res.ok.inj (h2.symm.trans h3)
  obtain ⟨s', h4, b4⟩ := okBelow_spec (i := ⟨[65]⟩) (a := 3)
    (r := injectionOutcome whirlGraph (whirlExact 1) noFailure 100 [CellSet.ofCells ⟨[65]⟩ [0]]) (by decide +kernel)
  have hr := (Fuel.injection_returns.mpr ⟨100, h2, by simp⟩).1
  have hr' := (Fuel.injection_returns.mpr ⟨100, h4, by simp⟩).1
  have hmem : ∀ w ∈ exWhirlParts.members exGroup ⟨[65]⟩, w.id = ⟨[65]⟩ ∨ w.id = ⟨[66]⟩ := fun w hw => by
    rw [exWhirlParts_members.1] at hw
    simp only [List.mem_cons, List.not_mem_nil, or_false] at hw
    rcases hw with rfl | rfl
    · exact Or.inl rfl
    · exact Or.inr rfl
  obtain ⟨m, p, _, _, e⟩ := C96_time_injection_cyclic exWhirlParts_valid exWhirl_valid exWhirlParts_grouped whirlPartsExact_given
    whirl_given (by rw [whirlParts_forward.2]; exact whirl_not_loop) hr hr' (W := ⟨⟨[65]⟩, [0], fun _ => 2⟩) (.head _) ⟨_, .head _, rfl⟩
    (fun w hw _ => by
      rcases hmem w hw with h | h
      · exact ⟨_, .head _, h.symm⟩
      · exact ⟨_, .tail _ (.head _), h.symm⟩)
    (a := 3) (by norm_num) (by norm_num)
    (fun w hw v hv => by
      rcases hmem w hw with h | h
      · rw [h]; exact b2 v hv
      · rw [h]; exact b3 v hv)
    (fun v hv => b4 v hv)
  refine ⟨s, s', hr, hr', m, p, fun v hv => ?_⟩
  have := e v hv
  rw [exWhirlParts_members.1] at this
  simp only [List.map_cons, List.map_nil, List.sum_cons, List.sum_nil, add_zero, List.length_cons, List.length_nil] at this
  norm_num at this ⊢
  exact this

/-- All times of well `i` are at most ten, all its concentrations at least a quarter. -/
def tenAndQuarter (i : CellSetID) : Res (Solution Double) → Bool
  | .ok s => (List.range 4).all fun v => decide (doubleAt (s.timeOfFlightOf i) v ≤ 10) && decide (1 / 4 ≤ doubleAt (s.concentration i) v)
  | _ => false

theorem tenAndQuarter_spec {i : CellSetID} {r : Res (Solution Double)} (h : tenAndQuarter i r = true) :
    ∃ s, r = .ok s ∧ ∀ v < 4, doubleAt (s.timeOfFlightOf i) v ≤ 10 ∧ 1 / 2 ^ 300 ≤ doubleAt (s.concentration i) v := by
  have small : (1 : ℚ) / 2 ^ 300 ≤ 1 / 4 :=
    one_div_le_one_div_of_le (by norm_num) (le_trans (by norm_num) (pow_le_pow_right₀ one_le_two (show 2 ≤ 300 by norm_num)))
  unfold tenAndQuarter at h
  split at h
  · rename_i s
    refine ⟨s, rfl, fun v hv => ?_⟩
    have := List.all_eq_true.mp h v (List.mem_range.mpr hv)
    rw [Bool.and_eq_true, decide_eq_true_eq, decide_eq_true_eq] at this
    exact ⟨this.1, small.trans this.2⟩
  · cases h

set_option maxRecDepth 100000 in
/-- C96, times, doubles. -/
example : ∃ s s', InjectionReturns whirlGraph whirlPartsCalls [CellSet.ofCells ⟨[65]⟩ [0], CellSet.ofCells ⟨[66]⟩ [0]] (.ok s) ∧
    InjectionReturns whirlGraph whirlCalls [CellSet.ofCells ⟨[65]⟩ [0]] (.ok s') ∧
    ∃ m t p k : Nat → ℚ, ∀ v < 4,
      |doubleAt (s'.concentration ⟨[65]⟩) v * doubleAt (s'.timeOfFlightOf ⟨[65]⟩) v
          - (doubleAt (s.concentration ⟨[65]⟩) v * doubleAt (s.timeOfFlightOf ⟨[65]⟩) v
            + doubleAt (s.concentration ⟨[66]⟩) v * doubleAt (s.timeOfFlightOf ⟨[66]⟩) v)|
        ≤ 3 * (1 / 1000000000 * p v + (3 * 10 / 1000000000 + 200 * 365 * 24 * 60 * 60 / 1000000000000) * m v
          + ((4 * 4 + 8 : Nat) : ℚ) / 2 ^ 51 * (k v + (3 * 10 + 1) * t v)) := by
  obtain ⟨s, h2, b2⟩ := tenAndQuarter_spec (i := ⟨[65]⟩)
    (r := injectionOutcome whirlGraph whirlPartsCalls noFailure 100 [CellSet.ofCells ⟨[65]⟩ [0], CellSet.ofCells ⟨[66]⟩ [0]])
    (by decide +kernel)
  obtain ⟨s1, h3, b3⟩ := tenAndQuarter_spec (i := ⟨[66]⟩)
    (r := injectionOutcome whirlGraph whirlPartsCalls noFailure 100 [CellSet.ofCells ⟨[65]⟩ [0], CellSet.ofCells ⟨[66]⟩ [0]])
    (by decide +kernel)
  obtain rfl : s = s1 := Res.ok.inj (h2.symm.trans h3)
  obtain ⟨s', h4, b4⟩ := tenAndQuarter_spec (i := ⟨[65]⟩)
    (r := injectionOutcome whirlGraph whirlCalls noFailure 100 [CellSet.ofCells ⟨[65]⟩ [0]]) (by decide +kernel)
  have hr := (Fuel.injection_returns.mpr ⟨100, h2, by simp⟩).1
  have hr' := (Fuel.injection_returns.mpr ⟨100, h4, by simp⟩).1
  have hmem : ∀ w ∈ exWhirlParts.members exGroup ⟨[65]⟩, (w.id = ⟨[65]⟩ ∨ w.id = ⟨[66]⟩) ∧ ∀ p ∈ posCells w, p = 0 := fun w hw => by
    rw [exWhirlParts_members.1] at hw
    simp only [List.mem_cons, List.not_mem_nil, or_false] at hw
    rcases hw with rfl | rfl
    · exact ⟨Or.inl rfl, fun p hp => by simpa using (List.mem_filter.mp hp).1⟩
    · exact ⟨Or.inr rfl, fun p hp => by simpa using (List.mem_filter.mp hp).1⟩
  have hlt : ∀ {l : List Nat} {v : Nat}, (∀ p ∈ l, p = 0) → exWhirlParts.forward.Downstream l v → v < 4 := by
    rintro l v hl ⟨p, h1, h2⟩
    rw [hl p h1] at h2
    exact reach_lt (F := exWhirlParts.forward) (by decide) h2
  obtain ⟨m, t, p, k, _, _, _, _, e⟩ := C96_time_injection_double exWhirlParts_valid exWhirl_valid whirlParts_ordinary whirl_ordinary
    exWhirlParts_grouped (by rw [whirlParts_forward.2]; exact whirl_not_loop) whirlParts_stored whirl_stored
    (by rw [whirlParts_forward.2]; exact whirl_total.1) hr hr' (W := ⟨⟨[65]⟩, [0], fun _ => 2⟩) (.head _) ⟨_, .head _, rfl⟩
    (fun w hw _ => by
      rcases (hmem w hw).1 with h | h
      · exact ⟨_, .head _, h.symm⟩
      · exact ⟨_, .tail _ (.head _), h.symm⟩)
    (a := 10) (by norm_num) (by norm_num)
    (fun w hw v hd => by
      have hv := hlt (hmem w hw).2 hd
      rcases (hmem w hw).1 with h | h
      · rw [h]; exact b2 v hv
      · rw [h]; exact b3 v hv)
    (fun v hd => b4 v (hlt (fun p hp => by simpa using (List.mem_filter.mp hp).1) hd))
  refine ⟨s, s', hr, hr', m, t, p, k, fun v hv => ?_⟩
  have := e v hv
  rw [exWhirlParts_members.1] at this
  simp only [List.map_cons, List.map_nil, List.sum_cons, List.sum_nil, add_zero, List.length_cons, List.length_nil] at this
  norm_num at this ⊢
  exact this

end Verif.Props
