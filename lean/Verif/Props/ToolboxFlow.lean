/-
C23 to C31 for the results of the `Toolbox`: what a client reads from a computed solution, in terms of the problem the
toolbox was given.
-/
import Verif.Props.Solver
import Verif.Props.ToolboxProblem
import Mathlib.Tactic.IntervalCases

namespace Verif.Props
open Verif.Spec Verif.Toolbox Verif.Solver Finset

variable {K : Type} [Field K] [LinearOrder K] [IsStrictOrderedRing K] [Archimedean K]

/-! ### Both directions at once -/

/-- A solution computed for the flow `F` with sources `f w` on the cells `cs w` of each well `w`. -/
structure Diag (F : Flow K) (wells : List (WellFlux K)) (cs : WellFlux K → List Nat) (f : WellFlux K → Nat → K)
    (starts : List CellSet) (sol : Solution (X K)) : Prop where
  side : Side wells cs f F.n F.src
  solved : ∃ d st, SolverFor F d st ∧ GlobalReturns d st (.ok sol.timeOfFlight) ∧
    ∀ w ∈ wells, (∃ s ∈ starts, s.id = w.id) → ∃ l, LocalReturns d st (valuesOf (cs w) (f w)) (.ok l) ∧
        sol.timeOfFlightOf w.id = l.tof ∧ sol.concentration w.id = l.concentration
  known : ∀ s ∈ starts, ∃ w ∈ wells, w.id = s.id ∧ cs w ≠ []
  other : ∀ i, (¬ ∃ s ∈ starts, s.id = i) → sol.timeOfFlightOf i = [] ∧ sol.concentration i = []
  sorted : sol.startPoints.Pairwise (· < ·)
  points : ∀ i, i ∈ sol.startPoints ↔ ∃ s ∈ starts, s.id = i

theorem diag_injection {P : Problem K} (hP : P.Valid) {g : ConnectivityGraph} {calls : List (Call (X K))}
    (h : P.GivenTo g calls) {starts : List CellSet} {sol : Solution (X K)}
    (hr : InjectionReturns g calls starts (.ok sol)) :
    Diag P.forward P.wells posCells (fun w => w.val) starts sol := by
  have ha : InjectionAccepts P.inflowMap starts := by
    by_contra hc
    obtain ⟨N, hN⟩ := hr
    obtain ⟨M, hM⟩ := (C40_valid_problem hP h starts).2.1 hc
    have h1 := hN (max N M) (le_max_left ..)
    rw [hM (max N M) (le_max_right ..)] at h1
    cases h1
  obtain ⟨d, st, sol', h1, h2, h3, h4, h5, h6, h7⟩ := injection_solution hP h ha
  have e : sol' = sol := by
    obtain ⟨N, hN⟩ := hr
    obtain ⟨M, hM⟩ := h2
    have := hN (max N M) (le_max_left ..)
    rw [hM (max N M) (le_max_right ..)] at this
    exact Res.ok.inj this
  subst e
  exact ⟨pos_side hP, ⟨d, st, h1, h3, h4⟩, fun s hs => hasInflow_problem.mp (ha s hs).1, h5, h6, h7⟩

theorem diag_production {P : Problem K} (hP : P.Valid) {g : ConnectivityGraph} {calls : List (Call (X K))}
    (h : P.GivenTo g calls) {starts : List CellSet} {sol : Solution (X K)}
    (hr : ProductionReturns g calls starts (.ok sol)) :
    Diag P.backward P.wells negCells (fun w v => - w.val v) starts sol := by
  have ha : ProductionAccepts P.inflowMap starts := by
    by_contra hc
    obtain ⟨N, hN⟩ := hr
    obtain ⟨M, hM⟩ := (C40_valid_problem hP h starts).2.2.2 hc
    have h1 := hN (max N M) (le_max_left ..)
    rw [hM (max N M) (le_max_right ..)] at h1
    cases h1
  obtain ⟨d, st, sol', h1, h2, h3, h4, h5, h6, h7⟩ := production_solution hP h ha
  have e : sol' = sol := by
    obtain ⟨N, hN⟩ := hr
    obtain ⟨M, hM⟩ := h2
    have := hN (max N M) (le_max_left ..)
    rw [hM (max N M) (le_max_right ..)] at this
    exact Res.ok.inj this
  subst e
  exact ⟨neg_side hP, ⟨d, st, h1, h3, h4⟩, fun s hs => hasOutflow_problem.mp (ha s hs).1, h5, h6, h7⟩

section diag
variable {F : Flow K} {wells : List (WellFlux K)} {cs : WellFlux K → List Nat} {f : WellFlux K → Nat → K}
  {starts : List CellSet} {sol : Solution (X K)}

/-- The requested well with a given id, if any. -/
theorem Diag.well (D : Diag F wells cs f starts sol) (i : CellSetID) :
    (sol.timeOfFlightOf i = [] ∧ sol.concentration i = []) ∨
    ∃ w ∈ wells, w.id = i ∧ cs w ≠ [] ∧ ∃ s ∈ starts, s.id = w.id := by
  by_cases h : ∃ s ∈ starts, s.id = i
  · obtain ⟨s, hs, rfl⟩ := h
    obtain ⟨w, hw, e, hne⟩ := D.known s hs
    exact Or.inr ⟨w, hw, e, hne, s, hs, e.symm⟩
  · exact Or.inl (D.other i h)

/-- A well's sources are part of the total. -/
theorem Diag.le_src (D : Diag F wells cs f starts sol) {w : WellFlux K} (hw : w ∈ wells) {v : Nat} (hv : v ∈ cs w) :
    f w v ≤ F.src v := by
  rw [D.side.src v]
  have := (sum_pos_iff (wells := wells) (g := fun w => if v ∈ cs w then f w v else 0) (by
    intro w hw
    split
    · exact (D.side.pos w hw v (by assumption)).le
    · exact le_rfl)).2.2 w hw
  simpa [hv] using this

theorem Diag.range (D : Diag F wells cs f starts sol) :
    (sol.timeOfFlight.length = F.n ∧ ∀ x ∈ sol.timeOfFlight, ∃ t : K, x = X.fin t ∧ 0 ≤ t ∧ t ≤ 200 * 365 * 24 * 60 * 60) ∧
    ∀ i, ∀ e ∈ sol.timeOfFlightOf i, ∃ t : K, e.2 = X.fin t ∧ 0 ≤ t ∧ t ≤ 200 * 365 * 24 * 60 * 60 := by
  obtain ⟨d, st, h1, h2, h3⟩ := D.solved
  refine ⟨C23_global_range h1 h2, ?_⟩
  intro i e he
  rcases D.well i with ⟨h, _⟩ | ⟨w, hw, rfl, _, hs⟩
  · rw [h] at he; simp at he
  · obtain ⟨l, hl, e1, _⟩ := h3 w hw hs
    rw [e1] at he
    exact C23_local_range h1 (D.side.range w hw) (fun p hp => (D.side.pos w hw p hp).le) hl e he

theorem Diag.support (D : Diag F wells cs f starts sol) {w : WellFlux K} (hw : w ∈ wells) (hs : ∃ s ∈ starts, s.id = w.id) :
    ((sol.timeOfFlightOf w.id).map fun e => e.1) = ((sol.concentration w.id).map fun e => e.1) ∧
      ∀ cell : Int, cell ∈ ((sol.concentration w.id).map fun e => e.1) ↔
        ∃ v : Nat, cell = v ∧ ∃ p ∈ cs w, F.Reach p v := by
  obtain ⟨d, st, h1, h2, h3⟩ := D.solved
  obtain ⟨l, hl, e1, e2⟩ := h3 w hw hs
  rw [e1, e2]
  exact C24_support h1 (D.side.range w hw) (fun p hp => (D.side.pos w hw p hp).le) hl

theorem Diag.conc (D : Diag F wells cs f starts sol) (i : CellSetID) :
    ∀ e ∈ sol.concentration i, ∃ x : K, e.2 = X.fin x ∧ 0 < x ∧ x ≤ 1 := by
  obtain ⟨d, st, h1, h2, h3⟩ := D.solved
  rcases D.well i with ⟨_, h⟩ | ⟨w, hw, rfl, _, hs⟩
  · rw [h]; simp
  · obtain ⟨l, hl, _, e2⟩ := h3 w hw hs
    obtain ⟨l', hl', hr⟩ := C25_concentration_range h1 (D.side.range w hw) (ls := f w)
      (fun p hp => ⟨D.side.pos w hw p hp, D.le_src hw hp⟩)
    have := hl.unique hl'
    cases this
    rw [e2]; exact hr

theorem Diag.balance (D : Diag F wells cs f starts sol) (hacy : F.Acyclic) {w : WellFlux K} (hw : w ∈ wells)
    (hs : ∃ s ∈ starts, s.id = w.id) :
    ∀ v < F.n, F.total v * valueAt (sol.concentration w.id) v
      = (∑ u ∈ Finset.range F.n, valueAt (sol.concentration w.id) u * F.w u v) + injected (cs w) (f w) v := by
  obtain ⟨d, st, h1, h2, h3⟩ := D.solved
  obtain ⟨l, hl, _, e2⟩ := h3 w hw hs
  rw [e2]
  exact C26_balance_exact h1 hacy (D.side.range w hw) (fun p hp => (D.side.pos w hw p hp).le) hl

theorem Diag.balance_cyclic (D : Diag F wells cs f starts sol) {w : WellFlux K}
    (hw : w ∈ wells) (hs : ∃ s ∈ starts, s.id = w.id) :
    ∀ v < F.n,
      let residual := (∑ u ∈ Finset.range F.n, valueAt (sol.concentration w.id) u * F.w u v) + injected (cs w) (f w) v
        - F.total v * valueAt (sol.concentration w.id) v
      0 ≤ residual ∧ (¬ F.Loop v → residual ≤ 1 / 1000000000 * F.cycleInflow v) ∧
        (F.Loop v → residual = valueAt (sol.concentration w.id) v * F.w v v) := by
  obtain ⟨d, st, h1, h2, h3⟩ := D.solved
  obtain ⟨l, hl, _, e2⟩ := h3 w hw hs
  rw [e2]
  exact C26_balance_cyclic_partial h1 (D.side.range w hw) (fun p hp => (D.side.pos w hw p hp).le) hl

/-- The requested wells. -/
def asked (wells : List (WellFlux K)) (sol : Solution (X K)) : List (WellFlux K) :=
  wells.filter fun w => decide (w.id ∈ sol.startPoints)

omit [IsStrictOrderedRing K] [Archimedean K] in
theorem mem_asked {sol : Solution (X K)} {w : WellFlux K} : w ∈ asked wells sol ↔ w ∈ wells ∧ w.id ∈ sol.startPoints := by
  unfold asked; rw [List.mem_filter, decide_eq_true_eq]

theorem Diag.startPoints_eq (D : Diag F wells cs f starts sol) :
    sol.startPoints = (asked wells sol).map fun w => w.id := by
  have h2 : ((asked wells sol).map fun w => w.id).Pairwise (· < ·) := by
    rw [List.pairwise_map]; exact D.side.ids.filter _
  apply List.Perm.eq_of_pairwise (le := (· < ·)) _ D.sorted h2
  · rw [List.perm_ext_iff_of_nodup (D.sorted.imp fun h => ne_of_lt h) (h2.imp fun h => ne_of_lt h)]
    intro i
    rw [List.mem_map]
    constructor
    · intro hi
      obtain ⟨s, hs, rfl⟩ := (D.points i).mp hi
      obtain ⟨w, hw, e, _⟩ := D.known s hs
      exact ⟨w, mem_asked.mpr ⟨hw, by rw [e]; exact hi⟩, e⟩
    · rintro ⟨w, hw, rfl⟩
      exact (mem_asked.mp hw).2
  · intro a b _ _ h1 h2
    exact absurd h1 (lt_asymm h2)

theorem Diag.sums (D : Diag F wells cs f starts sol) :
    ∃ d st, SolverFor F d st ∧ ∃ l : Fin (asked wells sol).length → LocalSolution (X K),
      (∀ k, LocalReturns d st (valuesOf (cs (asked wells sol)[k]) (f (asked wells sol)[k])) (.ok (l k))) ∧
      (∀ v, (sol.startPoints.map fun i => valueAt (sol.concentration i) v).sum = ∑ k, valueAt (l k).concentration v) := by
  obtain ⟨d, st, h1, h2, h3⟩ := D.solved
  have hk : ∀ k : Fin (asked wells sol).length, ∃ l,
      LocalReturns d st (valuesOf (cs (asked wells sol)[k]) (f (asked wells sol)[k])) (.ok l) ∧
      sol.concentration (asked wells sol)[k].id = l.concentration := by
    intro k
    obtain ⟨hw, hi⟩ := mem_asked.mp (List.getElem_mem (l := asked wells sol) k.isLt)
    obtain ⟨l, hl, _, e⟩ := h3 _ hw ((D.points _).mp hi)
    exact ⟨l, hl, e⟩
  choose l hl e using hk
  refine ⟨d, st, h1, l, hl, ?_⟩
  intro v
  rw [D.startPoints_eq, List.map_map]
  have : ∀ k, valueAt (l k).concentration v = valueAt (sol.concentration (asked wells sol)[k].id) v := by
    intro k; rw [e k]
  rw [Finset.sum_congr rfl fun k _ => this k]
  exact (Fin.sum_univ_fun_getElem (asked wells sol) fun w => valueAt (sol.concentration w.id) v).symm

theorem Diag.injected_sum (D : Diag F wells cs f starts sol) (v : Nat) :
    (∑ k : Fin (asked wells sol).length, injected (cs (asked wells sol)[k]) (f (asked wells sol)[k]) v
      = ((asked wells sol).map fun w => injected (cs w) (f w) v).sum) ∧
    ((asked wells sol).map fun w => injected (cs w) (f w) v).sum ≤ F.src v ∧
    ((∀ w ∈ wells, cs w ≠ [] → w.id ∈ sol.startPoints) →
      ((asked wells sol).map fun w => injected (cs w) (f w) v).sum = F.src v) := by
  have hnn : ∀ w ∈ wells, 0 ≤ injected (cs w) (f w) v := by
    intro w hw
    unfold injected
    split
    · exact (D.side.pos w hw v (by assumption)).le
    · exact le_rfl
  have hsrc : F.src v = (wells.map fun w => injected (cs w) (f w) v).sum := D.side.src v
  refine ⟨Fin.sum_univ_fun_getElem (asked wells sol) fun w => injected (cs w) (f w) v, ?_, ?_⟩
  · rw [hsrc]
    unfold asked
    clear hsrc D
    induction wells with
    | nil => simp
    | cons w l ih =>
      have := ih fun w hw => hnn w (by simp [hw])
      have hw := hnn w (by simp)
      rw [List.filter_cons]
      split
      · rw [List.map_cons, List.map_cons, List.sum_cons, List.sum_cons]; linarith
      · rw [List.map_cons, List.sum_cons]; linarith
  · intro hall
    rw [hsrc]
    unfold asked
    clear hsrc D hnn
    induction wells with
    | nil => simp
    | cons w l ih =>
      have := ih fun w hw => hall w (by simp [hw])
      rw [List.filter_cons]
      split
      · rw [List.map_cons, List.map_cons, List.sum_cons, List.sum_cons, this]
      · rename_i hn
        rw [List.map_cons, List.sum_cons, this]
        have : cs w = [] := by
          by_contra hc
          exact hn (by simpa using hall w (by simp) hc)
        simp [injected, this]

theorem Diag.sum_le_one (D : Diag F wells cs f starts sol) :
    ∀ v < F.n, (sol.startPoints.map fun i => valueAt (sol.concentration i) v).sum ≤ 1 := by
  obtain ⟨d, st, h1, l, hl, e⟩ := D.sums
  intro v hv
  rw [e v]
  have hmem : ∀ k : Fin (asked wells sol).length, (asked wells sol)[k] ∈ wells := fun k =>
    (mem_asked.mp (List.getElem_mem (l := asked wells sol) k.isLt)).1
  refine C31_sum_le_one h1 (fun k => D.side.range _ (hmem k)) (fun k p hp => (D.side.pos _ (hmem k) p hp).le) ?_ hl v hv
  intro v _
  obtain ⟨a, b, _⟩ := D.injected_sum v
  rw [a]; exact b

theorem Diag.sum_eq_one (D : Diag F wells cs f starts sol) (hacy : F.Acyclic)
    (hall : ∀ w ∈ wells, cs w ≠ [] → w.id ∈ sol.startPoints) :
    ∀ v < F.n, (∀ u, F.Reach u v → 0 < F.total u) →
      (sol.startPoints.map fun i => valueAt (sol.concentration i) v).sum = 1 := by
  obtain ⟨d, st, h1, l, hl, e⟩ := D.sums
  intro v hv
  rw [e v]
  have hmem : ∀ k : Fin (asked wells sol).length, (asked wells sol)[k] ∈ wells := fun k =>
    (mem_asked.mp (List.getElem_mem (l := asked wells sol) k.isLt)).1
  refine C31_sum_eq_one h1 hacy (fun k => D.side.range _ (hmem k)) (fun k p hp => (D.side.pos _ (hmem k) p hp).le) ?_ hl v hv
  intro v _
  obtain ⟨a, _, c⟩ := D.injected_sum v
  rw [a]; exact c hall

theorem Diag.tof_balance (D : Diag F wells cs f starts sol) (hacy : F.Acyclic) {w : WellFlux K} (hw : w ∈ wells)
    (hs : ∃ s ∈ starts, s.id = w.id) :
    ∃ τ : Nat → K, ∀ v, F.Downstream (cs w) v → valueAt (sol.timeOfFlightOf w.id) v = min (τ v) cap ∧
      (F.Slow v → τ v = cap) ∧
      (¬ F.Slow v → F.total v * valueAt (sol.concentration w.id) v * τ v
        = F.pv v * valueAt (sol.concentration w.id) v
          + ∑ u ∈ Finset.range F.n, τ u * valueAt (sol.concentration w.id) u * F.w u v) := by
  obtain ⟨d, st, h1, h2, h3⟩ := D.solved
  obtain ⟨l, hl, e1, e2⟩ := h3 w hw hs
  rw [e1, e2]
  exact C27_tof_balance_local h1 hacy (D.side.range w hw) (fun p hp => (D.side.pos w hw p hp).le) hl

theorem Diag.unreached (D : Diag F wells cs f starts sol) {v : Nat} (hv : v < F.n)
    (hc : (¬ ∃ p, p < F.n ∧ 0 < F.src p ∧ F.Reach p v) ∨ F.Slow v) :
    sol.timeOfFlight[v]? = some (X.fin (200 * 365 * 24 * 60 * 60)) := by
  obtain ⟨d, st, h1, h2, h3⟩ := D.solved
  exact C29_unreached_capped h1 h2 hv hc

end diag

/-! ### What a client reads -/

omit [Archimedean K] in
theorem injected_pos {w : WellFlux K} (v : Nat) : injected (posCells w) w.val v = max (Problem.wellAt w v) 0 := by
  unfold injected posCells Problem.wellAt
  by_cases h1 : v ∈ w.cells
  · rw [if_pos h1]
    by_cases h2 : 0 < w.val v
    · rw [if_pos (List.mem_filter.mpr ⟨h1, by simpa using h2⟩), max_eq_left h2.le]
    · rw [if_neg (by simp [h2]), max_eq_right (not_lt.mp h2)]
  · rw [if_neg h1, if_neg (by simp [h1]), max_self]

omit [Archimedean K] in
theorem injected_neg {w : WellFlux K} (v : Nat) :
    injected (negCells w) (fun v => - w.val v) v = max (-Problem.wellAt w v) 0 := by
  unfold injected negCells Problem.wellAt
  by_cases h1 : v ∈ w.cells
  · rw [if_pos h1]
    by_cases h2 : w.val v < 0
    · rw [if_pos (List.mem_filter.mpr ⟨h1, by simpa using h2⟩), max_eq_left (by linarith)]
    · rw [if_neg (by simp [h2]), max_eq_right (by linarith [not_lt.mp h2])]
  · rw [if_neg h1, if_neg (by simp [h1]), neg_zero, max_self]

omit [IsStrictOrderedRing K] [Archimedean K] in
theorem backward_edge {P : Problem K} {u v : Nat} : P.backward.Edge u v ↔ P.forward.Edge v u := by
  unfold Flow.Edge
  exact ⟨fun ⟨a, b, c⟩ => ⟨b, a, c⟩, fun ⟨a, b, c⟩ => ⟨b, a, c⟩⟩

omit [IsStrictOrderedRing K] [Archimedean K] in
theorem backward_reach {P : Problem K} {u v : Nat} : P.backward.Reach u v ↔ P.forward.Reach v u := by
  unfold Flow.Reach
  rw [← Relation.reflTransGen_swap]
  have : P.backward.Edge = Function.swap P.forward.Edge := by
    funext a b; exact propext backward_edge
  rw [this]

omit [IsStrictOrderedRing K] [Archimedean K] in
theorem backward_acyclic {P : Problem K} (h : P.forward.Acyclic) : P.backward.Acyclic := by
  intro v hv
  apply h v
  have : P.backward.Edge = Function.swap P.forward.Edge := by
    funext a b; exact propext backward_edge
  rw [this, Relation.transGen_swap] at hv
  exact hv

variable {P : Problem K} (hP : P.Valid) {g : ConnectivityGraph} {calls : List (Call (X K))} (h : P.GivenTo g calls)
  {starts : List CellSet} {sol : Solution (X K)}
include hP h

/-- **C23** The time-of-flight fields of a computed solution lie between 0 and 200 years. -/
theorem C23_toolbox (hr : InjectionReturns g calls starts (.ok sol) ∨ ProductionReturns g calls starts (.ok sol)) :
    (sol.timeOfFlight.length = P.n ∧
      ∀ x ∈ sol.timeOfFlight, ∃ t : K, x = X.fin t ∧ 0 ≤ t ∧ t ≤ 200 * 365 * 24 * 60 * 60) ∧
    ∀ i, ∀ e ∈ sol.timeOfFlightOf i, ∃ t : K, e.2 = X.fin t ∧ 0 ≤ t ∧ t ≤ 200 * 365 * 24 * 60 * 60 := by
  rcases hr with hr | hr
  · exact (diag_injection hP h hr).range
  · exact (diag_production hP h hr).range

/-- **C24** An injector's fields live exactly on the cells downstream of its positive entries. -/
theorem C24_toolbox_injection (hr : InjectionReturns g calls starts (.ok sol)) {w : WellFlux K} (hw : w ∈ P.wells)
    (hs : ∃ s ∈ starts, s.id = w.id) :
    ((sol.timeOfFlightOf w.id).map fun e => e.1) = ((sol.concentration w.id).map fun e => e.1) ∧
      ∀ cell : Int, cell ∈ ((sol.concentration w.id).map fun e => e.1) ↔
        ∃ v : Nat, cell = v ∧ ∃ p ∈ w.cells, 0 < w.val p ∧ P.forward.Reach p v := by
  obtain ⟨h1, h2⟩ := (diag_injection hP h hr).support hw hs
  refine ⟨h1, fun cell => (h2 cell).trans ?_⟩
  constructor
  · rintro ⟨v, e, p, hp, hreach⟩
    obtain ⟨a, b⟩ := List.mem_filter.mp hp
    exact ⟨v, e, p, a, by simpa using b, hreach⟩
  · rintro ⟨v, e, p, hp, h0, hreach⟩
    exact ⟨v, e, p, List.mem_filter.mpr ⟨hp, by simpa using h0⟩, hreach⟩

/-- **C24** A producer's fields live exactly on the cells upstream of its negative entries. -/
theorem C24_toolbox_production (hr : ProductionReturns g calls starts (.ok sol)) {w : WellFlux K} (hw : w ∈ P.wells)
    (hs : ∃ s ∈ starts, s.id = w.id) :
    ((sol.timeOfFlightOf w.id).map fun e => e.1) = ((sol.concentration w.id).map fun e => e.1) ∧
      ∀ cell : Int, cell ∈ ((sol.concentration w.id).map fun e => e.1) ↔
        ∃ v : Nat, cell = v ∧ ∃ p ∈ w.cells, w.val p < 0 ∧ P.forward.Reach v p := by
  obtain ⟨h1, h2⟩ := (diag_production hP h hr).support hw hs
  refine ⟨h1, fun cell => (h2 cell).trans ?_⟩
  constructor
  · rintro ⟨v, e, p, hp, hreach⟩
    obtain ⟨a, b⟩ := List.mem_filter.mp hp
    exact ⟨v, e, p, a, by simpa using b, backward_reach.mp hreach⟩
  · rintro ⟨v, e, p, hp, h0, hreach⟩
    exact ⟨v, e, p, List.mem_filter.mpr ⟨hp, by simpa using h0⟩, backward_reach.mpr hreach⟩

/-- **C25** Concentrations are greater than 0 and at most 1. -/
theorem C25_toolbox (hr : InjectionReturns g calls starts (.ok sol) ∨ ProductionReturns g calls starts (.ok sol)) :
    ∀ i, ∀ e ∈ sol.concentration i, ∃ x : K, e.2 = X.fin x ∧ 0 < x ∧ x ≤ 1 := by
  rcases hr with hr | hr
  · exact (diag_injection hP h hr).conc
  · exact (diag_production hP h hr).conc

/-- **C26** (cycle-free flow) Balance of an injector's concentrations: what flows through a cell is what arrives from
    the neighbours plus what the injector puts in. -/
theorem C26_toolbox_injection (hacy : P.forward.Acyclic) (hr : InjectionReturns g calls starts (.ok sol)) {w : WellFlux K}
    (hw : w ∈ P.wells) (hs : ∃ s ∈ starts, s.id = w.id) :
    ∀ v < P.n, ((∑ u ∈ range P.n, P.flux u v) + P.source v) * valueAt (sol.concentration w.id) v
      = (∑ u ∈ range P.n, valueAt (sol.concentration w.id) u * P.flux u v) + max (Problem.wellAt w v) 0 := by
  intro v hv
  rw [← injected_pos]
  exact (diag_injection hP h hr).balance hacy hw hs v hv

/-- **C26** (cycle-free flow) Balance of a producer's concentrations. -/
theorem C26_toolbox_production (hacy : P.forward.Acyclic) (hr : ProductionReturns g calls starts (.ok sol)) {w : WellFlux K}
    (hw : w ∈ P.wells) (hs : ∃ s ∈ starts, s.id = w.id) :
    ∀ v < P.n, ((∑ u ∈ range P.n, P.flux v u) + P.sink v) * valueAt (sol.concentration w.id) v
      = (∑ u ∈ range P.n, valueAt (sol.concentration w.id) u * P.flux v u) + max (-Problem.wellAt w v) 0 := by
  intro v hv
  rw [← injected_neg]
  exact (diag_production hP h hr).balance (backward_acyclic hacy) hw hs v hv

/-- **C26** (any flow) The balance of an injector's concentrations holds up to `1e-9` times the flux into the cell from
    its own cycle, except in a cell whose only cycle is a connection to itself: there that connection is missing. -/
theorem C26_toolbox_injection_cyclic_partial (hr : InjectionReturns g calls starts (.ok sol)) {w : WellFlux K}
    (hw : w ∈ P.wells) (hs : ∃ s ∈ starts, s.id = w.id) :
    ∀ v < P.n,
      let residual := (∑ u ∈ range P.n, valueAt (sol.concentration w.id) u * P.flux u v) + max (Problem.wellAt w v) 0
        - ((∑ u ∈ range P.n, P.flux u v) + P.source v) * valueAt (sol.concentration w.id) v
      0 ≤ residual ∧ (¬ P.forward.Loop v → residual ≤ 1 / 1000000000 * P.forward.cycleInflow v) ∧
        (P.forward.Loop v → residual = valueAt (sol.concentration w.id) v * P.flux v v) := by
  intro v hv
  rw [← injected_pos]
  exact (diag_injection hP h hr).balance_cyclic hw hs v hv

/-- **C26** (any flow) The same for a producer. -/
theorem C26_toolbox_production_cyclic_partial (hr : ProductionReturns g calls starts (.ok sol)) {w : WellFlux K}
    (hw : w ∈ P.wells) (hs : ∃ s ∈ starts, s.id = w.id) :
    ∀ v < P.n,
      let residual := (∑ u ∈ range P.n, valueAt (sol.concentration w.id) u * P.flux v u) + max (-Problem.wellAt w v) 0
        - ((∑ u ∈ range P.n, P.flux v u) + P.sink v) * valueAt (sol.concentration w.id) v
      0 ≤ residual ∧ (¬ P.backward.Loop v → residual ≤ 1 / 1000000000 * P.backward.cycleInflow v) ∧
        (P.backward.Loop v → residual = valueAt (sol.concentration w.id) v * P.flux v v) := by
  intro v hv
  rw [← injected_neg]
  exact (diag_production hP h hr).balance_cyclic hw hs v hv

/-- **C27** (cycle-free flow) Balance of an injector's times-of-flight. -/
theorem C27_toolbox_injection (hacy : P.forward.Acyclic) (hr : InjectionReturns g calls starts (.ok sol)) {w : WellFlux K}
    (hw : w ∈ P.wells) (hs : ∃ s ∈ starts, s.id = w.id) :
    ∃ τ : Nat → K, ∀ v, P.forward.Downstream (posCells w) v → valueAt (sol.timeOfFlightOf w.id) v = min (τ v) cap ∧
      (P.forward.Slow v → τ v = cap) ∧
      (¬ P.forward.Slow v → P.forward.total v * valueAt (sol.concentration w.id) v * τ v
        = P.pv v * valueAt (sol.concentration w.id) v
          + ∑ u ∈ range P.n, τ u * valueAt (sol.concentration w.id) u * P.flux u v) :=
  (diag_injection hP h hr).tof_balance hacy hw hs

/-- **C27** (cycle-free flow) Balance of a producer's times-of-flight. -/
theorem C27_toolbox_production (hacy : P.forward.Acyclic) (hr : ProductionReturns g calls starts (.ok sol)) {w : WellFlux K}
    (hw : w ∈ P.wells) (hs : ∃ s ∈ starts, s.id = w.id) :
    ∃ τ : Nat → K, ∀ v, P.backward.Downstream (negCells w) v → valueAt (sol.timeOfFlightOf w.id) v = min (τ v) cap ∧
      (P.backward.Slow v → τ v = cap) ∧
      (¬ P.backward.Slow v → P.backward.total v * valueAt (sol.concentration w.id) v * τ v
        = P.pv v * valueAt (sol.concentration w.id) v
          + ∑ u ∈ range P.n, τ u * valueAt (sol.concentration w.id) u * P.flux v u) :=
  (diag_production hP h hr).tof_balance (backward_acyclic hacy) hw hs

/-- **C29** Cells not downstream of a source, respectively not upstream of a sink, have a global time-of-flight of exactly
    200 years, and so have cells whose pore volume exceeds what flows through them in 200 years. -/
theorem C29_toolbox {v : Nat} (hv : v < P.n) :
    (InjectionReturns g calls starts (.ok sol) →
      (¬ ∃ p, p < P.n ∧ 0 < P.source p ∧ P.forward.Reach p v) ∨
        ((∑ u ∈ range P.n, P.flux u v) + P.source v) * (200 * 365 * 24 * 60 * 60) < P.pv v →
      sol.timeOfFlight[v]? = some (X.fin (200 * 365 * 24 * 60 * 60))) ∧
    (ProductionReturns g calls starts (.ok sol) →
      (¬ ∃ p, p < P.n ∧ 0 < P.sink p ∧ P.forward.Reach v p) ∨
        ((∑ u ∈ range P.n, P.flux v u) + P.sink v) * (200 * 365 * 24 * 60 * 60) < P.pv v →
      sol.timeOfFlight[v]? = some (X.fin (200 * 365 * 24 * 60 * 60))) := by
  constructor
  · rintro hr (hn | hn)
    · exact (diag_injection hP h hr).unreached hv (Or.inl hn)
    · exact (diag_injection hP h hr).unreached hv (Or.inr ((lt_div_iff₀ cap_pos).mpr hn))
  · rintro hr (hn | hn)
    · refine (diag_production hP h hr).unreached hv (Or.inl ?_)
      rintro ⟨p, h1, h2, h3⟩
      exact hn ⟨p, h1, h2, backward_reach.mp h3⟩
    · exact (diag_production hP h hr).unreached hv (Or.inr ((lt_div_iff₀ cap_pos).mpr hn))

/-- **C31** The concentrations of all ids add up to at most 1 in every cell. -/
theorem C31_toolbox (hr : InjectionReturns g calls starts (.ok sol) ∨ ProductionReturns g calls starts (.ok sol)) :
    ∀ v < P.n, (sol.startPoints.map fun i => valueAt (sol.concentration i) v).sum ≤ 1 := by
  rcases hr with hr | hr
  · exact (diag_injection hP h hr).sum_le_one
  · exact (diag_production hP h hr).sum_le_one

/-- **C31** (cycle-free flow) If all injectors are asked for, their concentrations add up to exactly 1 in every cell such
    that something flows into each cell upstream of it. -/
theorem C31_toolbox_injection (hacy : P.forward.Acyclic) (hr : InjectionReturns g calls starts (.ok sol))
    (hall : ∀ w ∈ P.wells, (∃ v ∈ w.cells, 0 < w.val v) → ∃ s ∈ starts, s.id = w.id) :
    ∀ v < P.n, (∀ u, P.forward.Reach u v → 0 < (∑ x ∈ range P.n, P.flux x u) + P.source u) →
      (sol.startPoints.map fun i => valueAt (sol.concentration i) v).sum = 1 := by
  have D := diag_injection hP h hr
  apply D.sum_eq_one hacy
  intro w hw hne
  rw [D.points]
  apply hall w hw
  obtain ⟨v, hv⟩ := List.exists_mem_of_ne_nil _ hne
  obtain ⟨a, b⟩ := List.mem_filter.mp hv
  exact ⟨v, a, by simpa using b⟩

/-- **C31** (cycle-free flow) The same for producers. -/
theorem C31_toolbox_production (hacy : P.forward.Acyclic) (hr : ProductionReturns g calls starts (.ok sol))
    (hall : ∀ w ∈ P.wells, (∃ v ∈ w.cells, w.val v < 0) → ∃ s ∈ starts, s.id = w.id) :
    ∀ v < P.n, (∀ u, P.forward.Reach v u → 0 < (∑ x ∈ range P.n, P.flux u x) + P.sink u) →
      (sol.startPoints.map fun i => valueAt (sol.concentration i) v).sum = 1 := by
  have D := diag_production hP h hr
  intro v hv hpos
  apply D.sum_eq_one (backward_acyclic hacy) _ v hv
  · intro u hu; exact hpos u (backward_reach.mp hu)
  intro w hw hne
  rw [D.points]
  apply hall w hw
  obtain ⟨v, hv⟩ := List.exists_mem_of_ne_nil _ hne
  obtain ⟨a, b⟩ := List.mem_filter.mp hv
  exact ⟨v, a, by simpa using b⟩

omit hP h

/-! ### Non-vacuity -/

theorem exProblem_returns : ∃ g, ∃ calls : List (Call (X ℚ)), exProblem.GivenTo g calls ∧
    (∃ sol, InjectionReturns g calls exInjectors (.ok sol)) ∧ ∃ sol, ProductionReturns g calls exProducers (.ok sol) := by
  obtain ⟨g, calls, h⟩ := exProblem_given
  exact ⟨g, calls, h, (C40_valid_problem exProblem_valid h _).1 exInjectors_accepted,
    (C40_valid_problem exProblem_valid h _).2.2.1 exProducers_accepted⟩

theorem exProblem_flux (u v : Nat) : exProblem.flux u v = if v = u + 1 ∧ u < 3 then 3 else 0 := by
  unfold Problem.flux
  show ∑ c ∈ range 3, exProblem.carried c u v = _
  have net : ∀ c, exProblem.net c = if c = 1 then -3 else 3 := by
    intro c
    unfold Problem.net
    show ∑ p ∈ range 2, exProblem.phi c p = _
    rw [sum_range_succ, sum_range_one]
    unfold exProblem
    by_cases h : c = 1 <;> norm_num [h]
  rw [sum_range_succ, sum_range_succ, sum_range_one]
  unfold Problem.carried
  rw [net, net, net]
  simp only [exProblem, List.getElem?_cons_zero, List.getElem?_cons_succ, Option.some.injEq, Prod.mk.injEq]
  rcases Nat.lt_or_ge u 3 with h | h
  · interval_cases u <;> norm_num <;> split <;> simp_all <;> omega
  · have h1 : ¬ (v = u + 1 ∧ u < 3) := by omega
    rw [if_neg h1]
    have e0 : ¬ (0 = u ∧ 1 = v) := by omega
    have e2 : ¬ (2 = u ∧ 1 = v) := by omega
    have e4 : ¬ (2 = u ∧ 3 = v) := by omega
    rw [if_neg e0, if_neg e2, if_neg e4]
    norm_num
    omega

theorem exProblem_acyclic : exProblem.forward.Acyclic := by
  have key : ∀ u v, Relation.TransGen exProblem.forward.Edge u v → u < v := by
    intro u v h
    have step : ∀ {a b}, exProblem.forward.Edge a b → a < b := by
      intro a b h
      have h3 : 0 < exProblem.flux a b := h.2.2
      rw [exProblem_flux] at h3
      split at h3
      · omega
      · exact absurd h3 (lt_irrefl _)
    induction h with
    | single h => exact step h
    | tail _ h ih => exact lt_trans ih (step h)
  intro v h
  exact lt_irrefl _ (key v v h)

/-- What flows into a cell flows out of it. -/
theorem exProblem_incompressible : ∀ v < exProblem.n, exProblem.forward.total v = exProblem.backward.total v := by
  intro v hv
  change v < 4 at hv
  show (∑ u ∈ range 4, exProblem.flux u v) + exProblem.source v = (∑ u ∈ range 4, exProblem.flux v u) + exProblem.sink v
  simp only [exProblem_flux, sum_range_succ, sum_range_zero]
  interval_cases v <;> norm_num [Problem.source, Problem.sink, exProblem, Problem.wellAt]

/-- All injectors and all producers are asked for. -/
example : (∀ w ∈ exProblem.wells, (∃ v ∈ w.cells, 0 < w.val v) → ∃ s ∈ exInjectors, s.id = w.id) ∧
    (∀ w ∈ exProblem.wells, (∃ v ∈ w.cells, w.val v < 0) → ∃ s ∈ exProducers, s.id = w.id) := by
  constructor
  · intro w hw hp
    simp only [exProblem, List.mem_cons, List.not_mem_nil, or_false] at hw
    rcases hw with rfl | rfl | rfl
    · exact ⟨_, .tail _ (.head _), rfl⟩
    · exact ⟨_, .head _, rfl⟩
    · norm_num at hp
  · intro w hw hp
    simp only [exProblem, List.mem_cons, List.not_mem_nil, or_false] at hw
    rcases hw with rfl | rfl | rfl
    · norm_num at hp
    · norm_num at hp
    · exact ⟨_, .head _, rfl⟩

/-- Something flows into each cell. -/
example : ∀ u < exProblem.n, 0 < (∑ x ∈ range exProblem.n, exProblem.flux x u) + exProblem.source u := by
  intro v hv
  change v < 4 at hv
  show 0 < (∑ u ∈ range 4, exProblem.flux u v) + exProblem.source v
  simp only [exProblem_flux, sum_range_succ, sum_range_zero]
  interval_cases v <;> norm_num [Problem.source, Problem.sink, exProblem, Problem.wellAt]

end Verif.Props
