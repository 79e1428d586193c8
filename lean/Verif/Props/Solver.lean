/-
C22 to C32: what `TracerTofSolver` promises.

`SolverFor F d st` says that `(d, st)` is a newly constructed solver for the flow problem `F`
(Verif.Spec.SolverCalls); `GlobalReturns` and `LocalReturns` describe what a call ends with after
any earlier calls.  "Exact arithmetic" is `X K`: an Archimedean ordered field with the IEEE special
values.
-/
import Verif.Proofs.SolverFacts
import Verif.Proofs.SolverVisit
import Verif.Proofs.FlowGraph
import Mathlib.Data.Rat.Floor
import Mathlib.Order.WellFounded
import Mathlib.Data.Fintype.Card
import Mathlib.Data.Finite.Defs
import Mathlib.Algebra.BigOperators.Fin

namespace Verif.Props
open Finset Verif.Spec Verif.Solver

/-! ### Example problems -/

/-- 0 → 1 with flux 2, 1 → 2 with flux 3, 2 → 1 with flux 1; cell 3 is not connected. -/
def exCyclic : Flow ℚ := ⟨4, fluxOf [(0, 1, 2), (1, 2, 3), (2, 1, 1)], fun _ => 1, fun v => if v = 0 then 2 else 0⟩

/-- 0 → 2 with flux 1, 1 → 2 with flux 3, 2 → 3 with flux 4. -/
def exAcyclic : Flow ℚ :=
  ⟨4, fluxOf [(0, 2, 1), (1, 2, 3), (2, 3, 4)], fun _ => 1, fun v => if v = 0 then 1 else if v = 1 then 3 else 0⟩

/-- One cell connected to itself with flux 1, and source 1. -/
def exLoop : Flow ℚ := ⟨1, fluxOf [(0, 0, 1)], fun _ => 1, fun _ => 1⟩

theorem exCyclic_solver : ∃ d st, SolverFor exCyclic d st :=
  solverFor_of_connections _ (by decide) (by simp) _ (by simp) _ (by intro v _; split <;> norm_num)

theorem exAcyclic_solver : ∃ d st, SolverFor exAcyclic d st :=
  solverFor_of_connections _ (by decide) (by simp) _ (by simp) _
    (by intro v _; split; norm_num; split <;> norm_num)

theorem exLoop_solver : ∃ d st, SolverFor exLoop d st :=
  solverFor_of_connections _ (by decide) (by simp) _ (by simp) _ (by simp)

theorem exAcyclic_edge {u v : Nat} (h : exAcyclic.Edge u v) : u < v := by
  have := (fluxOf_pos (cs := [(0, 2, (1 : ℚ)), (1, 2, 3), (2, 3, 4)]) (by simp) u v).2.mp h.2.2
  simp at this
  omega

theorem exAcyclic_acyclic : exAcyclic.Acyclic := by
  intro v h
  have key : ∀ u v, Relation.TransGen exAcyclic.Edge u v → u < v := by
    intro u v h
    induction h with
    | single h => exact exAcyclic_edge h
    | tail _ h ih => exact lt_trans ih (exAcyclic_edge h)
  exact lt_irrefl _ (key v v h)

/-! ### C22: histories -/

section generic
variable {R : Type} [Arith R]

/-- **C22** After any history of calls (including failed ones) on a solver, both calls give the
    result they give on the newly constructed solver, in any arithmetic. -/
theorem C22_history_independent {g gr : AssembledConnections R} {pv : List R} {source : CellSetValues R}
    {d : SolverData R} {st : SolverState R} (h : create g gr pv source = .ok (d, st))
    {s : SolverState R} (hs : AfterSolves d st s) (al : Alloc) (fuel : Nat) :
    (solveGlobal d al fuel s).2 = (solveGlobal d al fuel st).2 ∧
      ∀ startset, (solveLocal d al fuel startset s).2 = (solveLocal d al fuel startset st).2 := by
  obtain ⟨h1, h2⟩ := create_lengths h
  refine ⟨solveGlobal_indep al fuel s st, fun startset => solveLocal_indep al fuel startset s st ?_⟩
  rw [afterSolves_length h1 h2 hs, h2]

end generic

variable {K : Type} [Field K] [LinearOrder K] [IsStrictOrderedRing K] [Archimedean K]
variable {F : Flow K} {d : SolverData (X K)} {st : SolverState (X K)}

/-- A history with a failing call: a negative start value. -/
example : ∃ (d : SolverData (X ℚ)) (st s : SolverState (X ℚ)),
    (∃ g gr pv source, create g gr pv source = .ok (d, st)) ∧ AfterSolves d st s ∧
    LocalReturns d st (valuesOf [0] fun _ => -1) (.throw .logicError) ∧
    s = (solveLocal d Alloc.good 100 (valuesOf [0] fun _ => -1) st).1 := by
  obtain ⟨d, st, h⟩ := exCyclic_solver
  obtain ⟨g, gr, ps, _, _, _, _, e⟩ := h.made
  refine ⟨d, st, _, ⟨g, gr, _, _, e⟩, .loc _ _ _ .new, local_neg h ?_ ?_, rfl⟩
  · intro e he
    simp [valuesOf] at he
    subst he
    simp [exCyclic]
  · refine ⟨_, List.mem_singleton.mpr rfl, ?_⟩
    rw [X_zero, X_lt]; simp

/-! ### C23, C28, C29: the time-of-flight -/

theorem arr_fieldAt (n : Nat) (f : Nat → K) {v : Nat} (hv : v < n) : fieldAt (arr n f) v = f v := by
  unfold fieldAt; rw [arr_getElem? _ hv]

/-- **C23** Global field: one finite value per cell, between 0 and 200 years. -/
theorem C23_global_range (h : SolverFor F d st) {l : List (X K)} (hl : GlobalReturns d st (.ok l)) :
    l.length = F.n ∧ ∀ x ∈ l, ∃ t : K, x = X.fin t ∧ 0 ≤ t ∧ t ≤ 200 * 365 * 24 * 60 * 60 := by
  obtain ⟨τ, c, hr, _, hf⟩ := global_facts h
  have e := hl.unique hr
  cases e
  refine ⟨arr_length _ _, ?_⟩
  intro x hx
  obtain ⟨v, hv, rfl⟩ := List.mem_map.mp hx
  exact ⟨_, rfl, le_min (hf.nonneg v (List.mem_range.mp hv)).1 cap_pos.le, min_le_right _ _⟩

/-- **C23** Time-of-flight of one tracer. -/
theorem C23_local_range (h : SolverFor F d st) {starts : List Nat} (hp : ∀ p ∈ starts, p < F.n) {ls : Nat → K}
    (hls : ∀ p ∈ starts, 0 ≤ ls p) {sol : LocalSolution (X K)}
    (hr : LocalReturns d st (valuesOf starts ls) (.ok sol)) :
    ∀ e ∈ sol.tof, ∃ t : K, e.2 = X.fin t ∧ 0 ≤ t ∧ t ≤ 200 * 365 * 24 * 60 * 60 := by
  obtain ⟨τ, c, hf, _, cells, _, hm, rfl⟩ := local_ok h hp hls hr
  intro e he
  obtain ⟨v, hv, rfl⟩ := List.mem_map.mp he
  obtain ⟨p, hps, hreach⟩ := (hm v).mp hv
  exact ⟨_, rfl, le_min (hf.nonneg v (reach_lt (hp p hps) hreach)).1 cap_pos.le, min_le_right _ _⟩

/-- **C28** Both calls take finitely many steps whatever the flow: the global call returns a field,
    the local one returns or throws `logic_error`. -/
theorem C28_terminates (h : SolverFor F d st) :
    (∃ l, GlobalReturns d st (.ok l)) ∧
    ∀ (starts : List Nat) (ls : Nat → K), (∀ p ∈ starts, p < F.n) →
      (∃ sol, LocalReturns d st (valuesOf starts ls) (.ok sol)) ∨
      LocalReturns d st (valuesOf starts ls) (.throw .logicError) := by
  constructor
  · obtain ⟨τ, c, hr, _⟩ := global_facts h
    exact ⟨_, hr⟩
  · intro starts ls hp
    by_cases hls : ∀ p ∈ starts, 0 ≤ ls p
    · obtain ⟨B, h1, hB⟩ := exists_ratio h.valid hp ls
      obtain ⟨τ, c, r, hr, _, _, hok, hthrow⟩ := local_facts h hp hls h1 hB
      by_cases hpos : ∀ v, F.Downstream starts v → 0 < c v
      · obtain ⟨cells, _, _, e⟩ := hok hpos
        rw [e] at hr; exact Or.inl ⟨_, hr⟩
      · push Not at hpos
        obtain ⟨v, hv, hn⟩ := hpos
        rw [hthrow ⟨v, hv, not_lt.mpr hn⟩] at hr
        exact Or.inr hr
    · push Not at hls
      obtain ⟨p, hps, hn⟩ := hls
      refine Or.inr (local_neg h ?_ ⟨((p : Int), X.fin (ls p)), List.mem_map.mpr ⟨p, hps, rfl⟩, ?_⟩)
      · intro e he
        obtain ⟨q, hq, rfl⟩ := List.mem_map.mp he
        have := hp q hq
        simp only; omega
      · rw [X_zero, X_lt]; simpa using hn

/-- The hypotheses of C23, C28 and C29 hold for a flow with a cycle. -/
example : ∃ d st l, SolverFor exCyclic d st ∧ GlobalReturns d st (.ok l) := by
  obtain ⟨d, st, h⟩ := exCyclic_solver
  obtain ⟨l, hl⟩ := (C28_terminates h).1
  exact ⟨d, st, l, h, hl⟩

/-- **C29** Cells not downstream of a source, and cells that take longer than 200 years to fill,
    have a global time-of-flight of exactly 200 years. -/
theorem C29_unreached_capped (h : SolverFor F d st) {l : List (X K)} (hl : GlobalReturns d st (.ok l)) {v : Nat}
    (hv : v < F.n) (hc : (¬ ∃ p, p < F.n ∧ 0 < F.src p ∧ F.Reach p v) ∨ F.Slow v) :
    l[v]? = some (X.fin (200 * 365 * 24 * 60 * 60)) := by
  obtain ⟨τ, c, hr, _, hf⟩ := global_facts h
  have e := hl.unique hr
  cases e
  have hcap : τ v = cap := by
    apply hf.capped v hv
    rcases hc with hc | hc
    · right
      refine le_antisymm (not_lt.mp fun hp => hc ?_) (hf.nonneg v hv).2
      obtain ⟨p, h1, h2, _, _, h5⟩ := hf.source v hv hp
      exact ⟨p, h1, h2, h5⟩
    · exact Or.inl hc
  rw [arr_getElem? _ hv, hcap, min_self]; rfl

/-- Cell 3 of the example is not downstream of a source. -/
example : 3 < exCyclic.n ∧ ¬ ∃ p, p < exCyclic.n ∧ 0 < exCyclic.src p ∧ exCyclic.Reach p 3 := by
  refine ⟨by decide, ?_⟩
  rintro ⟨p, _, h2, h3⟩
  rcases Relation.ReflTransGen.cases_tail h3 with e | ⟨x, _, hx⟩
  · rw [← e] at h2; simp [exCyclic] at h2
  · have := (fluxOf_pos (cs := [(0, 1, (2 : ℚ)), (1, 2, 3), (2, 1, 1)]) (by simp) x 3).2.mp hx.2.2
    simp at this

/-! ### C24, C25, C30: where the local solution lives -/

/-- **C24** Both parts of the local solution have the same cells: those downstream of the start cells. -/
theorem C24_support (h : SolverFor F d st) {starts : List Nat} (hp : ∀ p ∈ starts, p < F.n) {ls : Nat → K}
    (hls : ∀ p ∈ starts, 0 ≤ ls p) {sol : LocalSolution (X K)}
    (hr : LocalReturns d st (valuesOf starts ls) (.ok sol)) :
    (sol.tof.map fun e => e.1) = (sol.concentration.map fun e => e.1) ∧
      ∀ cell : Int, cell ∈ (sol.concentration.map fun e => e.1) ↔ ∃ v : Nat, cell = v ∧ F.Downstream starts v := by
  obtain ⟨τ, c, hf, _, cells, _, hm, rfl⟩ := local_ok h hp hls hr
  have hk : ∀ f : Nat → K, ((valuesOf cells f).map fun e => e.1) = cells.map fun v : Nat => (v : Int) := by
    intro f; unfold valuesOf; rw [List.map_map]; rfl
  simp only [hk, true_and]
  intro cell
  rw [List.mem_map]
  constructor
  · rintro ⟨v, hv, rfl⟩; exact ⟨v, rfl, (hm v).mp hv⟩
  · rintro ⟨v, rfl, hv⟩; exact ⟨v, (hm v).mpr hv, rfl⟩

/-- **C25** If each start value is positive and at most the source of its cell, the call succeeds
    and all concentrations lie in (0, 1]. -/
theorem C25_concentration_range (h : SolverFor F d st) {starts : List Nat} (hp : ∀ p ∈ starts, p < F.n) {ls : Nat → K}
    (hls : ∀ p ∈ starts, 0 < ls p ∧ ls p ≤ F.src p) :
    ∃ sol, LocalReturns d st (valuesOf starts ls) (.ok sol) ∧
      ∀ e ∈ sol.concentration, ∃ x : K, e.2 = X.fin x ∧ 0 < x ∧ x ≤ 1 := by
  obtain ⟨τ, c, r, hr, hle, hf, hok, _⟩ := local_facts h hp (fun p hps => (hls p hps).1.le) (le_refl 1)
    (fun p hps _ => by rw [one_mul]; exact (hls p hps).2)
  have hpos := facts_pos hp (fun p hps => (hls p hps).1)
    (fun p hps => lt_of_lt_of_le (hls p hps).1 (hls p hps).2) hf
  obtain ⟨cells, _, hm, e⟩ := hok hpos
  rw [e] at hr
  refine ⟨_, hr, ?_⟩
  intro e he
  obtain ⟨v, hv, rfl⟩ := List.mem_map.mp he
  obtain ⟨p, hps, hreach⟩ := (hm v).mp hv
  exact ⟨_, rfl, hpos v ((hm v).mp hv), hle v (reach_lt (hp p hps) hreach)⟩

/-- The hypotheses of C24 to C27 and C31 hold for a flow with a cycle. -/
theorem exCyclic_local {d : SolverData (X ℚ)} {st : SolverState (X ℚ)} (h : SolverFor exCyclic d st) :
    ∃ sol, LocalReturns d st (valuesOf [0] fun _ => 2) (.ok sol) := by
  obtain ⟨sol, hr, _⟩ := C25_concentration_range h (starts := [0]) (ls := fun _ => 2) (by simp [exCyclic])
    (by simp [exCyclic])
  exact ⟨sol, hr⟩

example : ∃ (d : SolverData (X ℚ)) (st : SolverState (X ℚ)) (sol : LocalSolution (X ℚ)), SolverFor exCyclic d st ∧
    (∀ p ∈ [0], p < exCyclic.n) ∧ LocalReturns d st (valuesOf [0] fun _ => 2) (.ok sol) := by
  obtain ⟨d, st, h⟩ := exCyclic_solver
  obtain ⟨sol, hr⟩ := exCyclic_local h
  exact ⟨d, st, sol, h, by simp [exCyclic], hr⟩

/-- **C30** A negative start value (also minus infinity) is rejected. -/
theorem C30_rejects_negative (h : SolverFor F d st) {startset : CellSetValues (X K)}
    (hp : ∀ e ∈ startset, 0 ≤ e.1 ∧ e.1 < F.n)
    (hn : ∃ e ∈ startset, e.2 = X.ninf ∨ ∃ x : K, e.2 = X.fin x ∧ x < 0) :
    LocalReturns d st startset (.throw .logicError) := by
  refine local_neg h hp ?_
  obtain ⟨e, he, hn⟩ := hn
  refine ⟨e, he, ?_⟩
  rcases hn with hn | ⟨x, hn, hx⟩
  · rw [hn, X_zero]; rfl
  · rw [hn, X_zero, X_lt]; simpa using hx

/-- **C30** A start cell without source is rejected. -/
theorem C30_rejects_sourceless (h : SolverFor F d st) {starts : List Nat} (hp : ∀ p ∈ starts, p < F.n) {ls : Nat → K}
    (hls : ∀ p ∈ starts, 0 ≤ ls p) (hs : ∃ p ∈ starts, F.src p = 0) :
    LocalReturns d st (valuesOf starts ls) (.throw .logicError) := by
  obtain ⟨B, h1, hB⟩ := exists_ratio h.valid hp ls
  obtain ⟨τ, c, r, hr, _, hf, _, hthrow⟩ := local_facts h hp hls h1 hB
  obtain ⟨p, hps, h0⟩ := hs
  have hd : F.Downstream starts p := ⟨p, hps, Relation.ReflTransGen.refl⟩
  have hc := hf.dead p hd hps h0
  rw [hthrow ⟨p, hd, by rw [hc]; exact lt_irrefl _⟩] at hr
  exact hr

/-- Start values without either defect are accepted. -/
theorem C30_accepts_others (h : SolverFor F d st) {starts : List Nat} (hp : ∀ p ∈ starts, p < F.n) {ls : Nat → K}
    (hls : ∀ p ∈ starts, 0 < ls p) (hs : ∀ p ∈ starts, 0 < F.src p) :
    ∃ sol, LocalReturns d st (valuesOf starts ls) (.ok sol) := by
  obtain ⟨B, h1, hB⟩ := exists_ratio h.valid hp ls
  obtain ⟨τ, c, r, hr, _, hf, hok, _⟩ := local_facts h hp (fun p hps => (hls p hps).le) h1 hB
  obtain ⟨cells, _, _, e⟩ := hok (facts_pos hp hls hs hf)
  rw [e] at hr
  exact ⟨_, hr⟩

/-- Cell 1 of the example has no source. -/
example : (∀ p ∈ [0, 1], p < exCyclic.n) ∧ ∃ p ∈ [0, 1], exCyclic.src p = 0 :=
  ⟨by decide, 1, by simp, by simp [exCyclic]⟩

/-! ### C26, C27: the balance equations -/

omit [IsStrictOrderedRing K] [Archimedean K] in
theorem valueAt_valuesOf {cells : List Nat} (hs : cells.Pairwise (· < ·)) (f : Nat → K) (v : Nat) :
    valueAt (valuesOf cells f) v = if v ∈ cells then f v else 0 := by
  have hsorted : OMap.Sorted (valuesOf cells f) := by
    unfold OMap.Sorted valuesOf
    rw [List.pairwise_map]
    exact hs.imp fun hab => by simpa using hab
  unfold valueAt
  by_cases hv : v ∈ cells
  · rw [if_pos hv, OMap.mem_find hsorted (List.mem_map.mpr ⟨v, hv, rfl⟩)]
  · rw [if_neg hv, OMap.find_none_iff.mpr]
    intro e he hk
    obtain ⟨u, hu, rfl⟩ := List.mem_map.mp he
    simp only [Nat.cast_inj] at hk
    exact hv (hk ▸ hu)

/-- The values of a successful local solution. -/
theorem local_values (h : SolverFor F d st) {starts : List Nat} (hp : ∀ p ∈ starts, p < F.n) {ls : Nat → K}
    (hls : ∀ p ∈ starts, 0 ≤ ls p) {sol : LocalSolution (X K)}
    (hr : LocalReturns d st (valuesOf starts ls) (.ok sol)) :
    ∃ τ, Facts F (F.Downstream starts) (· ∈ starts) (injected starts ls) τ (valueAt sol.concentration) ∧
      (∀ v, F.Downstream starts v → 0 < valueAt sol.concentration v ∧ valueAt sol.tof v = min (τ v) cap ∧
        ¬ (v ∈ starts ∧ F.src v = 0)) := by
  obtain ⟨τ, c, hf, hpos, cells, hs, hm, rfl⟩ := local_ok h hp hls hr
  have e : valueAt (valuesOf cells c) = c := by
    funext v
    rw [valueAt_valuesOf hs]
    by_cases hv : v ∈ cells
    · rw [if_pos hv]
    · rw [if_neg hv, hf.off v fun h => hv ((hm v).mpr h)]
  refine ⟨τ, ?_, ?_⟩
  · show Facts _ _ _ _ _ (valueAt (valuesOf cells c))
    rw [e]; exact hf
  · intro v hv
    show 0 < valueAt (valuesOf cells c) v ∧ valueAt (valuesOf cells fun v => min (τ v) cap) v = _ ∧ _
    rw [e, valueAt_valuesOf hs, if_pos ((hm v).mpr hv)]
    refine ⟨hpos v hv, rfl, ?_⟩
    rintro ⟨h1, h2⟩
    have := hpos v hv
    rw [hf.dead v hv h1 h2] at this
    exact lt_irrefl _ this

theorem off_cell (h : SolverFor F d st) {starts : List Nat} {ls : Nat → K} {c : Nat → K}
    (hoff : ∀ v, ¬ F.Downstream starts v → c v = 0) {v : Nat} (hvn : v < F.n) (hd : ¬ F.Downstream starts v) :
    injected starts ls v = 0 ∧ ∑ u ∈ range F.n, c u * F.w u v = 0 := by
  constructor
  · unfold injected
    rw [if_neg fun hm => hd ⟨v, hm, Relation.ReflTransGen.refl⟩]
  · apply sum_eq_zero
    intro u hu
    have hun := mem_range.mp hu
    by_cases hw : 0 < F.w u v
    · rw [hoff u, zero_mul]
      rintro ⟨p, hps, hreach⟩
      exact hd ⟨p, hps, hreach.tail ⟨hun, hvn, hw⟩⟩
    · rw [le_antisymm (not_lt.mp hw) (h.valid.w_nonneg u v hun hvn), mul_zero]

/-- **C26** (cycle-free flow) The concentrations satisfy the upwind balance exactly, in every cell. -/
theorem C26_balance_exact (h : SolverFor F d st) (hacy : F.Acyclic) {starts : List Nat} (hp : ∀ p ∈ starts, p < F.n)
    {ls : Nat → K} (hls : ∀ p ∈ starts, 0 ≤ ls p) {sol : LocalSolution (X K)}
    (hr : LocalReturns d st (valuesOf starts ls) (.ok sol)) :
    ∀ v < F.n, F.total v * valueAt sol.concentration v
      = (∑ u ∈ range F.n, valueAt sol.concentration u * F.w u v) + injected starts ls v := by
  obtain ⟨τ, hf, hv⟩ := local_values h hp hls hr
  intro v hvn
  by_cases hd : F.Downstream starts v
  · exact hf.exact v hd (hv v hd).2.2 (hacy v)
  · obtain ⟨h1, h2⟩ := off_cell h (ls := ls) hf.off hvn hd
    rw [hf.off v hd, h1, h2]; ring

/-- **C26** (any flow) The stored value is never too large.  The balance holds up to the tolerance `1e-9` times
    the flux into the cell from its own cycle, except in a cell that is connected to itself and lies on no other
    cycle: there the flux from the cell to itself is missing, exactly. -/
theorem C26_balance_cyclic_partial (h : SolverFor F d st) {starts : List Nat}
    (hp : ∀ p ∈ starts, p < F.n) {ls : Nat → K} (hls : ∀ p ∈ starts, 0 ≤ ls p) {sol : LocalSolution (X K)}
    (hr : LocalReturns d st (valuesOf starts ls) (.ok sol)) :
    ∀ v < F.n,
      let residual := (∑ u ∈ range F.n, valueAt sol.concentration u * F.w u v) + injected starts ls v
        - F.total v * valueAt sol.concentration v
      0 ≤ residual ∧ (¬ F.Loop v → residual ≤ 1 / 1000000000 * F.cycleInflow v) ∧
        (F.Loop v → residual = valueAt sol.concentration v * F.w v v) := by
  obtain ⟨τ, hf, hv⟩ := local_values h hp hls hr
  intro v hvn
  have hcyc : 0 ≤ F.cycleInflow v := by
    unfold Flow.cycleInflow
    refine sum_nonneg fun u hu => ?_
    split
    · exact h.valid.w_nonneg u v (mem_range.mp hu) hvn
    · exact le_rfl
  by_cases hd : F.Downstream starts v
  · refine ⟨sub_nonneg.mpr (hf.sub v hvn), hf.res v hd (hv v hd).2.2, fun hl => ?_⟩
    show _ - F.total v * _ = _
    rw [hf.alone v hd (hv v hd).2.2 hl.2]; ring
  · obtain ⟨h1, h2⟩ := off_cell h (ls := ls) hf.off hvn hd
    rw [hf.off v hd, h1, h2]
    simp only [add_zero, mul_zero, sub_self, zero_mul]
    exact ⟨le_rfl, fun _ => mul_nonneg (by norm_num) hcyc, fun _ => trivial⟩

/-- **C26** fails for a cell connected to itself: its value is computed once, with its own upwind value
    still 0, so that the balance misses the flux from the cell to itself. -/
theorem C26_fails_with_self_connection :
    ∃ (F : Flow ℚ) (d : SolverData (X ℚ)) (st : SolverState (X ℚ)) (sol : LocalSolution (X ℚ)), SolverFor F d st ∧ F.n = 1 ∧
      LocalReturns d st (valuesOf [0] F.src) (.ok sol) ∧
      1 / 1000000000 * F.cycleInflow 0
        < (∑ u ∈ range F.n, valueAt sol.concentration u * F.w u 0) + injected [0] F.src 0
          - F.total 0 * valueAt sol.concentration 0 := by
  obtain ⟨d, st, h⟩ := exLoop_solver
  have hp : ∀ p ∈ [0], p < exLoop.n := by decide
  obtain ⟨sol, hr, _⟩ := C25_concentration_range h (starts := [0]) (ls := exLoop.src) hp (by simp [exLoop])
  obtain ⟨τ, hf, hv⟩ := local_values h hp (by simp [exLoop]) hr
  have hd : exLoop.Downstream [0] 0 := ⟨0, by simp, Relation.ReflTransGen.refl⟩
  have hal := hf.alone 0 hd (hv 0 hd).2.2 (by
    intro u hu
    by_contra hne
    rcases Relation.ReflTransGen.cases_head hu.1 with e | ⟨x, e, _⟩
    · exact hne e
    · have := e.1
      simp [exLoop] at this
      exact hne this)
  have hn : exLoop.n = 1 := rfl
  have hw : exLoop.w 0 0 = 1 := by show fluxOf [(0, 0, (1 : ℚ))] 0 0 = 1; simp [fluxOf]
  have hs : exLoop.src 0 = 1 := rfl
  have ht : exLoop.total 0 = 2 := by
    unfold Flow.total Flow.inflow; rw [hn, sum_range_one, hw, hs]; norm_num
  have hc : exLoop.cycleInflow 0 = 1 := by
    unfold Flow.cycleInflow
    rw [hn, sum_range_one, if_pos ⟨Relation.ReflTransGen.refl, Relation.ReflTransGen.refl⟩, hw]
  have hi : injected [0] exLoop.src 0 = 1 := by simp [injected, hs]
  refine ⟨exLoop, d, st, sol, h, hn, hr, ?_⟩
  rw [hn, sum_range_one, ht, hw, hi] at hal
  rw [hn, sum_range_one, ht, hw, hi, hc]
  linarith

/-- The cycle-free example has a successful solve. -/
theorem exAcyclic_local {d : SolverData (X ℚ)} {st : SolverState (X ℚ)} (h : SolverFor exAcyclic d st) :
    ∃ sol, LocalReturns d st (valuesOf [0] fun _ => 1) (.ok sol) := by
  obtain ⟨sol, hr, _⟩ := C25_concentration_range h (starts := [0]) (ls := fun _ => 1) (by simp [exAcyclic])
    (by simp [exAcyclic])
  exact ⟨sol, hr⟩

example : ∃ (d : SolverData (X ℚ)) (st : SolverState (X ℚ)) (sol : LocalSolution (X ℚ)), SolverFor exAcyclic d st ∧
    exAcyclic.Acyclic ∧ LocalReturns d st (valuesOf [0] fun _ => 1) (.ok sol) := by
  obtain ⟨d, st, h⟩ := exAcyclic_solver
  obtain ⟨sol, hr⟩ := exAcyclic_local h
  exact ⟨d, st, sol, h, exAcyclic_acyclic, hr⟩

/-- The exception of C26 occurs. -/
example : ∃ (d : SolverData (X ℚ)) (st : SolverState (X ℚ)) (sol : LocalSolution (X ℚ)), SolverFor exLoop d st ∧
    LocalReturns d st (valuesOf [0] exLoop.src) (.ok sol) ∧ exLoop.Loop 0 := by
  obtain ⟨d, st, h⟩ := exLoop_solver
  obtain ⟨sol, hr, _⟩ := C25_concentration_range h (starts := [0]) (ls := exLoop.src) (by decide) (by simp [exLoop])
  refine ⟨d, st, sol, h, hr, ?_, fun u hu => ?_⟩
  · show fluxOf [(0, 0, (1 : ℚ))] 0 0 ≠ 0; simp [fluxOf]
  · rcases Relation.ReflTransGen.cases_head hu.1 with e | ⟨x, e, _⟩
    · exact e
    · exact Nat.lt_one_iff.mp e.1

/-- The flow with a cycle has no self-connections. -/
example : ∀ v < exCyclic.n, exCyclic.w v v = 0 := by
  intro v _
  have := (fluxOf_pos (cs := [(0, 1, (2 : ℚ)), (1, 2, 3), (2, 1, 1)]) (by simp) v v)
  refine le_antisymm (not_lt.mp fun h => ?_) this.1
  have := this.2.mp h
  simp at this
  omega

/-- **C27** (cycle-free flow) The stored time-of-flight of a tracer is the value `τ`, capped at 200 years,
    of a field that satisfies the upwind balance exactly in every reached cell that is not slow;
    slow cells have `τ` = 200 years. -/
theorem C27_tof_balance_local (h : SolverFor F d st) (hacy : F.Acyclic) {starts : List Nat} (hp : ∀ p ∈ starts, p < F.n)
    {ls : Nat → K} (hls : ∀ p ∈ starts, 0 ≤ ls p) {sol : LocalSolution (X K)}
    (hr : LocalReturns d st (valuesOf starts ls) (.ok sol)) :
    ∃ τ : Nat → K, ∀ v, F.Downstream starts v → valueAt sol.tof v = min (τ v) cap ∧
      (F.Slow v → τ v = cap) ∧
      (¬ F.Slow v → F.total v * valueAt sol.concentration v * τ v
        = F.pv v * valueAt sol.concentration v
          + ∑ u ∈ range F.n, τ u * valueAt sol.concentration u * F.w u v) := by
  obtain ⟨τ, hf, hv⟩ := local_values h hp hls hr
  refine ⟨τ, fun v hd => ⟨(hv v hd).2.1, fun hs => hf.capped v hd (Or.inl hs), fun hs => ?_⟩⟩
  exact hf.texact v hd hs (hv v hd).1 (hacy v)

/-- **C27** (cycle-free flow) The same for the global field, with the tracer `c` of all sources together. -/
theorem C27_tof_balance_global (h : SolverFor F d st) (hacy : F.Acyclic) {l : List (X K)}
    (hl : GlobalReturns d st (.ok l)) :
    ∃ τ c : Nat → K, ∀ v < F.n, fieldAt l v = min (τ v) cap ∧
      F.total v * c v = (∑ u ∈ range F.n, c u * F.w u v) + F.src v ∧
      (F.Slow v ∨ c v = 0 → τ v = cap) ∧
      (¬ F.Slow v → 0 < c v → F.total v * c v * τ v = F.pv v * c v + ∑ u ∈ range F.n, τ u * c u * F.w u v) := by
  obtain ⟨τ, c, hr, _, hf⟩ := global_facts h
  have e := hl.unique hr
  cases e
  refine ⟨τ, c, fun v hv => ⟨arr_fieldAt _ _ hv, ?_, hf.capped v hv, fun hs hp => hf.texact v hv hs hp (hacy v)⟩⟩
  refine hf.exact v hv ?_ (hacy v)
  rintro ⟨h1, h2⟩
  rw [h2] at h1; exact lt_irrefl _ h1

/-- **C27** (beyond the listed statement: any flow) The balance holds up to the iteration tolerances times the flux
    from the cell's own cycle, if `a` bounds the values of the cycle; in a cell that is connected to itself and lies
    on no other cycle the contribution of the cell itself is missing, exactly. -/
theorem C27_tof_balance_cyclic (h : SolverFor F d st) {starts : List Nat}
    (hp : ∀ p ∈ starts, p < F.n) {ls : Nat → K} (hls : ∀ p ∈ starts, 0 ≤ ls p ∧ ls p ≤ F.src p)
    {sol : LocalSolution (X K)} (hr : LocalReturns d st (valuesOf starts ls) (.ok sol)) :
    ∃ τ : Nat → K, ∀ v, F.Downstream starts v → valueAt sol.tof v = min (τ v) cap ∧
      (F.Slow v → τ v = cap) ∧
      (¬ F.Slow v → ∀ a, 0 ≤ a → (∀ u, F.SameCycle u v → τ u ≤ a) →
        let residual := F.pv v * valueAt sol.concentration v
          + (∑ u ∈ range F.n, τ u * valueAt sol.concentration u * F.w u v)
          - F.total v * valueAt sol.concentration v * τ v
        0 ≤ residual ∧ (¬ F.Loop v → residual ≤ (a / 1000000000 + cap / 1000000000000) * F.cycleInflow v) ∧
          (F.Loop v → residual = τ v * valueAt sol.concentration v * F.w v v)) := by
  obtain ⟨τ, c, r, hr', hle, hf, hok, hthrow⟩ := local_facts h hp (fun p hps => (hls p hps).1) (le_refl 1)
    (fun p hps _ => by rw [one_mul]; exact (hls p hps).2)
  have e := hr.unique hr'
  have hpos : ∀ v, F.Downstream starts v → 0 < c v := by
    by_contra hc
    push Not at hc
    obtain ⟨v, hv, hn⟩ := hc
    rw [hthrow ⟨v, hv, not_lt.mpr hn⟩] at e
    cases e
  obtain ⟨cells, hs, hm, e2⟩ := hok hpos
  rw [e2] at e
  cases e
  have hval : valueAt (valuesOf cells c) = c := by
    funext v
    rw [valueAt_valuesOf hs]
    by_cases hv : v ∈ cells
    · rw [if_pos hv]
    · rw [if_neg hv, hf.off v fun h => hv ((hm v).mpr h)]
  refine ⟨τ, fun v hd => ?_⟩
  have hvn : v < F.n := by obtain ⟨p, hps, hreach⟩ := hd; exact reach_lt (hp p hps) hreach
  show valueAt (valuesOf cells fun v => min (τ v) cap) v = _ ∧ _ ∧ (_ → ∀ a, _ → _ →
    let residual := F.pv v * valueAt (valuesOf cells c) v + (∑ u ∈ range F.n, τ u * valueAt (valuesOf cells c) u * F.w u v)
          - F.total v * valueAt (valuesOf cells c) v * τ v
    0 ≤ residual ∧ (¬ F.Loop v → residual ≤ (a / 1000000000 + cap / 1000000000000) * F.cycleInflow v) ∧
          (F.Loop v → residual = τ v * valueAt (valuesOf cells c) v * F.w v v))
  rw [hval, valueAt_valuesOf hs, if_pos ((hm v).mpr hd)]
  refine ⟨rfl, fun hs => hf.capped v hd (Or.inl hs), fun hsl a ha hab => ⟨?_, fun hl => ?_, fun hl => ?_⟩⟩
  · exact sub_nonneg.mpr (hf.tsub v hd hsl (hpos v hd))
  · have := hf.tres v hd hsl (hpos v hd) hl a 1 ha zero_le_one (fun u hu => ⟨hab u hu,
      hle u (by
        rcases Relation.ReflTransGen.cases_head hu.1 with e | ⟨x, e, _⟩
        · rw [e]; exact hvn
        · exact e.1)⟩)
    have e3 : a * tolC + 1 * tolT = a / 1000000000 + cap / 1000000000000 := by
      unfold tolC tolT; ring
    rw [e3] at this
    exact this
  · show _ - F.total v * c v * τ v = _
    rw [hf.talone v hd hsl (hpos v hd) hl.2]; ring

/-! ### C31: tracers partition the flow -/

section partition
variable {m : Nat} {starts : Fin m → List Nat} {ls : Fin m → Nat → K} {sol : Fin m → LocalSolution (X K)}

/-- **C31** If the start values of all tracers add up to at most the sources, the concentrations
    add up to at most 1 in every cell, with or without cycles. -/
theorem C31_sum_le_one (h : SolverFor F d st) (hp : ∀ k, ∀ p ∈ starts k, p < F.n)
    (hls : ∀ k, ∀ p ∈ starts k, 0 ≤ ls k p)
    (hsplit : ∀ v < F.n, ∑ k, injected (starts k) (ls k) v ≤ F.src v)
    (hr : ∀ k, LocalReturns d st (valuesOf (starts k) (ls k)) (.ok (sol k))) :
    ∀ v < F.n, ∑ k, valueAt (sol k).concentration v ≤ 1 := by
  choose τ hf hv using fun k => local_values h (hp k) (hls k) (hr k)
  set C : Nat → K := fun v => ∑ k, valueAt (sol k).concentration v with hC
  have hinj : ∀ k v, 0 ≤ injected (starts k) (ls k) v := by
    intro k v; unfold injected; split
    · exact hls k v (by assumption)
    · exact le_refl _
  have hsub : ∀ v < F.n, F.total v * C v ≤ (∑ u ∈ range F.n, C u * F.w u v) + F.src v := by
    intro v hvn
    have h1 : F.total v * C v = ∑ k, F.total v * valueAt (sol k).concentration v := by rw [hC, mul_sum]
    have h2 : ∑ u ∈ range F.n, C u * F.w u v
        = ∑ k, ∑ u ∈ range F.n, valueAt (sol k).concentration u * F.w u v := by
      rw [sum_comm]; apply sum_congr rfl; intro u _; rw [hC, sum_mul]
    have h3 : ∑ k, F.total v * valueAt (sol k).concentration v
        ≤ ∑ k, ((∑ u ∈ range F.n, valueAt (sol k).concentration u * F.w u v) + injected (starts k) (ls k) v) :=
      sum_le_sum fun k _ => (hf k).sub v hvn
    rw [sum_add_distrib] at h3
    have := hsplit v hvn
    linarith
  by_contra hcon
  push Not at hcon
  obtain ⟨v0, hv0, hgt⟩ := hcon
  obtain ⟨x, hx, hmax⟩ := exists_max_image (range F.n) C ⟨v0, mem_range.mpr hv0⟩
  have hxn := mem_range.mp hx
  have hM : 1 < C x := lt_of_lt_of_le hgt (hmax v0 (mem_range.mpr hv0))
  -- where the maximum is attained, there is no source, and it is attained in all upwind cells
  have hup : ∀ v < F.n, C v = C x → F.src v = 0 ∧ ∀ u, F.Edge u v → C u = C x := by
    intro v hvn he
    have h1 := hsub v hvn
    have h2 : ∑ u ∈ range F.n, C u * F.w u v ≤ ∑ u ∈ range F.n, C x * F.w u v :=
      sum_le_sum fun u hu => mul_le_mul_of_nonneg_right (hmax u hu) (h.valid.w_nonneg u v (mem_range.mp hu) hvn)
    have h3 : ∑ u ∈ range F.n, C x * F.w u v = C x * F.inflow v := by unfold Flow.inflow; rw [mul_sum]
    have hs0 := h.valid.src_nonneg v hvn
    have ht : F.total v * C v = C x * F.inflow v + C x * F.src v := by
      rw [he]; unfold Flow.total; ring
    have hs : F.src v = 0 := by
      rcases eq_or_lt_of_le hs0 with e | e
      · exact e.symm
      · have : F.src v < C x * F.src v := by nlinarith
        linarith
    refine ⟨hs, fun u hedge => ?_⟩
    by_contra hne
    have hlt : C u < C x := lt_of_le_of_ne (hmax u (mem_range.mpr hedge.1)) hne
    have h4 : ∑ u ∈ range F.n, C u * F.w u v < ∑ u ∈ range F.n, C x * F.w u v := by
      refine sum_lt_sum (fun u hu => mul_le_mul_of_nonneg_right (hmax u hu) (h.valid.w_nonneg u v (mem_range.mp hu) hvn))
        ⟨u, mem_range.mpr hedge.1, mul_lt_mul_of_pos_right hlt hedge.2.2⟩
    rw [hs, mul_zero] at ht
    linarith
  have hall : ∀ p, F.Reach p x → C p = C x ∧ p < F.n := by
    intro p hreach
    induction hreach using Relation.ReflTransGen.head_induction_on with
    | refl => exact ⟨rfl, hxn⟩
    | head hab _ ih => exact ⟨(hup _ ih.2 ih.1).2 _ hab, hab.1⟩
  -- but some tracer reaches the cell from a source
  have hex : ∃ k, 0 < valueAt (sol k).concentration x := by
    by_contra hno
    push Not at hno
    have : C x ≤ 0 := sum_nonpos fun k _ => hno k
    linarith
  obtain ⟨k, hk⟩ := hex
  obtain ⟨p, _, _, _, hsrc, hreach⟩ := (hf k).source x hxn hk
  obtain ⟨h1, h2⟩ := hall p hreach
  rw [(hup p h2 h1).1] at hsrc
  exact lt_irrefl _ hsrc

/-- Induction along a cycle-free flow. -/
theorem acyclic_induction {K : Type} [Field K] [LinearOrder K] {F : Flow K} (hacy : F.Acyclic) {P : Nat → Prop}
    (step : ∀ v < F.n, (∀ u, F.Edge u v → P u) → P v) : ∀ v < F.n, P v := by
  have wf : WellFounded fun a b : Fin F.n => Relation.TransGen F.Edge a.1 b.1 := by
    haveI : IsTrans (Fin F.n) fun a b => Relation.TransGen F.Edge a.1 b.1 := ⟨fun _ _ _ h1 h2 => h1.trans h2⟩
    haveI : Std.Irrefl fun a b : Fin F.n => Relation.TransGen F.Edge a.1 b.1 := ⟨fun a => hacy a.1⟩
    exact Finite.wellFounded_of_trans_of_irrefl _
  intro v hv
  exact wf.induction (C := fun a : Fin F.n => P a.1) ⟨v, hv⟩ fun a ih =>
    step a.1 a.2 fun u hu => ih ⟨u, hu.1⟩ (Relation.TransGen.single hu)

/-- **C31** In cycle-free flow, if the start values of all tracers add up to the sources, the concentrations
    add up to exactly 1 in every cell such that it and all cells upstream of it receive some flow. -/
theorem C31_sum_eq_one (h : SolverFor F d st) (hacy : F.Acyclic) (hp : ∀ k, ∀ p ∈ starts k, p < F.n)
    (hls : ∀ k, ∀ p ∈ starts k, 0 ≤ ls k p)
    (hsplit : ∀ v < F.n, ∑ k, injected (starts k) (ls k) v = F.src v)
    (hr : ∀ k, LocalReturns d st (valuesOf (starts k) (ls k)) (.ok (sol k))) :
    ∀ v < F.n, (∀ u, F.Reach u v → 0 < F.total u) → ∑ k, valueAt (sol k).concentration v = 1 := by
  have hbal := fun k => C26_balance_exact h hacy (hp k) (hls k) (hr k)
  refine acyclic_induction hacy (P := fun v => (∀ u, F.Reach u v → 0 < F.total u) →
    ∑ k, valueAt (sol k).concentration v = 1) ?_
  intro v hvn ih hpos
  have ht := hpos v Relation.ReflTransGen.refl
  have h1 : F.total v * ∑ k, valueAt (sol k).concentration v = F.total v := by
    calc F.total v * ∑ k, valueAt (sol k).concentration v
        = ∑ k, ((∑ u ∈ range F.n, valueAt (sol k).concentration u * F.w u v) + injected (starts k) (ls k) v) := by
          rw [mul_sum]; exact sum_congr rfl fun k _ => hbal k v hvn
      _ = (∑ u ∈ range F.n, (∑ k, valueAt (sol k).concentration u) * F.w u v) + F.src v := by
          rw [sum_add_distrib, hsplit v hvn, sum_comm]
          congr 1; apply sum_congr rfl; intro u _; rw [sum_mul]
      _ = (∑ u ∈ range F.n, F.w u v) + F.src v := by
          congr 1; apply sum_congr rfl; intro u hu
          have hun := mem_range.mp hu
          by_cases hw : 0 < F.w u v
          · have hedge : F.Edge u v := ⟨hun, hvn, hw⟩
            rw [ih u hedge fun x hx => hpos x (hx.tail hedge), one_mul]
          · rw [le_antisymm (not_lt.mp hw) (h.valid.w_nonneg u v hun hvn), mul_zero]
      _ = F.total v := rfl
  exact mul_left_cancel₀ (ne_of_gt ht) (by rw [h1, mul_one])

end partition

/-- Two tracers that share the sources of the cycle-free example. -/
example : ∃ (d : SolverData (X ℚ)) (st : SolverState (X ℚ)) (sol : Fin 2 → LocalSolution (X ℚ)), SolverFor exAcyclic d st ∧
    (∀ v < exAcyclic.n, ∑ k, injected (![[0], [1]] k) (![fun _ => 1, fun _ => 3] k) v = exAcyclic.src v) ∧
    ∀ k, LocalReturns d st (valuesOf (![[0], [1]] k) (![fun _ => 1, fun _ => 3] k)) (.ok (sol k)) := by
  obtain ⟨d, st, h⟩ := exAcyclic_solver
  have hr : ∀ k : Fin 2, ∃ sol, LocalReturns d st (valuesOf (![[0], [1]] k) (![fun _ => 1, fun _ => 3] k)) (.ok sol) := by
    intro k
    obtain ⟨sol, hr, _⟩ := C25_concentration_range h (starts := ![[0], [1]] k) (ls := ![fun _ => 1, fun _ => 3] k)
      (by rcases Fin.exists_fin_two.mp ⟨k, rfl⟩ with rfl | rfl <;> simp [exAcyclic])
      (by rcases Fin.exists_fin_two.mp ⟨k, rfl⟩ with rfl | rfl <;> simp [exAcyclic])
    exact ⟨sol, hr⟩
  choose sol hr using hr
  refine ⟨d, st, sol, h, ?_, hr⟩
  intro v _
  rw [Fin.sum_univ_two]
  simp only [injected, exAcyclic, Matrix.cons_val_zero, Matrix.cons_val_one, List.mem_singleton]
  split
  · rename_i h; subst h; simp
  · simp

end Verif.Props
