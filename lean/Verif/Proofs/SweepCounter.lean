/-
The counters kept by the solver do not change results, unless there are more sweeps than an
`int` can count.
-/
import Verif.Model.SweepCounter
import Verif.Proofs.Fuel

namespace Verif.Counter
open Verif.Solver Verif.Toolbox Verif.Fuel

/-- The result `c` with counters is the result `r` without, and that of a solver that gives up
    after `INT_MAX` sweeps (`r0`); or that solver gives up and `c` is an overflow. -/
def Over {α : Type} (lim : Prop) (r0 r c : Res α) : Prop :=
  (r = r0 ∧ c = r0) ∨ (lim ∧ r0 = .diverge ∧ c = .ub .overflow)

variable {lim : Prop}

theorem Over.refl {α : Type} (r : Res α) : Over lim r r r := Or.inl ⟨rfl, rfl⟩

theorem Over.mono {α : Type} {lim' : Prop} {r0 r c : Res α} (h : Over lim r0 r c) (hl : lim → lim') : Over lim' r0 r c := by
  rcases h with h | ⟨h1, h2⟩
  · exact Or.inl h
  · exact Or.inr ⟨hl h1, h2⟩

theorem Over.bind {α β : Type} {r0 r c : Res α} {k0 k k' : α → Res β} (h : Over lim r0 r c)
    (hk : ∀ a, r0 = .ok a → Over lim (k0 a) (k a) (k' a)) : Over lim (r0.bind k0) (r.bind k) (c.bind k') := by
  rcases h with ⟨rfl, rfl⟩ | ⟨hl, rfl, rfl⟩
  · cases c with
    | ok a => exact hk a rfl
    | throw e => exact Or.inl ⟨rfl, rfl⟩
    | ub u => exact Or.inl ⟨rfl, rfl⟩
    | diverge => exact Or.inl ⟨rfl, rfl⟩
  · exact Or.inr ⟨hl, rfl, rfl⟩

/-- The same for a call on an object. -/
def OverP {S α : Type} (lim : Prop) (p0 p c : S × Res α) : Prop :=
  (p = p0 ∧ c = p0) ∨ (lim ∧ p0.2 = .diverge ∧ c.2 = .ub .overflow)

theorem OverP.finish {S α β : Type} {s : S} {r0 r c : Res α} {k0 k k' : α → S × Res β} (h : Over lim r0 r c)
    (hk : ∀ a, r0 = .ok a → OverP lim (k0 a) (k a) (k' a)) :
    OverP lim (Solver.finish s r0 k0) (Solver.finish s r k) (Solver.finish s c k') := by
  rcases h with ⟨rfl, rfl⟩ | ⟨hl, rfl, rfl⟩
  · cases c with
    | ok a => exact hk a rfl
    | throw e => exact Or.inl ⟨rfl, rfl⟩
    | ub u => exact Or.inl ⟨rfl, rfl⟩
    | diverge => exact Or.inl ⟨rfl, rfl⟩
  · exact Or.inr ⟨hl, rfl, rfl⟩

/-- Values and statistics; the statistics forgotten. -/
def values {α β : Type} (r : Res (α × β)) : Res α := r.bind fun x => .ok x.1

variable {R : Type} [Arith R]

theorem gaussSeidel_over (d : SolverData R) (b : List Bool) (ls : List R) (cells : List Int) : ∀ (f j : Nat) s,
    j ≤ INT_MAX → Over (INT_MAX - j < f) (gaussSeidel d b ls cells (min f (INT_MAX - j)) s)
      (gaussSeidel d b ls cells f s)
      (values (gaussSeidelCounted d b ls cells f j s)) := by
  intro f
  induction f with
  | zero =>
    intro j s _
    rw [Nat.zero_min]
    unfold gaussSeidel gaussSeidelCounted
    split <;> exact Or.inl ⟨rfl, rfl⟩
  | succ f ih =>
    intro j s hj
    by_cases e : j = INT_MAX
    · subst e
      rw [Nat.sub_self, Nat.min_zero]
      unfold gaussSeidel gaussSeidelCounted
      split
      · refine Or.inr ⟨by omega, rfl, ?_⟩
        have : intSucc ((INT_MAX : Nat) : Int) = .ub .overflow := by unfold intSucc; rw [if_neg]; omega
        simp only [Res.bind_eq, this]
        rfl
      · exact Or.inl ⟨rfl, rfl⟩
    · have hm : min (f + 1) (INT_MAX - j) = min f (INT_MAX - (j + 1)) + 1 := by omega
      rw [hm]
      unfold gaussSeidel gaussSeidelCounted
      split
      · have : intSucc (j : Int) = .ok ((j + 1 : Nat) : Int) := by unfold intSucc; rw [if_pos (by omega)]; rfl
        simp only [Res.bind_eq, this, Res.ok_bind]
        unfold values
        rw [Res.bind_assoc]
        refine (Over.refl _).bind fun s _ => ?_
        exact (ih (j + 1) s (by omega)).mono (by omega)
      · exact Or.inl ⟨rfl, rfl⟩

/-- One component; the number of components solved so far is at most `k`. -/
theorem component_over (d : SolverData R) (b : List Bool) (ls : List R) (sq : List Int) (cst : List Nat) (f k : Nat)
    (s : (List R × List R) × Stats) (comp : Nat) (hs : s.2.numMulticell ≤ k) (hk : k < INT_MAX) :
    ∃ c, solveComponentCounted d b ls sq cst f s comp = c ∧
      Over (INT_MAX < f) (solveComponent d b ls sq cst (min f INT_MAX) s.1 comp)
        (solveComponent d b ls sq cst f s.1 comp) (values c) ∧
      ∀ s', c = .ok s' → s'.2.numMulticell ≤ ((k + 1 : Nat) : Int) := by
  refine ⟨_, rfl, ?_, ?_⟩
  · unfold solveComponentCounted solveComponent values
    simp only [Res.bind_eq, Res.bind_assoc]
    refine (Over.refl _).bind fun _ _ => (Over.refl _).bind fun _ _ => (Over.refl _).bind fun cells _ => ?_
    split
    · rw [Res.bind_assoc]
      refine Or.inl ?_
      cases solveSingleCell d b ls s.1 _ <;> exact ⟨rfl, rfl⟩
    · unfold solveMultiCellCounted solveMultiCell
      have : intSucc s.2.numMulticell = .ok (s.2.numMulticell + 1) := by unfold intSucc; rw [if_pos (by omega)]
      simp only [Res.bind_eq, this, Res.ok_bind, Res.pure_eq, Res.bind_assoc]
      have h := gaussSeidel_over d b ls cells f 0 (s.1, (huge, huge)) (by omega)
      exact h
  · intro s' e
    unfold solveComponentCounted at e
    simp only [Res.bind_eq, Res.bind_ok_iff] at e
    obtain ⟨_, _, _, _, cells, _, e⟩ := e
    split at e
    · obtain ⟨_, _, e⟩ := Res.bind_ok_iff.mp e
      cases e
      push_cast; omega
    · unfold solveMultiCellCounted at e
      simp only [Res.bind_eq, Res.bind_ok_iff] at e
      obtain ⟨m, hm, r, _, e⟩ := e
      cases e
      unfold intSucc at hm
      split at hm
      · cases hm; push_cast; omega
      · cases hm

theorem components_over (d : SolverData R) (b : List Bool) (ls : List R) (sq : List Int) (cst : List Nat) (f : Nat) :
    ∀ (comps : List Nat) (k : Nat) (s : (List R × List R) × Stats), s.2.numMulticell ≤ k → k + comps.length ≤ INT_MAX →
    Over (INT_MAX < f) (forEach comps s.1 (solveComponent d b ls sq cst (min f INT_MAX)))
      (forEach comps s.1 (solveComponent d b ls sq cst f))
      (values (forEach comps s (solveComponentCounted d b ls sq cst f))) := by
  intro comps
  induction comps with
  | nil => intro k s _ _; exact Or.inl ⟨rfl, rfl⟩
  | cons x xs ih =>
    intro k s hs hk
    simp only [List.length_cons] at hk
    obtain ⟨c, e, h1, h2⟩ := component_over d b ls sq cst f k s x hs (by omega)
    rw [forEach_cons, forEach_cons, forEach_cons, e]
    rcases h1 with h1 | ⟨hl, h1, h3⟩
    · rw [h1.1, ← h1.2]
      cases c with
      | ok s' => exact ih (k + 1) s' (h2 s' rfl) (by omega)
      | throw e => exact Or.inl ⟨rfl, rfl⟩
      | ub u => exact Or.inl ⟨rfl, rfl⟩
      | diverge => exact Or.inl ⟨rfl, rfl⟩
    · rw [h1]
      refine Or.inr ⟨hl, rfl, ?_⟩
      cases c with
      | ok s' => cases h3
      | throw e => cases h3
      | ub u => cases h3; rfl
      | diverge => cases h3

/-- The two ways to solve, for orderings with the property `Q`. -/
def SolveOver (Q : List Int → List Nat → Prop) (lim : Prop) (p0 p c : SolveFn R) : Prop :=
  ∀ d b ls sq cst s, Q sq cst → Over lim (p0 d b ls sq cst s) (p d b ls sq cst s) (c d b ls sq cst s)

/-- At most `INT_MAX` components. -/
def Few (_ : List Int) (cst : List Nat) : Prop := cst.length ≤ INT_MAX + 1

theorem solve_over (f : Nat) : SolveOver (R := R) Few (INT_MAX < f) (uncounted (min f INT_MAX)) (uncounted f) (counted f) := by
  intro d b ls sq cst s h
  unfold Few at h
  unfold uncounted counted solve solveCounted
  simp only [Res.bind_eq]
  have := components_over d b ls sq cst f (List.range (cst.length - 1)) 0 (s, {}) le_rfl (by simp; omega)
  have e : ∀ r : Res ((List R × List R) × Stats),
      (r.bind fun s => pure (s.1.1.map fun t => Arith.min t maxTof, s.1.2))
        = (values r).bind fun s => pure (s.1.map fun t => Arith.min t maxTof, s.2) := by
    intro r; cases r <;> rfl
  rw [e]
  exact this.bind fun _ _ => Over.refl _

/-! ### Orderings have at most `INT_MAX` components -/

theorem extractOrdering_length {scc : Tarjan.SCCResult} {n : Nat} {s o : List Int × List Nat}
    (h : extractOrdering scc n s = .ok o) : o.2.length ≤ INT_MAX + 1 := by
  unfold extractOrdering at h
  simp only [Res.bind_eq, Res.bind_ok_iff] at h
  obtain ⟨m, hm, st, hst, h⟩ := h
  unfold intOfSize at hm
  split at hm
  · cases hm
    have hl : st.length ≤ INT_MAX + 1 := by
      unfold wr at hst
      split at hst
      · cases hst
        simp only [List.length_set, resize, List.length_append, List.length_take, List.length_replicate]
        omega
      · cases hst
    refine (forEach_ok (fun o : List Int × List Nat => o.2.length ≤ INT_MAX + 1) hl ?_ h).1
    intro s s' x _ hs e
    unfold extractComponent at e
    simp only [Res.bind_eq, Res.bind_ok_iff] at e
    obtain ⟨_, _, _, _, _, _, _, _, t, ht, e⟩ := e
    cases e
    unfold wr at ht
    split at ht
    · cases ht; simpa using hs
    · cases ht
  · cases hm

omit [Arith R] in
theorem computeOrdering_length {g : AssembledConnections R} {n : Nat} {al : Alloc} {fuel : Nat} {s o : List Int × List Nat}
    (h : computeOrdering g n al fuel s = .ok o) : o.2.length ≤ INT_MAX + 1 := by
  unfold computeOrdering at h
  simp only [Res.bind_eq, Res.bind_ok_iff] at h
  obtain ⟨_, _, _, _, _, _, t, ht, _, _, _, _, e⟩ := h
  cases e
  exact extractOrdering_length ht

omit [Arith R] in
theorem computeLocalOrdering_length {g : AssembledConnections R} {n : Nat} {starts : List Int} {al : Alloc} {fuel : Nat}
    {s o : List Int × List Nat} (h : computeLocalOrdering g n starts al fuel s = .ok o) : o.2.length ≤ INT_MAX + 1 := by
  unfold computeLocalOrdering at h
  simp only [Res.bind_eq, Res.bind_ok_iff] at h
  obtain ⟨_, _, _, _, _, _, t, ht, _, _, e⟩ := h
  cases e
  exact extractOrdering_length (o := t) ht

/-! ### Solves and diagnostics -/

variable {Q : List Int → List Nat → Prop} {p0 p c : SolveFn R}

/-- Global orderings of a graph have the property `Q`. -/
def GlobalQ (Q : List Int → List Nat → Prop) (g : AssembledConnections R) (n : Nat) (al : Alloc) : Prop :=
  ∀ fuel s o, computeOrdering g n al fuel s = .ok o → Q o.1 o.2

/-- Orderings from given start points have the property `Q`. -/
def LocalQ (Q : List Int → List Nat → Prop) (g : AssembledConnections R) (n : Nat) (al : Alloc) (starts : List Int) : Prop :=
  ∀ fuel s o, computeLocalOrdering g n starts al fuel s = .ok o → Q o.1 o.2

omit [Arith R] in
theorem globalQ_few (g : AssembledConnections R) (n : Nat) (al : Alloc) : GlobalQ Few g n al :=
  fun _ _ _ h => computeOrdering_length h

omit [Arith R] in
theorem localQ_few (g : AssembledConnections R) (n : Nat) (al : Alloc) (starts : List Int) : LocalQ Few g n al starts :=
  fun _ _ _ h => computeLocalOrdering_length h

theorem solveGlobal_over (h : SolveOver Q lim p0 p c) (d : SolverData R) (al : Alloc) (hQ : GlobalQ Q d.g d.pv.length al)
    (fuel : Nat) (s : SolverState R) :
    OverP lim (solveGlobalWith p0 d al fuel s) (solveGlobalWith p d al fuel s) (solveGlobalWith c d al fuel s) := by
  unfold solveGlobalWith
  exact OverP.finish (Over.refl _) fun _ _ => OverP.finish (Over.refl _) fun _ ho =>
    OverP.finish (h _ _ _ _ _ _ (hQ _ _ _ ho)) fun _ _ => Or.inl ⟨rfl, rfl⟩

theorem solveLocal_over (h : SolveOver Q lim p0 p c) (d : SolverData R) (al : Alloc) (fuel : Nat) (ss : CellSetValues R)
    (hQ : LocalQ Q d.g d.pv.length al (ss.map fun p => p.1)) (s : SolverState R) :
    OverP lim (solveLocalWith p0 d al fuel ss s) (solveLocalWith p d al fuel ss s) (solveLocalWith c d al fuel ss s) := by
  unfold solveLocalWith
  exact OverP.finish (Over.refl _) fun _ _ => OverP.finish (Over.refl _) fun _ ho =>
    OverP.finish (Over.refl _) fun _ _ =>
    OverP.finish (h _ _ _ _ _ _ (hQ _ _ _ ho)) fun _ _ => Or.inl ⟨rfl, rfl⟩

theorem solveSets_over (h : SolveOver Q lim p0 p c) (d : SolverData R) (al : Nat → Alloc) (fuel : Nat) (byId : InflowFlux R)
    (hQ : ∀ j i, LocalQ Q d.g d.pv.length (al j) ((byId.at_ i []).map fun p => p.1))
    (starts : List CellSet) : ∀ j s sol,
    Over lim (solveSetsWith p0 d al fuel byId starts j s sol)
      (solveSetsWith p d al fuel byId starts j s sol) (solveSetsWith c d al fuel byId starts j s sol) := by
  induction starts with
  | nil => intro j s sol; exact Over.refl _
  | cons x xs ih =>
    intro j s sol
    unfold solveSetsWith
    simp only
    rcases solveLocal_over h d (al j) fuel (byId.at_ x.id []) (hQ _ _) s with ⟨e, e'⟩ | ⟨hl, e, e'⟩
    · rw [e, e']
      exact (Over.refl _).bind fun l _ => ih _ _ _
    · rw [e, e']
      exact Or.inr ⟨hl, rfl, rfl⟩

theorem create_data {g gr : AssembledConnections R} {pv : List R} {only : CellSetValues R} {x : SolverData R × SolverState R}
    (h : Solver.create g gr pv only = .ok x) : x.1.g = g ∧ x.1.pv = pv := by
  unfold Solver.create at h
  simp only [Res.bind_eq, Res.bind_ok_iff] at h
  obtain ⟨_, _, _, _, h⟩ := h
  cases h
  exact ⟨rfl, rfl⟩

theorem computeSolution_over (h : SolveOver Q lim p0 p c) (g gr : AssembledConnections R) (pv : List R) (only : CellSetValues R)
    (byId : InflowFlux R) (al : Nat → Alloc) (hG : GlobalQ Q g pv.length (al 0))
    (hQ : ∀ j i, LocalQ Q g pv.length (al j) ((byId.at_ i []).map fun p => p.1)) (fuel : Nat) (starts : List CellSet) :
    Over lim (computeSolutionWith p0 g gr pv only byId al fuel starts)
      (computeSolutionWith p g gr pv only byId al fuel starts)
      (computeSolutionWith c g gr pv only byId al fuel starts) := by
  unfold computeSolutionWith
  simp only [Res.bind_eq]
  refine (Over.refl _).bind fun solver hc => ?_
  obtain ⟨e1, e2⟩ := create_data hc
  rcases solveGlobal_over h solver.1 (al 0) (by rw [e1, e2]; exact hG) fuel solver.2 with ⟨e, e'⟩ | ⟨hl, e, e'⟩
  · rw [e, e']
    exact (Over.refl _).bind fun tof _ => solveSets_over h _ _ _ _ (by rw [e1, e2]; exact hQ) _ _ _ _
  · rw [e, e']
    exact Or.inr ⟨hl, rfl, rfl⟩

theorem injDiag_over (h : SolveOver Few lim p0 p c) (t : Toolbox R) (al : Nat → Alloc) (fuel : Nat) (starts : List CellSet) :
    (injDiagWith c t al fuel starts).1 = (injDiagWith p t al fuel starts).1 ∧
    Over lim (injDiagWith p0 t al fuel starts).2 (injDiagWith p t al fuel starts).2 (injDiagWith c t al fuel starts).2 := by
  unfold injDiagWith
  split
  · exact ⟨rfl, Over.refl _⟩
  · cases checkStartSets t.injById t.onlyInflow starts with
    | ok x =>
      simp only [Solver.finish]
      cases t.ensureBuilt.2 with
      | ok x => exact ⟨rfl, computeSolution_over h _ _ _ _ _ _ (globalQ_few _ _ _) (fun _ _ => localQ_few _ _ _ _) _ _⟩
      | throw e => exact ⟨rfl, Over.refl _⟩
      | ub e => exact ⟨rfl, Over.refl _⟩
      | diverge => exact ⟨rfl, Over.refl _⟩
    | throw e => exact ⟨rfl, Over.refl _⟩
    | ub e => exact ⟨rfl, Over.refl _⟩
    | diverge => exact ⟨rfl, Over.refl _⟩

theorem prodDiag_over (h : SolveOver Few lim p0 p c) (t : Toolbox R) (al : Nat → Alloc) (fuel : Nat) (starts : List CellSet) :
    (prodDiagWith c t al fuel starts).1 = (prodDiagWith p t al fuel starts).1 ∧
    Over lim (prodDiagWith p0 t al fuel starts).2 (prodDiagWith p t al fuel starts).2 (prodDiagWith c t al fuel starts).2 := by
  unfold prodDiagWith
  split
  · exact ⟨rfl, Over.refl _⟩
  · cases checkStartSets t.prodById t.onlyOutflow starts with
    | ok x =>
      simp only [Solver.finish]
      cases t.ensureBuilt.2 with
      | ok x => exact ⟨rfl, computeSolution_over h _ _ _ _ _ _ (globalQ_few _ _ _) (fun _ _ => localQ_few _ _ _ _) _ _⟩
      | throw e => exact ⟨rfl, Over.refl _⟩
      | ub e => exact ⟨rfl, Over.refl _⟩
      | diverge => exact ⟨rfl, Over.refl _⟩
    | throw e => exact ⟨rfl, Over.refl _⟩
    | ub e => exact ⟨rfl, Over.refl _⟩
    | diverge => exact ⟨rfl, Over.refl _⟩

/-! ### Without statistics these are the functions of the other model files -/

theorem solveSets_uncounted (d : SolverData R) (al : Nat → Alloc) (fuel : Nat) (byId : InflowFlux R) (starts : List CellSet) :
    ∀ j s sol, solveSetsWith (uncounted fuel) d al fuel byId starts j s sol = solveSets d al fuel byId starts j s sol := by
  induction starts with
  | nil => intro j s sol; rfl
  | cons x xs ih =>
    intro j s sol
    unfold solveSetsWith solveSets
    simp only [ih]
    rfl

theorem injDiag_uncounted (t : Toolbox R) (al : Nat → Alloc) (fuel : Nat) (starts : List CellSet) :
    injDiagWith (uncounted fuel) t al fuel starts = t.injDiag al fuel starts := by
  unfold injDiagWith injDiag computeSolutionWith computeSolution
  simp only [solveSets_uncounted]
  rfl

theorem prodDiag_uncounted (t : Toolbox R) (al : Nat → Alloc) (fuel : Nat) (starts : List CellSet) :
    prodDiagWith (uncounted fuel) t al fuel starts = t.prodDiag al fuel starts := by
  unfold prodDiagWith prodDiag computeSolutionWith computeSolution
  simp only [solveSets_uncounted]
  rfl

end Verif.Counter
