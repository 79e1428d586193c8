/-
Without cycles nothing is swept, so nothing is counted.
-/
import Verif.Spec.SweepCounter
import Verif.Proofs.SweepCounter
import Verif.Proofs.SolverVisit
import Verif.Proofs.ToolboxData
import Verif.Proofs.ToolboxSafe

namespace Verif.Counter
open Verif.Solver Verif.Toolbox Verif.Fuel Verif.Spec Verif.Tarjan

variable {R : Type}

/-- All components are single cells. -/
def Single (sq : List Int) (cst : List Nat) : Prop :=
  ∃ comps : List (List Nat), sq = cellsOf comps ∧ cst = offsets comps ∧ ∀ c ∈ comps, ∃ v, c = [v]

/-- The graph has no cycle. -/
def AcyclicGraph (g : AssembledConnections R) (n : Nat) : Prop :=
  ∀ v, ¬ Relation.TransGen (HasEdge n g.startPointers g.neighbourhood) v v

theorem globalQ_single {g : AssembledConnections R} {n : Nat} (hg : GoodGraph g n) (hI : n ≤ INT_MAX)
    (hacy : AcyclicGraph g n) {al : Alloc} (ha : al.Good) : GlobalQ Single g n al := by
  have hl : g.startPointers.length = n + 1 := by obtain ⟨E, h, _⟩ := hg.adj; exact h.size
  obtain ⟨comps, ht, e⟩ := computeOrdering_spec (hg.isGraph hI) hl ha
  intro fuel s o ho
  have hs := computeOrdering_sub g n al fuel (n + numEdges n g.startPointers) s
  rw [ho, e _ (by omega) s] at hs
  rcases hs with hs | hs
  · cases hs
  · cases hs
    exact ⟨comps, rfl, rfl, singles_of_acyclic ht hacy⟩

theorem localQ_single {g : AssembledConnections R} {n : Nat} (hg : GoodGraph g n) (hI : n ≤ INT_MAX)
    (hacy : AcyclicGraph g n) {al : Alloc} (ha : al.Good) {starts : List Int} (hs : ∀ p ∈ starts, 0 ≤ p ∧ p < (n : Int)) :
    LocalQ Single g n al starts := by
  have hl : g.startPointers.length = n + 1 := by obtain ⟨E, h, _⟩ := hg.adj; exact h.size
  have hst : starts = (starts.map Int.toNat).map fun p : Nat => (p : Int) := by
    rw [List.map_map]
    conv_lhs => rw [← List.map_id starts]
    refine List.map_congr_left fun p hp => ?_
    simp only [id, Function.comp]
    exact (Int.toNat_of_nonneg (hs p hp).1).symm
  obtain ⟨comps, ht, e⟩ := computeLocalOrdering_spec (hg.isGraph hI) hl ha (starts.map Int.toNat) (by
    intro p hp
    obtain ⟨q, hq, rfl⟩ := List.mem_map.mp hp
    have := hs q hq
    omega)
  rw [← hst] at e
  intro fuel s o ho
  have hs := computeLocalOrdering_sub g n starts al fuel (n + numEdges n g.startPointers) s
  rw [ho, e _ (by omega) s] at hs
  rcases hs with hs | hs
  · cases hs
  · cases hs
    exact ⟨comps, rfl, rfl, singles_of_acyclic ht hacy⟩

variable [Arith R]

theorem component_single {sq : List Int} {cst : List Nat} (h : Single sq cst) (d : SolverData R) (b : List Bool) (ls : List R)
    (f f' : Nat) (s : (List R × List R) × Stats) (k : Nat) (hk : k < cst.length - 1) :
    solveComponent d b ls sq cst f s.1 k = solveComponent d b ls sq cst f' s.1 k ∧
    solveComponentCounted d b ls sq cst f' s k = (solveComponent d b ls sq cst f s.1 k).bind fun r => .ok (r, s.2) := by
  obtain ⟨comps, rfl, rfl, h1⟩ := h
  rw [offsets_length, Nat.add_sub_cancel] at hk
  have hck : comps[k]? = some comps[k] := List.getElem?_eq_getElem hk
  obtain ⟨v, hv⟩ := h1 comps[k] (List.getElem_mem hk)
  unfold solveComponentCounted solveComponent
  simp only [Res.bind_eq, rd_of_getElem? (offsets_getElem? comps (k := k + 1) (by omega)),
    rd_of_getElem? (offsets_getElem? comps (k := k) (by omega)), Res.ok_bind, off_succ hck,
    Nat.add_sub_cancel_left, readCells_comp hck]
  rw [hv]
  exact ⟨rfl, rfl⟩

theorem components_single {sq : List Int} {cst : List Nat} (h : Single sq cst) (d : SolverData R) (b : List Bool) (ls : List R)
    (f f' : Nat) : ∀ (ks : List Nat) (s : (List R × List R) × Stats), (∀ k ∈ ks, k < cst.length - 1) →
    forEach ks s.1 (solveComponent d b ls sq cst f) = forEach ks s.1 (solveComponent d b ls sq cst f') ∧
    forEach ks s (solveComponentCounted d b ls sq cst f')
      = (forEach ks s.1 (solveComponent d b ls sq cst f)).bind fun r => .ok (r, s.2) := by
  intro ks
  induction ks with
  | nil => intro s _; exact ⟨rfl, rfl⟩
  | cons k ks ih =>
    intro s hk
    obtain ⟨h1, h2⟩ := component_single h d b ls f f' s k (hk k List.mem_cons_self)
    rw [forEach_cons, forEach_cons, forEach_cons, h2, ← h1]
    cases solveComponent d b ls sq cst f s.1 k with
    | ok r => exact ih (r, s.2) fun k hk' => hk k (List.mem_cons_of_mem _ hk')
    | throw e => exact ⟨rfl, rfl⟩
    | ub e => exact ⟨rfl, rfl⟩
    | diverge => exact ⟨rfl, rfl⟩

theorem solve_single (f f' : Nat) : SolveOver (R := R) Single False (uncounted f) (uncounted f') (counted f') := by
  intro d b ls sq cst s h
  unfold uncounted counted solve solveCounted
  simp only [Res.bind_eq]
  obtain ⟨h1, h2⟩ := components_single h d b ls f f' (List.range (cst.length - 1)) (s, {}) (fun k hk => List.mem_range.mp hk)
  simp only at h1 h2
  rw [h2, ← h1]
  refine Or.inl ⟨rfl, ?_⟩
  cases forEach (List.range (cst.length - 1)) s (solveComponent d b ls sq cst f) <;> rfl

/-! ### Outcomes -/

/-- Outcome of diagnostics as a function of the data; `rev` for production. -/
def outcomeWith (slv : SolveFn R) (rev : Bool) (g : ConnectivityGraph) (pvol : List R) (flux : ConnectionValues R) (s : Split R)
    (al : Nat → Alloc) (fuel : Nat) (startSets : List CellSet) : Res (Solution R) :=
  if pvol.isEmpty || flux.numConnections == 0 then .throw .logicError else
  (checkStartSets s.byId s.only startSets).bind fun _ => (graphs g flux).bind fun gs =>
    computeSolutionWith slv (if rev then gs.2 else gs.1) (if rev then gs.1 else gs.2) pvol s.only s.byId al fuel startSets

theorem injDiagWith_snd (slv : SolveFn R) {t : Toolbox R} (h : Coherent t) (al : Nat → Alloc) (fuel : Nat) (s : List CellSet) :
    (injDiagWith slv t al fuel s).2 = outcomeWith slv false t.g t.pvol t.flux ⟨t.onlyInflow, t.injById⟩ al fuel s := by
  unfold injDiagWith outcomeWith
  split
  · rfl
  · obtain ⟨_, ⟨d, u, b, e⟩, hk⟩ := ensureBuilt_spec h
    rw [finish_snd]
    congr 1
    funext _
    simp only [finish_snd]
    rw [← hk fun gs => computeSolutionWith slv (if false = true then gs.2 else gs.1) (if false = true then gs.1 else gs.2) t.pvol
      t.onlyInflow t.injById al fuel s]
    congr 1; funext _
    rw [e]; rfl

theorem prodDiagWith_snd (slv : SolveFn R) {t : Toolbox R} (h : Coherent t) (al : Nat → Alloc) (fuel : Nat) (s : List CellSet) :
    (prodDiagWith slv t al fuel s).2 = outcomeWith slv true t.g t.pvol t.flux ⟨t.onlyOutflow, t.prodById⟩ al fuel s := by
  unfold prodDiagWith outcomeWith
  split
  · rfl
  · obtain ⟨_, ⟨d, u, b, e⟩, hk⟩ := ensureBuilt_spec h
    rw [finish_snd]
    congr 1
    funext _
    simp only [finish_snd]
    simp only [if_true]
    rw [← hk fun gs => computeSolutionWith slv gs.2 gs.1 t.pvol t.onlyOutflow t.prodById al fuel s]
    congr 1; funext _
    rw [e]

theorem injectionWith_eq (slv : SolveFn R) (g : ConnectivityGraph) (calls : List (Call R)) (al : Nat → Alloc) (fuel : Nat)
    (s : List CellSet) :
    (injDiagWith slv (toolboxAfter g calls) al fuel s).2 = outcomeWith slv false g ((lastPoreVolume g calls).getD [])
      ((lastFlux g calls).getD (ConnectionValues.create 0 0)) (splitInflow ((lastInflow calls).getD [])).1 al fuel s := by
  have h := holdsData g calls
  rw [injDiagWith_snd slv h.coherent, h.graph, h.pvol, h.flux, h.inj]

theorem productionWith_eq (slv : SolveFn R) (g : ConnectivityGraph) (calls : List (Call R)) (al : Nat → Alloc) (fuel : Nat)
    (s : List CellSet) :
    (prodDiagWith slv (toolboxAfter g calls) al fuel s).2 = outcomeWith slv true g ((lastPoreVolume g calls).getD [])
      ((lastFlux g calls).getD (ConnectionValues.create 0 0)) (splitInflow ((lastInflow calls).getD [])).2 al fuel s := by
  have h := holdsData g calls
  rw [prodDiagWith_snd slv h.coherent, h.graph, h.pvol, h.flux, h.prod]

theorem Over.eq_of_false {α : Type} {r0 r c : Res α} (h : Over False r0 r c) : c = r := by
  rcases h with ⟨h1, h2⟩ | ⟨h, _⟩
  · rw [h2, h1]
  · exact h.elim

theorem computeSolution_single {g gr : AssembledConnections R} {n : Nat} (hI : n ≤ INT_MAX) (hg : GoodGraph g n)
    (hacy : AcyclicGraph g n) {pv : List R} (hpv : pv.length = n) {l : List (CellSetID × Int × R)}
    (hl : ∀ e ∈ l, 0 ≤ e.2.1 ∧ e.2.1 < n) (fuel : Nat) (starts : List CellSet) :
    computeSolutionWith (counted fuel) g gr pv (gather l).only (gather l).byId noFailure fuel starts
      = computeSolutionWith (uncounted fuel) g gr pv (gather l).only (gather l).byId noFailure fuel starts := by
  obtain ⟨h1, h2⟩ := gather_range hl
  subst hpv
  refine (computeSolution_over (solve_single fuel fuel) _ _ _ _ _ _ (globalQ_single hg hI hacy Alloc.good_good) ?_ _ _).eq_of_false
  intro j i
  refine localQ_single hg hI hacy Alloc.good_good ?_
  intro p hp
  obtain ⟨e, he, rfl⟩ := List.mem_map.mp hp
  exact h2 i e he

/-! ### The graphs of a flow without cycles -/

theorem mem_directed {cs : List (Nat × Nat)} {x : Nat → R} {u v : Nat} {w : R}
    (h : ((u : Int), (v : Int), w) ∈ directed cs x) : FlowsTo cs x u v := by
  unfold directed at h
  obtain ⟨l, hl, h⟩ := List.mem_flatten.mp h
  obtain ⟨e, he, rfl⟩ := List.mem_map.mp hl
  have hc := List.mem_zipIdx_iff_getElem?.mp he
  refine ⟨e.2, ?_⟩
  unfold orient at h
  split at h
  · rename_i hlt
    simp only [List.mem_singleton, Prod.mk.injEq, Nat.cast_inj] at h
    left
    rw [hc, h.1, h.2.1]
    exact ⟨rfl, hlt⟩
  · split at h
    · rename_i hlt
      simp only [List.mem_singleton, Prod.mk.injEq, Nat.cast_inj] at h
      right
      rw [hc, h.1, h.2.1]
      exact ⟨rfl, hlt⟩
    · simp at h

theorem graphsOf_acyclic {n : Nat} (hn : n ≤ INT_MAX) {D : List (Int × Int × R)}
    (h : ∀ c ∈ D, (0 ≤ c.1 ∧ c.1 < n) ∧ (0 ≤ c.2.1 ∧ c.2.1 < n)) {E : Nat → Nat → Prop}
    (hE : ∀ (u v : Nat) w, ((u : Int), (v : Int), w) ∈ D → E u v) (hacy : ∀ v, ¬ Relation.TransGen E v v) :
    AcyclicGraph (graphsOf n D).1 n ∧ AcyclicGraph (graphsOf n D).2 n := by
  have hsw : ∀ c ∈ swapEnds D, (0 ≤ c.1 ∧ c.1 < n) ∧ (0 ≤ c.2.1 ∧ c.2.1 < n) := by
    intro c hc
    obtain ⟨e, he, rfl⟩ := List.mem_map.mp hc
    exact ⟨(h e he).2, (h e he).1⟩
  obtain ⟨g1, e1, _, a1, _⟩ := compressStep_ok hn h
  obtain ⟨g2, e2, _, a2, _⟩ := compressStep_ok hn hsw
  unfold graphsOf
  rw [e1, e2]
  constructor
  · intro v hv
    refine hacy v (Relation.TransGen.mono ?_ _ _ hv)
    rintro u v ⟨hu, hm⟩
    obtain ⟨w, hw⟩ := (a1.mem u hu _).mp hm
    exact hE u v w hw
  · intro v hv
    refine hacy v (Relation.transGen_swap.mp (Relation.TransGen.mono ?_ _ _ hv))
    rintro u v ⟨hu, hm⟩
    obtain ⟨w, hw⟩ := (a2.mem u hu _).mp hm
    obtain ⟨e, he, e'⟩ := List.mem_map.mp hw
    simp only [Prod.mk.injEq] at e'
    refine hE v u w ?_
    rw [← e'.1, ← e'.2.1, ← e'.2.2]
    exact he

end Verif.Counter
