/-
Diagnostics in any arithmetic: memory safety, and what of the graphs they depend on.
-/
import Verif.Proofs.ToolboxData
import Verif.Proofs.SolverSafe

namespace Verif.Toolbox
open Verif.Spec Verif.Solver

variable {R : Type} [Arith R]

/-! ### Memory safety -/

theorem graphsOf_good {n : Nat} (hn : n ≤ INT_MAX) {D : List (Int × Int × R)}
    (h : ∀ c ∈ D, (0 ≤ c.1 ∧ c.1 < n) ∧ (0 ≤ c.2.1 ∧ c.2.1 < n)) :
    GoodGraph (graphsOf n D).1 n ∧ GoodGraph (graphsOf n D).2 n := by
  have key : ∀ ws : List (Int × Int × R), (∀ c ∈ ws, (0 ≤ c.1 ∧ c.1 < n) ∧ (0 ≤ c.2.1 ∧ c.2.1 < n)) →
      GoodGraph ((freshWith (weighted ws)).compressStep n).1 n := by
    intro ws hws
    obtain ⟨g, h1, _, h3, h4⟩ := compressStep_ok hn hws
    rw [h1]
    refine ⟨⟨_, h3, ?_⟩, h4.size⟩
    rintro r _ j ⟨w, hw⟩
    exact (hws _ hw).2
  refine ⟨key _ h, key _ ?_⟩
  intro c hc
  have := h _ (mem_swapEnds hc)
  exact ⟨this.2, this.1⟩

theorem gather_range {l : List (CellSetID × Int × R)} {n : Nat} (h : ∀ e ∈ l, 0 ≤ e.2.1 ∧ e.2.1 < n) :
    (∀ e ∈ (gather l).only, 0 ≤ e.1 ∧ e.1 < (n : Int)) ∧
    ∀ i, ∀ e ∈ OMap.at_ (gather l).byId i [], 0 ≤ e.1 ∧ e.1 < (n : Int) := by
  have key : ∀ c, (OMap.find (gather l).only c).isSome → 0 ≤ c ∧ c < (n : Int) := by
    intro c hc
    rw [gather_only] at hc
    split at hc
    · rename_i he
      obtain ⟨e, he, rfl⟩ := he
      exact h e he
    · cases hc
  refine ⟨?_, fun i e he => key _ (gather_ids_cells l i e he)⟩
  intro e he
  refine key _ ?_
  rw [OMap.mem_find (gather_sorted l).1 he]; rfl

/-- The computation of a solution from consistent data. -/
theorem computeSolution_safe {g gr : AssembledConnections R} {n : Nat} (hI : n ≤ INT_MAX) (hg : GoodGraph g n)
    (hgr : GoodGraph gr n) {pv : List R} (hpv : pv.length = n) {l : List (CellSetID × Int × R)}
    (hl : ∀ e ∈ l, 0 ≤ e.2.1 ∧ e.2.1 < n) (starts : List CellSet) :
    ∃ N, ∀ fuel, N ≤ fuel → (computeSolution g gr pv (gather l).only (gather l).byId noFailure fuel starts).Safe := by
  obtain ⟨h1, h2⟩ := gather_range hl
  obtain ⟨d, st, hcr, hd, hls⟩ := create_ready hI hg hgr hpv h1
  obtain ⟨N0, hN0⟩ := solveGlobal_safe hd
  have hN : ∃ N, ∀ fuel, N ≤ fuel → ∀ s ∈ starts, (localOf d st Alloc.good fuel (gather l).byId s.id).Safe := by
    induction starts with
    | nil => exact ⟨0, by simp⟩
    | cons s rest ih =>
      obtain ⟨N, hN⟩ := ih
      obtain ⟨M, hM⟩ := solveLocal_safe hd (h2 s.id)
      refine ⟨max N M, fun fuel hf s' hs' => ?_⟩
      rcases List.mem_cons.mp hs' with rfl | hs'
      · exact hM fuel (le_trans (le_max_right _ _) hf) st hls
      · exact hN fuel (le_trans (le_max_left _ _) hf) s' hs'
  obtain ⟨N, hN⟩ := hN
  refine ⟨max N0 N, fun fuel hf => ?_⟩
  unfold computeSolution
  simp only [Res.bind_eq, hcr, Res.ok_bind]
  refine (hN0 fuel (le_trans (le_max_left _ _) hf) st).bind fun tof _ => ?_
  show (solveSets d (fun _ => Alloc.good) fuel _ starts 1 _ _).Safe
  rw [solveSets_eq hcr Alloc.good fuel _ starts 1 _ (.global _ _ .new)]
  refine forEach_safe (fun _ => True) trivial ?_ (fun _ _ _ _ _ _ => trivial)
  intro sol s hs _
  exact (hN fuel (le_trans (le_max_right _ _) hf) s hs).bind fun _ _ => .ok _

theorem positives_range {m : InflowFlux R} {n : Nat} (h : ∀ set ∈ m, ∀ e ∈ set.2, 0 ≤ e.1 ∧ e.1 < n) :
    ∀ e ∈ positives (entries m), 0 ≤ e.2.1 ∧ e.2.1 < (n : Int) := by
  intro x hx
  obtain ⟨s, hs, e, he, rfl⟩ := mem_entries.mp (List.mem_filter.mp hx).1
  exact h s hs e he

theorem negatives_range {m : InflowFlux R} {n : Nat} (h : ∀ set ∈ m, ∀ e ∈ set.2, 0 ≤ e.1 ∧ e.1 < n) :
    ∀ e ∈ negatives (entries m), 0 ≤ e.2.1 ∧ e.2.1 < (n : Int) := by
  intro x hx
  obtain ⟨s, hs, e, he, _, rfl⟩ := (negatives_mem m x).mp hx
  exact h s hs e he

/-! ### What a solve reads of the graphs -/

/-- The part of a graph that a solve reads. -/
def view (g : AssembledConnections R) : AssembledConnections R :=
  { csr := { ia := g.csr.ia, ja := g.csr.ja, sa := g.csr.sa } }

def viewD (d : SolverData R) : SolverData R := { d with g := view d.g, gReverse := view d.gReverse }

theorem gaussSeidel_view (d : SolverData R) (b : List Bool) (ls : List R) (cells : List Int) (fuel : Nat)
    (s : (List R × List R) × (R × R)) : gaussSeidel d b ls cells fuel s = gaussSeidel (viewD d) b ls cells fuel s := by
  induction fuel generalizing s with
  | zero => rfl
  | succ k ih =>
    unfold gaussSeidel
    split
    · simp only [Res.bind_eq]
      have : sweepCell d b ls = sweepCell (viewD d) b ls := rfl
      rw [this]
      congr 1
      funext s
      exact ih s
    · rfl

theorem solve_view (d : SolverData R) (b : List Bool) (ls : List R) (sq : List Int) (cst : List Nat) (fuel : Nat)
    (s : List R × List R) : solve d b ls sq cst fuel s = solve (viewD d) b ls sq cst fuel s := by
  unfold solve
  have : solveComponent d b ls sq cst fuel = solveComponent (viewD d) b ls sq cst fuel := by
    funext s c
    unfold solveComponent
    congr 1; funext e
    congr 1; funext b'
    congr 1; funext cells
    have h1 : solveSingleCell d b ls = solveSingleCell (viewD d) b ls := rfl
    have h2 : solveMultiCell d b ls fuel = solveMultiCell (viewD d) b ls fuel := by
      funext s cells; unfold solveMultiCell; rw [gaussSeidel_view]
    rw [h1, h2]
  rw [this]

theorem solveGlobal_view (d : SolverData R) (al : Alloc) (fuel : Nat) (s : SolverState R) :
    solveGlobal d al fuel s = solveGlobal (viewD d) al fuel s := by
  unfold solveGlobal
  have h : solve d = solve (viewD d) := by
    funext a b c e f g; exact solve_view d a b c e f g
  rw [h]
  rfl

theorem solveLocal_view (d : SolverData R) (al : Alloc) (fuel : Nat) (ss : CellSetValues R) (s : SolverState R) :
    solveLocal d al fuel ss s = solveLocal (viewD d) al fuel ss s := by
  unfold solveLocal
  have h : solve d = solve (viewD d) := by
    funext a b c e f g; exact solve_view d a b c e f g
  rw [h]
  rfl

theorem solveSets_view (d : SolverData R) (al : Nat → Alloc) (fuel : Nat) (byId : InflowFlux R) (starts : List CellSet)
    (k : Nat) (s : SolverState R) (sol : Solution R) :
    solveSets d al fuel byId starts k s sol = solveSets (viewD d) al fuel byId starts k s sol := by
  induction starts generalizing k s sol with
  | nil => rfl
  | cons x rest ih =>
    unfold solveSets
    simp only
    rw [solveLocal_view]
    congr 1
    funext l
    exact ih _ _ _

theorem create_view (g gr : AssembledConnections R) (pv : List R) (source : CellSetValues R) :
    Solver.create (view g) (view gr) pv source = (Solver.create g gr pv source).bind fun p => .ok (viewD p.1, p.2) := by
  have h : inOutFlux (view g) = inOutFlux g := rfl
  unfold Solver.create
  simp only [Res.bind_eq, h, Res.bind_assoc, Res.pure_eq]
  rfl

theorem computeSolution_view (g gr : AssembledConnections R) (pv : List R) (only : CellSetValues R) (byId : InflowFlux R)
    (al : Nat → Alloc) (fuel : Nat) (starts : List CellSet) :
    computeSolution g gr pv only byId al fuel starts = computeSolution (view g) (view gr) pv only byId al fuel starts := by
  unfold computeSolution
  simp only [Res.bind_eq]
  rw [create_view, Res.bind_assoc]
  congr 1
  funext p
  simp only [Res.ok_bind]
  rw [solveGlobal_view p.1]
  congr 1
  funext tof
  exact solveSets_view _ _ _ _ _ _ _ _

omit [Arith R] in
theorem view_eq {g g' : AssembledConnections R} (h1 : g.startPointers = g'.startPointers)
    (h2 : g.neighbourhood = g'.neighbourhood) (h3 : g.connectionWeight = g'.connectionWeight) : view g = view g' := by
  unfold AssembledConnections.startPointers AssembledConnections.neighbourhood AssembledConnections.connectionWeight at *
  unfold view
  rw [h1, h2, h3]

/-- Connection lists with the same pairs of cells and the same sums give the same graph. -/
theorem compressStep_view {n : Nat} (hn : n ≤ INT_MAX) {ws ws' : List (Int × Int × R)}
    (h : ∀ c ∈ ws, (0 ≤ c.1 ∧ c.1 < n) ∧ (0 ≤ c.2.1 ∧ c.2.1 < n))
    (h' : ∀ c ∈ ws', (0 ≤ c.1 ∧ c.1 < n) ∧ (0 ≤ c.2.1 ∧ c.2.1 < n))
    (hm : ∀ i j, (∃ w, (i, j, w) ∈ ws) ↔ ∃ w, (i, j, w) ∈ ws')
    (hs : ∀ i j, (weightsOf ws i j).foldl Arith.add Arith.zero = (weightsOf ws' i j).foldl Arith.add Arith.zero) :
    view ((freshWith (weighted ws)).compressStep n).1 = view ((freshWith (weighted ws')).compressStep n).1 := by
  obtain ⟨g, h1, _, h3, h4⟩ := compressStep_ok hn h
  obtain ⟨g', h1', _, h3', h4'⟩ := compressStep_ok hn h'
  have hu := h3.unique (h3'.congr (E' := fun i j => ∃ w, (i, j, w) ∈ ws) fun r _ j => (hm r j).symm)
  rw [h1, h1']
  rw [← hu.1, ← hu.2] at h4'
  exact view_eq hu.1 hu.2 (h4.unique h3 h4' hs)

end Verif.Toolbox
