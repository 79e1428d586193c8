/-
With the counter of sweeps every computation ends: at the latest the counter overflows.
-/
import Verif.Proofs.Ends

namespace Verif.Solver
open Verif.Tarjan Verif.Toolbox Verif.Counter Verif.Spec

variable {R : Type} [Arith R]

theorem ends_sweepCell (d : SolverData R) (b : List Bool) (ls : List R) (s : (List R × List R) × (R × R)) (c : Int) :
    (sweepCell d b ls s c).Ends := by
  unfold sweepCell
  simp only [Res.bind_eq, Res.pure_eq]
  refine (ends_rd _ _).bind fun _ _ => (ends_rd _ _).bind fun _ _ => (ends_single _ _ _ _ _).bind fun _ _ => ?_
  exact (ends_rd _ _).bind fun _ _ => (ends_rd _ _).bind fun _ _ => .ok _

theorem ends_gaussSeidelCounted (d : SolverData R) (b : List Bool) (ls : List R) (cells : List Int) :
    ∀ (fuel : Nat) (k : Int), k ≤ INT_MAX → (INT_MAX : Int) < fuel + k →
      ∀ s, (gaussSeidelCounted d b ls cells fuel k s).Ends := by
  intro fuel
  induction fuel with
  | zero => intro k h1 h2; exact absurd h2 (by omega)
  | succ fuel ih =>
    intro k h1 h2 s
    unfold gaussSeidelCounted
    split
    · simp only [Res.bind_eq]
      unfold intSucc
      split
      · rw [Res.ok_bind]
        refine (ends_forEach (fun s x _ => ends_sweepCell _ _ _ _ _) _).bind fun s _ => ih _ ‹_› ?_ s
        push_cast at h2 ⊢; omega
      · intro h; cases h
    · exact .ok _

theorem ends_solveCounted {fuel : Nat} (hf : INT_MAX < fuel) (d : SolverData R) (b : List Bool) (ls : List R) (sq : List Int)
    (cs : List Nat) (s : List R × List R) : (counted fuel d b ls sq cs s).Ends := by
  unfold counted solveCounted
  simp only [Res.bind_eq, Res.pure_eq]
  refine (ends_forEach (fun s k _ => ?_) _).bind fun _ _ => .ok _
  unfold solveComponentCounted
  simp only [Res.bind_eq]
  refine (ends_rd _ _).bind fun _ _ => (ends_rd _ _).bind fun _ _ => Res.Ends.bind ?_ fun cells _ => ?_
  · unfold readCells
    split <;> (intro h; cases h)
  · have multi : ∀ cells, (solveMultiCellCounted d b ls fuel s cells).Ends := by
      intro cells
      unfold solveMultiCellCounted
      simp only [Res.bind_eq, Res.pure_eq]
      refine Res.Ends.bind ?_ fun _ _ => (ends_gaussSeidelCounted _ _ _ _ _ _ (by unfold INT_MAX; decide) (by omega) _).bind
        fun _ _ => .ok _
      unfold intSucc
      split <;> (intro h; cases h)
    match cells with
    | [] => exact multi _
    | [c] => exact (ends_single _ _ _ _ _).bind fun _ _ => .ok _
    | c :: c' :: cells => exact multi _

theorem ends_globalWith {d : SolverData R} {n : Nat} (hd : Ready d n) : ∃ N, ∀ fuel, N ≤ fuel →
    ∀ slv : SolveFn R, (∀ d b ls sq cs s, (slv d b ls sq cs s).Ends) →
      ∀ s, (solveGlobalWith slv d Alloc.good fuel s).2.Ends := by
  obtain ⟨comps, ht, horder⟩ := computeOrdering_spec (hd.graph.isGraph hd.int) hd.graph.size Alloc.good_good
  refine ⟨n + numEdges n d.g.startPointers, fun fuel hf slv hslv s => ?_⟩
  unfold solveGlobalWith prepareForSolve
  simp only [hd.pv]
  rw [finish_snd]
  refine Res.Ends.bind ?_ fun b _ => ?_
  · unfold setupStartArrayFromSource
    refine ends_forEach (fun b c _ => ?_) _
    simp only [Res.bind_eq, Res.pure_eq]
    refine (ends_rd _ _).bind fun _ _ => ?_
    split
    · exact ends_wr _ _ _
    · exact .ok _
  rw [finish_snd, horder fuel hf, Res.ok_bind, finish_snd]
  exact (hslv _ _ _ _ _ _).bind fun _ _ => .ok _

theorem ends_localWith {d : SolverData R} {n : Nat} (hd : Ready d n) {startset : CellSetValues R}
    (hp : ∀ e ∈ startset, 0 ≤ e.1 ∧ e.1 < n) : ∃ N, ∀ fuel, N ≤ fuel →
    ∀ slv : SolveFn R, (∀ d b ls sq cs s, (slv d b ls sq cs s).Ends) →
      ∀ s : SolverState R, (solveLocalWith slv d Alloc.good fuel startset s).2.Ends := by
  have hcast : (startset.map fun p => p.1) = (startset.map fun p => p.1.toNat).map fun v : Nat => (v : Int) := by
    rw [List.map_map]
    apply List.map_congr_left
    intro e he
    have := hp e he
    simp only [Function.comp]; omega
  have hlt : ∀ p ∈ startset.map fun p => p.1.toNat, p < n := by
    intro p h
    obtain ⟨e, he, rfl⟩ := List.mem_map.mp h
    have := hp e he
    omega
  obtain ⟨comps, ht, horder⟩ := computeLocalOrdering_spec (hd.graph.isGraph hd.int) hd.graph.size Alloc.good_good _ hlt
  refine ⟨n + numEdges n d.g.startPointers, fun fuel hf slv hslv s => ?_⟩
  unfold solveLocalWith prepareForSolve
  simp only [hd.pv]
  rw [finish_snd]
  refine Res.Ends.bind ?_ fun b _ => ?_
  · unfold setupStartArray
    exact ends_forEach (fun b c _ => ends_wr _ _ _) _
  rw [finish_snd, hcast, horder fuel hf, Res.ok_bind, finish_snd]
  refine Res.Ends.bind ?_ fun ls _ => ?_
  · exact ends_setupLocalSource _ _
  rw [finish_snd]
  refine (hslv _ _ _ _ _ _).bind fun f _ => ?_
  rw [finish_snd]
  refine Res.Ends.bind ?_ fun ls _ => ?_
  · unfold cleanupLocalSource
    exact ends_forEach (fun b c _ => ends_wr _ _ _) _
  rw [finish_snd]
  refine Res.Ends.bind ?_ fun ls _ => .ok _
  unfold collect
  simp only [Res.bind_eq]
  refine Res.Ends.bind ?_ fun _ _ => Res.Ends.bind ?_ fun _ _ => ends_forEach (fun s x _ => ?_) _
  · exact ends_rd _ _
  · unfold readCells
    split <;> (intro h; cases h)
  · unfold collectCell
    simp only [Res.bind_eq, Res.pure_eq]
    refine (ends_rd _ _).bind fun _ _ => (ends_rd _ _).bind fun _ _ => ?_
    split
    · intro h; cases h
    · exact .ok _

/-- With enough steps for the graph algorithm, their number does not matter. -/
theorem steady_global {d : SolverData R} {n : Nat} (hd : Ready d n) : ∃ N, ∀ fuel, N ≤ fuel →
    ∀ (slv : SolveFn R) s, solveGlobalWith slv d Alloc.good fuel s = solveGlobalWith slv d Alloc.good N s := by
  obtain ⟨comps, ht, horder⟩ := computeOrdering_spec (hd.graph.isGraph hd.int) hd.graph.size Alloc.good_good
  refine ⟨n + numEdges n d.g.startPointers, fun fuel hf slv s => ?_⟩
  unfold solveGlobalWith prepareForSolve
  simp only [hd.pv, horder fuel hf, horder _ (le_refl _)]

theorem steady_local {d : SolverData R} {n : Nat} (hd : Ready d n) {startset : CellSetValues R}
    (hp : ∀ e ∈ startset, 0 ≤ e.1 ∧ e.1 < n) : ∃ N, ∀ fuel, N ≤ fuel →
    ∀ (slv : SolveFn R) (s : SolverState R),
      solveLocalWith slv d Alloc.good fuel startset s = solveLocalWith slv d Alloc.good N startset s := by
  have hcast : (startset.map fun p => p.1) = (startset.map fun p => p.1.toNat).map fun v : Nat => (v : Int) := by
    rw [List.map_map]
    apply List.map_congr_left
    intro e he
    have := hp e he
    simp only [Function.comp]; omega
  have hlt : ∀ p ∈ startset.map fun p => p.1.toNat, p < n := by
    intro p h
    obtain ⟨e, he, rfl⟩ := List.mem_map.mp h
    have := hp e he
    omega
  obtain ⟨comps, ht, horder⟩ := computeLocalOrdering_spec (hd.graph.isGraph hd.int) hd.graph.size Alloc.good_good _ hlt
  refine ⟨n + numEdges n d.g.startPointers, fun fuel hf slv s => ?_⟩
  unfold solveLocalWith prepareForSolve
  simp only [hd.pv, hcast, horder fuel hf, horder _ (le_refl _)]

end Verif.Solver

namespace Verif.Toolbox
open Verif.Spec Verif.Solver Verif.Counter

variable {R : Type} [Arith R]

theorem ends_solveSetsWith {slv : SolveFn R} {d : SolverData R} {fuel : Nat} {byId : InflowFlux R} : ∀ {starts : List CellSet},
    (∀ s ∈ starts, ∀ st, (solveLocalWith slv d Alloc.good fuel (byId.at_ s.id []) st).2.Ends) →
    ∀ k st sol, (solveSetsWith slv d noFailure fuel byId starts k st sol).Ends := by
  intro starts
  induction starts with
  | nil => intro _ k st sol; exact .ok _
  | cons s rest ih =>
    intro h k st sol
    unfold solveSetsWith
    exact (h s List.mem_cons_self st).bind fun _ _ => ih (fun s hs => h s (List.mem_cons_of_mem _ hs)) _ _ _

theorem ends_computeSolutionWith {g gr : AssembledConnections R} {n : Nat} (hI : n ≤ INT_MAX) (hg : GoodGraph g n)
    (hgr : GoodGraph gr n) {pv : List R} (hpv : pv.length = n) {l : List (CellSetID × Int × R)}
    (hl : ∀ e ∈ l, 0 ≤ e.2.1 ∧ e.2.1 < n) (starts : List CellSet) :
    ∃ N, ∀ fuel, N ≤ fuel → ∀ slv : SolveFn R, (∀ d b ls sq cs s, (slv d b ls sq cs s).Ends) →
      (computeSolutionWith slv g gr pv (gather l).only (gather l).byId noFailure fuel starts).Ends := by
  obtain ⟨h1, h2⟩ := gather_range hl
  obtain ⟨d, st, hcr, hd, hls⟩ := create_ready hI hg hgr hpv h1
  obtain ⟨N0, hN0⟩ := ends_globalWith hd
  have hN : ∃ N, ∀ fuel, N ≤ fuel → ∀ slv : SolveFn R, (∀ d b ls sq cs s, (slv d b ls sq cs s).Ends) →
      ∀ s ∈ starts, ∀ st, (solveLocalWith slv d Alloc.good fuel ((gather l).byId.at_ s.id []) st).2.Ends := by
    induction starts with
    | nil => exact ⟨0, by simp⟩
    | cons s rest ih =>
      obtain ⟨N, hN⟩ := ih
      obtain ⟨M, hM⟩ := ends_localWith hd (h2 s.id)
      refine ⟨max N M, fun fuel hf slv hslv s' hs' => ?_⟩
      rcases List.mem_cons.mp hs' with rfl | hs'
      · exact hM fuel (le_trans (le_max_right _ _) hf) slv hslv
      · exact hN fuel (le_trans (le_max_left _ _) hf) slv hslv s' hs'
  obtain ⟨N, hN⟩ := hN
  refine ⟨max N0 N, fun fuel hf slv hslv => ?_⟩
  unfold computeSolutionWith
  simp only [Res.bind_eq, hcr, Res.ok_bind]
  refine (hN0 fuel (le_trans (le_max_left _ _) hf) slv hslv st).bind fun tof _ => ?_
  exact ends_solveSetsWith (hN fuel (le_trans (le_max_right _ _) hf) slv hslv) _ _ _

theorem steady_solveSetsWith {slv : SolveFn R} {d : SolverData R} {fuel fuel' : Nat} {byId : InflowFlux R} : ∀ {starts : List CellSet},
    (∀ s ∈ starts, ∀ st, solveLocalWith slv d Alloc.good fuel (byId.at_ s.id []) st
      = solveLocalWith slv d Alloc.good fuel' (byId.at_ s.id []) st) →
    ∀ k st sol, solveSetsWith slv d noFailure fuel byId starts k st sol = solveSetsWith slv d noFailure fuel' byId starts k st sol := by
  intro starts
  induction starts with
  | nil => intro _ k st sol; rfl
  | cons s rest ih =>
    intro h k st sol
    unfold solveSetsWith
    have e := h s List.mem_cons_self st
    have e' : solveLocalWith slv d (noFailure k) fuel (byId.at_ s.id []) st
      = solveLocalWith slv d (noFailure k) fuel' (byId.at_ s.id []) st := e
    simp only [e', ih (fun s hs => h s (List.mem_cons_of_mem _ hs))]

/-- With enough steps for the graph algorithms, their number does not matter. -/
theorem steady_computeSolutionWith {g gr : AssembledConnections R} {n : Nat} (hI : n ≤ INT_MAX) (hg : GoodGraph g n)
    (hgr : GoodGraph gr n) {pv : List R} (hpv : pv.length = n) {l : List (CellSetID × Int × R)}
    (hl : ∀ e ∈ l, 0 ≤ e.2.1 ∧ e.2.1 < n) (starts : List CellSet) :
    ∃ N, ∀ fuel, N ≤ fuel → ∀ slv : SolveFn R,
      computeSolutionWith slv g gr pv (gather l).only (gather l).byId noFailure fuel starts
        = computeSolutionWith slv g gr pv (gather l).only (gather l).byId noFailure N starts := by
  obtain ⟨h1, h2⟩ := gather_range hl
  obtain ⟨d, st, hcr, hd, hls⟩ := create_ready hI hg hgr hpv h1
  obtain ⟨N0, hN0⟩ := steady_global hd
  have hN : ∃ N, ∀ fuel, N ≤ fuel → ∀ slv : SolveFn R, ∀ s ∈ starts, ∀ st,
      solveLocalWith slv d Alloc.good fuel ((gather l).byId.at_ s.id []) st
        = solveLocalWith slv d Alloc.good N ((gather l).byId.at_ s.id []) st := by
    induction starts with
    | nil => exact ⟨0, by simp⟩
    | cons s rest ih =>
      obtain ⟨N, hN⟩ := ih
      obtain ⟨M, hM⟩ := steady_local hd (h2 s.id)
      refine ⟨max N M, fun fuel hf slv s' hs' st => ?_⟩
      rcases List.mem_cons.mp hs' with rfl | hs'
      · rw [hM fuel (le_trans (le_max_right _ _) hf), hM (max N M) (le_max_right _ _)]
      · rw [hN fuel (le_trans (le_max_left _ _) hf) slv s' hs', hN (max N M) (le_max_left _ _) slv s' hs']
  obtain ⟨N, hN⟩ := hN
  refine ⟨max N0 N, fun fuel hf slv => ?_⟩
  unfold computeSolutionWith
  simp only [Res.bind_eq, hcr, Res.ok_bind]
  have e : solveGlobalWith slv d (noFailure 0) fuel st = solveGlobalWith slv d (noFailure 0) (max N0 N) st := by
    show solveGlobalWith slv d Alloc.good fuel st = solveGlobalWith slv d Alloc.good (max N0 N) st
    rw [hN0 fuel (le_trans (le_max_left _ _) hf), hN0 (max N0 N) (le_max_left _ _)]
  rw [e]
  congr 1
  funext tof
  refine steady_solveSetsWith (fun s hs st => ?_) _ _ _
  rw [hN fuel (le_trans (le_max_right _ _) hf) slv s hs, hN (max N0 N) (le_max_right _ _) slv s hs]

end Verif.Toolbox
