/-
Without cycles of flow every computation ends, in any arithmetic.
-/
import Verif.Proofs.SweepAcyclic

namespace Verif

/-- The computation ends. -/
def Res.Ends {α : Type} (r : Res α) : Prop := r ≠ .diverge

theorem Res.Ends.bind {α β : Type} {r : Res α} (h : r.Ends) {k : α → Res β} (hk : ∀ a, r = .ok a → (k a).Ends) : (r.bind k).Ends := by
  cases r with
  | ok a => exact hk a rfl
  | throw e => intro h; cases h
  | ub e => intro h; cases h
  | diverge => exact (h rfl).elim

theorem Res.Ends.ok {α : Type} (a : α) : (Res.ok a).Ends := fun h => by cases h

theorem ends_forEach {α σ : Type} {f : σ → α → Res σ} : ∀ {xs : List α}, (∀ s, ∀ x ∈ xs, (f s x).Ends) → ∀ s, (forEach xs s f).Ends := by
  intro xs
  induction xs with
  | nil => intro _ s; exact .ok s
  | cons x xs ih =>
    intro h s
    rw [forEach_cons]
    exact (h s x List.mem_cons_self).bind fun a _ => ih (fun s y hy => h s y (List.mem_cons_of_mem _ hy)) a

theorem ends_rd {α : Type} (l : List α) (i : Nat) : (rd l i).Ends := by
  unfold rd; split <;> (intro h; cases h)

theorem ends_wr {α : Type} (l : List α) (i : Nat) (a : α) : (wr l i a).Ends := by
  unfold wr; split <;> (intro h; cases h)

theorem ends_assert (b : Bool) : (assertThat b).Ends := by
  unfold assertThat; split <;> (intro h; cases h)

namespace Solver
open Verif.Tarjan Verif.Toolbox Verif.Counter Verif.Spec

variable {R : Type} [Arith R]

theorem ends_single (d : SolverData R) (b : List Bool) (ls : List R) (s : List R × List R) (c : Int) :
    (solveSingleCell d b ls s c).Ends := by
  unfold solveSingleCell
  simp only [Res.bind_eq, Res.pure_eq]
  refine (ends_rd _ _).bind fun _ _ => (ends_rd _ _).bind fun _ _ => (ends_rd _ _).bind fun _ _ => ?_
  refine Res.Ends.bind ?_ fun _ _ => ?_
  · unfold AssembledConnections.cellNeighbourhood
    simp only [Res.bind_eq, Res.pure_eq]
    refine (ends_rd _ _).bind fun _ _ => (ends_rd _ _).bind fun _ _ => (ends_assert _).bind fun _ _ => ?_
    split
    · intro h; cases h
    · exact .ok _
  refine (ends_forEach (fun s x _ => ?_) _).bind fun _ _ => ?_
  · unfold addUpwind
    simp only [Res.bind_eq, Res.pure_eq]
    exact (ends_rd _ _).bind fun _ _ => (ends_rd _ _).bind fun _ _ => .ok _
  refine Res.Ends.bind ?_ fun _ _ => ?_
  · unfold withLocalSource
    simp only [Res.bind_eq, Res.pure_eq]
    split
    · exact (ends_rd _ _).bind fun _ _ => .ok _
    · exact .ok _
  refine (ends_assert _).bind fun _ _ => (ends_assert _).bind fun _ _ => Res.Ends.bind ?_ fun _ _ => ?_
  · unfold cellTracer
    simp only [Res.bind_eq, Res.pure_eq]
    split
    · exact (ends_assert _).bind fun _ _ => .ok _
    · exact .ok _
  exact (ends_wr _ _ _).bind fun _ _ => (ends_rd _ _).bind fun _ _ => (ends_wr _ _ _).bind fun _ _ => .ok _

/-- Single cells are solved one after the other. -/
theorem ends_solve (d : SolverData R) (b : List Bool) (ls : List R) {comps : List (List Nat)} (h : ∀ c ∈ comps, ∃ v, c = [v])
    (fuel : Nat) (s : List R × List R) : (solve d b ls (cellsOf comps) (offsets comps) fuel s).Ends := by
  rw [solve_singles h]
  refine Res.Ends.bind ?_ fun _ _ => .ok _
  unfold visit
  exact ends_forEach (fun s x _ => ends_single _ _ _ _ _) _

theorem ends_global {d : SolverData R} {n : Nat} (hd : Ready d n) (hacy : AcyclicGraph d.g n) :
    ∃ N, ∀ fuel, N ≤ fuel → ∀ s, (solveGlobal d Alloc.good fuel s).2.Ends := by
  obtain ⟨comps, ht, horder⟩ := computeOrdering_spec (hd.graph.isGraph hd.int) hd.graph.size Alloc.good_good
  refine ⟨n + numEdges n d.g.startPointers, fun fuel hf s => ?_⟩
  unfold solveGlobal prepareForSolve
  simp only [hd.pv]
  rw [finish_snd]
  refine Res.Ends.bind ?_ fun b _ => ?_
  · unfold setupStartArrayFromSource
    refine ends_forEach (fun b c _ => ?_) _
    simp only [Res.bind_eq, Res.pure_eq]
    refine (ends_rd _ _).bind fun _ _ => ?_
    split
    · exact ends_wr _ _ _
    · exact .ok _
  rw [finish_snd, horder fuel hf, Res.ok_bind, finish_snd]
  exact (ends_solve _ _ _ (singles_of_acyclic ht hacy) _ _).bind fun _ _ => .ok _

theorem ends_setupLocalSource (startset : CellSetValues R) : ∀ ls : List R, (setupLocalSource ls startset).2.Ends := by
  induction startset with
  | nil => intro ls; exact .ok _
  | cons p ps ih =>
    intro ls
    unfold setupLocalSource
    split
    · intro h; cases h
    · have := ends_wr ls (sizeOfInt p.1) p.2
      generalize wr ls (sizeOfInt p.1) p.2 = r at this ⊢
      cases r with
      | ok ls => exact ih ls
      | throw e => intro h; cases h
      | ub e => intro h; cases h
      | diverge => exact (this rfl).elim

theorem ends_local {d : SolverData R} {n : Nat} (hd : Ready d n) (hacy : AcyclicGraph d.g n) {startset : CellSetValues R}
    (hp : ∀ e ∈ startset, 0 ≤ e.1 ∧ e.1 < n) :
    ∃ N, ∀ fuel, N ≤ fuel → ∀ s : SolverState R, (solveLocal d Alloc.good fuel startset s).2.Ends := by
  have hcast : (startset.map fun p => p.1) = (startset.map fun p => p.1.toNat).map fun v : Nat => (v : Int) := by
    rw [List.map_map]
    apply List.map_congr_left
    intro e he
    have := hp e he
    simp only [Function.comp]; omega
  have hlt : ∀ p ∈ startset.map fun p => p.1.toNat, p < n := by
    intro p h
    obtain ⟨e, he, rfl⟩ := List.mem_map.mp h
    have := hp e he
    omega
  obtain ⟨comps, ht, horder⟩ := computeLocalOrdering_spec (hd.graph.isGraph hd.int) hd.graph.size Alloc.good_good _ hlt
  refine ⟨n + numEdges n d.g.startPointers, fun fuel hf s => ?_⟩
  unfold solveLocal prepareForSolve
  simp only [hd.pv]
  rw [finish_snd]
  refine Res.Ends.bind ?_ fun b _ => ?_
  · unfold setupStartArray
    exact ends_forEach (fun b c _ => ends_wr _ _ _) _
  rw [finish_snd, hcast, horder fuel hf, Res.ok_bind, finish_snd]
  refine Res.Ends.bind ?_ fun ls _ => ?_
  · exact ends_setupLocalSource _ _
  rw [finish_snd]
  refine (ends_solve _ _ _ (singles_of_acyclic ht hacy) _ _).bind fun f _ => ?_
  rw [finish_snd]
  refine Res.Ends.bind ?_ fun ls _ => ?_
  · unfold cleanupLocalSource
    exact ends_forEach (fun b c _ => ends_wr _ _ _) _
  rw [finish_snd]
  refine Res.Ends.bind ?_ fun ls _ => .ok _
  unfold collect
  simp only [Res.bind_eq]
  refine Res.Ends.bind ?_ fun _ _ => Res.Ends.bind ?_ fun _ _ => ends_forEach (fun s x _ => ?_) _
  · exact ends_rd _ _
  · unfold readCells
    split <;> (intro h; cases h)
  · unfold collectCell
    simp only [Res.bind_eq, Res.pure_eq]
    refine (ends_rd _ _).bind fun _ _ => (ends_rd _ _).bind fun _ _ => ?_
    split
    · intro h; cases h
    · exact .ok _

end Solver

namespace Toolbox
open Verif.Spec Verif.Solver Verif.Counter

variable {R : Type} [Arith R]

theorem ends_computeSolution {g gr : AssembledConnections R} {n : Nat} (hI : n ≤ INT_MAX) (hg : GoodGraph g n)
    (hgr : GoodGraph gr n) (hacy : AcyclicGraph g n) {pv : List R} (hpv : pv.length = n) {l : List (CellSetID × Int × R)}
    (hl : ∀ e ∈ l, 0 ≤ e.2.1 ∧ e.2.1 < n) (starts : List CellSet) :
    ∃ N, ∀ fuel, N ≤ fuel → (computeSolution g gr pv (gather l).only (gather l).byId noFailure fuel starts).Ends := by
  obtain ⟨h1, h2⟩ := gather_range hl
  obtain ⟨d, st, hcr, hd, hls⟩ := create_ready hI hg hgr hpv h1
  have hdg : d.g = g := by
    unfold Solver.create at hcr
    simp only [Res.bind_eq, Res.pure_eq, Res.bind_ok_iff] at hcr
    obtain ⟨_, _, _, _, e⟩ := hcr
    cases e
    rfl
  have hacy' : AcyclicGraph d.g n := hdg ▸ hacy
  obtain ⟨N0, hN0⟩ := ends_global hd hacy'
  have hN : ∃ N, ∀ fuel, N ≤ fuel → ∀ s ∈ starts, (localOf d st Alloc.good fuel (gather l).byId s.id).Ends := by
    induction starts with
    | nil => exact ⟨0, by simp⟩
    | cons s rest ih =>
      obtain ⟨N, hN⟩ := ih
      obtain ⟨M, hM⟩ := ends_local hd hacy' (h2 s.id)
      refine ⟨max N M, fun fuel hf s' hs' => ?_⟩
      rcases List.mem_cons.mp hs' with rfl | hs'
      · exact hM fuel (le_trans (le_max_right _ _) hf) st
      · exact hN fuel (le_trans (le_max_left _ _) hf) s' hs'
  obtain ⟨N, hN⟩ := hN
  refine ⟨max N0 N, fun fuel hf => ?_⟩
  unfold computeSolution
  simp only [Res.bind_eq, hcr, Res.ok_bind]
  refine (hN0 fuel (le_trans (le_max_left _ _) hf) st).bind fun tof _ => ?_
  show (solveSets d (fun _ => Alloc.good) fuel _ starts 1 _ _).Ends
  rw [solveSets_eq hcr Alloc.good fuel _ starts 1 _ (.global _ _ .new)]
  exact ends_forEach (fun sol s hs => (hN fuel (le_trans (le_max_right _ _) hf) s hs).bind fun _ _ => .ok _) _

end Toolbox
end Verif
