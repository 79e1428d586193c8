/-
The diagnostics calls on the heap do what `Verif.Toolbox` says and leave no block behind.
-/
import Verif.Model.ToolboxHeap
import Verif.Proofs.HeapSolver

namespace Verif.Heap
open Verif.Solver Verif.Toolbox

variable {R : Type} [Arith R]

theorem solveSets_congr (d : SolverData R) (fuel : Nat) (byId : InflowFlux R) {al al' : Nat → Alloc} :
    ∀ (sets : List CellSet) (k : Nat) (_ : ∀ j, k ≤ j → al j = al' j) (s : SolverState R)
      (sol : Solution R), Toolbox.solveSets d al fuel byId sets k s sol =
        Toolbox.solveSets d al' fuel byId sets k s sol
  | [], _, _, _, _ => rfl
  | start :: rest, k, hk, s, sol => by
    simp only [Toolbox.solveSets]
    rw [hk k (Nat.le_refl _)]
    congr 1
    funext l
    exact solveSets_congr d fuel byId rest (k + 1) (fun j hj => hk j (by omega)) _ _

theorem solveSets_spec (d : SolverData R) (fuel : Nat) (byId : InflowFlux R) :
    ∀ (sets : List CellSet) (k : Nat) (s : SolverState R) (sol : Solution R) {h : Heap}
      (_ : h.Valid), ∃ al : Nat → Alloc, (h.NoFail → ∀ j, al j = Alloc.good) ∧
      Ends h (solveSets d fuel byId sets s sol h) (Toolbox.solveSets d al fuel byId sets k s sol) []
        (fun a x _ G => a = x ∧ G = []) Gone
  | [], k, s, sol, h, _ => ⟨fun _ => Alloc.good, fun _ _ => rfl, h, sol, [], rfl, .refl h,
      ⟨rfl, rfl⟩, .refl (by simp)⟩
  | start :: rest, k, s, sol, h, hv => by
    obtain ⟨a, nf, h', e, f⟩ := solveLocal_spec d fuel (byId.at_ start.id []) s hv
    -- the flags of the first solve, then those of the others
    rcases hr : Solver.solveLocal d a fuel (byId.at_ start.id []) s with ⟨s', r⟩
    rw [hr] at e f
    cases r with
    | ok l =>
      obtain ⟨st, hb⟩ := f (.inl ⟨l, rfl⟩)
      obtain ⟨al, nf', e'⟩ := solveSets_spec d fuel byId rest (k + 1) s'
        ((sol.assignTimeOfFlight start.id l.tof).assignConcentration start.id l.concentration)
        (st.valid hv)
      refine ⟨fun j => if j = k then a else al j, ?_, ?_⟩
      · intro h0 j
        by_cases hj : j = k
        · simp only [hj, if_true]; exact nf h0
        · simp only [hj, if_false]; exact nf' (st.noFail h0) j
      · have e1 : Toolbox.solveSets d (fun j => if j = k then a else al j) fuel byId (start :: rest)
            k s sol = Toolbox.solveSets d al fuel byId rest (k + 1) s'
              ((sol.assignTimeOfFlight start.id l.tof).assignConcentration start.id
                l.concentration) := by
          simp only [Toolbox.solveSets, if_true, hr, Res.bind]
          exact solveSets_congr d fuel byId rest (k + 1)
            (fun j hj => if_neg (by omega)) _ _
        rw [e1]
        have e2 : solveSets d fuel byId (start :: rest) s sol h = solveSets d fuel byId rest s'
            ((sol.assignTimeOfFlight start.id l.tof).assignConcentration start.id
              l.concentration) h' := by
          simp only [solveSets, e]
        rw [e2]
        exact e'.after st (by rw [hb]; exact .refl (by simp))
    | throw x =>
      obtain ⟨st, hb⟩ := f (.inr ⟨x, rfl⟩)
      refine ⟨fun _ => a, fun h0 _ => nf h0, ?_⟩
      simp only [Toolbox.solveSets, hr, Res.bind]
      exact ⟨h', [], by simp only [solveSets, e], st, rfl, by rw [hb]; exact .refl (by simp)⟩
    | ub u =>
      refine ⟨fun _ => a, fun h0 _ => nf h0, ?_⟩
      simp only [Toolbox.solveSets, hr, Res.bind]
      exact ⟨h', by simp only [solveSets, e]⟩
    | diverge =>
      refine ⟨fun _ => a, fun h0 _ => nf h0, ?_⟩
      simp only [Toolbox.solveSets, hr, Res.bind]
      exact ⟨h', by simp only [solveSets, e]⟩

theorem computeSolution_spec (g gReverse : AssembledConnections R) (pvol : List R)
    (only : CellSetValues R) (byId : InflowFlux R) (fuel : Nat) (sets : List CellSet) {h : Heap}
    (hv : h.Valid) : ∃ al : Nat → Alloc, (h.NoFail → ∀ j, al j = Alloc.good) ∧
      Ends h (computeSolution g gReverse pvol only byId fuel sets h)
        (Toolbox.computeSolution g gReverse pvol only byId al fuel sets) []
        (fun a x _ G => a = x ∧ G = []) Gone := by
  unfold computeSolution Toolbox.computeSolution
  cases hc : Solver.create g gReverse pvol only with
  | ok solver =>
    obtain ⟨a, nf, h', e, f⟩ := solveGlobal_spec solver.1 fuel solver.2 hv
    rcases hr : Solver.solveGlobal solver.1 a fuel solver.2 with ⟨s', r⟩
    rw [hr] at e f
    cases r with
    | ok tof =>
      obtain ⟨st, hb⟩ := f (.inl ⟨tof, rfl⟩)
      obtain ⟨al, nf', e'⟩ := solveSets_spec solver.1 fuel byId sets 1 s'
        ((({} : Solution R)).assignToF tof) (st.valid hv)
      refine ⟨fun j => if j = 0 then a else al j, ?_, ?_⟩
      · intro h0 j
        by_cases hj : j = 0
        · simp only [hj, if_true]; exact nf h0
        · simp only [hj, if_false]; exact nf' (st.noFail h0) j
      · rw [bind_eq, bind_ok (lift_eq _ _)]
        show Ends h _ ((Solver.solveGlobal solver.1 a fuel solver.2).2.bind fun tof =>
          Toolbox.solveSets solver.1 (fun j => if j = 0 then a else al j) fuel byId sets 1
            (Solver.solveGlobal solver.1 a fuel solver.2).1 _) _ _ _
        rw [hr]
        simp only [e, Res.bind]
        rw [solveSets_congr solver.1 fuel byId sets 1 (fun j hj => if_neg (by omega))]
        exact e'.after st (by rw [hb]; exact .refl (by simp))
    | throw x =>
      obtain ⟨st, hb⟩ := f (.inr ⟨x, rfl⟩)
      refine ⟨fun _ => a, fun h0 _ => nf h0, ?_⟩
      rw [bind_eq, bind_ok (lift_eq _ _)]
      show Ends h _ ((Solver.solveGlobal solver.1 a fuel solver.2).2.bind fun tof => _) _ _ _
      rw [hr]
      exact ⟨h', [], by simp only [e], st, rfl, by rw [hb]; exact .refl (by simp)⟩
    | ub u =>
      refine ⟨fun _ => a, fun h0 _ => nf h0, ?_⟩
      rw [bind_eq, bind_ok (lift_eq _ _)]
      show Ends h _ ((Solver.solveGlobal solver.1 a fuel solver.2).2.bind fun tof => _) _ _ _
      rw [hr]
      exact ⟨h', by simp only [e]⟩
    | diverge =>
      refine ⟨fun _ => a, fun h0 _ => nf h0, ?_⟩
      rw [bind_eq, bind_ok (lift_eq _ _)]
      show Ends h _ ((Solver.solveGlobal solver.1 a fuel solver.2).2.bind fun tof => _) _ _ _
      rw [hr]
      exact ⟨h', by simp only [e]⟩
  | throw x =>
    exact ⟨fun _ => Alloc.good, fun _ _ => rfl, h, [], rfl, .refl h, rfl, .refl (by simp)⟩
  | ub u => exact ⟨fun _ => Alloc.good, fun _ _ => rfl, h, rfl⟩
  | diverge => exact ⟨fun _ => Alloc.good, fun _ _ => rfl, h, rfl⟩

/-- The last part of a diagnostics call. -/
theorem finish_solution {S : Type} {t : S} {sol : Res (Solution R)} {m : H (Solution R)} {h : Heap}
    (e : Ends h (m h) sol [] (fun a x _ G => a = x ∧ G = []) Gone) :
    SolverEnds h (finish t m (fun sol h => some (h, t, .ok sol)) h) (t, sol) := by
  have := finish_spec (s := t) (k := fun sol h => some (h, t, .ok sol)) (k' := fun sol => (t, .ok sol)) e
    (fun a h' _ _ => ⟨h', rfl, fun _ => ⟨.refl h', rfl⟩⟩)
  have e : Solver.finish t sol (fun sol => (t, .ok sol)) = (t, sol) := by
    cases sol <;> rfl
  rwa [e] at this

theorem injDiag_spec (t : Toolbox R) (fuel : Nat) (sets : List CellSet) {h : Heap} (hv : h.Valid) :
    ∃ al : Nat → Alloc, (h.NoFail → ∀ j, al j = Alloc.good) ∧
      SolverEnds h (injDiag t fuel sets h) (t.injDiag al fuel sets) := by
  obtain ⟨al, nf, e⟩ := computeSolution_spec t.ensureBuilt.1.downstream t.ensureBuilt.1.upstream
    t.ensureBuilt.1.pvol t.ensureBuilt.1.onlyInflow t.ensureBuilt.1.injById fuel sets hv
  refine ⟨al, nf, ?_⟩
  unfold injDiag Toolbox.injDiag
  by_cases hg : (t.pvol.isEmpty || t.flux.numConnections == 0) = true
  · rw [if_pos hg, if_pos hg]
    exact ⟨h, rfl, fun _ => ⟨.refl h, rfl⟩⟩
  · rw [if_neg hg, if_neg hg]
    refine finish_lift _ fun _ => finish_lift _ fun _ => ?_
    exact finish_solution e

theorem prodDiag_spec (t : Toolbox R) (fuel : Nat) (sets : List CellSet) {h : Heap} (hv : h.Valid) :
    ∃ al : Nat → Alloc, (h.NoFail → ∀ j, al j = Alloc.good) ∧
      SolverEnds h (prodDiag t fuel sets h) (t.prodDiag al fuel sets) := by
  obtain ⟨al, nf, e⟩ := computeSolution_spec t.ensureBuilt.1.upstream t.ensureBuilt.1.downstream
    t.ensureBuilt.1.pvol t.ensureBuilt.1.onlyOutflow t.ensureBuilt.1.prodById fuel sets hv
  refine ⟨al, nf, ?_⟩
  unfold prodDiag Toolbox.prodDiag
  by_cases hg : (t.pvol.isEmpty || t.flux.numConnections == 0) = true
  · rw [if_pos hg, if_pos hg]
    exact ⟨h, rfl, fun _ => ⟨.refl h, rfl⟩⟩
  · rw [if_neg hg, if_neg hg]
    refine finish_lift _ fun _ => finish_lift _ fun _ => ?_
    exact finish_solution e

end Verif.Heap
