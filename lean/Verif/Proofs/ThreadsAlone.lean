/-
The programs of `Model/Threads.lean`, when they run alone, do what `Model/TarjanHeap.lean` and
`Model/ToolboxHeap.lean` say.
-/
import Verif.Model.Threads

namespace Verif.Threads
open Verif.Heap Verif.Tarjan Verif.Solver Prog

variable {α β S : Type}

theorem run_andThen (p : Prog α) (f : α → Prog β) (h : Heap) :
    run (andThen p f) h = match run p h with
      | none => none
      | some (h', a) => run (f a) h' := by
  induction p generalizing h with
  | ret a => rfl
  | fault => rfl
  | malloc o k ih =>
    simp only [andThen, run]
    split
    · exact ih _ _
    · rfl
  | free a k ih =>
    simp only [andThen, run]
    split
    · exact ih _
    · rfl
  | load a k ih =>
    simp only [andThen, run]
    split
    · exact ih _ _
    · rfl
  | store a o k ih =>
    simp only [andThen, run]
    split
    · exact ih _
    · rfl

/-- A part of a call, run alone. -/
def alone (m : T α) : H α := run m

theorem alone_bind (m : T α) (f : α → T β) :
    alone (m >>= f) = (alone m >>= fun a => alone (f a)) := by
  funext h
  refine (run_andThen _ _ _).trans ?_
  show _ = H.bind (alone m) (fun a => alone (f a)) h
  unfold H.bind alone
  rcases run m h with _ | ⟨h', _ | _ | _ | _⟩ <;> rfl

theorem alone_pure (a : α) : alone (pure a : T α) = pure a := rfl
theorem alone_lift (r : Res α) : alone (lift r) = Heap.lift r := rfl
theorem alone_fault : alone (fault : T α) = Heap.fault := rfl

theorem alone_malloc (o : Obj) : alone (malloc o) = Heap.malloc o := by
  funext h
  show run (Prog.malloc o fun p => .ret (Res.ok p)) h = _
  simp only [run, Heap.malloc]
  cases h.fails h.calls <;> rfl

theorem alone_free (p : Ptr) : alone (free p) = Heap.free p := by
  funext h
  cases p with
  | none => rfl
  | some a =>
    show run (Prog.free a (.ret (Res.ok ()))) h = _
    simp only [run, Heap.free]
    cases h.block a <;> rfl

theorem alone_load (p : Ptr) : alone (load p) = Heap.load p := by
  funext h
  cases p with
  | none => rfl
  | some a =>
    show run (Prog.load a fun o => .ret (Res.ok o)) h = _
    simp only [run, Heap.load]
    cases h.block a <;> rfl

theorem alone_store (p : Ptr) (o : Obj) : alone (store p o) = Heap.store p o := by
  funext h
  cases p with
  | none => rfl
  | some a =>
    show run (Prog.store a o (.ret (Res.ok ()))) h = _
    simp only [run, Heap.store]
    cases h.block a <;> rfl

theorem alone_ite (c : Prop) [Decidable c] (m n : T α) :
    alone (if c then m else n) = if c then alone m else alone n := by split <;> rfl

theorem alone_loadWorkStruct (p : Ptr) : alone (loadWorkStruct p) = Heap.loadWorkStruct p := by
  unfold loadWorkStruct Heap.loadWorkStruct
  rw [alone_bind, alone_load]
  congr 1; funext o; cases o <;> rfl

theorem alone_loadSccStruct (p : Ptr) : alone (loadSccStruct p) = Heap.loadSccStruct p := by
  unfold loadSccStruct Heap.loadSccStruct
  rw [alone_bind, alone_load]
  congr 1; funext o; cases o <;> rfl

theorem alone_loadWork (p : Ptr) : alone (loadWork p) = Heap.loadWork p := by
  unfold loadWork Heap.loadWork
  rw [alone_bind, alone_loadWorkStruct]
  congr 1; funext w
  rw [alone_bind, alone_load]
  congr 1; funext o; cases o <;> rfl

theorem alone_loadScc (p : Ptr) : alone (loadScc p) = Heap.loadScc p := by
  unfold loadScc Heap.loadScc
  rw [alone_bind, alone_loadSccStruct]
  congr 1; funext w
  rw [alone_bind, alone_load]
  congr 1; funext o
  cases o with
  | sizes m =>
    simp only
    rw [alone_bind, alone_load]
    congr 1; funext o; cases o <;> rfl
  | _ => rfl

theorem alone_storeWork (p : Ptr) (x : WorkSpace) : alone (storeWork p x) = Heap.storeWork p x := by
  unfold storeWork Heap.storeWork
  simp only [alone_bind, alone_loadWorkStruct, alone_store]

theorem alone_storeScc (p : Ptr) (x : SCCResult) : alone (storeScc p x) = Heap.storeScc p x := by
  unfold storeScc Heap.storeScc
  simp only [alone_bind, alone_loadSccStruct, alone_store]

theorem alone_destroyWorkspace (p : Ptr) : alone (destroyWorkspace p) = Heap.destroyWorkspace p := by
  unfold destroyWorkspace Heap.destroyWorkspace
  simp only [alone_bind, alone_ite, alone_loadWorkStruct, alone_free]

theorem alone_destroySccResult (p : Ptr) : alone (destroySccResult p) = Heap.destroySccResult p := by
  unfold destroySccResult Heap.destroySccResult
  simp only [alone_bind, alone_ite, alone_loadSccStruct, alone_free]

theorem alone_createWorkspace (n : Nat) : alone (createWorkspace n) = Heap.createWorkspace n := by
  unfold createWorkspace Heap.createWorkspace
  simp only [alone_bind, alone_ite, alone_malloc, alone_store, alone_destroyWorkspace, alone_pure]

theorem alone_allocateSccResult (n : Nat) : alone (allocateSccResult n) = Heap.allocateSccResult n := by
  unfold allocateSccResult Heap.allocateSccResult
  simp only [alone_bind, alone_ite, alone_malloc, alone_store, alone_destroySccResult, alone_pure]

theorem alone_tarjanGlobal (ia : List Nat) (ja : List Int) (w s : Ptr) (fuel : Nat) :
    alone (tarjanGlobal ia ja w s fuel) = Heap.tarjanGlobal ia ja w s fuel := by
  unfold tarjanGlobal Heap.tarjanGlobal
  simp only [alone_bind, alone_loadWork, alone_loadScc, alone_lift, alone_storeWork, alone_storeScc]

theorem alone_tarjan (nv : Nat) (ia : List Nat) (ja : List Int) (fuel : Nat) :
    alone (tarjan nv ia ja fuel) = Heap.tarjan nv ia ja fuel := by
  unfold tarjan Heap.tarjan
  simp only [alone_bind, alone_ite, alone_createWorkspace, alone_allocateSccResult,
    alone_destroySccResult, alone_destroyWorkspace, alone_tarjanGlobal, alone_pure]

theorem alone_reachableSccs (nv : Nat) (ia : List Nat) (ja : List Int) (pts : List Int) (w : Ptr)
    (fuel : Nat) :
    alone (reachableSccs nv ia ja pts w fuel) = Heap.reachableSccs nv ia ja pts w fuel := by
  unfold reachableSccs Heap.reachableSccs
  simp only [alone_bind, alone_ite, alone_lift, alone_loadWork, alone_allocateSccResult,
    alone_loadScc, alone_storeWork, alone_storeScc, alone_pure]

theorem alone_swapScc (p q : Ptr) : alone (swapScc p q) = Heap.swapScc p q := by
  unfold swapScc Heap.swapScc
  simp only [alone_bind, alone_loadSccStruct, alone_store]

theorem alone_reverseSccResult (p : Ptr) : alone (reverseSccResult p) = Heap.reverseSccResult p := by
  unfold reverseSccResult Heap.reverseSccResult
  simp only [alone_bind, alone_ite, alone_lift, alone_allocateSccResult, alone_loadScc,
    alone_storeScc, alone_swapScc, alone_destroySccResult, alone_pure]

theorem alone_withUnique (del : Ptr → T Unit) (p : Ptr) (body : T α) :
    alone (withUnique del p body) = Heap.withUnique (fun p => alone (del p)) p (alone body) := by
  funext h
  refine (run_andThen _ _ _).trans ?_
  unfold Heap.withUnique alone
  rcases run body h with _ | ⟨h', _ | _ | _ | _⟩
  · rfl
  · cases p with
    | none => rfl
    | some a => exact congrFun (alone_bind (del (some a)) fun _ => T.pure _) h'
  · cases p with
    | none => rfl
    | some a => exact congrFun (alone_bind (del (some a)) fun _ => lift (.throw _)) h'
  · rfl
  · rfl

theorem alone_reverseOrThrow (p : Ptr) : alone (reverseOrThrow p) = Heap.reverseOrThrow p := by
  unfold reverseOrThrow Heap.reverseOrThrow
  simp only [alone_bind, alone_ite, alone_lift, alone_reverseSccResult, alone_pure]

variable {R : Type}

theorem alone_computeOrdering (g : AssembledConnections R) (n fuel : Nat) (s : List Int × List Nat) :
    alone (computeOrdering g n fuel s) = Heap.computeOrdering g n fuel s := by
  unfold computeOrdering Heap.computeOrdering
  simp only [alone_bind, alone_lift, alone_tarjan, alone_withUnique, alone_destroySccResult,
    alone_reverseOrThrow, alone_loadScc, alone_pure]

theorem alone_computeLocalOrdering (g : AssembledConnections R) (n : Nat) (cells : List Int)
    (fuel : Nat) (s : List Int × List Nat) :
    alone (computeLocalOrdering g n cells fuel s) = Heap.computeLocalOrdering g n cells fuel s := by
  unfold computeLocalOrdering Heap.computeLocalOrdering
  simp only [alone_bind, alone_lift, alone_createWorkspace, alone_reachableSccs, alone_withUnique,
    alone_destroySccResult, alone_destroyWorkspace, alone_reverseOrThrow, alone_loadScc, alone_pure]

theorem run_finish (s : S) (m : T α) (k : α → Prog (S × Res β)) :
    run (finish s m k) = Heap.finish s (alone m) fun a => run (k a) := by
  funext h
  refine (run_andThen _ _ _).trans ?_
  unfold Heap.finish alone
  rcases run m h with _ | ⟨h', _ | _ | _ | _⟩ <;> rfl

variable [Arith R]

theorem run_solveGlobal (d : SolverData R) (fuel : Nat) (s : SolverState R) :
    run (solveGlobal d fuel s) = Heap.solveGlobal d fuel s := by
  unfold solveGlobal Heap.solveGlobal
  simp only [run_finish, alone_lift, alone_computeOrdering]
  rfl

theorem run_solveLocal (d : SolverData R) (fuel : Nat) (start : CellSetValues R) (s : SolverState R) :
    run (solveLocal d fuel start s) = Heap.solveLocal d fuel start s := by
  unfold solveLocal Heap.solveLocal
  simp only [run_finish, alone_lift, alone_computeLocalOrdering]
  rfl

theorem alone_solveSets (d : SolverData R) (fuel : Nat) (byId : InflowFlux R) :
    ∀ (sets : List CellSet) (s : SolverState R) (sol : Solution R),
      alone (solveSets d fuel byId sets s sol) = Heap.solveSets d fuel byId sets s sol
  | [], _, _ => rfl
  | start :: rest, s, sol => by
    funext h
    simp only [solveSets, Heap.solveSets, alone]
    refine (run_andThen _ _ _).trans ?_
    rw [run_solveLocal]
    rcases Heap.solveLocal d fuel (byId.at_ start.id []) s h with _ | ⟨h', s', _ | _ | _ | _⟩
    · rfl
    · exact congrFun (alone_solveSets d fuel byId rest _ _) h'
    · rfl
    · rfl
    · rfl

theorem alone_computeSolution (g gReverse : AssembledConnections R) (pvol : List R)
    (only : CellSetValues R) (byId : InflowFlux R) (fuel : Nat) (sets : List CellSet) :
    alone (computeSolution g gReverse pvol only byId fuel sets) =
      Heap.computeSolution g gReverse pvol only byId fuel sets := by
  unfold computeSolution Heap.computeSolution
  refine (alone_bind _ _).trans ?_
  rw [alone_lift]
  congr 1
  funext solver h
  simp only [alone]
  refine (run_andThen _ _ _).trans ?_
  rw [run_solveGlobal]
  rcases Heap.solveGlobal solver.1 fuel solver.2 h with _ | ⟨h', s', _ | _ | _ | _⟩
  · rfl
  · exact congrFun (alone_solveSets _ fuel byId sets _ _) h'
  · rfl
  · rfl
  · rfl

theorem run_injDiag (t : Toolbox R) (fuel : Nat) (sets : List CellSet) :
    run (injDiag t fuel sets) = Heap.injDiag t fuel sets := by
  funext h
  unfold injDiag Heap.injDiag
  split
  · rfl
  · simp only [run_finish, alone_lift, alone_computeSolution]
    rfl

theorem run_prodDiag (t : Toolbox R) (fuel : Nat) (sets : List CellSet) :
    run (prodDiag t fuel sets) = Heap.prodDiag t fuel sets := by
  funext h
  unfold prodDiag Heap.prodDiag
  split
  · rfl
  · simp only [run_finish, alone_lift, alone_computeSolution]
    rfl

end Verif.Threads
