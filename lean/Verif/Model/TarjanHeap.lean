/-
Memory management of opm/utility/graph/tarjan.c and of its callers in
opm/flowdiagnostics/TracerTofSolver.cpp: which blocks are allocated, passed on and
freed.  The computations on the contents of the blocks are those of `Verif.Tarjan`; no
block is allocated or freed while they run, so each takes the contents out of the heap,
runs, and puts the contents back.
-/
import Verif.Model.Heap
import Verif.Model.TracerTofSolver

namespace Verif.Heap
open Verif.Tarjan Verif.Solver

/-- tarjan.c:393-401 `destroy_tarjan_workspace`. -/
def destroyWorkspace (ws : Ptr) : H Unit := do
  if ws.isSome then do
    let w ← loadWorkStruct ws
    free w.status
  free ws

/-- tarjan.c:403-413 `destroy_tarjan_sccresult`. -/
def destroySccResult (scc : Ptr) : H Unit := do
  if scc.isSome then do
    let s ← loadSccStruct scc
    free s.vert
    free s.start
  free scc

/-- tarjan.c:365-391 `create_tarjan_workspace`. -/
def createWorkspace (nvert : Nat) : H Ptr := do
  let ws ← malloc .raw
  if ws.isSome then do
    store ws (.work { nvert := 0, status := none })
    let status ← malloc (.threeInts (List.replicate nvert none) (List.replicate nvert none)
      (List.replicate nvert none))
    store ws (.work { nvert := 0, status := status })
    if status.isNone then do
      destroyWorkspace ws
      pure none
    else do
      store ws (.work { nvert := nvert, status := status })
      pure ws
  else pure ws

/-- tarjan.c:90-111 `allocate_scc_result`. -/
def allocateSccResult (nvert : Nat) : H Ptr := do
  let scc ← malloc .raw
  if scc.isSome then do
    let s : SccStruct := { ncomp := 0, start := none, vert := none,
                           vtop := 0, vbase := 0, ctop := 0, cbase := 0 }
    store scc (.scc s)
    let start ← malloc (.sizes (List.replicate (nvert + 1) none))
    store scc (.scc { s with start := start })
    let vert ← malloc (.ints (List.replicate nvert none))
    store scc (.scc { s with start := start, vert := vert })
    if start.isNone || vert.isNone then do
      destroySccResult scc
      pure none
    else pure scc
  else pure scc

/-- tarjan.c:311-330 `tarjan_global`. -/
def tarjanGlobal (ia : List Nat) (ja : List Int) (work scc : Ptr) (fuel : Nat) : H Unit := do
  let w ← loadWork work
  let s ← loadScc scc
  let r ← lift (Tarjan.tarjanGlobal ia ja w s fuel)
  storeWork work r.1.work
  storeScc scc r.1.scc

/-- tarjan.c:453-481 `tarjan`. -/
def tarjan (nv : Nat) (ia : List Nat) (ja : List Int) (fuel : Nat) : H Ptr := do
  let work ← createWorkspace nv
  let scc ← allocateSccResult nv
  let p : Ptr × Ptr ← (
    if work.isNone || scc.isNone then do
      destroySccResult scc
      destroyWorkspace work
      pure (none, none)
    else pure (work, scc))
  if p.2.isSome then tarjanGlobal ia ja p.1 p.2 fuel
  destroyWorkspace p.1
  pure p.2

/-- tarjan.c:483-520 `tarjan_reachable_sccs`. -/
def reachableSccs (nv : Nat) (ia : List Nat) (ja : List Int) (startPts : List Int) (work : Ptr)
    (fuel : Nat) : H Ptr := do
  lift (assertThat work.isSome)
  let w ← loadWork work
  lift (assertThat (w.nvert ≥ nv))
  let scc ← allocateSccResult w.nvert
  if scc.isSome then do
    let s ← loadScc scc
    let i ← lift (initialise w s)
    let r ← lift (reachableLoop ia ja startPts i fuel)
    storeWork work r.1.work
    storeScc scc r.1.scc
  pure scc

/-- tarjan.c:353-359 `swap_scc`.  The members `vstart` and `cstart` of the first
    structure serve as temporaries; that structure is destroyed right afterwards and the
    model does not track what they hold. -/
def swapScc (p q : Ptr) : H Unit := do
  let a ← loadSccStruct p
  let b ← loadSccStruct q
  store p (.scc { a with start := b.start, vert := b.vert })
  store q (.scc { b with start := a.start, vert := a.vert })

/-- tarjan.c:522-542 `tarjan_reverse_sccresult`. -/
def reverseSccResult (scc : Ptr) : H Bool := do
  let s ← loadScc scc
  let n ← lift (rdM s.start s.ncomp)
  let rev ← allocateSccResult n
  if rev.isSome then do
    let d ← loadScc rev
    let d ← lift (reverseSccCore s d)
    storeScc rev d
    swapScc rev scc
    destroySccResult rev
  pure rev.isSome

/-- A scope that owns `p` through a `std::unique_ptr` whose deleter is `del`: at the end
    of the scope, and when an exception leaves it, the deleter is called on `p` unless
    `p` is null.  TracerTofSolver.cpp:213-215 and 252-259. -/
def withUnique {α : Type} (del : Ptr → H Unit) (p : Ptr) (body : H α) : H α := fun h =>
  match body h with
  | none => none
  | some (h', .ok a) => if p.isSome then H.bind (del p) (fun _ => H.pure a) h' else some (h', .ok a)
  | some (h', .throw e) =>
    if p.isSome then H.bind (del p) (fun _ => lift (.throw e)) h' else some (h', .throw e)
  | some (h', .ub u) => some (h', .ub u)
  | some (h', .diverge) => some (h', .diverge)

/-- TracerTofSolver.cpp:217-222 and 262-266. -/
def reverseOrThrow (result : Ptr) : H Unit := do
  let ok ← reverseSccResult result
  if ok then pure () else lift (.throw .runtimeError)

variable {R : Type}

/-- TracerTofSolver.cpp:208-234 `computeOrdering`. -/
def computeOrdering (g : AssembledConnections R) (num_cells : Nat) (fuel : Nat)
    (s : List Int × List Nat) : H (List Int × List Nat) := do
  lift (assertThat (g.startPointers.length == num_cells + 1))
  let result ← tarjan num_cells g.startPointers g.neighbourhood fuel
  withUnique destroySccResult result do
    reverseOrThrow result
    let scc ← loadScc result
    let s ← lift (extractOrdering scc num_cells s)
    let last ← lift (back s.2)
    lift (assertThat (last == num_cells))
    pure s

/-- TracerTofSolver.cpp:240-278 `computeLocalOrdering`. -/
def computeLocalOrdering (g : AssembledConnections R) (num_cells : Nat) (startcells : List Int)
    (fuel : Nat) (s : List Int × List Nat) : H (List Int × List Nat) := do
  lift (assertThat (g.startPointers.length == num_cells + 1))
  let ws ← createWorkspace num_cells
  let result ← withUnique destroyWorkspace ws
    (reachableSccs num_cells g.startPointers g.neighbourhood startcells ws fuel)
  withUnique destroySccResult result do
    reverseOrThrow result
    let scc ← loadScc result
    let s ← lift (extractOrdering scc num_cells s)
    let last ← lift (back s.2)
    pure (resize s.1 last 0, s.2)

/-- As `Verif.Solver.finish`: a call that uses the heap, followed by the rest of the
    enclosing call; `s` is what the object is left with when the call ends exceptionally.
    TracerTofSolver.cpp:111-157. -/
def finish {S α β : Type} (s : S) (m : H α) (k : α → Heap → Option (Heap × S × Res β)) :
    Heap → Option (Heap × S × Res β) := fun h =>
  match m h with
  | none => none
  | some (h', .ok a) => k a h'
  | some (h', .throw e) => some (h', s, .throw e)
  | some (h', .ub u) => some (h', s, .ub u)
  | some (h', .diverge) => some (h', s, .diverge)

variable [Arith R]

/-- TracerTofSolver.cpp:111-125 `solveGlobal`. -/
def solveGlobal (d : SolverData R) (fuel : Nat) (s : SolverState R) :
    Heap → Option (Heap × SolverState R × Res (List R)) :=
  let s := prepareForSolve d s
  finish s (lift (setupStartArrayFromSource d s.isStart)) fun isStart =>
  let s := { s with isStart := isStart, localSource := d.sourceTerm }
  finish s (computeOrdering d.g d.pv.length fuel (s.sequence, s.componentStarts)) fun o =>
  let s := { s with sequence := o.1, componentStarts := o.2 }
  finish s (lift (solve d s.isStart s.localSource s.sequence s.componentStarts fuel
    (s.tof, s.tracer))) fun f =>
  let s := { s with
    tof := f.1
    tracer := f.2
    localSource := List.replicate s.localSource.length Arith.zero }
  fun h => some (h, s, .ok s.tof)

/-- TracerTofSolver.cpp:131-157 `solveLocal`. -/
def solveLocal (d : SolverData R) (fuel : Nat) (startset : CellSetValues R) (s : SolverState R) :
    Heap → Option (Heap × SolverState R × Res (LocalSolution R)) :=
  let s := prepareForSolve d s
  finish s (lift (setupStartArray s.isStart startset)) fun isStart =>
  let s := { s with isStart := isStart }
  finish s (computeLocalOrdering d.g d.pv.length (startset.map fun p => p.1) fuel
    (s.sequence, s.componentStarts)) fun o =>
  let ls := setupLocalSource s.localSource startset
  let s := { s with
    sequence := o.1
    componentStarts := o.2
    localSource := ls.1 }
  finish s (lift ls.2) fun _ =>
  finish s (lift (solve d s.isStart s.localSource s.sequence s.componentStarts fuel
    (s.tof, s.tracer))) fun f =>
  let s := { s with
    tof := f.1
    tracer := f.2 }
  finish s (lift (cleanupLocalSource s.localSource startset)) fun ls =>
  let s := { s with localSource := ls }
  finish s (lift (collect s.tof s.tracer s.sequence s.componentStarts)) fun r =>
  fun h => some (h, s, .ok r)

end Verif.Heap
