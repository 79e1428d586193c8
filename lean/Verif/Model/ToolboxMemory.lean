/-
A diagnostics call on a machine both of whose allocators may run out of memory: the C heap of
tarjan.c (`Model/Heap.lean`, `malloc` returns `NULL`) and the free store from which the C++
containers of opm/flowdiagnostics/Toolbox.cpp, TracerTofSolver.cpp and Solution.cpp obtain
their memory (`operator new` throws `std::bad_alloc`).

Only whether a request of a container is met is modelled.  What the containers obtain is owned by
them and returned by their destructors.  A statement that may make several requests asks once: if
any of them is not met, the statement throws `std::bad_alloc`.  A statement that reuses memory of an
earlier one is nevertheless allowed to fail.
-/
import Verif.Model.ToolboxHeap

namespace Verif.Memory
open Verif.Heap Verif.Solver Verif.Toolbox

/-- The C heap, the outcomes of the requests of containers (`room k`: the `k`-th request is met), and the
    number of requests so far.  `operator new` and the `malloc` of tarjan.c:95-101 and 370-375. -/
structure Machine where
  heap : Heap
  room : Nat → Bool
  asked : Nat

/-- How a call ends: as `r` says, or with `std::bad_alloc`.  Calls of Toolbox.cpp:134-212. -/
inductive Out (α : Type) where
  | ended (r : Res α)
  | ranOut

/-- A call on a machine; `none` as for `Heap.H`.  Calls of Toolbox.cpp:134-212. -/
abbrev M (α : Type) := Machine → Option (Machine × Out α)

/-- Calls of Toolbox.cpp:134-212. -/
def M.pure {α : Type} (a : α) : M α := fun s => some (s, .ended (.ok a))

/-- Statements of Toolbox.cpp:134-212 in sequence. -/
def M.bind {α β : Type} (m : M α) (f : α → M β) : M β := fun s =>
  match m s with
  | none => none
  | some (s', .ended (.ok a)) => f a s'
  | some (s', .ended (.throw e)) => some (s', .ended (.throw e))
  | some (s', .ended (.ub u)) => some (s', .ended (.ub u))
  | some (s', .ended .diverge) => some (s', .ended .diverge)
  | some (s', .ranOut) => some (s', .ranOut)

/-- See `M.pure` and `M.bind`; Toolbox.cpp:134-212. -/
instance : Monad M where
  pure := M.pure
  bind := M.bind

/-- A computation that asks for no memory for containers.  For example the calls of tarjan.c:361-542. -/
def ofH {α : Type} (m : H α) : M α := fun s =>
  match m s.heap with
  | none => none
  | some (h, r) => some ({ s with heap := h }, .ended r)

/-- A statement that asks for memory for a container.  For example TracerTofSolver.cpp:224. -/
def ask : M Unit := fun s =>
  some ({ s with asked := s.asked + 1 }, if s.room s.asked then .ended (.ok ()) else .ranOut)

/-- A scope that owns `p` through a `std::unique_ptr`, as `Heap.withUnique`; the deleter is called too
    when `std::bad_alloc` leaves the scope.  TracerTofSolver.cpp:213-234 and 252-278. -/
def withUnique {α : Type} (del : Ptr → H Unit) (p : Ptr) (body : M α) : M α := fun s =>
  match body s with
  | none => none
  | some (s', .ended (.ok a)) =>
    if p.isSome then M.bind (ofH (del p)) (fun _ => M.pure a) s' else some (s', .ended (.ok a))
  | some (s', .ended (.throw e)) =>
    if p.isSome then M.bind (ofH (del p)) (fun _ => ofH (lift (.throw e))) s' else some (s', .ended (.throw e))
  | some (s', .ended (.ub u)) => some (s', .ended (.ub u))
  | some (s', .ended .diverge) => some (s', .ended .diverge)
  | some (s', .ranOut) =>
    if p.isSome then M.bind (ofH (del p)) (fun _ s => some (s, .ranOut)) s' else some (s', .ranOut)

variable {R : Type}

/-- TracerTofSolver.cpp:208-234 `computeOrdering`. -/
def computeOrdering (g : AssembledConnections R) (num_cells : Nat) (fuel : Nat)
    (s : List Int × List Nat) : M (List Int × List Nat) := do
  ofH (lift (assertThat (g.startPointers.length == num_cells + 1)))
  let result ← ofH (tarjan num_cells g.startPointers g.neighbourhood fuel)
  withUnique destroySccResult result do
    ofH (reverseOrThrow result)
    ask -- 224: `sequence_`
    ask -- 226: `component_starts_`
    ofH do
      let scc ← loadScc result
      let s ← lift (extractOrdering scc num_cells s)
      let last ← lift (back s.2)
      lift (assertThat (last == num_cells))
      pure s

/-- TracerTofSolver.cpp:240-278 `computeLocalOrdering`. -/
def computeLocalOrdering (g : AssembledConnections R) (num_cells : Nat) (startcells : List Int)
    (fuel : Nat) (s : List Int × List Nat) : M (List Int × List Nat) := do
  ask -- 244: `startcells`
  ofH (lift (assertThat (g.startPointers.length == num_cells + 1)))
  let ws ← ofH (createWorkspace num_cells)
  let result ← ofH (Heap.withUnique destroyWorkspace ws
    (reachableSccs num_cells g.startPointers g.neighbourhood startcells ws fuel))
  withUnique destroySccResult result do
    ofH (reverseOrThrow result)
    ask -- 268: `sequence_`
    ask -- 270: `component_starts_`
    ofH do
      let scc ← loadScc result
      let s ← lift (extractOrdering scc num_cells s)
      let last ← lift (back s.2)
      pure (resize s.1 last 0, s.2)

variable [Arith R]

/-- TracerTofSolver.cpp:163-176, the memory `prepareForSolve` asks for: `is_start_`, `tof_` and `tracer_`. -/
def askPrepare : M Unit := do
  ask
  ask
  ask

/-- TracerTofSolver.cpp:111-125 `solveGlobal`.  The state of the solver is dropped when the call ends
    exceptionally: nothing can see it (Toolbox.cpp:162-163 and 202-203). -/
def solveGlobal (d : SolverData R) (fuel : Nat) (s : SolverState R) : M (SolverState R × List R) := do
  askPrepare
  let s := prepareForSolve d s
  let isStart ← ofH (lift (setupStartArrayFromSource d s.isStart))
  -- 116: `local_source_term_` and `source_term_` have the same size, nothing is asked for
  let s := { s with isStart := isStart, localSource := d.sourceTerm }
  let o ← computeOrdering d.g d.pv.length fuel (s.sequence, s.componentStarts)
  let s := { s with sequence := o.1, componentStarts := o.2 }
  let f ← ofH (lift (solve d s.isStart s.localSource s.sequence s.componentStarts fuel (s.tof, s.tracer)))
  let s := { s with
    tof := f.1
    tracer := f.2
    localSource := List.replicate s.localSource.length Arith.zero }
  ask -- 124: the copy of `tof_`
  pure (s, s.tof)

/-- TracerTofSolver.cpp:131-157 `solveLocal`. -/
def solveLocal (d : SolverData R) (fuel : Nat) (startset : CellSetValues R) (s : SolverState R) :
    M (SolverState R × LocalSolution R) := do
  askPrepare
  let s := prepareForSolve d s
  let isStart ← ofH (lift (setupStartArray s.isStart startset))
  let s := { s with isStart := isStart }
  let o ← computeLocalOrdering d.g d.pv.length (startset.map fun p => p.1) fuel (s.sequence, s.componentStarts)
  let ls := setupLocalSource s.localSource startset
  let s := { s with
    sequence := o.1
    componentStarts := o.2
    localSource := ls.1 }
  ofH (lift ls.2)
  let f ← ofH (lift (solve d s.isStart s.localSource s.sequence s.componentStarts fuel (s.tof, s.tracer)))
  let s := { s with
    tof := f.1
    tracer := f.2 }
  let ls ← ofH (lift (cleanupLocalSource s.localSource startset))
  let s := { s with localSource := ls }
  ask -- 147-155: `local_tof` and `local_tracer`
  let r ← ofH (lift (collect s.tof s.tracer s.sequence s.componentStarts))
  pure (s, r)

/-- Toolbox.cpp:165-169, respectively 205-209: one local solve per start set. -/
def solveSets (d : SolverData R) (fuel : Nat) (byId : InflowFlux R) :
    List CellSet → SolverState R → Solution R → M (Solution R)
  | [], _, sol => pure sol
  | start :: rest, s, sol => do
    let p ← solveLocal d fuel (byId.at_ start.id []) s
    ask -- 167: the copy of `solution.tof` and its place in the solution
    ask -- 168: the copy of `solution.concentration` and its place in the solution
    solveSets d fuel byId rest p.1
      ((sol.assignTimeOfFlight start.id p.2.tof).assignConcentration start.id p.2.concentration)

/-- Toolbox.cpp:158-171, respectively 198-211. -/
def computeSolution (g gReverse : AssembledConnections R) (pvol : List R) (only : CellSetValues R)
    (byId : InflowFlux R) (fuel : Nat) (startSets : List CellSet) : M (Solution R) := do
  ask -- 158: `sol`
  ask -- 162 and TracerTofSolver.cpp:59-60: `influx` and `outflux`
  ask -- TracerTofSolver.cpp:43 and 102-103: `source_term_` and `local_source_term_`
  let solver ← ofH (lift (Solver.create g gReverse pvol only))
  let p ← solveGlobal solver.1 fuel solver.2
  let sol ← solveSets solver.1 fuel byId startSets p.1 ((({} : Solution R)).assignToF p.2)
  ask -- 171: the copy of `sol`
  pure sol

/-- As `Heap.finish`. Toolbox.cpp:134-212. -/
def finish {S α β : Type} (t : S) (m : M α) (k : α → Machine → Option (Machine × S × Out β)) :
    Machine → Option (Machine × S × Out β) := fun s =>
  match m s with
  | none => none
  | some (s', .ended (.ok a)) => k a s'
  | some (s', .ended (.throw e)) => some (s', t, .ended (.throw e))
  | some (s', .ended (.ub u)) => some (s', t, .ended (.ub u))
  | some (s', .ended .diverge) => some (s', t, .ended .diverge)
  | some (s', .ranOut) => some (s', t, .ranOut)

/-- Toolbox.cpp:154-156 and 194-196: the memory that building the graphs (214-241) asks for.  The graphs hold
    `left` when it is not there; what that is, is left open. -/
def askBuild {β : Type} (t : Toolbox R) (left : AssembledConnections R × AssembledConnections R)
    (k : Machine → Option (Machine × Toolbox R × Out β)) : Machine → Option (Machine × Toolbox R × Out β) :=
  if t.connBuilt then k else finish { t with downstream := left.1, upstream := left.2 } ask fun _ => k

/-- Toolbox.cpp:134-172, `injDiag`. -/
def injDiag (t : Toolbox R) (left : AssembledConnections R × AssembledConnections R) (fuel : Nat)
    (startSets : List CellSet) : Machine → Option (Machine × Toolbox R × Out (Solution R)) := fun s =>
  if t.pvol.isEmpty || t.flux.numConnections == 0 then some (s, t, .ended (.throw .logicError)) else
  finish t (ofH (lift (checkStartSets t.injById t.onlyInflow startSets))) (fun _ =>
  askBuild t left <|
  let b := t.ensureBuilt
  let t := b.1
  finish t (ofH (lift b.2)) fun _ =>
  finish t (computeSolution t.downstream t.upstream t.pvol t.onlyInflow t.injById fuel startSets)
    fun sol s => some (s, t, .ended (.ok sol))) s

/-- Toolbox.cpp:174-212, `prodDiag`. -/
def prodDiag (t : Toolbox R) (left : AssembledConnections R × AssembledConnections R) (fuel : Nat)
    (startSets : List CellSet) : Machine → Option (Machine × Toolbox R × Out (Solution R)) := fun s =>
  if t.pvol.isEmpty || t.flux.numConnections == 0 then some (s, t, .ended (.throw .logicError)) else
  finish t (ofH (lift (checkStartSets t.prodById t.onlyOutflow startSets))) (fun _ =>
  askBuild t left <|
  let b := t.ensureBuilt
  let t := b.1
  finish t (ofH (lift b.2)) fun _ =>
  finish t (computeSolution t.upstream t.downstream t.pvol t.onlyOutflow t.prodById fuel startSets)
    fun sol s => some (s, t, .ended (.ok sol))) s

end Verif.Memory
