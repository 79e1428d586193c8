/-
Threads of one program that use the library at the same time: each makes its calls on objects
of its own, and all of them share the C heap.

The functions of tarjan.c, TracerTofSolver.cpp and Toolbox.cpp are written here as programs, that
is as sequences of accesses to the heap, so that accesses of other threads can happen between any
two of them.  What a program does when it runs alone is proved to be what `Model/TarjanHeap.lean`
and `Model/ToolboxHeap.lean` say (`Proofs/ThreadsAlone.lean`).  One access reads, writes, allocates or
frees one block; the computation between two accesses touches data of its own thread only.  In
the source a block is read and written in smaller pieces; since no block is ever accessed by
two threads (theorem `C93_threads`), other threads cannot observe the difference.
The C++ containers are not on this heap; they belong to the objects of one thread.  Neither
/repo/opm nor this model has variables shared by all calls.
-/
import Verif.Model.ToolboxHeap

namespace Verif.Threads
open Verif.Heap Verif.Tarjan Verif.Solver

/-- A program: its next access to the heap and how it goes on from there.  `fault`: it takes
    a block for one of another kind.  Statements of tarjan.c:361-542. -/
inductive Prog (α : Type) where
  | ret (a : α)
  | fault
  | malloc (o : Obj) (k : Ptr → Prog α)
  | free (a : Nat) (k : Prog α)
  | load (a : Nat) (k : Obj → Prog α)
  | store (a : Nat) (o : Obj) (k : Prog α)

namespace Prog

/-- Statements in sequence.  tarjan.c:361-542. -/
def andThen {α β : Type} : Prog α → (α → Prog β) → Prog β
  | ret a, f => f a
  | fault, _ => fault
  | malloc o k, f => malloc o fun p => andThen (k p) f
  | free a k, f => free a (andThen k f)
  | load a k, f => load a fun o => andThen (k o) f
  | store a o k, f => store a o (andThen k f)

/-- What the program does when it runs alone.  tarjan.c:361-542. -/
def run {α : Type} : Prog α → Heap → Option (Heap × α)
  | ret a, h => some (h, a)
  | fault, _ => none
  | malloc o k, h =>
    match Heap.malloc o h with
    | some (h', .ok p) => run (k p) h'
    | _ => none
  | free a k, h =>
    match Heap.free (some a) h with
    | some (h', .ok ()) => run k h'
    | _ => none
  | load a k, h =>
    match Heap.load (some a) h with
    | some (h', .ok o) => run (k o) h'
    | _ => none
  | store a o k, h =>
    match Heap.store (some a) o h with
    | some (h', .ok ()) => run k h'
    | _ => none

end Prog

/-- A part of a call; it may end with an exception.  tarjan.c:361-542. -/
def T (α : Type) := Prog (Res α)

/-- See `H.pure`; tarjan.c:361-542. -/
def T.pure {α : Type} (a : α) : T α := Prog.ret (.ok a)

/-- See `H.bind`; tarjan.c:361-542. -/
def T.bind {α β : Type} (m : T α) (f : α → T β) : T β :=
  Prog.andThen m fun
    | .ok a => f a
    | .throw e => .ret (.throw e)
    | .ub u => .ret (.ub u)
    | .diverge => .ret .diverge

/-- See `T.pure` and `T.bind`. -/
instance : Monad T where
  pure := T.pure
  bind := T.bind

/-- As `Heap.lift`; tarjan.c:255-330. -/
def lift {α : Type} (r : Res α) : T α := Prog.ret r

/-- As `Heap.malloc`; tarjan.c:95, 100-101, 370 and 375. -/
def malloc (o : Obj) : T Ptr := Prog.malloc o fun p => .ret (.ok p)

/-- As `Heap.free`; tarjan.c:397-400 and 408-412. -/
def free (p : Ptr) : T Unit :=
  match p with
  | none => Prog.ret (.ok ())
  | some a => Prog.free a (.ret (.ok ()))

/-- As `Heap.load`; tarjan.c:393-438 and 483-542. -/
def load (p : Ptr) : T Obj :=
  match p with
  | none => Prog.ret (.ub .nullDeref)
  | some a => Prog.load a fun o => .ret (.ok o)

/-- As `Heap.store`; tarjan.c:98, 353-359 and 373-386. -/
def store (p : Ptr) (o : Obj) : T Unit :=
  match p with
  | none => Prog.ret (.ub .nullDeref)
  | some a => Prog.store a o (.ret (.ok ()))

/-- As `Heap.fault`; tarjan.c:361-542. -/
def fault {α : Type} : T α := Prog.fault

/-- As `Heap.loadWorkStruct`; tarjan.c:397. -/
def loadWorkStruct (p : Ptr) : T WorkStruct := do
  match ← load p with
  | .work w => pure w
  | _ => fault

/-- As `Heap.loadSccStruct`; tarjan.c:353-359 and 408-409. -/
def loadSccStruct (p : Ptr) : T SccStruct := do
  match ← load p with
  | .scc s => pure s
  | _ => fault

/-- As `Heap.loadWork`; tarjan.c:475 and 494-516. -/
def loadWork (p : Ptr) : T WorkSpace := do
  let w ← loadWorkStruct p
  match ← load w.status with
  | .threeInts status link time =>
    pure { nvert := w.nvert, status := status, link := link, time := time }
  | _ => fault

/-- As `Heap.storeWork`; tarjan.c:475 and 494-516. -/
def storeWork (p : Ptr) (x : WorkSpace) : T Unit := do
  let w ← loadWorkStruct p
  store w.status (.threeInts x.status x.link x.time)
  store p (.work { w with nvert := x.nvert })

/-- As `Heap.loadScc`; tarjan.c:415-542. -/
def loadScc (p : Ptr) : T SCCResult := do
  let s ← loadSccStruct p
  match ← load s.start with
  | .sizes start =>
    match ← load s.vert with
    | .ints vert =>
      pure { ncomp := s.ncomp, start := start, vert := vert, vtop := s.vtop, vbase := s.vbase,
             ctop := s.ctop, cbase := s.cbase }
    | _ => fault
  | _ => fault

/-- As `Heap.storeScc`; tarjan.c:454-542. -/
def storeScc (p : Ptr) (x : SCCResult) : T Unit := do
  let s ← loadSccStruct p
  store s.start (.sizes x.start)
  store s.vert (.ints x.vert)
  store p (.scc { s with ncomp := x.ncomp, vtop := x.vtop, vbase := x.vbase, ctop := x.ctop,
                         cbase := x.cbase })

/-- tarjan.c:393-401 `destroy_tarjan_workspace`. -/
def destroyWorkspace (ws : Ptr) : T Unit := do
  if ws.isSome then do
    let w ← loadWorkStruct ws
    free w.status
  free ws

/-- tarjan.c:403-413 `destroy_tarjan_sccresult`. -/
def destroySccResult (scc : Ptr) : T Unit := do
  if scc.isSome then do
    let s ← loadSccStruct scc
    free s.vert
    free s.start
  free scc

/-- tarjan.c:365-391 `create_tarjan_workspace`. -/
def createWorkspace (nvert : Nat) : T Ptr := do
  let ws ← malloc .raw
  if ws.isSome then do
    store ws (.work { nvert := 0, status := none })
    let status ← malloc (.threeInts (List.replicate nvert none) (List.replicate nvert none)
      (List.replicate nvert none))
    store ws (.work { nvert := 0, status := status })
    if status.isNone then do
      destroyWorkspace ws
      pure none
    else do
      store ws (.work { nvert := nvert, status := status })
      pure ws
  else pure ws

/-- tarjan.c:90-111 `allocate_scc_result`. -/
def allocateSccResult (nvert : Nat) : T Ptr := do
  let scc ← malloc .raw
  if scc.isSome then do
    let s : SccStruct := { ncomp := 0, start := none, vert := none,
                           vtop := 0, vbase := 0, ctop := 0, cbase := 0 }
    store scc (.scc s)
    let start ← malloc (.sizes (List.replicate (nvert + 1) none))
    store scc (.scc { s with start := start })
    let vert ← malloc (.ints (List.replicate nvert none))
    store scc (.scc { s with start := start, vert := vert })
    if start.isNone || vert.isNone then do
      destroySccResult scc
      pure none
    else pure scc
  else pure scc

/-- tarjan.c:311-330 `tarjan_global`. -/
def tarjanGlobal (ia : List Nat) (ja : List Int) (work scc : Ptr) (fuel : Nat) : T Unit := do
  let w ← loadWork work
  let s ← loadScc scc
  let r ← lift (Tarjan.tarjanGlobal ia ja w s fuel)
  storeWork work r.1.work
  storeScc scc r.1.scc

/-- tarjan.c:453-481 `tarjan`. -/
def tarjan (nv : Nat) (ia : List Nat) (ja : List Int) (fuel : Nat) : T Ptr := do
  let work ← createWorkspace nv
  let scc ← allocateSccResult nv
  let p : Ptr × Ptr ← (
    if work.isNone || scc.isNone then do
      destroySccResult scc
      destroyWorkspace work
      pure (none, none)
    else pure (work, scc))
  if p.2.isSome then tarjanGlobal ia ja p.1 p.2 fuel
  destroyWorkspace p.1
  pure p.2

/-- tarjan.c:483-520 `tarjan_reachable_sccs`. -/
def reachableSccs (nv : Nat) (ia : List Nat) (ja : List Int) (startPts : List Int) (work : Ptr)
    (fuel : Nat) : T Ptr := do
  lift (assertThat work.isSome)
  let w ← loadWork work
  lift (assertThat (w.nvert ≥ nv))
  let scc ← allocateSccResult w.nvert
  if scc.isSome then do
    let s ← loadScc scc
    let i ← lift (initialise w s)
    let r ← lift (reachableLoop ia ja startPts i fuel)
    storeWork work r.1.work
    storeScc scc r.1.scc
  pure scc

/-- tarjan.c:353-359 `swap_scc`; see `Heap.swapScc`. -/
def swapScc (p q : Ptr) : T Unit := do
  let a ← loadSccStruct p
  let b ← loadSccStruct q
  store p (.scc { a with start := b.start, vert := b.vert })
  store q (.scc { b with start := a.start, vert := a.vert })

/-- tarjan.c:522-542 `tarjan_reverse_sccresult`. -/
def reverseSccResult (scc : Ptr) : T Bool := do
  let s ← loadScc scc
  let n ← lift (rdM s.start s.ncomp)
  let rev ← allocateSccResult n
  if rev.isSome then do
    let d ← loadScc rev
    let d ← lift (reverseSccCore s d)
    storeScc rev d
    swapScc rev scc
    destroySccResult rev
  pure rev.isSome

/-- As `Heap.withUnique`; TracerTofSolver.cpp:213-215 and 252-259. -/
def withUnique {α : Type} (del : Ptr → T Unit) (p : Ptr) (body : T α) : T α :=
  Prog.andThen body fun
    | .ok a => if p.isSome then T.bind (del p) (fun _ => T.pure a) else .ret (.ok a)
    | .throw e => if p.isSome then T.bind (del p) (fun _ => lift (.throw e)) else .ret (.throw e)
    | .ub u => .ret (.ub u)
    | .diverge => .ret .diverge

/-- TracerTofSolver.cpp:217-222 and 262-266. -/
def reverseOrThrow (result : Ptr) : T Unit := do
  let ok ← reverseSccResult result
  if ok then pure () else lift (.throw .runtimeError)

variable {R : Type}

/-- TracerTofSolver.cpp:208-234 `computeOrdering`. -/
def computeOrdering (g : AssembledConnections R) (num_cells : Nat) (fuel : Nat)
    (s : List Int × List Nat) : T (List Int × List Nat) := do
  lift (assertThat (g.startPointers.length == num_cells + 1))
  let result ← tarjan num_cells g.startPointers g.neighbourhood fuel
  withUnique destroySccResult result do
    reverseOrThrow result
    let scc ← loadScc result
    let s ← lift (extractOrdering scc num_cells s)
    let last ← lift (back s.2)
    lift (assertThat (last == num_cells))
    pure s

/-- TracerTofSolver.cpp:240-278 `computeLocalOrdering`. -/
def computeLocalOrdering (g : AssembledConnections R) (num_cells : Nat) (startcells : List Int)
    (fuel : Nat) (s : List Int × List Nat) : T (List Int × List Nat) := do
  lift (assertThat (g.startPointers.length == num_cells + 1))
  let ws ← createWorkspace num_cells
  let result ← withUnique destroyWorkspace ws
    (reachableSccs num_cells g.startPointers g.neighbourhood startcells ws fuel)
  withUnique destroySccResult result do
    reverseOrThrow result
    let scc ← loadScc result
    let s ← lift (extractOrdering scc num_cells s)
    let last ← lift (back s.2)
    pure (resize s.1 last 0, s.2)

/-- As `Heap.finish`; TracerTofSolver.cpp:111-157. -/
def finish {S α β : Type} (s : S) (m : T α) (k : α → Prog (S × Res β)) : Prog (S × Res β) :=
  Prog.andThen m fun
    | .ok a => k a
    | .throw e => .ret (s, .throw e)
    | .ub u => .ret (s, .ub u)
    | .diverge => .ret (s, .diverge)

variable [Arith R]

/-- TracerTofSolver.cpp:111-125 `solveGlobal`. -/
def solveGlobal (d : SolverData R) (fuel : Nat) (s : SolverState R) :
    Prog (SolverState R × Res (List R)) :=
  let s := prepareForSolve d s
  finish s (lift (setupStartArrayFromSource d s.isStart)) fun isStart =>
  let s := { s with isStart := isStart, localSource := d.sourceTerm }
  finish s (computeOrdering d.g d.pv.length fuel (s.sequence, s.componentStarts)) fun o =>
  let s := { s with sequence := o.1, componentStarts := o.2 }
  finish s (lift (solve d s.isStart s.localSource s.sequence s.componentStarts fuel
    (s.tof, s.tracer))) fun f =>
  let s := { s with
    tof := f.1
    tracer := f.2
    localSource := List.replicate s.localSource.length Arith.zero }
  .ret (s, .ok s.tof)

/-- TracerTofSolver.cpp:131-157 `solveLocal`. -/
def solveLocal (d : SolverData R) (fuel : Nat) (startset : CellSetValues R) (s : SolverState R) :
    Prog (SolverState R × Res (LocalSolution R)) :=
  let s := prepareForSolve d s
  finish s (lift (setupStartArray s.isStart startset)) fun isStart =>
  let s := { s with isStart := isStart }
  finish s (computeLocalOrdering d.g d.pv.length (startset.map fun p => p.1) fuel
    (s.sequence, s.componentStarts)) fun o =>
  let ls := setupLocalSource s.localSource startset
  let s := { s with
    sequence := o.1
    componentStarts := o.2
    localSource := ls.1 }
  finish s (lift ls.2) fun _ =>
  finish s (lift (solve d s.isStart s.localSource s.sequence s.componentStarts fuel
    (s.tof, s.tracer))) fun f =>
  let s := { s with
    tof := f.1
    tracer := f.2 }
  finish s (lift (cleanupLocalSource s.localSource startset)) fun ls =>
  let s := { s with localSource := ls }
  finish s (lift (collect s.tof s.tracer s.sequence s.componentStarts)) fun r =>
  .ret (s, .ok r)

/-- Toolbox.cpp:165-169, respectively 205-209. -/
def solveSets (d : SolverData R) (fuel : Nat) (byId : InflowFlux R) :
    List CellSet → SolverState R → Solution R → T (Solution R)
  | [], _, sol => pure sol
  | start :: rest, s, sol =>
    Prog.andThen (solveLocal d fuel (byId.at_ start.id []) s) fun
      | (s', .ok l) =>
        solveSets d fuel byId rest s'
          ((sol.assignTimeOfFlight start.id l.tof).assignConcentration start.id l.concentration)
      | (_, .throw e) => .ret (.throw e)
      | (_, .ub u) => .ret (.ub u)
      | (_, .diverge) => .ret .diverge

/-- Toolbox.cpp:158-171, respectively 198-211. -/
def computeSolution (g gReverse : AssembledConnections R) (pvol : List R) (only : CellSetValues R)
    (byId : InflowFlux R) (fuel : Nat) (startSets : List CellSet) : T (Solution R) :=
  T.bind (lift (Solver.create g gReverse pvol only)) fun solver =>
  Prog.andThen (solveGlobal solver.1 fuel solver.2) fun
    | (s', .ok tof) =>
      solveSets solver.1 fuel byId startSets s' ((({} : Solution R)).assignToF tof)
    | (_, .throw e) => .ret (.throw e)
    | (_, .ub u) => .ret (.ub u)
    | (_, .diverge) => .ret .diverge

/-- Toolbox.cpp:134-172, `injDiag`. -/
def injDiag (t : Toolbox R) (fuel : Nat) (startSets : List CellSet) :
    Prog (Toolbox R × Res (Solution R)) :=
  if t.pvol.isEmpty || t.flux.numConnections == 0 then .ret (t, .throw .logicError) else
  finish t (lift (Toolbox.checkStartSets t.injById t.onlyInflow startSets)) fun _ =>
  let b := t.ensureBuilt
  let t := b.1
  finish t (lift b.2) fun _ =>
  finish t (computeSolution t.downstream t.upstream t.pvol t.onlyInflow t.injById fuel startSets)
    fun sol => .ret (t, .ok sol)

/-- Toolbox.cpp:174-212, `prodDiag`. -/
def prodDiag (t : Toolbox R) (fuel : Nat) (startSets : List CellSet) :
    Prog (Toolbox R × Res (Solution R)) :=
  if t.pvol.isEmpty || t.flux.numConnections == 0 then .ret (t, .throw .logicError) else
  finish t (lift (Toolbox.checkStartSets t.prodById t.onlyOutflow startSets)) fun _ =>
  let b := t.ensureBuilt
  let t := b.1
  finish t (lift b.2) fun _ =>
  finish t (computeSolution t.upstream t.downstream t.pvol t.onlyOutflow t.prodById fuel startSets)
    fun sol => .ret (t, .ok sol)

/-- A call a thread makes on its toolbox.  Toolbox.hpp:55-109, Toolbox.cpp:276-306. -/
inductive Request (R : Type) where
  | assignPoreVolume (pvol : List R)
  | assignConnectionFlux (flux : ConnectionValues R)
  | assignInflowFlux (inflow : InflowFlux R)
  | injection (startSets : List CellSet)
  | production (startSets : List CellSet)

/-- What a thread goes on with after diagnostics: it keeps the answer, also when that is an
    exception; undefined behaviour and a call that does not return are the end.
    Toolbox.cpp:296-306. -/
def keepAnswer (go : Toolbox R → List (Res (Solution R)) → Prog (List (Res (Solution R))))
    (answers : List (Res (Solution R))) (x : Toolbox R × Res (Solution R)) :
    Prog (List (Res (Solution R))) :=
  match x.2 with
  | .ok sol => go x.1 (answers ++ [.ok sol])
  | .throw e => go x.1 (answers ++ [.throw e])
  | .ub u => .ret (answers ++ [.ub u])
  | .diverge => .ret (answers ++ [.diverge])

/-- The calls of one thread on its toolbox; it collects the answers of the diagnostics.
    Toolbox.cpp:276-306. -/
def session (fuel : Nat) : List (Request R) → Toolbox R → List (Res (Solution R)) →
    Prog (List (Res (Solution R)))
  | [], _, answers => .ret answers
  | .assignPoreVolume pv :: rest, t, answers =>
    session fuel rest (t.assignPoreVolume pv).1 answers
  | .assignConnectionFlux f :: rest, t, answers =>
    session fuel rest (t.assignConnectionFlux f).1 answers
  | .assignInflowFlux m :: rest, t, answers =>
    session fuel rest (t.assignInflowFlux m) answers
  | .injection s :: rest, t, answers =>
    Prog.andThen (injDiag t fuel s) (keepAnswer (session fuel rest) answers)
  | .production s :: rest, t, answers =>
    Prog.andThen (prodDiag t fuel s) (keepAnswer (session fuel rest) answers)

/-- A program of several threads: the heap they share, what each of them still has to do, and
    the accesses so far, latest first (thread and address).  Threads of a program that uses
    Toolbox.hpp:55-109. -/
structure Config (α : Type) where
  heap : Heap
  threads : List (Prog α)
  log : List (Nat × Nat)

/-- Thread `i` gets a turn: its next access.  A thread that has finished, or does not exist,
    does nothing.  `none`: the access is to an address where no block is, or the thread takes a block
    for one of another kind.  tarjan.c:361-542. -/
def Config.turn {α : Type} (c : Config α) (i : Nat) : Option (Config α) :=
  match c.threads[i]? with
  | none => some c
  | some (.ret _) => some c
  | some .fault => none
  | some (.malloc o k) =>
    match Heap.malloc o c.heap with
    | some (h, .ok p) =>
      some { heap := h, threads := c.threads.set i (k p),
             log := (p.toList.map fun a => (i, a)) ++ c.log }
    | _ => none
  | some (.free a k) =>
    match Heap.free (some a) c.heap with
    | some (h, .ok ()) =>
      some { heap := h, threads := c.threads.set i k, log := (i, a) :: c.log }
    | _ => none
  | some (.load a k) =>
    match Heap.load (some a) c.heap with
    | some (h, .ok o) =>
      some { heap := h, threads := c.threads.set i (k o), log := (i, a) :: c.log }
    | _ => none
  | some (.store a o k) =>
    match Heap.store (some a) o c.heap with
    | some (h, .ok ()) =>
      some { heap := h, threads := c.threads.set i k, log := (i, a) :: c.log }
    | _ => none

/-- The threads get turns in the order a schedule says.  tarjan.c:361-542. -/
def Config.runSchedule {α : Type} : List Nat → Config α → Option (Config α)
  | [], c => some c
  | i :: rest, c =>
    match c.turn i with
    | none => none
    | some c' => runSchedule rest c'

end Verif.Threads
