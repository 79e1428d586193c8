/-
Model of opm/utility/graph/tarjan.c: strongly connected components on explicit
`malloc`ed storage, with the vertex stack living in the array of component start
pointers and the component stack living in the array of component contents.
-/
import Verif.Model.Res

namespace Verif.Tarjan

/-- tarjan.c:34 `DONE`. -/
def DONE : Int := -2

/-- tarjan.c:34 `REMAINING`. -/
def REMAINING : Int := -1

/-- tarjan.c:36-43 `struct TarjanWorkSpace`.  The sources carve `status`, `link` and `time`
    out of one block; the model gives each its own bounds, so running from one into the
    next counts as an out-of-bounds access. -/
structure WorkSpace where
  nvert : Nat
  status : Mem Int
  link : Mem Int
  time : Mem Int

/-- tarjan.c:45-53 `struct TarjanSCCResult`.

    The stack pointers address the next free slot and the stacks grow downwards, so the
    pointer of a full component stack is `vert - 1`.  The model stores the index of the top
    element instead, i.e. the pointer plus one: `vtop = vstack - start + 1`,
    `vbase = vstart - start + 1`, `ctop = cstack - vert + 1`, `cbase = cstart - vert + 1`.
    (C does not define the pointer `vert - 1` even if it is never dereferenced; the model
    does not count forming it as undefined.) -/
structure SCCResult where
  ncomp : Nat
  start : Mem Nat
  vert : Mem Int
  vtop : Nat
  vbase : Nat
  ctop : Nat
  cbase : Nat

/-- The two structures a search works on.  tarjan.c:36-53. -/
structure Run where
  work : WorkSpace
  scc : SCCResult

/-- `a - b` for `size_t`.  tarjan.c:61 and 216. -/
def sizeSub (a b : Nat) : Nat :=
  if b ≤ a then a - b else 18446744073709551616 + a - b

/-- tarjan.c:55-62 `initialise_stacks`. -/
def initialiseStacks (nvert : Nat) (scc : SCCResult) : SCCResult :=
  { scc with vtop := nvert + 1, vbase := nvert + 1, ctop := nvert, cbase := nvert }

/-- tarjan.c:64-70 `assign_int_vector`. -/
def assignIntVector (n : Nat) (val : Int) (v : Mem Int) : Res (Mem Int) :=
  forEach (List.range n) v fun v i => wrM v i val

/-- tarjan.c:72-88 `copy_int_vector` with `src` and `dst` given as array and offset.  The
    `memcpy` used for long vectors is the same copy. -/
def copyIntVector (n : Nat) (src : Mem Int) (srcOff : Nat) (dst : Mem Int) (dstOff : Nat) :
    Res (Mem Int) :=
  forEach (List.range n) dst fun dst i => do
    let x ← rdM src (srcOff + i)
    wrM dst (dstOff + i) x

/-- Outcomes of the allocations in `allocate_scc_result` (true: memory was obtained).
    tarjan.c:95-108. -/
structure AllocSCC where
  scc : Bool
  start : Bool
  vert : Bool

/-- All allocations succeeded.  tarjan.c:97-107. -/
def AllocSCC.all (a : AllocSCC) : Bool := a.scc && (a.start && a.vert)

/-- tarjan.c:90-111 `allocate_scc_result`. -/
def allocateSccResult (a : AllocSCC) (nvert : Nat) : Option SCCResult :=
  if a.scc then
    if !a.start || !a.vert then none
    else some { ncomp := 0, start := List.replicate (nvert + 1) none,
                vert := List.replicate nvert none, vtop := 0, vbase := 0, ctop := 0, cbase := 0 }
  else none

/-- tarjan.c:124 `push(vstack) = x`. -/
def pushV (scc : SCCResult) (x : Nat) : Res SCCResult :=
  if scc.vtop = 0 then .ub .outOfBounds
  else do
    let start ← wrM scc.start (scc.vtop - 1) x
    pure { scc with start := start, vtop := scc.vtop - 1 }

/-- tarjan.c:124 `push(cstack) = x`. -/
def pushC (scc : SCCResult) (x : Int) : Res SCCResult :=
  if scc.ctop = 0 then .ub .outOfBounds
  else do
    let vert ← wrM scc.vert (scc.ctop - 1) x
    pure { scc with vert := vert, ctop := scc.ctop - 1 }

/-- tarjan.c:141-151, the loop of `capture_scc`.  Every round pops the component stack and
    the assertion stops the loop when the stack is empty, so a number of rounds above the
    stack height is never used up. -/
def captureLoop (c : Nat) : Nat → Run → Res Run
  | 0, _ => .diverge
  | rounds + 1, s => do
    assertThat (s.scc.ctop != s.scc.cbase)
    let vertex ← rdM s.scc.vert s.scc.ctop
    let v := sizeOfInt vertex
    let status ← wrM s.work.status v DONE
    let e ← rdM s.scc.start (s.scc.ncomp + 1)
    let start ← wrM s.scc.start (s.scc.ncomp + 1) (e + 1)
    let vert ← wrM s.scc.vert e vertex
    let s' : Run := { work := { s.work with status := status }, scc := { s.scc with
      start := start, vert := vert, ctop := s.scc.ctop + 1 } }
    if v ≠ c then captureLoop c rounds s' else pure s'

/-- tarjan.c:126-156 `capture_scc`. -/
def captureScc (c : Nat) (s : Run) : Res Run := do
  let e ← rdM s.scc.start s.scc.ncomp
  let start ← wrM s.scc.start (s.scc.ncomp + 1) e
  let s' ← captureLoop c (s.scc.cbase - s.scc.ctop + 1)
    { s with scc := { s.scc with start := start } }
  pure { s' with scc := { s'.scc with ncomp := s'.scc.ncomp + 1 } }

/-- tarjan.c:165-168, the first half of `complete_dfs_from_vertex`. -/
def captureIfRoot (c : Nat) (s : Run) : Res Run := do
  let l ← rdM s.work.link c
  let t ← rdM s.work.time c
  if l = t then captureScc c s else pure s

/-- tarjan.c:170-177, the second half of `complete_dfs_from_vertex`. -/
def popVertex (c : Nat) (s : Run) : Res Run :=
  let s : Run := { s with scc := { s.scc with vtop := s.scc.vtop + 1 } }
  if s.scc.vtop ≠ s.scc.vbase then do
    let v ← rdM s.scc.start s.scc.vtop
    let lv ← rdM s.work.link v
    let lc ← rdM s.work.link c
    let link ← wrM s.work.link v (if lv < lc then lv else lc)
    pure { s with work := { s.work with link := link } }
  else pure s

/-- tarjan.c:158-178 `complete_dfs_from_vertex`. -/
def completeDfsFromVertex (c : Nat) (s : Run) : Res Run := do
  let s ← captureIfRoot c s
  popVertex c s

/-- tarjan.c:196-205, the second half of `dfs_from_descendant`. -/
def visitChild (c child : Nat) (s : Run) : Res Run := do
  let st ← rdM s.work.status child
  if st = REMAINING then do
    let scc ← pushV s.scc child
    pure { s with scc := scc }
  else if st ≥ 0 then do
    let lc ← rdM s.work.link c
    let tch ← rdM s.work.time child
    let link ← wrM s.work.link c (if lc < tch then lc else tch)
    pure { s with work := { s.work with link := link } }
  else do
    assertThat (st == DONE)
    pure s

/-- tarjan.c:180-206 `dfs_from_descendant`. -/
def dfsFromDescendant (c : Nat) (ia : List Nat) (ja : List Int) (s : Run) : Res Run := do
  let st ← rdM s.work.status c
  assertThat (st > 0)
  let b ← rd ia c
  let x ← rd ja (b + (st - 1).toNat)
  let child := sizeOfInt x
  let status ← wrM s.work.status c (st - 1)
  visitChild c child { s with work := { s.work with status := status } }

/-- tarjan.c:208-220 `discover_vertex`; returns the advanced clock. -/
def discoverVertex (c : Nat) (ia : List Nat) (clock : Int) (s : Run) : Res (Run × Int) := do
  let e ← rd ia (c + 1)
  let b ← rd ia c
  let deg ← intOfSize (sizeSub e b)
  let status ← wrM s.work.status c deg
  let clock' ← intSucc clock
  let link ← wrM s.work.link c clock
  let time ← wrM s.work.time c clock
  let ci ← intOfSize c
  let scc ← pushC s.scc ci
  pure ({ work := { s.work with status := status, link := link, time := time }, scc := scc }, clock')

/-- tarjan.c:236-241 `tarjan_initialise_csr`. -/
def initialiseCsr (scc : SCCResult) : Res SCCResult := do
  let start ← wrM scc.start 0 0
  pure { scc with ncomp := 0, start := start }

/-- tarjan.c:243-253 `tarjan_initialise`. -/
def initialise (work : WorkSpace) (scc : SCCResult) : Res Run := do
  let scc := initialiseStacks work.nvert scc
  let status ← assignIntVector work.nvert REMAINING work.status
  let scc ← initialiseCsr scc
  pure { work := { work with status := status }, scc := scc }

/-- tarjan.c:275-279, discovery at the head of the main loop. -/
def discoverIfRemaining (c : Nat) (ia : List Nat) (clock : Int) (s : Run) : Res (Run × Int) := do
  let st ← rdM s.work.status c
  if st = REMAINING then discoverVertex c ia clock s else pure (s, clock)

/-- tarjan.c:281-290, the rest of the main loop's body. -/
def completeOrDescend (c : Nat) (ia : List Nat) (ja : List Int) (s : Run) : Res Run := do
  let st ← rdM s.work.status c
  if st = 0 then completeDfsFromVertex c s else dfsFromDescendant c ia ja s

/-- tarjan.c:270-290, one round of the main loop. -/
def localBody (ia : List Nat) (ja : List Int) (s : Run) (clock : Int) : Res (Run × Int) := do
  let c ← rdM s.scc.start s.scc.vtop
  let st ← rdM s.work.status c
  assertThat (st != DONE)
  assertThat (st ≥ -2)
  let (s, clock) ← discoverIfRemaining c ia clock s
  let s ← completeOrDescend c ia ja s
  pure (s, clock)

/-- tarjan.c:269-291, the main loop.  `fuel` is the number of rounds that may still be made;
    what is left is returned. -/
def localLoop (ia : List Nat) (ja : List Int) : Nat → Run → Int → Res (Run × Nat)
  | fuel, s, clock =>
    if s.scc.vtop = s.scc.vbase then .ok (s, fuel)
    else match fuel with
      | 0 => .diverge
      | fuel + 1 => (localBody ia ja s clock).bind fun r => localLoop ia ja fuel r.1 r.2

/-- tarjan.c:255-294 `tarjan_local`. -/
def tarjanLocal (start : Nat) (ia : List Nat) (ja : List Int) (s : Run) (fuel : Nat) :
    Res (Run × Nat) := do
  let scc ← pushV s.scc start
  let r ← localLoop ia ja fuel { s with scc := scc } 0
  assertThat (r.1.scc.ctop == r.1.scc.cbase)
  pure r

/-- tarjan.c:296-309 `tarjan_find_start`; the first argument is `nvert - start`. -/
def findStart (work : WorkSpace) : Nat → Nat → Res Nat
  | 0, start => .ok start
  | k + 1, start => do
    let st ← rdM work.status start
    if st = DONE then findStart work k (start + 1) else pure start

/-- tarjan.c:324-329, the loop of `tarjan_global`.  Each round completes at least the vertex
    `start`, so there are at most `nvert` rounds; the first argument counts them down. -/
def globalLoop (ia : List Nat) (ja : List Int) : Nat → Nat → Run → Nat → Res (Run × Nat)
  | rounds, start, s, fuel =>
    if start < s.work.nvert then
      match rounds with
      | 0 => .diverge
      | rounds + 1 => do
        let r ← tarjanLocal start ia ja s fuel
        let next ← findStart r.1.work (r.1.work.nvert - start) start
        globalLoop ia ja rounds next r.1 r.2
    else .ok (s, fuel)

/-- tarjan.c:311-330 `tarjan_global`. -/
def tarjanGlobal (ia : List Nat) (ja : List Int) (work : WorkSpace) (scc : SCCResult) (fuel : Nat) :
    Res (Run × Nat) := do
  let s ← initialise work scc
  let start ← findStart s.work s.work.nvert 0
  globalLoop ia ja s.work.nvert start s fuel

/-- tarjan.c:332-351 `reverse_scc_core`. -/
def reverseSccCore (src dst : SCCResult) : Res SCCResult := do
  let dst ← initialiseCsr dst
  forEach (List.range src.ncomp) dst fun dst k => do
    let comp := src.ncomp - k
    let e ← rdM src.start comp
    let b ← rdM src.start (comp - 1)
    let n := sizeSub e b
    let d ← rdM dst.start dst.ncomp
    let start ← wrM dst.start (dst.ncomp + 1) d
    let vert ← copyIntVector n src.vert b dst.vert d
    let start ← wrM start (dst.ncomp + 1) (d + n)
    pure { dst with start := start, vert := vert, ncomp := dst.ncomp + 1 }

/-- tarjan.c:365-391 `create_tarjan_workspace`; the flags are the outcomes of the two
    allocations.  `none` is the null pointer. -/
def createWorkspace (wsOk statusOk : Bool) (nvert : Nat) : Option WorkSpace :=
  if wsOk then
    if statusOk then some
      { nvert := nvert
        status := List.replicate nvert none
        link := List.replicate nvert none
        time := List.replicate nvert none }
    else none
  else none

/-- tarjan.c:415-419 `tarjan_get_numcomponents`. -/
def getNumComponents (scc : SCCResult) : Nat := scc.ncomp

/-- tarjan.c:421-438 `tarjan_get_strongcomponent`, followed by the caller reading
    `vertex[0 .. size-1]`. -/
def getStrongComponent (scc : SCCResult) (compID : Nat) : Res (List Int) := do
  assertThat (compID < getNumComponents scc)
  let b ← rdM scc.start compID
  let e ← rdM scc.start (compID + 1)
  forEach (List.range (sizeSub e b)) [] fun acc i => do
    let x ← rdM scc.vert (b + i)
    pure (acc ++ [x])

/-- tarjan.c:453-481 `tarjan`. -/
def tarjan (wsOk statusOk : Bool) (a : AllocSCC) (nv : Nat) (ia : List Nat) (ja : List Int)
    (fuel : Nat) : Res (Option SCCResult) :=
  match createWorkspace wsOk statusOk nv, allocateSccResult a nv with
  | some work, some scc => do
    let r ← tarjanGlobal ia ja work scc fuel
    pure (some r.1.scc)
  | _, _ => .ok none

/-- tarjan.c:508-516, the loop of `tarjan_reachable_sccs`. -/
def reachableLoop (ia : List Nat) (ja : List Int) (startPts : List Int) (s : Run) (fuel : Nat) :
    Res (Run × Nat) :=
  forEach startPts (s, fuel) fun r p => do
    let start := sizeOfInt p
    let st ← rdM r.1.work.status start
    if st = DONE then pure r else tarjanLocal start ia ja r.1 r.2

/-- tarjan.c:483-520 `tarjan_reachable_sccs`; `none` is the null pointer.  Returns the result
    and the workspace as the call leaves it. -/
def reachableSccs (a : AllocSCC) (nv : Nat) (ia : List Nat) (ja : List Int) (startPts : List Int)
    (work : Option WorkSpace) (fuel : Nat) : Res (Option SCCResult × Option WorkSpace) :=
  match work with
  | none => .ub .assertFail
  | some work => do
    assertThat (work.nvert ≥ nv)
    match allocateSccResult a work.nvert with
    | none => pure (none, some work)
    | some scc => do
      let s ← initialise work scc
      let r ← reachableLoop ia ja startPts s fuel
      pure (some r.1.scc, some r.1.work)

/-- tarjan.c:522-542 `tarjan_reverse_sccresult` (with `swap_scc`, tarjan.c:353-359).  The stack
    pointers, meaningless after a search, keep their values. -/
def reverseSccResult (a : AllocSCC) (scc : Option SCCResult) : Res (Bool × Option SCCResult) :=
  match scc with
  | none => .ub .nullDeref
  | some scc => do
    let n ← rdM scc.start scc.ncomp
    match allocateSccResult a n with
    | none => pure (false, some scc)
    | some rev => do
      let rev ← reverseSccCore scc rev
      pure (true, some { scc with start := rev.start, vert := rev.vert })

end Verif.Tarjan
