/-
The C heap: `malloc`, `free` and access through pointers, as tarjan.c uses them.
This file models the language level rather than a particular source file.
-/
import Verif.Model.Tarjan

namespace Verif.Heap
open Verif.Tarjan

/-- Pointers to the start of a block; `none` is `NULL`.  Addresses are natural numbers.
    Every allocation gets an address that was never used before, so an access through a
    pointer to a freed block is always noticed.  Pointers of tarjan.c:36-53. -/
abbrev Ptr := Option Nat

/-- tarjan.c:36-43 `struct TarjanWorkSpace`; `link` and `time` point into the block
    of `status`. -/
structure WorkStruct where
  nvert : Nat
  status : Ptr

/-- tarjan.c:45-53 `struct TarjanSCCResult`; the stack pointers as in
    `Verif.Tarjan.SCCResult`. -/
structure SccStruct where
  ncomp : Nat
  start : Ptr
  vert : Ptr
  vtop : Nat
  vbase : Nat
  ctop : Nat
  cbase : Nat

/-- What a block holds.  Blocks allocated at tarjan.c:95-101 and 370-375. -/
inductive Obj where
  /-- a structure to which nothing was written yet -/
  | raw
  | work (w : WorkStruct)
  /-- the block tarjan.c:375 allocates for `status`, `link` and `time` -/
  | threeInts (status link time : Mem Int)
  | scc (s : SccStruct)
  | sizes (m : Mem Nat)
  | ints (m : Mem Int)

/-- The heap: the blocks that were allocated and not freed, the next unused address,
    and the outcomes of the allocations still to come (`fails k`: the `k`-th
    allocation from the start of the program returns `NULL`; otherwise it skips
    `gap k` unused addresses).  malloc and free in tarjan.c:90-111 and 361-413. -/
structure Heap where
  block : Nat → Option Obj
  next : Nat
  calls : Nat
  fails : Nat → Bool
  gap : Nat → Nat

/-- A call on the heap.  `none`: the call used a pointer that addresses no block (it
    was freed, or never allocated) or a block of another kind, or freed such a pointer.
    Otherwise the heap after the call and how the call ended.  Calls of tarjan.c:361-542. -/
abbrev H (α : Type) := Heap → Option (Heap × Res α)

/-- Calls of tarjan.c:361-542. -/
def H.pure {α : Type} (a : α) : H α := fun h => some (h, .ok a)

/-- Statements of tarjan.c:361-542 in sequence. -/
def H.bind {α β : Type} (m : H α) (f : α → H β) : H β := fun h =>
  match m h with
  | none => none
  | some (h', .ok a) => f a h'
  | some (h', .throw e) => some (h', .throw e)
  | some (h', .ub u) => some (h', .ub u)
  | some (h', .diverge) => some (h', .diverge)

/-- See `H.pure` and `H.bind`. -/
instance : Monad H where
  pure := H.pure
  bind := H.bind

/-- A computation that does not touch the heap.  For example tarjan.c:255-330. -/
def lift {α : Type} (r : Res α) : H α := fun h => some (h, r)

/-- `malloc` of a block that will hold `o`.  tarjan.c:95, 100-101, 370 and 375. -/
def malloc (o : Obj) : H Ptr := fun h =>
  if h.fails h.calls then some ({ h with calls := h.calls + 1 }, .ok none)
  else some ({ h with
    block := fun a => if a = h.next + h.gap h.calls then some o else h.block a
    next := h.next + h.gap h.calls + 1
    calls := h.calls + 1 }, .ok (some (h.next + h.gap h.calls)))

/-- `free (p)`.  tarjan.c:397-400 and 408-412. -/
def free (p : Ptr) : H Unit := fun h =>
  match p with
  | none => some (h, .ok ())
  | some a =>
    match h.block a with
    | none => none
    | some _ => some ({ h with block := fun b => if b = a then none else h.block b }, .ok ())

/-- The content of the block `p` points to.  tarjan.c:393-438 and 483-542. -/
def load (p : Ptr) : H Obj := fun h =>
  match p with
  | none => some (h, .ub .nullDeref)
  | some a =>
    match h.block a with
    | none => none
    | some o => some (h, .ok o)

/-- Change of the content of the block `p` points to.  tarjan.c:98, 353-359 and 373-386. -/
def store (p : Ptr) (o : Obj) : H Unit := fun h =>
  match p with
  | none => some (h, .ub .nullDeref)
  | some a =>
    match h.block a with
    | none => none
    | some _ => some ({ h with block := fun b => if b = a then some o else h.block b }, .ok ())

/-- The block is of another kind than the pointer.  tarjan.c:361-542. -/
def fault {α : Type} : H α := fun _ => none

/-- `*p` for a `struct TarjanWorkSpace *`.  tarjan.c:397. -/
def loadWorkStruct (p : Ptr) : H WorkStruct := do
  match ← load p with
  | .work w => pure w
  | _ => fault

/-- `*p` for a `struct TarjanSCCResult *`.  tarjan.c:353-359 and 408-409. -/
def loadSccStruct (p : Ptr) : H SccStruct := do
  match ← load p with
  | .scc s => pure s
  | _ => fault

/-- The structure at `p` and its arrays, in the form `Verif.Tarjan` computes with.
    tarjan.c:475 and 494-516. -/
def loadWork (p : Ptr) : H WorkSpace := do
  let w ← loadWorkStruct p
  match ← load w.status with
  | .threeInts status link time =>
    pure { nvert := w.nvert, status := status, link := link, time := time }
  | _ => fault

/-- Write back what `Verif.Tarjan` computed.  tarjan.c:475 and 494-516. -/
def storeWork (p : Ptr) (x : WorkSpace) : H Unit := do
  let w ← loadWorkStruct p
  store w.status (.threeInts x.status x.link x.time)
  store p (.work { w with nvert := x.nvert })

/-- The structure at `p` and its arrays, in the form `Verif.Tarjan` computes with.
    tarjan.c:415-542. -/
def loadScc (p : Ptr) : H SCCResult := do
  let s ← loadSccStruct p
  match ← load s.start with
  | .sizes start =>
    match ← load s.vert with
    | .ints vert =>
      pure { ncomp := s.ncomp, start := start, vert := vert, vtop := s.vtop, vbase := s.vbase,
             ctop := s.ctop, cbase := s.cbase }
    | _ => fault
  | _ => fault

/-- Write back what `Verif.Tarjan` computed.  tarjan.c:454-542. -/
def storeScc (p : Ptr) (x : SCCResult) : H Unit := do
  let s ← loadSccStruct p
  store s.start (.sizes x.start)
  store s.vert (.ints x.vert)
  store p (.scc { s with ncomp := x.ncomp, vtop := x.vtop, vbase := x.vbase, ctop := x.ctop,
                         cbase := x.cbase })

end Verif.Heap
