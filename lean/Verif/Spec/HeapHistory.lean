/-
Histories of calls of the C interface (opm/utility/graph/tarjan.h) by a program that
owns the pointers it gets and passes them on as the interface asks for.
-/
import Verif.Model.TarjanHeap

namespace Verif.Spec
open Verif.Heap Verif.Tarjan

/-- A pointer the program got from the interface; the program sets it to null once it has
    destroyed the object. -/
inductive Handle where
  | ws (p : Ptr)
  | res (p : Ptr)

/-- A call.  Pointer arguments are positions in the list of all pointers the program got so
    far. -/
inductive ApiCall where
  | createWorkspace (nvert : Nat)
  | destroyWorkspace (ws : Nat)
  | tarjan (nv : Nat) (ia : List Nat) (ja : List Int)
  | reachable (nv : Nat) (ia : List Nat) (ja : List Int) (startPts : List Int) (ws : Nat)
  | reverse (res : Nat)
  | destroyResult (res : Nat)

/-- One call on the heap: the pointers the program holds afterwards.  A position that holds
    no pointer of the right type is no call at all. -/
def apiStep (fuel : Nat) (hs : List Handle) : ApiCall → H (List Handle)
  | .createWorkspace n => do
    let p ← Heap.createWorkspace n
    pure (hs ++ [.ws p])
  | .destroyWorkspace i =>
    match hs[i]? with
    | some (.ws p) => do
      Heap.destroyWorkspace p
      pure (hs.set i (.ws none))
    | _ => pure hs
  | .tarjan nv ia ja => do
    let p ← Heap.tarjan nv ia ja fuel
    pure (hs ++ [.res p])
  | .reachable nv ia ja pts i =>
    match hs[i]? with
    | some (.ws w) => do
      let p ← Heap.reachableSccs nv ia ja pts w fuel
      pure (hs ++ [.res p])
    | _ => pure hs
  | .reverse i =>
    match hs[i]? with
    | some (.res p) => do
      let _ ← Heap.reverseSccResult p
      pure hs
    | _ => pure hs
  | .destroyResult i =>
    match hs[i]? with
    | some (.res p) => do
      Heap.destroySccResult p
      pure (hs.set i (.res none))
    | _ => pure hs

/-- A history of calls. -/
def apiRun (fuel : Nat) : List ApiCall → List Handle → H (List Handle)
  | [], hs => pure hs
  | c :: cs, hs => do
    let hs ← apiStep fuel hs c
    apiRun fuel cs hs

/-- What a pointer stands for: an object, or nothing if it is null. -/
inductive Value where
  | ws (x : Option WorkSpace)
  | res (x : Option SCCResult)

/-- Outcomes of the allocations one call makes. -/
structure CallAlloc where
  workspace : Bool
  status : Bool
  result : AllocSCC

/-- Every allocation succeeds. -/
def CallAlloc.good : CallAlloc := ⟨true, true, ⟨true, true, true⟩⟩

/-- One call on objects that are values, independent of each other. -/
def valueStep (fuel : Nat) (a : CallAlloc) (vs : List Value) : ApiCall → Res (List Value)
  | .createWorkspace n => .ok (vs ++ [.ws (Tarjan.createWorkspace a.workspace a.status n)])
  | .destroyWorkspace i =>
    match vs[i]? with
    | some (.ws _) => .ok (vs.set i (.ws none))
    | _ => .ok vs
  | .tarjan nv ia ja =>
    (Tarjan.tarjan a.workspace a.status a.result nv ia ja fuel).bind fun x => .ok (vs ++ [.res x])
  | .reachable nv ia ja pts i =>
    match vs[i]? with
    | some (.ws w) =>
      (Tarjan.reachableSccs a.result nv ia ja pts w fuel).bind fun x =>
        .ok (vs.set i (.ws x.2) ++ [.res x.1])
    | _ => .ok vs
  | .reverse i =>
    match vs[i]? with
    | some (.res x) =>
      (Tarjan.reverseSccResult a.result x).bind fun y => .ok (vs.set i (.res y.2))
    | _ => .ok vs
  | .destroyResult i =>
    match vs[i]? with
    | some (.res _) => .ok (vs.set i (.res none))
    | _ => .ok vs

/-- A history on values; the list gives the outcomes of the allocations of each call. -/
def valueRun (fuel : Nat) : List CallAlloc → List ApiCall → List Value → Res (List Value)
  | a :: as, c :: cs, vs => (valueStep fuel a vs c).bind fun vs => valueRun fuel as cs vs
  | _, _, vs => .ok vs

/-- What the program finds when it follows a pointer. -/
def Reads (h : Heap) : Handle → Value → Prop
  | .ws none, v => v = .ws none
  | .ws (some a), v => ∃ x, v = .ws (some x) ∧ loadWork (some a) h = some (h, .ok x)
  | .res none, v => v = .res none
  | .res (some a), v => ∃ x, v = .res (some x) ∧ loadScc (some a) h = some (h, .ok x)

/-- Number of blocks an object consists of: a workspace is a structure and an array, a result is
    a structure and two arrays. -/
def Handle.blocks : Handle → Nat
  | .ws none => 0
  | .ws (some _) => 2
  | .res none => 0
  | .res (some _) => 3

end Verif.Spec
