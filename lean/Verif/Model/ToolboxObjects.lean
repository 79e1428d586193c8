/-
Programs that work with several `Toolbox` objects: construction, moves, destruction and
calls.  A `Toolbox` owns a `unique_ptr<Impl>` (Toolbox.hpp:114); the model is a heap of
`Impl`s and the pointer held by each object.
Line numbers refer to Toolbox.cpp.
-/
import Verif.Model.Toolbox

namespace Verif.Toolbox
open Verif.Solver

variable {R : Type}

/-- One step of a program; objects are numbered in order of construction.  Toolbox.cpp:255-306. -/
inductive ObjOp (R : Type) where
  | create (g : ConnectivityGraph)
  /-- construct a new object from object `k` with the move constructor -/
  | moveConstruct (k : Nat)
  /-- `k = std::move(l)` -/
  | moveAssign (k l : Nat)
  | destroy (k : Nat)
  | call (k : Nat) (c : Call R)

/-- What a program sees of a call that comes back: that it returned, and with what, or which
    exception it threw.  Toolbox.cpp:276-306. -/
inductive Event (R : Type) where
  | returned
  | solution (s : Solution R)
  | thrown (e : Exc)

/-- The `Impl`s (`none` after `delete`) and the objects (`none` when destroyed; `some none` for
    a null pointer, `some (some a)` for a pointer to the `Impl` at `a`).
    Toolbox.hpp:114, Toolbox.cpp:255-274. -/
structure ObjHeap (R : Type) where
  mem : List (Option (Toolbox R)) := []
  objs : List (Option (Option Nat)) := []

namespace ObjHeap

/-- The pointer that an object holds; using an object that does not exist is undefined.
    Toolbox.cpp:255-306. -/
def pointer (h : ObjHeap R) (k : Nat) : Res (Option Nat) := rdM h.objs k

/-- Set the pointer of an object that exists.  Toolbox.cpp:263-274. -/
def setPointer (h : ObjHeap R) (k : Nat) (p : Option Nat) : Res (ObjHeap R) :=
  (h.pointer k).bind fun _ => .ok { h with objs := h.objs.set k (some p) }

/-- `delete` of a pointer that may be null.  Toolbox.cpp:260-261 and 268-274. -/
def delete (h : ObjHeap R) : Option Nat → Res (ObjHeap R)
  | none => .ok h
  | some a => (rdM h.mem a).bind fun _ => .ok { h with mem := h.mem.set a none }

variable [Arith R]

/-- The effect of a call on the `Impl`, and how it ends.  Toolbox.cpp:276-306. -/
def callOn (t : Toolbox R) : Call R → Toolbox R × Res (Event R)
  | .assignPoreVolume pvol =>
    let r := t.assignPoreVolume pvol
    (r.1, r.2.bind fun _ => .ok .returned)
  | .assignConnectionFlux flux =>
    let r := t.assignConnectionFlux flux
    (r.1, r.2.bind fun _ => .ok .returned)
  | .assignInflowFlux inflow => (t.assignInflowFlux inflow, .ok .returned)
  | .computeInjectionDiagnostics al fuel s =>
    let r := t.injDiag al fuel s
    (r.1, r.2.bind fun sol => .ok (.solution sol))
  | .computeProductionDiagnostics al fuel s =>
    let r := t.prodDiag al fuel s
    (r.1, r.2.bind fun sol => .ok (.solution sol))

/-- The program catches exceptions.  Toolbox.cpp:276-306. -/
def caught : Res (Event R) → Res (Event R)
  | .throw e => .ok (.thrown e)
  | r => r

/-- One step of a program, and what it sees.
    Toolbox.cpp:255-258 constructor, 260-261 destructor (`delete pImpl_`), 263-266 move constructor,
    268-274 move assignment (`reset(rhs.release())`), 276-306 calls (`pImpl_->...`). -/
def step (h : ObjHeap R) : ObjOp R → Res (ObjHeap R × Event R)
  | .create g => .ok ({ mem := h.mem ++ [some (Toolbox.create g)], objs := h.objs ++ [some (some h.mem.length)] }, .returned)
  | .moveConstruct k => do
    let p ← h.pointer k
    let h ← h.setPointer k none
    pure ({ h with objs := h.objs ++ [some p] }, .returned)
  | .moveAssign k l => do
    let p ← h.pointer l
    let h ← h.setPointer l none
    let old ← h.pointer k
    let h ← h.setPointer k p
    let h ← h.delete old
    pure (h, .returned)
  | .destroy k => do
    let p ← h.pointer k
    let h ← h.delete p
    pure ({ h with objs := h.objs.set k none }, .returned)
  | .call k c => do
    match ← h.pointer k with
    | none => .ub .nullDeref
    | some a => do
      let t ← rdM h.mem a
      let r := callOn t c
      let e ← caught r.2
      pure ({ h with mem := h.mem.set a (some r.1) }, e)

/-- A whole program: the final heap and what each step saw.  Toolbox.cpp:255-306. -/
def run : List (ObjOp R) → ObjHeap R → Res (ObjHeap R × List (Event R))
  | [], h => .ok (h, [])
  | op :: ops, h => (h.step op).bind fun r => (run ops r.1).bind fun q => .ok (q.1, r.2 :: q.2)

/-- The number of `Impl`s that have not been deleted.  Toolbox.cpp:255-274. -/
def live (h : ObjHeap R) : Nat := (h.mem.filter Option.isSome).length

end ObjHeap
end Verif.Toolbox
