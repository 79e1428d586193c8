/-
Model of opm/flowdiagnostics/Solution.{hpp,cpp}.
Line numbers refer to Solution.cpp.
-/
import Verif.Model.Res
import Verif.Model.CellSet

namespace Verif

/-- Solution.cpp:40-71, class `Solution::Impl`. -/
structure Solution (R : Type) where
  tof : List R := []
  tracerToF : OMap CellSetID (CellSetValues R) := []
  tracer : OMap CellSetID (CellSetValues R) := []
  deriving Repr

namespace Solution
variable {R : Type}

/-- Solution.cpp:73-77 -/
def assignToF (s : Solution R) (tof : List R) : Solution R := { s with tof := tof }

/-- Solution.cpp:79-84 and 126-133 -/
def assignTimeOfFlight (s : Solution R) (i : CellSetID) (x : CellSetValues R) : Solution R :=
  { s with tracerToF := s.tracerToF.assign i x }

/-- Solution.cpp:86-91 and 126-133 -/
def assignConcentration (s : Solution R) (i : CellSetID) (x : CellSetValues R) : Solution R :=
  { s with tracer := s.tracer.assign i x }

/-- Solution.cpp:93-104 -/
def startPoints (s : Solution R) : List CellSetID := s.tracer.map fun t => t.1

/-- Solution.cpp:135-147 -/
def solutionValues (i : CellSetID) (soln : OMap CellSetID (CellSetValues R)) : CellSetValues R :=
  match soln.find i with
  | none => []
  | some x => x

/-- Solution.cpp:106-110 -/
def timeOfFlight (s : Solution R) : List R := s.tof

/-- Solution.cpp:112-117 -/
def timeOfFlightOf (s : Solution R) (i : CellSetID) : CellSetValues R := solutionValues i s.tracerToF

/-- Solution.cpp:119-124 -/
def concentration (s : Solution R) (i : CellSetID) : CellSetValues R := solutionValues i s.tracer

end Solution

/-! ### Solution objects, their copies, moves and destruction

A `Solution` object owns a `unique_ptr<Impl>`.  The model of a program working
with several such objects is a heap of `Impl`s and the pointer held by each
object.  (The class has no assignment operators: its move constructor is
user-declared, Solution.hpp:37-52.) -/

/-- Heap and objects: an `Impl` is `none` after `delete`; an object is `none` when destroyed, `some none`
    with a null pointer and `some (some a)` with a pointer to the `Impl` at `a`.
    Solution.hpp:90, Solution.cpp:157-178. -/
structure SolutionHeap (R : Type) where
  mem : List (Option (Solution R)) := []
  objs : List (Option (Option Nat)) := []
  deriving Repr

/-- The operations of the public interface, objects being numbered in order of
    construction.  Solution.cpp:157-173 and 204-220. -/
inductive SolutionOp (R : Type) where
  | create
  | copy (k : Nat)
  | move (k : Nat)
  | destroy (k : Nat)
  | assignGlobalToF (k : Nat) (t : List R)
  | assignToF (k : Nat) (i : CellSetID) (x : CellSetValues R)
  | assignConc (k : Nat) (i : CellSetID) (x : CellSetValues R)

namespace SolutionHeap
variable {R : Type}

/-- The pointer that object `k` holds; using an object that does not exist is undefined.
    Solution.cpp:157-220. -/
def pointer (h : SolutionHeap R) (k : Nat) : Res (Option Nat) := rdM h.objs k

/-- The address in `pImpl_` of object `k`; null if the object was moved from.
    Solution.cpp:180-220. -/
def deref (h : SolutionHeap R) (k : Nat) : Res Nat := do
  match ← h.pointer k with
  | none => .ub .nullDeref
  | some a => .ok a

/-- `pImpl_->f(...)`, Solution.cpp:204-220. -/
def modify (h : SolutionHeap R) (k : Nat) (f : Solution R → Solution R) : Res (SolutionHeap R) := do
  let a ← h.deref k
  let s ← rdM h.mem a
  pure { h with mem := h.mem.set a (some (f s)) }

/-- Reading through `pImpl_`, Solution.cpp:180-202. -/
def view (h : SolutionHeap R) (k : Nat) : Res (Solution R) := do
  let a ← h.deref k
  rdM h.mem a

/-- `delete` of a pointer that may be null.  Solution.cpp:162-163. -/
def delete (h : SolutionHeap R) : Option Nat → Res (SolutionHeap R)
  | none => .ok h
  | some a => do
    let _ ← rdM h.mem a
    pure { h with mem := h.mem.set a none }

/-- One operation.  Solution.cpp:157-160 default constructor, 162-163 destructor, 165-168 copy constructor,
    170-173 move constructor, 204-220 assignments. -/
def step (h : SolutionHeap R) : SolutionOp R → Res (SolutionHeap R)
  | .create => .ok { mem := h.mem ++ [some {}], objs := h.objs ++ [some (some h.mem.length)] }
  | .copy k => do
    let s ← h.view k
    pure { mem := h.mem ++ [some s], objs := h.objs ++ [some (some h.mem.length)] }
  | .move k => do
    let p ← h.pointer k
    pure { h with objs := h.objs.set k (some none) ++ [some p] }
  | .destroy k => do
    let p ← h.pointer k
    let h ← h.delete p
    pure { h with objs := h.objs.set k none }
  | .assignGlobalToF k t => h.modify k fun s => s.assignToF t
  | .assignToF k i x => h.modify k fun s => s.assignTimeOfFlight i x
  | .assignConc k i x => h.modify k fun s => s.assignConcentration i x

/-- A whole program.  Calls of Solution.cpp:157-220. -/
def run (ops : List (SolutionOp R)) : Res (SolutionHeap R) := forEach ops {} step

/-- The global field, read through a reference that `timeOfFlight()` returned when the `Impl` was at `a`.
    Solution.cpp:107-111 and 186-190. -/
def readReference (h : SolutionHeap R) (a : Nat) : Res (List R) := do
  let s ← rdM h.mem a
  pure s.timeOfFlight

/-- The number of `Impl`s that have not been deleted.  Solution.cpp:157-178. -/
def live (h : SolutionHeap R) : Nat := (h.mem.filter Option.isSome).length

end SolutionHeap

end Verif
