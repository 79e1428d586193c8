/-
The cases of tests/test_tarjan.cpp, evaluated on the model: a check of the model, not a proof
about it.  The expected values are those in the file, which pass for the code itself.
-/
import Verif.Model.Tarjan

namespace Verif.Tests.Tarjan
open Verif.Tarjan

/-- All allocations succeed. -/
def mem : AllocSCC := ⟨true, true, true⟩

/-- The components of a result, in order. -/
def components (scc : SCCResult) : Option (List (List Int)) :=
  (List.range (getNumComponents scc)).mapM fun k =>
    match getStrongComponent scc k with
    | .ok c => some c
    | _ => none

/-- The components of a result, and those after reversing it. -/
def both (r : Option SCCResult) : Option (List (List Int) × List (List Int)) :=
  r.bind fun scc =>
    match reverseSccResult mem (some scc) with
    | .ok (true, some rev) => (components scc).bind fun a => (components rev).map fun b => (a, b)
    | _ => none

def all (nv : Nat) (ia : List Nat) (ja : List Int) : Option (List (List Int) × List (List Int)) :=
  match tarjan true true mem nv ia ja 100 with
  | .ok r => both r
  | _ => none

def reachable (nv : Nat) (ia : List Nat) (ja : List Int) (starts : List Int) :
    Option (List (List Int) × List (List Int)) :=
  match reachableSccs mem nv ia ja starts (createWorkspace true true nv) 100 with
  | .ok r => both r.1
  | _ => none

/-- test_tarjan.cpp:84, `FullySeparable` -/
example : all 4 [0, 0, 1, 2, 4] [0, 0, 1, 2]
    = some ([[0], [1], [2], [3]],
      [[3], [2], [1], [0]]) := by decide +kernel

/-- test_tarjan.cpp:121, `FullySeparableSparse` -/
example : reachable 4 [0, 2, 3, 4, 4] [1, 2, 3, 3] [2]
    = some ([[3], [2]],
      [[2], [3]]) := by decide +kernel

/-- test_tarjan.cpp:162, `Loop` -/
example : all 4 [0, 1, 2, 3, 4] [2, 0, 3, 1]
    = some ([[1, 3, 2, 0]],
      [[1, 3, 2, 0]]) := by decide +kernel

/-- test_tarjan.cpp:206, `LoopSparse` -/
example : reachable 4 [0, 1, 2, 3, 4] [1, 3, 0, 2] [2]
    = some ([[3, 1, 0, 2]],
      [[3, 1, 0, 2]]) := by decide +kernel

/-- test_tarjan.cpp:253, `DualPath` -/
example : all 4 [0, 0, 2, 3, 4] [0, 0, 3, 1]
    = some ([[0], [1], [3], [2]],
      [[2], [3], [1], [0]]) := by decide +kernel

/-- test_tarjan.cpp:294, `DualPathSparse` -/
example : reachable 4 [0, 2, 3, 3, 4] [1, 2, 3, 2] [1]
    = some ([[2], [3], [1]],
      [[1], [3], [2]]) := by decide +kernel

/-- test_tarjan.cpp:338, `IsolatedFlows` -/
example : all 4 [0, 0, 1, 2, 2] [3, 0]
    = some ([[0], [3], [1], [2]],
      [[2], [1], [3], [0]]) := by decide +kernel

/-- test_tarjan.cpp:378, `IsolatedFlowsSparse` -/
example : reachable 4 [0, 1, 1, 1, 2] [2, 1] [3]
    = some ([[1], [3]],
      [[3], [1]]) := by decide +kernel

/-- test_tarjan.cpp:435, `CentreLoop` -/
example : all 16 [0, 2, 4, 6, 7, 9, 10, 12, 13, 15, 16, 18, 19, 20, 22, 24, 24] [1, 4, 2, 5, 3, 6, 7, 5, 8, 6, 7, 10, 11, 9, 12, 5, 9, 11, 15, 13, 9, 14, 10, 15]
    = some ([[15], [11], [7], [6, 5, 9, 10], [14], [13], [12], [8], [4], [3], [2], [1], [0]],
      [[0], [1], [2], [3], [4], [8], [12], [13], [14], [6, 5, 9, 10], [7], [11], [15]]) := by decide +kernel

/-- test_tarjan.cpp:503, `CentreLoopSparse` -/
example : reachable 16 [0, 2, 4, 6, 7, 9, 10, 12, 13, 15, 16, 18, 19, 20, 22, 24, 24] [1, 4, 2, 5, 3, 6, 7, 5, 8, 6, 7, 10, 11, 9, 12, 5, 9, 11, 15, 13, 9, 14, 10, 15] [5, 12]
    = some ([[15], [11], [7], [9, 10, 6, 5], [14], [13], [12]],
      [[12], [13], [14], [9, 10, 6, 5], [7], [11], [15]]) := by decide +kernel

/-- test_tarjan.cpp:576, `CentreLoopSource12` -/
example : all 16 [0, 1, 2, 4, 5, 7, 8, 10, 11, 13, 14, 16, 17, 19, 20, 22, 22] [1, 2, 3, 6, 7, 0, 5, 6, 7, 10, 11, 4, 9, 5, 9, 11, 15, 8, 13, 14, 10, 15]
    = some ([[15], [11], [7], [5, 9, 10, 6], [3], [2], [1], [0], [4], [8], [14], [13], [12]],
      [[12], [13], [14], [8], [4], [0], [1], [2], [3], [5, 9, 10, 6], [7], [11], [15]]) := by decide +kernel

/-- test_tarjan.cpp:642, `CentreLoopSource12Sparse` -/
example : reachable 16 [0, 1, 2, 4, 5, 7, 8, 10, 11, 13, 14, 16, 17, 19, 20, 22, 22] [1, 2, 3, 6, 7, 0, 5, 6, 7, 10, 11, 4, 9, 5, 9, 11, 15, 8, 13, 14, 10, 15] [7, 14]
    = some ([[15], [11], [7], [6, 5, 9, 10], [14]],
      [[14], [6, 5, 9, 10], [7], [11], [15]]) := by decide +kernel

end Verif.Tests.Tarjan
