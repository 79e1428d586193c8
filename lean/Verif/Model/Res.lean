/-
Outcomes of C/C++ calls, bounds-checked memory access and loops.

This file models the language level rather than a particular source file: the
other model files use these definitions wherever the sources index a
`std::vector` or a C array, throw, assert, or loop.
-/

namespace Verif

/-- Exceptions thrown by the library (all throw statements use one of these
    three standard classes).
    Throw statements: Toolbox.cpp:94-189, TracerTofSolver.cpp:153-288,
    DerivedQuantities.cpp:98-280, ConnectivityGraph.cpp:44-52, ConnectionValues.cpp:63-76, AssembledConnections.cpp:136, 244 and 418. -/
inductive Exc where
  | logicError
  | invalidArgument
  | runtimeError
  deriving DecidableEq, Repr

/-- Kinds of behaviour for which the language (or a failing `assert`) gives no
    usable result.
    For example assertions TracerTofSolver.cpp:361-366, unchecked indexing TracerTofSolver.cpp:333-391. -/
inductive UB where
  /-- access outside a vector or array -/
  | outOfBounds
  /-- read of `malloc`ed storage before it was written -/
  | uninitialised
  /-- dereference of a null pointer -/
  | nullDeref
  /-- signed overflow, or a narrowing conversion that loses the value -/
  | overflow
  /-- a failing `assert` (an abort in debug builds; in release builds the code
      runs on with its stated precondition violated) -/
  | assertFail
  deriving DecidableEq, Repr

/-- Outcome of a call.
    Outcomes of every function of the library, for example Toolbox.cpp:134-172. -/
inductive Res (α : Type) where
  | ok (a : α)
  | throw (e : Exc)
  | ub (u : UB)
  /-- the fuel of an unbounded loop was used up -/
  | diverge
  deriving Repr

namespace Res

/-- Statements in sequence, in every function of the library.  For example Toolbox.cpp:154-171. -/
def bind {α β : Type} : Res α → (α → Res β) → Res β
  | .ok a, f => f a
  | .throw e, _ => .throw e
  | .ub u, _ => .ub u
  | .diverge, _ => .diverge

/-- See `bind`; for example Toolbox.cpp:154-171. -/
instance : Monad Res where
  pure := .ok
  bind := Res.bind

/-- Not in the code: a test on outcomes of calls such as Toolbox.cpp:134-172. -/
def isOk {α : Type} : Res α → Bool
  | .ok _ => true
  | _ => false

end Res

/-- `v[i]` for reading, `std::vector` or initialised C array.
    For example TracerTofSolver.cpp:333-391. -/
def rd {α : Type} (v : List α) (i : Nat) : Res α :=
  match v[i]? with
  | some x => .ok x
  | none => .ub .outOfBounds

/-- `v[i] = x`.  For example TracerTofSolver.cpp:364-391. -/
def wr {α : Type} (v : List α) (i : Nat) (x : α) : Res (List α) :=
  if i < v.length then .ok (v.set i x) else .ub .outOfBounds

/-- Storage obtained from `malloc`: `none` marks an element not yet written.
    tarjan.c:95-101 and 370-375. -/
abbrev Mem (α : Type) := List (Option α)

/-- `p[i]` for reading from `malloc`ed storage.  For example tarjan.c:138-176. -/
def rdM {α : Type} (m : Mem α) (i : Nat) : Res α :=
  match m[i]? with
  | some (some x) => .ok x
  | some none => .ub .uninitialised
  | none => .ub .outOfBounds

/-- `p[i] = x` for `malloc`ed storage.  For example tarjan.c:138-176. -/
def wrM {α : Type} (m : Mem α) (i : Nat) (x : α) : Res (Mem α) :=
  wr m i (some x)

/-- `for (const auto& x : xs) s = f(s, x);`.
    For example Toolbox.cpp:120-131, TracerTofSolver.cpp:344-349. -/
def forEach {α σ : Type} : List α → σ → (σ → α → Res σ) → Res σ
  | [], s, _ => .ok s
  | x :: xs, s, f => (f s x).bind fun s' => forEach xs s' f

/-- `assert (b)`.  TracerTofSolver.cpp:212, 233, 251 and 361-366, tarjan.c:142-320. -/
def assertThat (b : Bool) : Res Unit :=
  if b then .ok () else .ub .assertFail

/-- Largest value of a 32-bit `int`.  For example AssembledConnections.cpp:184-192, TracerTofSolver.cpp:411. -/
def INT_MAX : Nat := 2147483647

/-- `static_cast<size_t>(i)` for an `int` (64-bit `size_t`, wraps modulo 2^64).
    For example AssembledConnections.cpp:265-307. -/
def sizeOfInt (i : Int) : Nat := (i % 18446744073709551616).toNat

/-- `static_cast<int>(n)`: the conversion is only used where the value fits; a
    value that does not fit is reported as `overflow`.
    tarjan.c:216-219, TracerTofSolver.cpp:146 and 269. -/
def intOfSize (n : Nat) : Res Int :=
  if n ≤ INT_MAX then .ok (n : Int) else .ub .overflow

/-- `x + 1` for a (signed) `int`.  AssembledConnections.cpp:184-192, TracerTofSolver.cpp:401 and 411, tarjan.c:217. -/
def intSucc (x : Int) : Res Int :=
  if x + 1 ≤ (INT_MAX : Int) then .ok (x + 1) else .ub .overflow

/-- `std::vector::resize(n, x)`.  TracerTofSolver.cpp:59-60, 168-172, 224 and 268-277. -/
def resize {α : Type} (v : List α) (n : Nat) (x : α) : List α :=
  v.take n ++ List.replicate (n - v.length) x

end Verif
