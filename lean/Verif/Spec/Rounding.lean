/-
Floating-point arithmetic.
-/
import Verif.Model.Arith

namespace Verif.Spec
open Verif

/-- Floating-point arithmetic with values of type `R`.  Each value stands for a number or a special value (`+0` and `-0`
    stand for the same number); comparisons compare what the values stand for; each operation gives the exact result,
    rounded.  Rounding may be any function that preserves the order and leaves the values of the format alone: results of
    large magnitude may become infinite, small ones zero.

    IEEE 754 binary64 with any of its rounding modes is such an arithmetic, and so are the other formats of the standard. -/
structure Rounded (R : Type) [Arith R] (K : Type) [Field K] [LinearOrder K] where
  /-- what a value stands for -/
  val : R → X K
  /-- rounding -/
  rnd : X K → X K
  lt : ∀ a b, Arith.lt a b = X.lt (val a) (val b)
  le : ∀ a b, Arith.le a b = X.le (val a) (val b)
  eq : ∀ a b, Arith.eq a b = X.eq (val a) (val b)
  add : ∀ a b, val (Arith.add a b) = rnd (X.add (val a) (val b))
  sub : ∀ a b, val (Arith.sub a b) = rnd (X.sub (val a) (val b))
  mul : ∀ a b, val (Arith.mul a b) = rnd (X.mul (val a) (val b))
  div : ∀ a b, val b ≠ X.fin 0 → val (Arith.div a b) = rnd (X.div (val a) (val b))
  /-- the sign of a zero divisor decides on the sign of the result -/
  div_zero : ∀ a b, val b = X.fin 0 →
    val (Arith.div a b) = X.div (val a) (X.fin 0) ∨ val (Arith.div a b) = X.neg (X.div (val a) (X.fin 0))
  /-- the product of two positive numbers is not `-0` -/
  div_mul : ∀ a b c, X.lt (X.fin 0) (val b) = true → X.lt (X.fin 0) (val c) = true →
    val (Arith.div a (Arith.mul b c)) = rnd (X.div (val a) (val (Arith.mul b c)))
  neg : ∀ a, val (Arith.neg a) = X.neg (val a)
  fabs : ∀ a, val (Arith.fabs a) = X.fabs (val a)
  inf : val Arith.inf = X.pinf
  lit : ∀ q : Rat, val (Arith.lit q) = rnd (X.fin (q : K))
  rnd_mono : ∀ x y, X.le x y = true → X.le (rnd x) (rnd y) = true
  rnd_nan : rnd X.nan = X.nan
  rnd_val : ∀ a, rnd (val a) = val a
  rnd_zero : rnd (X.fin 0) = X.fin 0
  rnd_one : rnd (X.fin 1) = X.fin 1

section
variable {R : Type} [Arith R]

/-- 200 years in seconds. -/
def capIn (R : Type) [Arith R] : R :=
  Arith.mul (Arith.mul (Arith.mul (Arith.mul (Arith.lit 200) (Arith.lit 365)) (Arith.lit 24)) (Arith.lit 60)) (Arith.lit 60)

/-- Not below zero.  (NaN is not below zero either.) -/
def NotNegative (x : R) : Prop := Arith.lt x (Arith.lit 0) = false

/-- Not NaN. -/
def IsNumber (x : R) : Prop := Arith.eq x x = true

/-- A number other than infinity. -/
def IsFinite (x : R) : Prop := Arith.lt (Arith.fabs x) Arith.inf = true

/-! ### Flow through a cell, as computed with rounding

`x c` is the flux of connection `c`, positive from its first to its second cell. -/

/-- What the connections carry from `u` to `v`, connection by connection. -/
def carriedBy (cs : List (Nat × Nat)) (x : Nat → R) (u v : Nat) : List R :=
  cs.zipIdx.filterMap fun e =>
    if Arith.lt (Arith.lit 0) (x e.2) then if e.1 = (u, v) then some (x e.2) else none
    else if Arith.lt (x e.2) (Arith.lit 0) then if e.1 = (v, u) then some (Arith.neg (x e.2)) else none
    else none

/-- Sum, from left to right. -/
def sumOf (l : List R) : R := l.foldl Arith.add (Arith.lit 0)

/-- The flow into `v`: from each cell, in the order of the cells. -/
def flowInto (n : Nat) (cs : List (Nat × Nat)) (x : Nat → R) (v : Nat) : R :=
  sumOf (((List.range n).filter fun u => !(carriedBy cs x u v).isEmpty).map fun u => sumOf (carriedBy cs x u v))

/-- The flow out of `v`: to each cell, in the order of the cells. -/
def flowOutOf (n : Nat) (cs : List (Nat × Nat)) (x : Nat → R) (v : Nat) : R :=
  sumOf (((List.range n).filter fun u => !(carriedBy cs x v u).isEmpty).map fun u => sumOf (carriedBy cs x v u))

/-- What the wells inject into cell `v`. -/
def injectedInto {I : Type} (m : List (I × List (Int × R))) (v : Nat) : R :=
  sumOf ((m.flatMap fun set => set.2).filterMap fun e =>
    if e.1 = (v : Int) ∧ Arith.lt (Arith.lit 0) e.2 = true then some e.2 else none)

/-- What the wells produce from cell `v`. -/
def producedFrom {I : Type} (m : List (I × List (Int × R))) (v : Nat) : R :=
  sumOf ((m.flatMap fun set => set.2).filterMap fun e =>
    if e.1 = (v : Int) ∧ Arith.lt (Arith.lit 0) e.2 = false ∧ Arith.lt e.2 (Arith.lit 0) = true
    then some (Arith.neg e.2) else none)

/-- `L` has `n + 1` entries, which rise from 0 to 1. -/
def Rising (n : Nat) (L : List R) : Prop :=
  L.length = n + 1 ∧
  (∃ a b, L[0]? = some a ∧ L[n]? = some b ∧ Arith.eq a (Arith.lit 0) = true ∧ Arith.eq b (Arith.lit 1) = true) ∧
  ∀ (i j : Nat) (a b : R), i ≤ j → L[i]? = some a → L[j]? = some b → Arith.le a b = true

/-- What `std::sort` promises for pairs of values: if none is NaN, the result is a rearrangement in which no element is
    less than an earlier one. -/
def SortsPairs (sort : List (R × R) → List (R × R)) : Prop :=
  ∀ l, (∀ p ∈ l, IsNumber p.1 ∧ IsNumber p.2) →
    (sort l).Perm l ∧ (sort l).Pairwise fun a b =>
      Arith.lt b.1 a.1 = false ∧ (Arith.lt a.1 b.1 = true ∨ Arith.lt b.2 a.2 = false)

end
end Verif.Spec
