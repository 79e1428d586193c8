/-
The flow through a cell, as the solver computes it.
-/
import Verif.Proofs.RoundingFinite

namespace Verif.Rounding
open Verif.Spec Verif.Solver Verif.Toolbox Verif.Tarjan

variable {R : Type} [Arith R]

theorem carriedBy_eq (cs : List (Nat × Nat)) (x : Nat → R) (u v : Nat) :
    carriedBy cs x u v = weightsOf (directed cs x) (u : Int) (v : Int) := by
  unfold carriedBy directed weightsOf
  generalize cs.zipIdx = l
  induction l with
  | nil => rfl
  | cons e l ih =>
    obtain ⟨⟨a, b⟩, i⟩ := e
    rw [List.map_cons, List.flatten_cons, List.filter_append, List.map_append, ← ih, List.filterMap_cons]
    unfold orient
    simp only [Prod.mk.injEq, show (Arith.lit 0 : R) = Arith.zero from rfl]
    by_cases h1 : Arith.lt Arith.zero (x i) = true
    · by_cases h2 : a = u ∧ b = v
      · obtain ⟨rfl, rfl⟩ := h2
        simp [h1]
      · have : ((a : Int) == (u : Int) && (b : Int) == (v : Int)) = false := by
          rw [Bool.eq_false_iff]; simpa using h2
        simp [h1, h2, List.filter_cons, this]
    · by_cases h3 : Arith.lt (x i) Arith.zero = true
      · by_cases h2 : a = v ∧ b = u
        · obtain ⟨rfl, rfl⟩ := h2
          simp [h1, h3]
        · have : ((b : Int) == (u : Int) && (a : Int) == (v : Int)) = false := by
            rw [Bool.eq_false_iff]; simp; omega
          simp [h1, h3, h2, List.filter_cons, this]
      · simp [h1, h3]

theorem carriedBy_isEmpty (cs : List (Nat × Nat)) (x : Nat → R) (u v : Nat) :
    (!(carriedBy cs x u v).isEmpty) = joins (directed cs x) u v := by
  rw [carriedBy_eq]
  unfold weightsOf joins
  rw [List.isEmpty_map, Bool.eq_iff_iff]
  simp only [Bool.not_eq_true', List.isEmpty_eq_false_iff, ne_eq, List.filter_eq_nil_iff, List.any_eq_true]
  push Not
  rfl

theorem flowInto_eq (n : Nat) (cs : List (Nat × Nat)) (x : Nat → R) (v : Nat) :
    flowInto n cs x v = ((rowOfFlow n (swapEnds (directed cs x)) v).map fun e => e.2).foldl Arith.add Arith.zero := by
  unfold flowInto sumOf rowOfFlow
  rw [List.map_map]
  have h : (fun u => !(carriedBy cs x u v).isEmpty) = joins (swapEnds (directed cs x)) v := by
    funext u; rw [joins_swap, carriedBy_isEmpty]
  rw [h]
  congr 1
  apply List.map_congr_left
  intro u _
  simp only [Function.comp]
  rw [flowOf_swap, carriedBy_eq]
  rfl

theorem flowOutOf_eq (n : Nat) (cs : List (Nat × Nat)) (x : Nat → R) (v : Nat) :
    flowOutOf n cs x v = ((rowOfFlow n (directed cs x) v).map fun e => e.2).foldl Arith.add Arith.zero := by
  unfold flowOutOf sumOf rowOfFlow
  rw [List.map_map]
  have h : (fun u => !(carriedBy cs x v u).isEmpty) = joins (directed cs x) v := by
    funext u; rw [carriedBy_isEmpty]
  rw [h]
  congr 1
  apply List.map_congr_left
  intro u _
  simp only [Function.comp]
  rw [carriedBy_eq]
  rfl

theorem injectedInto_eq (m : InflowFlux R) (v : Nat) :
    injectedInto m v =
      (((positives (entries m)).filter fun e => decide (e.2.1 = (v : Int))).map fun e => e.2.2).foldl Arith.add Arith.zero := by
  unfold injectedInto sumOf positives entries
  congr 1
  induction m with
  | nil => rfl
  | cons s m ih =>
    rw [List.flatMap_cons, List.flatMap_cons, List.filterMap_append, List.filter_append, List.filter_append, List.map_append, ih]
    congr 1
    generalize s.2 = l
    induction l with
    | nil => rfl
    | cons e l ih2 =>
      rw [List.filterMap_cons, List.map_cons, List.filter_cons, ih2]
      by_cases h1 : Arith.lt Arith.zero e.2 = true
      · by_cases h2 : e.1 = (v : Int) <;> simp [h1, h2, show (Arith.lit 0 : R) = Arith.zero from rfl]
      · simp [h1, show (Arith.lit 0 : R) = Arith.zero from rfl]

theorem producedFrom_eq (m : InflowFlux R) (v : Nat) :
    producedFrom m v =
      (((negatives (entries m)).filter fun e => decide (e.2.1 = (v : Int))).map fun e => e.2.2).foldl Arith.add Arith.zero := by
  unfold producedFrom sumOf negatives entries
  congr 1
  induction m with
  | nil => rfl
  | cons s m ih =>
    rw [List.flatMap_cons, List.flatMap_cons, List.filterMap_append, List.filter_append, List.map_append, List.filter_append,
      List.map_append, ih]
    congr 1
    generalize s.2 = l
    induction l with
    | nil => rfl
    | cons e l ih2 =>
      rw [List.filterMap_cons, List.map_cons, List.filter_cons, ih2]
      by_cases h1 : Arith.lt Arith.zero e.2 = true
      · simp [h1, show (Arith.lit 0 : R) = Arith.zero from rfl]
      · by_cases h3 : Arith.lt e.2 Arith.zero = true
        · by_cases h2 : e.1 = (v : Int) <;> simp [h1, h2, h3, show (Arith.lit 0 : R) = Arith.zero from rfl]
        · simp [h1, h3, show (Arith.lit 0 : R) = Arith.zero from rfl]

end Verif.Rounding
