/-
A sorting function that keeps the promise of `std::sort`.
-/
import Verif.Spec.Derived

namespace Verif.Derived
open Verif.Spec
variable {K : Type} [Field K] [LinearOrder K]

/-- Position of the kinds of values. -/
def kind : X K → Nat
  | .ninf => 0
  | .fin _ => 1
  | .pinf => 2
  | .nan => 3

/-- The finite value. -/
def part : X K → K
  | .fin a => a
  | _ => 0

/-- A total order on all values. -/
def leX (a b : X K) : Prop := kind a < kind b ∨ (kind a = kind b ∧ part a ≤ part b)

instance (a b : X K) : Decidable (leX a b) := by unfold leX; infer_instance

theorem leX_total (a b : X K) : leX a b ∨ leX b a := by
  unfold leX
  rcases lt_trichotomy (kind a) (kind b) with h | h | h
  · exact Or.inl (Or.inl h)
  · rcases le_total (part a) (part b) with h' | h'
    · exact Or.inl (Or.inr ⟨h, h'⟩)
    · exact Or.inr (Or.inr ⟨h.symm, h'⟩)
  · exact Or.inr (Or.inl h)

theorem leX_trans {a b c : X K} (h1 : leX a b) (h2 : leX b c) : leX a c := by
  unfold leX at *
  rcases h1 with h1 | ⟨h1, h1'⟩ <;> rcases h2 with h2 | ⟨h2, h2'⟩
  · left; omega
  · left; omega
  · left; omega
  · right; exact ⟨by omega, h1'.trans h2'⟩

theorem leX_antisymm {a b : X K} (h1 : leX a b) (h2 : leX b a) : a = b := by
  unfold leX at *
  cases a <;> cases b <;> simp_all [kind, part]
  exact le_antisymm h1 h2

theorem leX_lt {a b : X K} (h : leX a b) : Arith.lt b a = false := by
  show X.lt b a = false
  unfold leX at h
  cases a <;> cases b <;> simp_all [kind, part, X.lt]

theorem leX_lt' {a b : X K} (ha : a ≠ .nan) (hb : b ≠ .nan) (h : leX a b) (hne : a ≠ b) : Arith.lt a b = true := by
  show X.lt a b = true
  unfold leX at h
  cases a <;> cases b <;> simp_all [kind, part, X.lt]
  exact lt_of_le_of_ne h hne

/-- Lexicographic order of pairs. -/
def leP (a b : X K × X K) : Bool := decide ((a.1 ≠ b.1 ∧ leX a.1 b.1) ∨ (a.1 = b.1 ∧ leX a.2 b.2))

theorem leP_trans {a b c : X K × X K} (h1 : leP a b = true) (h2 : leP b c = true) : leP a c = true := by
  simp only [leP, decide_eq_true_eq] at *
  rcases h1 with ⟨n1, h1⟩ | ⟨e1, h1⟩ <;> rcases h2 with ⟨n2, h2⟩ | ⟨e2, h2⟩
  · by_cases e : a.1 = c.1
    · rw [e] at h1 n1
      exact absurd (leX_antisymm h1 h2) n1
    · exact Or.inl ⟨e, leX_trans h1 h2⟩
  · rw [e2] at h1 n1; exact Or.inl ⟨n1, h1⟩
  · rw [← e1] at h2 n2; exact Or.inl ⟨n2, h2⟩
  · exact Or.inr ⟨e1.trans e2, leX_trans h1 h2⟩

theorem leP_total (a b : X K × X K) : leP a b = true ∨ leP b a = true := by
  simp only [leP, decide_eq_true_eq]
  by_cases e : a.1 = b.1
  · rcases leX_total a.2 b.2 with h | h
    · exact Or.inl (Or.inr ⟨e, h⟩)
    · exact Or.inr (Or.inr ⟨e.symm, h⟩)
  · rcases leX_total a.1 b.1 with h | h
    · exact Or.inl (Or.inl ⟨e, h⟩)
    · exact Or.inr (Or.inl ⟨fun h => e h.symm, h⟩)

/-- A sorting function. -/
def mergeSort (l : List (X K × X K)) : List (X K × X K) := l.mergeSort leP

theorem stdSort_mergeSort : StdSort (mergeSort : List (X K × X K) → _) := by
  intro l hl
  have hperm : (l.mergeSort leP).Perm l := List.mergeSort_perm l leP
  refine ⟨hperm, ?_⟩
  have hs : (l.mergeSort leP).Pairwise fun a b => leP a b = true := by
    apply List.pairwise_mergeSort
    · intro a b c h1 h2; exact leP_trans h1 h2
    · intro a b; simpa using leP_total a b
  refine hs.imp_of_mem ?_
  intro a b ha hb h
  have ha' := hl a (hperm.mem_iff.mp ha)
  have hb' := hl b (hperm.mem_iff.mp hb)
  simp only [leP, decide_eq_true_eq] at h
  unfold pairLt
  rcases h with ⟨hne, h⟩ | ⟨e, h⟩
  · rw [leX_lt h, leX_lt' ha'.1 hb'.1 h hne]; rfl
  · rw [leX_lt h, e]
    have : Arith.lt b.1 b.1 = false := leX_lt (by unfold leX; exact Or.inr ⟨rfl, le_rfl⟩)
    rw [this]; rfl

end Verif.Derived
