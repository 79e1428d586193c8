/-
A sorting function for pairs of floating-point values.
-/
import Verif.Spec.Rounding
import Mathlib.Data.List.Sort
import Verif.Proofs.DerivedSort
import Verif.Proofs.Rounding

namespace Verif.Rounding
open Verif.Spec Verif.Derived
variable {R : Type} [Arith R] {K : Type} [Field K] [LinearOrder K] [IsStrictOrderedRing K]

/-- Sorting by what the values stand for. -/
def sortBy (ρ : Rounded R K) (l : List (R × R)) : List (R × R) :=
  l.insertionSort fun a b => leP (ρ.val a.1, ρ.val a.2) (ρ.val b.1, ρ.val b.2) = true

theorem sortsPairs_sortBy (ρ : Rounded R K) : SortsPairs (sortBy ρ) := by
  intro l hl
  have hperm : (sortBy ρ l).Perm l := List.perm_insertionSort _ _
  refine ⟨hperm, ?_⟩
  have hs : (sortBy ρ l).Pairwise fun a b => leP (ρ.val a.1, ρ.val a.2) (ρ.val b.1, ρ.val b.2) = true := by
    have := Std.Total.mk (r := fun a b : R × R => leP (ρ.val a.1, ρ.val a.2) (ρ.val b.1, ρ.val b.2) = true)
      fun _ _ => leP_total _ _
    have := IsTrans.mk (r := fun a b : R × R => leP (ρ.val a.1, ρ.val a.2) (ρ.val b.1, ρ.val b.2) = true)
      fun _ _ _ h1 h2 => leP_trans h1 h2
    exact List.pairwise_insertionSort _ l
  have num : ∀ x : R, IsNumber x → ρ.val x ≠ X.nan := by
    intro x hx e
    unfold IsNumber at hx
    rw [ρ.eq, e] at hx
    simp [X.eq] at hx
  refine hs.imp_of_mem ?_
  intro a b ha hb h
  have ha' := hl a (hperm.mem_iff.mp ha)
  have hb' := hl b (hperm.mem_iff.mp hb)
  simp only [leP, decide_eq_true_eq] at h
  rw [ρ.lt, ρ.lt, ρ.lt]
  rcases h with ⟨hne, h⟩ | ⟨e, h⟩
  · exact ⟨leX_lt h, Or.inl (leX_lt' (num _ ha'.1) (num _ hb'.1) h hne)⟩
  · rw [e]
    exact ⟨leX_lt (by unfold leX; exact Or.inr ⟨rfl, le_rfl⟩), Or.inr (leX_lt h)⟩

end Verif.Rounding
