/-
Range-for loops with iterators do what loops over the list of connections do.
-/
import Verif.Model.NeighbourhoodIteration
import Verif.Proofs.GraphIter

namespace Verif
namespace AssembledConnections
variable {R : Type} {g : AssembledConnections R}

theorem rangeLoop_eq {σ : Type} (body : σ → Int × R → Res σ) (hl : g.connectionWeight.length = g.neighbourhood.length)
    {fin : Nat} (hfin : fin ≤ g.neighbourhood.length) (k : Nat) :
    ∀ (beg : Nat), beg + k = fin → ∀ (fuel : Nat) (s : σ), k < fuel →
    g.rangeLoop body fuel ⟨beg, beg⟩ ⟨fin, fin⟩ s
      = forEach (((g.neighbourhood.zip g.connectionWeight).drop beg).take k) s body := by
  induction k with
  | zero =>
    intro beg hb fuel s hf
    obtain ⟨m, rfl⟩ := Nat.exists_eq_succ_of_ne_zero (by omega : fuel ≠ 0)
    have hb : beg = fin := by omega
    subst hb
    simp [rangeLoop, iterNe, assertThat, forEach, Res.bind]
  | succ k ih =>
    intro beg hb fuel s hf
    obtain ⟨m, rfl⟩ := Nat.exists_eq_succ_of_ne_zero (by omega : fuel ≠ 0)
    have h1 : beg < g.neighbourhood.length := by omega
    have h2 : beg < g.connectionWeight.length := by omega
    have hne : (beg != fin) = true := by simp; omega
    have h3 : (g.neighbourhood.zip g.connectionWeight).drop beg
        = (g.neighbourhood[beg], g.connectionWeight[beg]) :: (g.neighbourhood.zip g.connectionWeight).drop (beg + 1) := by
      rw [List.drop_eq_getElem_cons (by simp; omega), List.getElem_zip]
    rw [h3, List.take_succ_cons]
    have ih' := fun s => ih (beg + 1) (by omega) m s (by omega)
    have h4 : ¬ (g.neighbourhood.length ≤ beg ∨ g.connectionWeight.length ≤ beg) := by omega
    simp only [rangeLoop, iterNe, assertThat, deref, iterNext, hne, rd_ok h1, rd_ok h2, if_neg h4, Res.bind_eq, Res.pure_eq,
      Res.ok_bind, forEach, beq_self_eq_true, if_true, ih']

/-- If the list of connections is defined, the loop with iterators is the loop over the list. -/
theorem rangeFor_eq {σ : Type} (body : σ → Int × R → Res σ) {cell : Int} {nb : List (Int × R)}
    (h : g.cellNeighbourhood cell = .ok nb) {fuel : Nat} (hf : nb.length < fuel) (s : σ) :
    g.rangeFor fuel cell s body = forEach nb s body := by
  unfold cellNeighbourhood at h
  simp only [Res.bind_eq, Res.pure_eq] at h
  cases h1 : rd g.startPointers (sizeOfInt cell) with
  | ok beg =>
    cases h2 : rd g.startPointers (sizeOfInt (cell + 1)) with
    | ok fin =>
      by_cases hl : g.connectionWeight.length = g.neighbourhood.length
      · by_cases hb : fin < beg ∨ g.neighbourhood.length < fin
        · simp [h1, h2, hl, hb, assertThat] at h
        · simp only [h1, h2, hl, assertThat, beq_self_eq_true, if_true, Res.ok_bind, if_neg hb, Res.ok.injEq] at h
          subst h
          have hb1 : ¬ (g.neighbourhood.length < beg ∨ g.neighbourhood.length < fin) := by omega
          unfold rangeFor cellRange
          simp only [h1, h2, hl, assertThat, beq_self_eq_true, if_true, Res.ok_bind, if_neg hb1, Res.bind_eq, Res.pure_eq]
          refine rangeLoop_eq body hl (by omega) _ _ (by omega) _ _ ?_
          rw [List.length_take, List.length_drop, List.length_zip] at hf
          omega
      · simp [h1, h2, hl, assertThat] at h
    | throw e => simp [h1, h2] at h
    | ub u => simp [h1, h2] at h
    | diverge => simp [h1, h2] at h
  | throw e => simp [h1] at h
  | ub u => simp [h1] at h
  | diverge => simp [h1] at h

end AssembledConnections
end Verif
