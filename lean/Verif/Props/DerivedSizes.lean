/-
C78: more cells or points than `int` can count.
-/
import Verif.Props.Derived

namespace Verif.Props
open Verif.Derived

variable {R : Type} [Arith R]

theorem narrowInt_above {n : Nat} (h1 : 2 ^ 31 ≤ n) (h2 : n < 2 ^ 32) : narrowInt n < 0 := by
  unfold narrowInt
  simp only
  rw [Nat.mod_eq_of_lt (by omega), if_neg (by omega)]
  omega

/-- **C78** With `2^31` cells or more (but fewer than `2^32`) there is no curve: `logic_error`. -/
theorem C78_curve (sort : List (R × R) → List (R × R)) {a b p : List R} (f : R) (ha : p.length = a.length)
    (hb : p.length = b.length) (h1 : 2 ^ 31 ≤ p.length) (h2 : p.length < 2 ^ 32) :
    Derived.curve sort a b p f = .throw .logicError := by
  unfold Derived.curve
  rw [if_neg (by rintro (h | h) <;> contradiction)]
  simp only
  rw [if_pos (narrowInt_above h1 h2)]

/-- **C78** Likewise for the sweep efficiency of a curve with that many points. -/
theorem C78_sweep {g : Graph R} (h : g.2.length = g.1.length) (h1 : 2 ^ 31 ≤ g.2.length) (h2 : g.2.length < 2 ^ 32) :
    sweepEfficiency g = .throw .logicError := by
  unfold sweepEfficiency
  simp only
  rw [if_neg (by omega), if_pos (narrowInt_above h1 h2)]

/-- **C78** The Lorenz coefficient of a curve without points, or with more than `2^31` of them (but no more than `2^32`), does
    not depend on the curve. -/
theorem C78_lorenz {g : Graph R} (h : g.2.length = g.1.length)
    (hl : g.2.length = 0 ∨ (2 ^ 31 < g.2.length ∧ g.2.length ≤ 2 ^ 32)) :
    lorenzCoefficient g = .ok (Arith.mul (Arith.lit 2) (Arith.sub Arith.zero (Arith.lit (1 / 2)))) := by
  have hM : SIZE_MOD = 18446744073709551616 := rfl
  have hneg : narrowInt ((g.2.length + (SIZE_MOD - 1)) % SIZE_MOD) < 0 := by
    rcases hl with hl | ⟨h1, h2⟩
    · rw [hl, hM]; decide
    · have : (g.2.length + (SIZE_MOD - 1)) % SIZE_MOD = g.2.length - 1 := by
        rw [hM, show g.2.length + (18446744073709551616 - 1) = (g.2.length - 1) + 18446744073709551616 by omega,
          Nat.add_mod_right, Nat.mod_eq_of_lt (by omega)]
      rw [this]
      exact narrowInt_above (by omega) (by omega)
  unfold lorenzCoefficient
  simp only
  rw [if_neg (by omega), Int.toNat_of_nonpos (by omega)]
  rfl

/-- **C78** In exact arithmetic that value is -1, although the coefficient of a curve of flow and storage capacities lies between
    0 and 1. -/
theorem C78_lorenz_exact {K : Type} [Field K] [LinearOrder K] [IsStrictOrderedRing K] {g : Graph (X K)}
    (h : g.2.length = g.1.length) (hl : g.2.length = 0 ∨ (2 ^ 31 < g.2.length ∧ g.2.length ≤ 2 ^ 32)) :
    lorenzCoefficient g = .ok (X.fin (-1)) := by
  rw [C78_lorenz h hl]
  show Res.ok (X.mul (X.fin _) (X.sub (X.fin _) (X.fin _))) = _
  simp only [X.mul, X.sub, X.add, X.neg]
  congr 2
  push_cast
  ring

/-- The hypotheses of C78 hold for long vectors. -/
theorem vectors_above_int {N : Nat} (h1 : 2 ^ 31 ≤ N) (h2 : N < 2 ^ 32) (x : X ℚ) :
    Derived.curve id (List.replicate N x) (List.replicate N x) (List.replicate N x) (X.fin 1) = .throw .logicError ∧
    sweepEfficiency (List.replicate N x, List.replicate N x) = .throw .logicError ∧
    lorenzCoefficient (List.replicate (N + 1) x, List.replicate (N + 1) x) = .ok (X.fin (-1)) := by
  have e : ∀ m, (List.replicate m x).length = m := fun m => List.length_replicate
  refine ⟨C78_curve _ _ rfl rfl (by rw [e]; exact h1) (by rw [e]; exact h2), C78_sweep rfl ?_ ?_, C78_lorenz_exact rfl (Or.inr ?_)⟩
  · show 2 ^ 31 ≤ (List.replicate N x).length
    rw [e]; exact h1
  · show (List.replicate N x).length < 2 ^ 32
    rw [e]; exact h2
  · show 2 ^ 31 < (List.replicate (N + 1) x).length ∧ (List.replicate (N + 1) x).length ≤ 2 ^ 32
    rw [e]; omega

example : ∃ N, 2 ^ 31 ≤ N ∧ N < 2 ^ 32 := ⟨3000000000, by decide, by decide⟩

end Verif.Props
