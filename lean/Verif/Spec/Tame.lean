/-
Flows with cycles on which the iterations are sure to end.
-/
import Verif.Spec.Balanced

namespace Verif.Spec

variable {K : Type} [Field K] [LinearOrder K]

/-- The cells into which something is injected. -/
def Flow.sources (F : Flow K) : List Nat := (List.range F.n).filter fun v => decide (0 < F.src v)

/-- Bounds on the part of a flow that starts with the injection of `inj` in the cells `cells`.

    In a cell that this part reaches, a share `x` of the fluid is what was injected there, and the fluid has passed `h` cells
    on average, the cell itself included and counting only cells that the part reaches: `h` is at most `H` times `x`.  It takes
    the fluid at most `φ` seconds to fill the cell.  No such cell has a connection to itself while it lies on no other cycle.
    On a cycle, each connection into the cell brings at least the share `μ` of all its inflow, and so does injection there if
    there is any.  Not more than `L` cells lie on a common cycle. -/
structure Flow.Tame (F : Flow K) (cells : List Nat) (inj : Nat → K) (H φ μ : K) (L : Nat) : Prop where
  carried : ∃ x h, F.Carries cells inj x ∧ F.Carries cells F.total h ∧ ∀ v, F.Downstream cells v → h v ≤ H * x v
  fill : ∀ v, F.Downstream cells v → F.pv v ≤ φ * F.total v
  noLoop : ∀ v, F.Downstream cells v → ¬ F.Loop v
  share : ∀ v, F.Downstream cells v → (∃ u, u ≠ v ∧ F.SameCycle u v) →
    (∀ u, F.Edge u v → μ * F.total v ≤ F.w u v) ∧ (0 < inj v → μ * F.total v ≤ inj v)
  size : ∀ C : List Nat, C.Nodup → (∀ u ∈ C, ∀ v ∈ C, F.SameCycle u v) → C.length ≤ L

/-- Bounds of this kind that suffice for computations with `double`s, when no cell has more than `M` connections or wells. -/
structure TameBounds (M : Nat) (H φ μ : ℚ) (L : Nat) : Prop where
  one_le : 1 ≤ H
  fill_nonneg : 0 ≤ φ
  mu_pos : 0 < μ
  mu_le : μ ≤ 1
  main : (4 * φ + 1) * H ^ 2 * (4 * M + 6) ≤ 400000000000
  floor : 2 * H ≤ (μ / 4) ^ L * 2 ^ 500

/-- Stronger bounds, which leave no more than `D * m + 1` sweeps to do on a cycle: `D` is the bound on the number of cells passed,
    as a natural number, and `m` is about the logarithm of what has to be gained in accuracy. -/
structure SweepBounds (M : Nat) (H φ : ℚ) (D m : Nat) : Prop where
  passed : H ≤ D
  conc : (4 * M + 6) * H ≤ 50000
  main : (4 * φ + 1) * H ^ 2 * (4 * M + 6) ≤ 20000000000
  gainConc : 16000000000 * D ≤ 2 ^ m
  gainTime : 10000 * (4 * φ + 1) * (D ^ 2 * (m + 3)) ≤ 2 ^ m

end Verif.Spec
