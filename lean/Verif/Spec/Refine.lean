/-
A grid and a refinement of it, as they enter diagnostics.
-/
import Verif.Spec.Toolbox
import Verif.Spec.SolverCalls

namespace Verif.Spec
open Finset
variable {K : Type} [Field K] [LinearOrder K]

/-- The cells of `G` are parts of those of `F`: cell `u` of `G` lies in cell `whole u` of `F`.  What flows from a cell of `F` to
    another is divided among the parts of the latter, of which part `v` gets the fraction `share v` of the flux from every cell.
    (It may come from any parts of the former, and fluxes between parts of the same cell are arbitrary.)  Each part is
    downstream of some part of the same cell that gets a positive share. -/
structure Flow.Refined (whole : Nat → Nat) (share : Nat → K) (F G : Flow K) : Prop where
  cell : ∀ u < G.n, whole u < F.n
  share_nonneg : ∀ u < G.n, 0 ≤ share u
  flux : ∀ v < G.n, ∀ p < F.n, p ≠ whole v → ∑ u ∈ range G.n with whole u = p, G.w u v = share v * F.w p (whole v)
  fed : ∀ u < G.n, ∃ a < G.n, whole a = whole u ∧ 0 < share a ∧ G.Reach a u

/-- Part `v` of a cell gets the fraction `share v` of what each well injects in the cell. -/
def Problem.InjectsShares (whole : Nat → Nat) (share : Nat → K) (P Q : Problem K) : Prop :=
  List.Forall₂ (fun w w' => w.id = w'.id ∧ ∀ v < Q.n,
    max (Problem.wellAt w' v) 0 = share v * max (Problem.wellAt w (whole v)) 0) P.wells Q.wells

/-- Each well produces from part `v` the fraction `share v` of what it produces from the cell. -/
def Problem.ProducesShares (whole : Nat → Nat) (share : Nat → K) (P Q : Problem K) : Prop :=
  List.Forall₂ (fun w w' => w.id = w'.id ∧ ∀ v < Q.n,
    max (-Problem.wellAt w' v) 0 = share v * max (-Problem.wellAt w (whole v)) 0) P.wells Q.wells

/-- The shares of the parts of a cell add up to 1. -/
def AllShared (n n' : Nat) (whole : Nat → Nat) (share : Nat → K) : Prop :=
  ∀ p < n, ∑ u ∈ range n' with whole u = p, share u = 1

/-- Everything leaves cell `p` through its part `last p`: only from there something flows to other cells, from there nothing
    flows to the other parts, and what flows into another part flows on to parts of the same cell. -/
structure Flow.OneOutlet (whole last : Nat → Nat) (F G : Flow K) : Prop where
  part : ∀ p < F.n, last p < G.n ∧ whole (last p) = p
  leaves : ∀ u < G.n, ∀ v < G.n, whole u ≠ whole v → u ≠ last (whole u) → G.w u v = 0
  stays : ∀ u < G.n, u ≠ last (whole u) → ∑ v ∈ range G.n with whole v = whole u, G.w u v = G.total u
  ends : ∀ v < G.n, G.w (last (whole v)) v = 0

end Verif.Spec
