/-
Specification vocabulary for compressed adjacency structures.  Nothing here
refers to how the structure is built.
-/
import Verif.Model.Arith

namespace Verif.Spec

/-- The stretch of `xs` that belongs to row `r` according to the start pointers. -/
def rowOf {α : Type} (sp : List Nat) (xs : List α) (r : Nat) : List α :=
  (xs.drop (sp.getD r 0)).take (sp.getD (r + 1) 0 - sp.getD r 0)

/-- `sp` and `nb` are the start pointers and neighbours of the graph on rows
    `0..n-1` with edge set `E`: each row lists its neighbours exactly once, in
    ascending order. -/
structure IsAdjacency (n : Nat) (E : Int → Int → Prop) (sp : List Nat) (nb : List Int) : Prop where
  size : sp.length = n + 1
  first : sp[0]? = some 0
  mono : sp.Pairwise (· ≤ ·)
  last : sp[n]? = some nb.length
  sorted : ∀ r < n, (rowOf sp nb r).Pairwise (· < ·)
  mem : ∀ r < n, ∀ j, j ∈ rowOf sp nb r ↔ E r j

/-- The weights given for the pair `(i, j)`, in the order in which they were given. -/
def weightsOf {R : Type} (cs : List (Int × Int × R)) (i j : Int) : List R :=
  (cs.filter fun c => c.1 == i && c.2.1 == j).map fun c => c.2.2

/-- Each stored connection `(r, nb[q])` carries `0` plus all weights given for it. -/
structure HasWeights {R : Type} [Arith R] (n : Nat) (cs : List (Int × Int × R)) (sp : List Nat)
    (nb : List Int) (w : List R) : Prop where
  size : w.length = nb.length
  sum : ∀ r < n, ∀ q, sp.getD r 0 ≤ q → q < sp.getD (r + 1) 0 → ∀ j, nb[q]? = some j →
    w[q]? = some ((weightsOf cs r j).foldl Arith.add Arith.zero)

/-- The indices the class is specified for. -/
def ValidIndex (i : Int) : Prop := 0 ≤ i ∧ i < 2147483647

end Verif.Spec
