/-
Specification vocabulary for directed graphs in compressed form and their strongly
connected components.  Nothing here refers to how components are computed.
-/
import Verif.Spec.Graph
import Verif.Model.Tarjan
import Mathlib.Logic.Relation

namespace Verif.Spec

/-- `ia`, `ja` describe a directed graph on the vertices `0..nv-1`: row `u` of `ja` lists the
    vertices `u` has edges to (any order, repetitions and `u` itself allowed). -/
structure IsGraph (nv : Nat) (ia : List Nat) (ja : List Int) : Prop where
  size : nv + 1 ≤ ia.length
  mono : ∀ u < nv, ia.getD u 0 ≤ ia.getD (u + 1) 0
  last : ia.getD nv 0 ≤ ja.length
  range : ∀ u < nv, ∀ v ∈ rowOf ia ja u, 0 ≤ v ∧ v < (nv : Int)
  vertices_int : nv ≤ INT_MAX
  degrees_int : ∀ u < nv, ia.getD (u + 1) 0 - ia.getD u 0 ≤ INT_MAX

/-- There is an edge from `u` to `v`. -/
def HasEdge (nv : Nat) (ia : List Nat) (ja : List Int) (u v : Nat) : Prop :=
  u < nv ∧ (v : Int) ∈ rowOf ia ja u

/-- `v` can be reached from `u` along directed edges. -/
def Reachable (nv : Nat) (ia : List Nat) (ja : List Int) : Nat → Nat → Prop :=
  Relation.ReflTransGen (HasEdge nv ia ja)

/-- Number of edges. -/
def numEdges (nv : Nat) (ia : List Nat) : Nat := ia.getD nv 0 - ia.getD 0 0

/-- What a caller sees of a result through `tarjan_get_numcomponents` and
    `tarjan_get_strongcomponent`. -/
structure Shows (scc : Tarjan.SCCResult) (comps : List (List Nat)) : Prop where
  num : Tarjan.getNumComponents scc = comps.length
  comp : ∀ (k : Nat) (c : List Nat), comps[k]? = some c →
    Tarjan.getStrongComponent scc k = .ok (c.map fun v : Nat => (v : Int))

/-- `comps` are the strongly connected components of the subgraph on the vertices `V`, in
    reverse topological order. -/
structure IsSCCs (nv : Nat) (ia : List Nat) (ja : List Int) (V : Nat → Prop)
    (comps : List (List Nat)) : Prop where
  nonempty : ∀ c ∈ comps, c ≠ []
  once : comps.flatten.Nodup
  cover : ∀ v, v ∈ comps.flatten ↔ V v
  same : ∀ (a b : Nat) A B u v, comps[a]? = some A → comps[b]? = some B → u ∈ A → v ∈ B →
    (a = b ↔ Reachable nv ia ja u v ∧ Reachable nv ia ja v u)
  order : ∀ (a b : Nat) A B u v, comps[a]? = some A → comps[b]? = some B → u ∈ A → v ∈ B →
    HasEdge nv ia ja u v → b ≤ a
  /-- within a component every vertex but the last has an edge coming in from one listed later -/
  inner : ∀ c ∈ comps, ∀ pre u post, c = pre ++ u :: post → post ≠ [] → ∃ p ∈ post, HasEdge nv ia ja p u

/-- A workspace as `create_tarjan_workspace` makes it or as a search leaves it: three arrays
    of the recorded length, with arbitrary contents. -/
structure IsWorkSpace (w : Tarjan.WorkSpace) : Prop where
  status : w.status.length = w.nvert
  link : w.link.length = w.nvert
  time : w.time.length = w.nvert
  size : w.nvert < 18446744073709551616

/-- Results the interface can hand out: from complete calls of `tarjan` or
    `tarjan_reachable_sccs` on proper graphs, possibly reversed afterwards. -/
inductive Obtained : Tarjan.SCCResult → Prop
  | tarjan {nv ia ja b1 b2 a fuel scc} : IsGraph nv ia ja → nv + numEdges nv ia ≤ fuel →
      Tarjan.tarjan b1 b2 a nv ia ja fuel = .ok (some scc) → Obtained scc
  | reachable {nv ia ja a w w' fuel scc} {starts : List Nat} : IsGraph nv ia ja →
      (∀ p ∈ starts, p < nv) → IsWorkSpace w → nv ≤ w.nvert → nv + numEdges nv ia ≤ fuel →
      Tarjan.reachableSccs a nv ia ja (starts.map fun p : Nat => (p : Int)) (some w) fuel
        = .ok (some scc, w') → Obtained scc
  | reversed {a scc scc'} : Obtained scc →
      Tarjan.reverseSccResult a (some scc) = .ok (true, some scc') → Obtained scc'

/-- A call of `tarjan_reachable_sccs` on some graph. -/
structure SearchCall where
  nv : Nat
  ia : List Nat
  ja : List Int
  starts : List Nat
  alloc : Tarjan.AllocSCC

/-- The call is within the contract for a workspace of `n` vertices. -/
def SearchCall.Valid (n : Nat) (c : SearchCall) : Prop :=
  IsGraph c.nv c.ia c.ja ∧ (∀ p ∈ c.starts, p < c.nv) ∧ c.nv ≤ n

/-- Perform the call; only the workspace is kept. -/
def SearchCall.perform (w : Option Tarjan.WorkSpace) (c : SearchCall) : Res (Option Tarjan.WorkSpace) :=
  (Tarjan.reachableSccs c.alloc c.nv c.ia c.ja (c.starts.map fun p : Nat => (p : Int)) w
    (c.nv + numEdges c.nv c.ia)).bind fun r => .ok r.2

end Verif.Spec
