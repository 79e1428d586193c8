/-
AssembledConnectionsIteration.hpp: the iterators behind a range-for loop over
`cellNeighbourhood(cell)`.  A pointer into `neighbourhood()` or `connectionWeight()` is the offset
from the start of the vector; a pointer may point at most one past the end.
Line numbers refer to AssembledConnectionsIteration.hpp.
-/
import Verif.Model.AssembledConnections

namespace Verif

/-- AssembledConnectionsIteration.hpp:42-74, `NeighbourhoodIterator` -/
structure NeighbourhoodIterator where
  neighbourIter : Nat
  weightIter : Nat

namespace AssembledConnections
variable {R : Type}

/-- AssembledConnections.cpp:451-460, `cellNeighbourhood`: the pair `begin_`, `end_` of a
    `SimpleIteratorRange` (82-96).  `nb + beg` is undefined when it is more than one past the end. -/
def cellRange (g : AssembledConnections R) (cell : Int) : Res (NeighbourhoodIterator × NeighbourhoodIterator) := do
  let beg ← rd g.startPointers (sizeOfInt cell)
  let fin ← rd g.startPointers (sizeOfInt (cell + 1))
  assertThat (g.connectionWeight.length == g.neighbourhood.length)
  if g.neighbourhood.length < beg ∨ g.neighbourhood.length < fin then .ub .outOfBounds else
  if g.connectionWeight.length < beg ∨ g.connectionWeight.length < fin then .ub .outOfBounds else
  pure (⟨beg, beg⟩, ⟨fin, fin⟩)

/-- AssembledConnectionsIteration.hpp:52-55, `operator*` -/
def deref (g : AssembledConnections R) (it : NeighbourhoodIterator) : Res (Int × R) := do
  let n ← rd g.neighbourhood it.neighbourIter
  let w ← rd g.connectionWeight it.weightIter
  pure (n, w)

/-- AssembledConnectionsIteration.hpp:57-61, `operator!=` -/
def iterNe (it other : NeighbourhoodIterator) : Res Bool := do
  assertThat ((it.neighbourIter != other.neighbourIter) == (it.weightIter != other.weightIter))
  pure (it.neighbourIter != other.neighbourIter)

/-- AssembledConnectionsIteration.hpp:63-68, `operator++` -/
def iterNext (g : AssembledConnections R) (it : NeighbourhoodIterator) : Res NeighbourhoodIterator :=
  if g.neighbourhood.length ≤ it.neighbourIter ∨ g.connectionWeight.length ≤ it.weightIter then .ub .outOfBounds else
  .ok ⟨it.neighbourIter + 1, it.weightIter + 1⟩

/-- The loop of a range-for statement: `for (; it != end; ++it) { conn = *it; ... }`.
    Loops AssembledConnections.cpp:477-479, TracerTofSolver.cpp:62-66 and 344-349. -/
def rangeLoop {σ : Type} (g : AssembledConnections R) (body : σ → Int × R → Res σ) :
    Nat → NeighbourhoodIterator → NeighbourhoodIterator → σ → Res σ
  | 0, _, _, _ => .diverge
  | fuel + 1, it, last, s => do
    let more ← iterNe it last
    if more then do
      let conn ← g.deref it
      let s ← body s conn
      let it ← g.iterNext it
      rangeLoop g body fuel it last s
    else pure s

/-- `for (const auto& conn : g.cellNeighbourhood(cell)) { ... }`.
    AssembledConnections.cpp:451-460 and 476-479, TracerTofSolver.cpp:62-66 and 344-349. -/
def rangeFor {σ : Type} (g : AssembledConnections R) (fuel : Nat) (cell : Int) (s : σ) (body : σ → Int × R → Res σ) : Res σ := do
  let r ← g.cellRange cell
  rangeLoop g body fuel r.1 r.2 s

/-- AssembledConnections.cpp:464-488, `operator<<`, with iterators. -/
def printIter (fuel : Nat) (os : OStream R) (ac : AssembledConnections R) : Res (OStream R) := do
  let (os, oprec) := os.setPrecision 16
  let (os, oflags) := os.setf scientificFlag
  let os ← forEach (List.range (narrowInt ac.numRows).toNat) os fun os cell =>
    ac.rangeFor fuel cell os fun os c => .ok (os.writeLine cell c)
  let (os, _) := os.setPrecision oprec
  let (os, _) := os.setf oflags
  pure os

end AssembledConnections
end Verif
