/-
Model of opm/utility/graph/AssembledConnections.{hpp,cpp} and
opm/utility/graph/AssembledConnectionsIteration.hpp.

Line numbers refer to AssembledConnections.cpp unless stated otherwise.
-/
import Verif.Model.Res
import Verif.Model.Arith

namespace Verif

/-- AssembledConnections.hpp:138-171, class `Connections`. -/
structure Connections (R : Type) where
  i : List Int := []
  j : List Int := []
  v : List R := []
  maxI : Int := -1
  maxJ : Int := -1
  deriving Repr

namespace Connections
variable {R : Type}

/-- AssembledConnections.cpp:40-49, `add(i, j)`. -/
def add (c : Connections R) (i j : Int) : Connections R :=
  { c with i := c.i ++ [i], j := c.j ++ [j], maxI := max c.maxI i, maxJ := max c.maxJ j }

/-- AssembledConnections.cpp:51-58, `add(i, j, v)`. -/
def addW (c : Connections R) (i j : Int) (v : R) : Connections R :=
  let c' := c.add i j
  { c' with v := c'.v ++ [v] }

/-- AssembledConnections.cpp:60-66, `clear()`.  The maxima are not reset. -/
def clear (c : Connections R) : Connections R :=
  { c with i := [], j := [], v := [] }

/-- AssembledConnections.cpp:68-72 -/
def isEmpty (c : Connections R) : Bool := c.i.isEmpty

/-- AssembledConnections.cpp:74-79 -/
def isValid (c : Connections R) : Bool :=
  (c.i.length == c.j.length) && (c.v.isEmpty || (c.v.length == c.i.length))

/-- AssembledConnections.cpp:81-85 -/
def isWeighted (c : Connections R) : Bool := !c.v.isEmpty

end Connections

/-- AssembledConnections.hpp:173-191, class `CSR`. -/
structure CSR (R : Type) where
  ia : List Nat := []
  ja : List Int := []
  sa : List R := []
  elmIdx : List Nat := []
  numRows : Int := 0
  numCols : Int := 0
  deriving Repr

namespace CSR
variable {R : Type}

/-- `vecIdx(row) + 1`, AssembledConnections.cpp:265-273 and 293-307: the cast and the addition are in
    64-bit `size_t`, so the index of row `-1` is `0`. -/
def rowSlot (row : Int) : Nat := (sizeOfInt row + 1) % 18446744073709551616

/-- AssembledConnections.cpp:272-274: count the entries of each row. -/
def countRows (ia : List Nat) (rowIdx : List Int) : Res (List Nat) :=
  forEach rowIdx ia fun ia row => do
    let n ← rd ia (rowSlot row)
    wr ia (rowSlot row) (n + 1)

/-- AssembledConnections.cpp:276-283: `for (i = 1; i <= n; ++i) { ia[0] += ia[i]; ia[i] = ia[0] - ia[i]; }` -/
def prefixSums (ia : List Nat) (n : Nat) : Res (List Nat) :=
  forEach (List.range' 1 n) ia fun ia i => do
    let s ← rd ia 0
    let c ← rd ia i
    let ia ← wr ia 0 (s + c)
    wr ia i (s + c - c)

/-- AssembledConnections.cpp:258-284, `accumulateRowEntries`. -/
def accumulateRowEntries (g : CSR R) (numRows : Int) (rowIdx : List Int) : Res (CSR R) := do
  assertThat (decide (0 ≤ numRows))
  let n := sizeOfInt numRows
  let ia := List.replicate (n + 1) 0
  let ia ← countRows ia rowIdx
  let ia ← prefixSums ia n
  pure { g with ia := ia }

/-- One iteration of the loop AssembledConnections.cpp:303-312 for the entry `(row, col)`.  The code reads
    `colIdx[nz]` with `nz < rowIdx.size()`; both vectors have the same length at
    every call, so the model walks the zipped list. -/
def insertEntry (s : List Nat × List Int × List Nat) (e : Int × Int) :
    Res (List Nat × List Int × List Nat) := do
  let k ← rd s.1 (rowSlot e.1)
  let ia ← wr s.1 (rowSlot e.1) (k + 1)
  let ja ← wr s.2.1 k e.2
  pure (ia, ja, s.2.2 ++ [k])

/-- AssembledConnections.cpp:286-315, `createGraph`.  A column vector shorter than the row vector would be
    read out of bounds. -/
def createGraph (g : CSR R) (rowIdx colIdx : List Int) : Res (CSR R) := do
  let ia0 ← rd g.ia 0
  assertThat (ia0 == rowIdx.length)
  if colIdx.length < rowIdx.length then .ub .outOfBounds else do
  let ja := resize g.ja rowIdx.length 0
  let (ia, ja, elm) ← forEach (rowIdx.zip colIdx) (g.ia, ja, []) insertEntry
  let ia ← wr ia 0 0
  pure { g with ia := ia, ja := ja, elmIdx := elm }

/-- AssembledConnections.cpp:336-354, `expandStartPointers`: row `i` is repeated `ia[i+1] - ia[i]` times. -/
def expandStartPointers (ia : List Nat) : Res (List Int) :=
  forEach (List.range (ia.length - 1)) [] fun rows i => do
    let b ← rd ia i
    let e ← rd ia (i + 1)
    pure (rows ++ List.replicate (e - b) (i : Int))

/-- AssembledConnections.cpp:381-389, `remapElementIndex`. -/
def remapElementIndex (g : CSR R) (elm : List Nat) : Res (CSR R) := do
  let elm' ← forEach elm [] fun acc i => do
    let k ← rd g.elmIdx i
    pure (acc ++ [k])
  pure { g with elmIdx := elm' }

/-- AssembledConnections.cpp:317-334, `transpose`. -/
def transpose (g : CSR R) : Res (CSR R) := do
  let elm := g.elmIdx
  let rowIdx ← expandStartPointers g.ia
  let colIdx := g.ja
  let g ← accumulateRowEntries g g.numCols colIdx
  let g ← createGraph g colIdx rowIdx
  let g ← remapElementIndex g elm
  pure { g with numRows := g.numCols, numCols := g.numRows }

/-- AssembledConnections.cpp:195-204, `sort`. -/
def sort (g : CSR R) : Res (CSR R) := do
  let g ← transpose g
  transpose g

/-- AssembledConnections.cpp:368-378, body of `unique` after its first element: `last` is `ja_.back()`. -/
def uniqueFrom (last : Int) (s : List Int × List Nat) : List Int → List Int × List Nat
  | [] => s
  | x :: xs =>
    if x = last then
      -- inner loop: elmIdx_.push_back(elmIdx_.back())
      uniqueFrom last (s.1, s.2 ++ [s.1.length - 1]) xs
    else
      uniqueFrom x (s.1 ++ [x], s.2 ++ [s.1.length]) xs

/-- AssembledConnections.cpp:356-379, `unique(begin, end)`; the argument is the range `[begin, end)`.
    `elmIdx_.back()` is the position of the element last pushed to `ja_`. -/
def unique (s : List Int × List Nat) : List Int → List Int × List Nat
  | [] => s
  | x :: xs => uniqueFrom x (s.1 ++ [x], s.2 ++ [s.1.length]) xs

/-- One iteration of AssembledConnections.cpp:218-231.  State: `ia_`, position `end`, `ja_`, `elmIdx_`. -/
def condenseRow (colIdx : List Int) (s : List Nat × Nat × List Int × List Nat) (row : Nat) :
    Res (List Nat × Nat × List Int × List Nat) := do
  let b ← rd s.1 row
  let e ← rd s.1 (row + 1)
  let pos := s.2.1
  let pos' := pos + (e - b)
  if colIdx.length < pos' then .ub .outOfBounds else do
  let q := s.2.2.1.length
  let u := unique s.2.2 ((colIdx.drop pos).take (pos' - pos))
  let ia ← wr s.1 row q
  pure (ia, pos', u)

/-- AssembledConnections.cpp:206-237, `condenseDuplicates`. -/
def condenseDuplicates (g : CSR R) : Res (CSR R) := do
  let colIdx := g.ja
  let elm := g.elmIdx
  let (ia, _, ja, elm') ←
    forEach (List.range (g.ia.length - 1)) (g.ia, 0, [], []) (condenseRow colIdx)
  let g ← remapElementIndex { g with ia := ia, ja := ja, elmIdx := elm' } elm
  let ia ← wr g.ia (g.ia.length - 1) g.ja.length
  pure { g with ia := ia }

/-- AssembledConnections.cpp:179-193, `assemble`. -/
def assemble (g : CSR R) (c : Connections R) : Res (CSR R) := do
  let numRows ← intSucc c.maxI
  let g ← accumulateRowEntries g numRows c.i
  let g ← createGraph g c.i c.j
  let numCols ← intSucc c.maxJ
  pure { g with numRows := numRows, numCols := numCols }

variable [Arith R]

/-- AssembledConnections.cpp:239-256, `accumulateConnWeights`. -/
def accumulateConnWeights (g : CSR R) (v : List R) : Res (CSR R) := do
  if v.length ≠ g.elmIdx.length then .throw .logicError else do
  let sa := List.replicate g.ja.length (Arith.zero : R)
  let sa ← forEach (g.elmIdx.zip v) sa fun sa e => do
    let x ← rd sa e.1
    wr sa e.1 (Arith.add x e.2)
  pure { g with sa := sa }

/-- AssembledConnections.cpp:149-151: weights are only stored if there are any. -/
def applyWeights (g : CSR R) (c : Connections R) : Res (CSR R) :=
  if c.isWeighted then accumulateConnWeights g c.v else .ok g

/-- AssembledConnections.cpp:153-158: pad the start pointers of trailing empty rows. -/
def extendRows (g : CSR R) (numrows : Nat) : Res (CSR R) :=
  if g.ia.length - 1 < numrows then do
    let last ← rd g.ia (g.ia.length - 1)
    pure { g with ia := g.ia ++ List.replicate (numrows - (g.ia.length - 1)) last }
  else .ok g

/-- AssembledConnections.cpp:129-159, `create`. -/
def create (g : CSR R) (c : Connections R) (numrows : Nat) : Res (CSR R) := do
  if !c.isEmpty && decide (numrows ≤ sizeOfInt c.maxI) then .throw .invalidArgument else do
  let g ← assemble g c
  let g ← sort g
  let g ← condenseDuplicates g
  let g ← applyWeights g c
  extendRows g numrows

end CSR

/-- AssembledConnections.hpp:41-231, class `AssembledConnections`. -/
structure AssembledConnections (R : Type) where
  conns : Connections R := {}
  csr : CSR R := {}
  deriving Repr

namespace AssembledConnections
variable {R : Type}

/-- AssembledConnections.cpp:397-403 -/
def addConnection (g : AssembledConnections R) (i j : Int) : AssembledConnections R :=
  { g with conns := g.conns.add i j }

/-- AssembledConnections.cpp:405-412 -/
def addConnectionW (g : AssembledConnections R) (i j : Int) (v : R) : AssembledConnections R :=
  { g with conns := g.conns.addW i j v }

/-- AssembledConnections.cpp:433-437 -/
def startPointers (g : AssembledConnections R) : List Nat := g.csr.ia
/-- AssembledConnections.cpp:439-443. -/
def neighbourhood (g : AssembledConnections R) : List Int := g.csr.ja
/-- AssembledConnections.cpp:445-449. -/
def connectionWeight (g : AssembledConnections R) : List R := g.csr.sa

/-- AssembledConnections.cpp:427-431, `numRows()`: `size() - 1` in `size_t`. -/
def numRows (g : AssembledConnections R) : Nat :=
  if g.startPointers.length = 0 then 18446744073709551615 else g.startPointers.length - 1

/-- 451-460 together with AssembledConnectionsIteration.hpp:43-96: the pairs
    (neighbour, weight) visited by a range-for over `cellNeighbourhood(cell)`.  Simplified:
    iterators are in `Model/NeighbourhoodIteration.lean`. -/
def cellNeighbourhood (g : AssembledConnections R) (cell : Int) : Res (List (Int × R)) := do
  let beg ← rd g.startPointers (sizeOfInt cell)
  let fin ← rd g.startPointers (sizeOfInt (cell + 1))
  assertThat (g.connectionWeight.length == g.neighbourhood.length)
  if fin < beg ∨ g.neighbourhood.length < fin then .ub .outOfBounds else
  pure (((g.neighbourhood.zip g.connectionWeight).drop beg).take (fin - beg))

variable [Arith R]

/-- AssembledConnections.cpp:414-425, `compress`, on success.  `compressStep` below also gives the state
    left behind by an exception. -/
def compress (g : AssembledConnections R) (numRows : Nat) : Res (AssembledConnections R) := do
  if !g.conns.isValid then .throw .logicError else do
  let csr ← g.csr.create g.conns numRows
  pure { conns := g.conns.clear, csr := csr }

end AssembledConnections

namespace CSR
variable {R : Type} [Arith R]

/-- AssembledConnections.cpp:129-159, `create`, with the state of `*this` after the call: what was stored
    up to the point of an exception stays stored.  After undefined behaviour the
    state is meaningless; the model then repeats the input state. -/
def createStep (g : CSR R) (c : Connections R) (numrows : Nat) : CSR R × Res Unit :=
  if !c.isEmpty && decide (numrows ≤ sizeOfInt c.maxI) then (g, .throw .invalidArgument) else
  match ((assemble g c).bind sort).bind condenseDuplicates with
  | .ok g1 =>
    match applyWeights g1 c with
    | .ok g2 =>
      match extendRows g2 numrows with
      | .ok g3 => (g3, .ok ())
      | .throw e => (g2, .throw e)
      | .ub u => (g, .ub u)
      | .diverge => (g, .diverge)
    | .throw e => (g1, .throw e)
    | .ub u => (g, .ub u)
    | .diverge => (g, .diverge)
  | .throw e => (g, .throw e)
  | .ub u => (g, .ub u)
  | .diverge => (g, .diverge)

end CSR

namespace AssembledConnections
variable {R : Type} [Arith R]

/-- AssembledConnections.cpp:414-425, `compress` with the state of `*this` after the call. -/
def compressStep (g : AssembledConnections R) (numRows : Nat) : AssembledConnections R × Res Unit :=
  if !g.conns.isValid then (g, .throw .logicError) else
  match g.csr.createStep g.conns numRows with
  | (csr, .ok ()) => ({ conns := g.conns.clear, csr := csr }, .ok ())
  | (csr, r) => ({ g with csr := csr }, r)

end AssembledConnections

/-- The parts of `std::ostream` that `operator<<` touches: precision, format
    flags and what was written.  A written number is kept as its value together
    with the settings in force, which determine its text.  AssembledConnections.cpp:466-487. -/
structure OStream (R : Type) where
  precision : Int
  flags : Nat
  out : List (Int × Int × R × Int × Nat) := []
  deriving Repr

/-- `std::ios_base::scientific`, one bit of the format flags.  AssembledConnections.cpp:471. -/
def scientificFlag : Nat := 256

/-- Conversion of a `size_t` to `int`, modulo 2^32 (the behaviour of the
    supported compilers).  AssembledConnections.cpp:474, DerivedQuantities.cpp:107, 152 and 178. -/
def narrowInt (n : Nat) : Int :=
  let k := n % 4294967296
  if k < 2147483648 then (k : Int) else (k : Int) - 4294967296

namespace OStream
variable {R : Type}

/-- `os.precision(p)`: returns the old value.  AssembledConnections.cpp:470 and 483. -/
def setPrecision (os : OStream R) (p : Int) : OStream R × Int :=
  ({ os with precision := p }, os.precision)

/-- `os.setf(f)`: *adds* the flags in `f`; returns the old value.
    AssembledConnections.cpp:471 and 484. -/
def setf (os : OStream R) (f : Nat) : OStream R × Nat :=
  ({ os with flags := os.flags ||| f }, os.flags)

/-- One output statement, AssembledConnections.cpp:478. -/
def writeLine (os : OStream R) (cell : Int) (c : Int × R) : OStream R :=
  { os with out := os.out ++ [(cell, c.1, c.2, os.precision, os.flags)] }

end OStream

/-- AssembledConnections.cpp:466-487, `operator<<`. -/
def AssembledConnections.print {R : Type} (os : OStream R) (ac : AssembledConnections R) :
    Res (OStream R) := do
  let (os, oprec) := os.setPrecision 16
  let (os, oflags) := os.setf scientificFlag
  let os ← forEach (List.range (narrowInt ac.numRows).toNat) os fun os cell => do
    let nb ← ac.cellNeighbourhood cell
    pure (nb.foldl (fun os c => os.writeLine cell c) os)
  let (os, _) := os.setPrecision oprec
  let (os, _) := os.setf oflags
  pure os

end Verif
