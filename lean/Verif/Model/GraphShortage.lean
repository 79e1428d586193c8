/-
`AssembledConnections` whose calls run out of memory: `std::bad_alloc` thrown by a vector.

The relations say in which states a call may leave the object.  Line numbers refer to
opm/utility/graph/AssembledConnections.cpp.
-/
import Verif.Model.AssembledConnections

namespace Verif

namespace Connections
variable {R : Type}

/-- AssembledConnections.cpp:40-58: `add` runs out of memory.  A `push_back` that throws does not change its vector. -/
inductive AddRunsOut (c : Connections R) : Int → Int → Option R → Connections R → Prop
  /-- 44 -/
  | row (i j : Int) (v : Option R) : AddRunsOut c i j v c
  /-- 45; the row has been stored, the maxima have not been changed -/
  | column (i j : Int) (v : Option R) : AddRunsOut c i j v { c with i := c.i ++ [i] }
  /-- 57; row, column and maxima have been stored -/
  | weight (i j : Int) (v : R) : AddRunsOut c i j (some v) (c.add i j)

end Connections

namespace AssembledConnections
variable {R : Type}

/-- AssembledConnections.cpp:397-412: `addConnection` runs out of memory. -/
inductive AddRunsOut (g : AssembledConnections R) (i j : Int) (v : Option R) : AssembledConnections R → Prop
  | intro {c : Connections R} : g.conns.AddRunsOut i j v c → AddRunsOut g i j v { g with conns := c }

/-- AssembledConnections.cpp:414-425: `compress` of a valid list runs out of memory in `create` (129-159); `clear` is not reached and needs no memory.
    What the compressed structure holds is left open, but the weights are not touched for an unweighted list (149-151). -/
inductive CompressRunsOut (g : AssembledConnections R) : AssembledConnections R → Prop
  | intro (hv : g.conns.isValid = true) (csr : CSR R) (hw : g.conns.isWeighted = false → csr.sa = g.csr.sa) :
      CompressRunsOut g { g with csr := csr }

end AssembledConnections

end Verif
