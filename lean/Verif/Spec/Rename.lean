/-
Wells under other names.
-/
import Verif.Spec.Toolbox

namespace Verif.Spec
open Verif.Toolbox

variable {R : Type}

/-- `m'` has the sets of `m`, the set called `i` now being called `ρ i`.  (A map lists its sets in the order of their
    names, so the sets may come in another order.) -/
structure Renamed (ρ : CellSetID → CellSetID) (m m' : InflowFlux R) : Prop where
  sets : (m.map fun set => (ρ set.1, set.2)).Perm m'
  names : (m'.map fun set => set.1).Nodup

/-- A start set under its new name. -/
def renamedStart (ρ : CellSetID → CellSetID) (s : CellSet) : CellSet := { s with id := ρ s.id }

/-- `s'` answers every question about `ρ i` as `s` does about `i`, and knows no other names. -/
structure RenamedSolution (ρ : CellSetID → CellSetID) (s s' : Solution R) : Prop where
  tof : s'.timeOfFlight = s.timeOfFlight
  concentration : ∀ i, s'.concentration (ρ i) = s.concentration i
  tofOf : ∀ i, s'.timeOfFlightOf (ρ i) = s.timeOfFlightOf i
  starts : ∀ j, j ∈ s'.startPoints ↔ ∃ i ∈ s.startPoints, ρ i = j

/-- Two calls end in the same way: with solutions that agree up to the names, or with the same exception
    (undefined behaviour, unbounded iteration). -/
def SameUpTo (ρ : CellSetID → CellSetID) : Res (Solution R) → Res (Solution R) → Prop
  | .ok s, .ok s' => RenamedSolution ρ s s'
  | .throw e, .throw e' => e = e'
  | .ub u, .ub u' => u = u'
  | .diverge, .diverge => True
  | _, _ => False

section
variable [Arith R]

/-- The positive values of cell `c`, in the order of the map. -/
def inflowsAt (m : InflowFlux R) (c : Int) : List R :=
  m.flatMap fun set => (set.2.filter fun e => decide (e.1 = c) && Arith.lt Arith.zero e.2).map fun e => e.2

/-- The negative values of cell `c`, in the order of the map. -/
def outflowsAt (m : InflowFlux R) (c : Int) : List R :=
  m.flatMap fun set => (set.2.filter fun e => decide (e.1 = c) && (Arith.lt e.2 Arith.zero && !Arith.lt Arith.zero e.2)).map
    fun e => e.2

/-- Two histories hand over the same pore volumes and connection fluxes, and the same wells under other names. -/
structure SameButNames (ρ : CellSetID → CellSetID) (g : ConnectivityGraph) (calls calls' : List (Call R)) : Prop where
  pv : lastPoreVolume g calls' = lastPoreVolume g calls
  flux : lastFlux g calls' = lastFlux g calls
  wells : Renamed ρ ((lastInflow calls).getD []) ((lastInflow calls').getD [])

/-- Added up one by one, starting with zero. -/
def addedUp (l : List R) : R := l.foldl Arith.add Arith.zero

end

end Verif.Spec
