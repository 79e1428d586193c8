/-
Model of opm/flowdiagnostics/CellSet.{hpp,cpp} and CellSetValues.hpp.
Line numbers refer to CellSet.cpp unless stated otherwise.
-/
import Verif.Model.OMap

namespace Verif

/-- CellSet.hpp:34-49, class `CellSetID`; the constructors (35-41) store the
    given string, or the empty string. -/
structure CellSetID where
  id : Str := []
  deriving DecidableEq, Repr

namespace CellSetID

/-- CellSet.cpp:43-47 -/
def toString (x : CellSetID) : Str := x.id

/-- CellSet.cpp:49-53, `operator<` -/
def lt (x y : CellSetID) : Bool := strLt x.id y.id

/-- `std::map<CellSetID, ...>` uses `operator<`.  CellSet.cpp:49-53. -/
instance : LT CellSetID := ⟨fun x y => lt x y = true⟩
/-- CellSet.cpp:49-53. -/
instance : DecidableLT CellSetID := fun x y => inferInstanceAs (Decidable (lt x y = true))

end CellSetID

/-- CellSetValues.hpp:29, `std::map<int, double>`. -/
abbrev CellSetValues (R : Type) := OMap Int R

/-- CellSet.hpp:54-77, class `CellSet`. -/
structure CellSet where
  id : CellSetID
  iset : List Int
  deriving Repr

namespace CellSet

/-- CellSet.cpp:57-60, `CellSet(id)` -/
def empty (id : CellSetID) : CellSet := { id := id, iset := [] }

/-- CellSet.cpp:62-65, `CellSet(id, cells)`: range constructor of the set. -/
def ofCells (id : CellSetID) (cells : List Int) : CellSet :=
  { id := id, iset := cells.foldl setInsert [] }

/-- CellSet.cpp:73-77, `insert` -/
def insert (s : CellSet) (i : Int) : CellSet := { s with iset := setInsert s.iset i }

/-- CellSet.cpp:79-89, the cells visited from `begin()` to `end()` -/
def cells (s : CellSet) : List Int := s.iset

end CellSet

end Verif
