/-
The cases of tests/test_derivedquantities.cpp, evaluated on the model with double-precision numbers: a check of the
model, not a proof about it.  The expected values are those in the file.
-/
import Verif.Model.DerivedQuantities
import Verif.Tests.Toolbox

namespace Verif.Tests.DerivedQuantities
open Verif.Derived
open Verif.Tests.Toolbox (oneDim forward backward start I1 P1)

/-- Put an element in its place. -/
def place (x : Double × Double) : List (Double × Double) → List (Double × Double)
  | [] => [x]
  | y :: ys => if pairLt y x then y :: place x ys else x :: y :: ys

/-- Some sorting algorithm. -/
def sort (l : List (Double × Double)) : List (Double × Double) := l.foldr place []

def graphClose (g : Graph Double) (a b : List ℚ) : Bool := allClose g.1 a && allClose g.2 b

def checks {α : Type} (r : Res α) (p : α → Bool) : Bool :=
  match r with
  | .ok s => p s
  | _ => false

def throwsRuntime {α : Type} (r : Res α) : Bool :=
  match r with
  | .throw .runtimeError => true
  | _ => false

/-! ### OneDimCase -/

def fwd : Solution Double := match forward oneDim [start I1 0] with | .ok s => s | _ => {}
def rev : Solution Double := match backward oneDim [start P1 4] with | .ok s => s | _ => {}
def pv : List Double := List.replicate 5 (d (3 / 10))

/-- `flowCapacityStorageCapacityCurve` with the default for the last argument, DerivedQuantities.hpp:59 -/
def fcapscap : Res (Graph Double) := curveOf sort fwd rev pv (d 1)

example : throwsRuntime (curveOf sort {} rev pv (d 1)) = true := by decide +kernel
example : throwsRuntime (curveOf sort fwd {} pv (d 1)) = true := by decide +kernel
example : throwsRuntime (curveOf sort fwd rev [] (d 1)) = true := by decide +kernel
example : (checks fcapscap fun g =>
    graphClose g [0, 2 / 10, 4 / 10, 6 / 10, 8 / 10, 1] [0, 2 / 10, 4 / 10, 6 / 10, 8 / 10, 1]) = true := by
  decide +kernel
example : (checks (curve sort fwd.timeOfFlight rev.timeOfFlight pv (d 1)) fun g =>
    graphClose g [0, 2 / 10, 4 / 10, 6 / 10, 8 / 10, 1] [0, 2 / 10, 4 / 10, 6 / 10, 8 / 10, 1]) = true := by
  decide +kernel
example : (checks (fcapscap.bind lorenzCoefficient) fun x => close x 0) = true := by decide +kernel

def wrongGraph : Graph Double := ([d 0, d (1 / 2), d 1], [d 1, d 1])
def maxLorenzGraph : Graph Double := ([d 0, d 1], [d 1, d 1])
def inbetweenLorenzGraph : Graph Double := ([d 0, d (45 / 100), d 1], [d 0, d (75 / 100), d 1])

example : throwsRuntime (lorenzCoefficient wrongGraph) = true := by decide +kernel
example : (checks (lorenzCoefficient maxLorenzGraph) fun x => close x 1) = true := by decide +kernel
example : (checks (lorenzCoefficient inbetweenLorenzGraph) fun x => close x (3 / 10)) = true := by decide +kernel

example : throwsRuntime (sweepEfficiency wrongGraph) = true := by decide +kernel
example : (checks (fcapscap.bind sweepEfficiency) fun g =>
    graphClose g [0, 1, 1, 1, 1, 1] [0, 1, 1, 1, 1, 1]) = true := by decide +kernel
example : (checks (sweepEfficiency maxLorenzGraph) fun g => graphClose g [0] [0]) = true := by decide +kernel
example : (checks (sweepEfficiency inbetweenLorenzGraph) fun g =>
    graphClose g [0, 6 / 10, 22 / 10] [0, 6 / 10, 1]) = true := by decide +kernel

example : (checks (pairVolume fwd rev pv I1 P1) fun x => close x (15 / 10)) = true := by decide +kernel

def wellflow : OMap CellSetID (CellSetValues Double) := [(I1, [(0, d (3 / 10))]), (P1, [(4, d (-3 / 10))])]

example : (checks (pairFluxes fwd rev I1 P1 wellflow) fun x => close x.1 (3 / 10) && close x.2 (-3 / 10)) = true := by
  decide +kernel

/-! ### GeneralCase -/

def general : Res (Graph Double) := curve sort [d 0, d 2, d 1] [d 1, d 2, d 0] [d 1, d 2, d 1] (d 1)

example : (checks general fun g => graphClose g [0, 1 / 4, 1 / 2, 1] [0, 4 / 10, 8 / 10, 1]) = true := by decide +kernel
example : (checks (general.bind lorenzCoefficient) fun x => close x (3 / 10)) = true := by decide +kernel

end Verif.Tests.DerivedQuantities
