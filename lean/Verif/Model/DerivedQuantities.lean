/-
Model of opm/flowdiagnostics/DerivedQuantities.{hpp,cpp}.
Line numbers refer to DerivedQuantities.cpp.

`std::sort` is a parameter `sort` of the model: the standard only says that it puts the elements in
an order that agrees with `<`, and gives no guarantee if `<` is not a strict weak ordering of the
elements.
-/
import Verif.Model.AssembledConnections
import Verif.Model.ConnectivityGraph
import Verif.Model.Solution

namespace Verif.Derived
variable {R : Type} [Arith R]

/-- DerivedQuantities.hpp:36, `Graph`: abscissas and ordinates. -/
abbrev Graph (R : Type) := List R × List R

/-- `operator<` of `std::pair<double, double>`.  DerivedQuantities.cpp:119. -/
def pairLt (a b : R × R) : Bool := Arith.lt a.1 b.1 || (!Arith.lt b.1 a.1 && Arith.lt a.2 b.2)

/-- The loop of `std::partial_sum` after its first element; `acc` is the sum so far.
    DerivedQuantities.cpp:51. -/
def partialSums (acc : R) : List R → List R
  | [] => []
  | x :: xs => Arith.add acc x :: partialSums (Arith.add acc x) xs

/-- DerivedQuantities.cpp:51, `std::partial_sum` in place. -/
def partialSum : List R → List R
  | [] => []
  | x :: xs => x :: partialSums x xs

/-- DerivedQuantities.cpp:37-58, `cumulativeNormalized`.  (`q.back()` exists, 45.) -/
def cumulativeNormalized {α : Type} (input : List α) (extract : α → R) : List R :=
  let q := partialSum (Arith.zero :: input.map extract)
  let t := q.getLastD Arith.zero
  q.map fun qi => Arith.div qi t

/-- DerivedQuantities.cpp:111-117: travel time and pore volume of a cell, or the values that replace them. -/
def timeAndPv (max_pv injector producer pv : R) : R × R :=
  if Arith.lt max_pv pv then (Arith.lit (10 ^ 100), Arith.zero)
  else (Arith.add injector producer, pv)

/-- DerivedQuantities.cpp:110-118, the loop. -/
def timesAndPvs (injector_tof producer_tof pv : List R) (max_pv : R) : List Nat → Res (List (R × R))
  | [] => .ok []
  | ii :: rest => do
    let v ← rd pv ii
    let a ← rd injector_tof ii
    let b ← rd producer_tof ii
    let tail ← timesAndPvs injector_tof producer_tof pv max_pv rest
    pure (timeAndPv max_pv a b v :: tail)

/-- DerivedQuantities.cpp:119, `std::sort`.  A NaN makes `<` of pairs no strict weak ordering, so that sorting may go
    beyond the ends of the vector. -/
def sortPairs (sort : List (R × R) → List (R × R)) (l : List (R × R)) : Res (List (R × R)) :=
  if l.all fun p => Arith.eq p.1 p.1 && Arith.eq p.2 p.2 then .ok (sort l) else .ub .outOfBounds

/-- DerivedQuantities.cpp:92-125, `flowCapacityStorageCapacityCurve` for given times of flight.  107: the number of cells
    is converted to `int`; 109: if it is negative, the vector's constructor throws
    `std::length_error`, a `std::logic_error`.  (110-118 read injector and producer values only in
    the second branch; the sizes agree, so reading them always has no effect.) -/
def curve (sort : List (R × R) → List (R × R)) (injector_tof producer_tof pv : List R) (max_pv_fraction : R) :
    Res (Graph R) :=
  if pv.length ≠ injector_tof.length ∨ pv.length ≠ producer_tof.length then .throw .runtimeError else do
  let total_pv := pv.foldl Arith.add Arith.zero
  let max_pv := Arith.mul max_pv_fraction total_pv
  let n := narrowInt pv.length
  if n < 0 then .throw .logicError else do
  let time_and_pv ← timesAndPvs injector_tof producer_tof pv max_pv (List.range n.toNat)
  let sorted ← sortPairs sort time_and_pv
  pure (cumulativeNormalized sorted fun i => i.2, cumulativeNormalized sorted fun i => Arith.div i.2 i.1)

/-- DerivedQuantities.cpp:71-80, `flowCapacityStorageCapacityCurve` for diagnostics results. -/
def curveOf (sort : List (R × R) → List (R × R)) (injector_solution producer_solution : Solution R) (pv : List R)
    (max_pv_fraction : R) : Res (Graph R) :=
  curve sort injector_solution.timeOfFlight producer_solution.timeOfFlight pv max_pv_fraction

/-- DerivedQuantities.cpp:153-156, body of the loop. -/
def lorenzStep (storagecap flowcap : List R) (integral : R) (ii : Nat) : Res R := do
  let s1 ← rd storagecap (ii + 1)
  let s0 ← rd storagecap ii
  let len := Arith.sub s1 s0
  let f0 ← rd flowcap ii
  let f1 ← rd flowcap (ii + 1)
  pure (Arith.add integral (Arith.div (Arith.mul (Arith.add f0 f1) len) (Arith.lit 2)))

/-- DerivedQuantities.cpp:143-158, `lorenzCoefficient`.  152: the number of intervals is computed in `size_t`, modulo
    2^64, and converted to `int`. -/
def lorenzCoefficient (flowcap_storagecap_curve : Graph R) : Res R :=
  let storagecap := flowcap_storagecap_curve.1
  let flowcap := flowcap_storagecap_curve.2
  if flowcap.length ≠ storagecap.length then .throw .runtimeError else do
  let num_intervals := narrowInt ((flowcap.length + (SIZE_MOD - 1)) % SIZE_MOD)
  let integral ← forEach (List.range num_intervals.toNat) Arith.zero (lorenzStep storagecap flowcap)
  pure (Arith.mul (Arith.lit 2) (Arith.sub integral (Arith.lit (1 / 2))))

/-- DerivedQuantities.cpp:185-192, body of the loop; the state is (tD, Ev). -/
def sweepStep (storagecap flowcap : List R) (s : List R × List R) (ii : Nat) : Res (List R × List R) := do
  let f1 ← rd flowcap ii
  let f0 ← rd flowcap (ii - 1)
  let fd := Arith.sub f1 f0
  let s1 ← rd storagecap ii
  let s0 ← rd storagecap (ii - 1)
  let sd := Arith.sub s1 s0
  if !Arith.eq fd Arith.zero then
    let t := Arith.div sd fd
    pure (s.1 ++ [t], s.2 ++ [Arith.add s1 (Arith.mul (Arith.sub (Arith.lit 1) f1) t)])
  else pure s

/-- DerivedQuantities.cpp:168-195, `sweepEfficiency`.  178: the size is converted to `int`, and 181: `reserve` of a
    negative number of elements throws `std::length_error`, a `std::logic_error`. -/
def sweepEfficiency (flowcap_storagecap_curve : Graph R) : Res (Graph R) :=
  let storagecap := flowcap_storagecap_curve.1
  let flowcap := flowcap_storagecap_curve.2
  if flowcap.length ≠ storagecap.length then .throw .runtimeError else
  let n := narrowInt flowcap.length
  if n < 0 then .throw .logicError else
  forEach ((List.range n.toNat).drop 1) ([Arith.zero], [Arith.zero]) (sweepStep storagecap flowcap)

/-- DerivedQuantities.cpp:213-217, body of the loop of `injectorProducerPairVolume`: 216 reads the pore volume unchecked. -/
def addPairVolume (prod_tracer : CellSetValues R) (pore_volume : List R) (volume : R) (inj_data : Int × R) : Res R :=
  match prod_tracer.find inj_data.1 with
  | none => .ok volume
  | some c => do
    let pv ← rd pore_volume (sizeOfInt inj_data.1)
    pure (Arith.add volume (Arith.mul (Arith.mul pv inj_data.2) c))

/-- DerivedQuantities.cpp:202-220, `injectorProducerPairVolume`. -/
def pairVolume (injector_solution producer_solution : Solution R) (pore_volume : List R)
    (injector producer : CellSetID) : Res R :=
  let inj_tracer := injector_solution.concentration injector
  let prod_tracer := producer_solution.concentration producer
  forEach inj_tracer Arith.zero (addPairVolume prod_tracer pore_volume)

/-- DerivedQuantities.cpp:234-245, body of the loop of `pairFlux`. -/
def addPairFlux (tracer : CellSetValues R) (require_inflow : Bool) (flux : R) (inflow : Int × R) : R :=
  match tracer.find inflow.1 with
  | none => flux
  | some c => if Arith.lt Arith.zero inflow.2 == require_inflow then Arith.add flux (Arith.mul inflow.2 c) else flux

/-- DerivedQuantities.cpp:229-247, `pairFlux`. -/
def pairFlux (tracer inflow_flux : CellSetValues R) (require_inflow : Bool) : R :=
  inflow_flux.foldl (addPairFlux tracer require_inflow) Arith.zero

/-- DerivedQuantities.cpp:265-285, `injectorProducerPairFlux`. -/
def pairFluxes (injector_solution producer_solution : Solution R) (injector producer : CellSetID)
    (inflow_flux : OMap CellSetID (CellSetValues R)) : Res (R × R) :=
  let inj_tracer := injector_solution.concentration injector
  let prod_tracer := producer_solution.concentration producer
  match inflow_flux.find injector with
  | none => .throw .runtimeError
  | some inj_set =>
    match inflow_flux.find producer with
    | none => .throw .runtimeError
    | some prod_set => .ok (pairFlux prod_tracer inj_set true, pairFlux inj_tracer prod_set false)

end Verif.Derived
