# Formal model of OPM/opm-flowdiagnostics: design

The model is Lean 4 (4.33.0) under `lean/Verif/`.  It follows the C/C++ sources
function by function; every definition cites the file and lines it models.

| directory | content |
|-----------|---------|
| `Model/`  | the code, as total computable functions |
| `Spec/`   | the vocabulary of the properties: graphs, reachability, flow problems, balances, histories.  Written without reference to the proofs; refers to the model only through its public calls |
| `Props/`  | the theorems named in `MANIFEST.json`, one group per file, each followed by an `example` that a concrete, non-trivial case meets its hypotheses |
| `Proofs/` | everything in between |

## 1. Shape of the model

* **Outcomes** (`Model/Res.lean`).  A C++ call either returns (`ok`), throws
  (`throw e`), runs into undefined behaviour or a failing `assert`
  (`ub kind`), or runs out of the fuel given to an unbounded `while` loop
  (`diverge`).  Undefined behaviour is never assumed away: vector and pointer
  accesses go through `rd`/`wr`, which give `ub` out of bounds (and, for
  `malloc`ed C arrays, on reading an element that was never written).
  `std::length_error` is counted as the `std::logic_error` it derives from.
  Functions that change an object and then throw return the changed object
  together with the exception, so "unchanged when rejected" is a statement
  about the model and not built into it.
* **Machine integers.**  `int`/`size_t` are `Int`/`Nat`.  Casts `int -> size_t`
  wrap modulo 2^64 where the code can meet a negative value; `maxRow()+1` and
  the narrowing casts are `ub` or wrap beyond `INT_MAX` as in the sources.  The
  product in `ConnectionValues` wraps.  Other size arithmetic is unbounded (a
  vector in memory is shorter than 2^64).
* **Containers.**  `std::vector` is `List`; `std::map` is a key-sorted
  association list with the operations used by the code (`Model/OMap.lean`);
  `std::unordered_set` is a duplicate-free list whose order carries no meaning.
* **Unbounded loops** (`tarjan_local`, Gauss-Seidel) take fuel.  `InjectionReturns`
  and `ProductionReturns` say that from some fuel on every larger amount gives
  this outcome, and `Proofs/Fuel.lean` shows that more fuel never changes an
  outcome other than `diverge`.
* **malloc** outcomes are Boolean parameters, so allocation failure is part of
  the quantification (C16, C17, C22, C41); the other theorems fix them to success.
  C58 and C59 use a second, finer model (`Model/Heap.lean`, `Model/TarjanHeap.lean`,
  `Model/ToolboxHeap.lean`) of the same functions on an explicit heap of blocks with
  addresses, in which using or freeing a pointer to no live block is a fault, and the
  `k`-th allocation fails or not as the heap says; addresses are not reused, and the heap
  says how many are skipped before the `k`-th allocation.  It is proved to refine the first
  model, so everything else proved carries over.
* **`std::sort`** is a parameter with the contract of the standard
  (`Spec.SortsPairs` and its exact counterpart); sorting values that are not
  ordered (NaN) is `ub`.
* **`std::mt19937`** and the distributions are parameters of `RandomVector`.

### Arithmetic

All code that computes with `double` is modelled over an arbitrary type with an
`Arith` structure: operations and Boolean comparisons, **no laws**
(`Model/Arith.lean`).  Theorems come in four strengths, and the note in
`MANIFEST.json` says which one:

1. *every arithmetic*: nothing about addition or comparison is used, so they hold
   for `double` as compiled, whatever the compiler does.
2. *sign laws* (C37, part of C39): `Spec.SignLaws`, proved for exact arithmetic
   and for `Double` (`C37_doubles`, `C39_exchanged_doubles`).
3. *any rounding* (C53-C56): `Spec.Rounded` - each operation gives the exact
   result, rounded by some function that is monotone and fixes the values of the
   format; overflow, underflow, infinities and NaN included.
4. *IEEE binary64* (C57, C64): `Model/Double.lean` defines the values (sign,
   significand, exponent; both zeros, both infinities, one NaN) and the
   operations with rounding to nearest, ties to even.  `Double.rounded` proves it
   an instance of 3, `Double.rnd_nearest` that its rounding is to nearest.
   Assumptions: each operation is rounded once (no extended precision, no fused
   multiply-add), literals are rounded correctly, the rounding mode is not changed.
   A differential run against the hardware on 20000 random pairs of operands
   (all operations, special values included) agreed; that is a test of the
   definition, not part of any proof.
5. *exact arithmetic*: the instance `X K`, an ordered field `K` extended by
   `+inf`, `-inf` and `NaN` with the IEEE rules for special values and division by
   zero, but unrounded finite arithmetic and one zero.  Balances and partition
   properties (C23-C31, C42-C51) are of this kind: with rounding they hold only
   approximately.

## 2. Plan per property

| id | modelled | proof idea |
|----|----------|------------|
| C01-C05 | `AssembledConnections` complete | counting sort invariant; stability; `unique` on sorted rows; `elmIdx` as composed position maps |
| C06 | the same, with histories | refinement to (pending list, published graph); the header's claim is false because the row/column maxima survive `compress`; negation by witness, `_partial` under "no earlier row index >= m" |
| C07, C08 | the same | corollaries of C01/C02 |
| C09 | `operator<<` as list of lines plus stream precision/flags | computation; flag restoration is false (one-argument `setf` only adds flags): negation by witness |
| C10-C14 | `tarjan.c` on explicit memory, shared stacks included | ghost frames (path vertex, finished stack vertices above it); refinement of memory to ghost state; invariants: every stack vertex is mutually reachable with its frame vertex, low-link witness, processed edges bounded by low-link, completed set closed under edges; measure for termination |
| C15-C17 | `tarjan_reverse_sccresult`, workspaces, allocation flags | list reasoning; arbitrary initial workspace contents |
| C18-C21 | small classes | direct; refinement to functions; `Solution` on an explicit heap of implementation objects |
| C22 | `TracerTofSolver` complete, every arithmetic | simulation between two solver states that agree on the immutable data |
| C23-C31 | the same over `X K`; C24 also in every arithmetic (`Spec/Support.lean`) | refinement of the `X K` run to a run over `K`; monotone iteration; super-solutions; Archimedean field for termination; for C24 in every arithmetic the keys of the maps are the cells of the local ordering |
| C32 | every arithmetic | two topological orders update every cell from final upwind values |
| C33-C41 | `Toolbox` complete | state machine over histories of calls; cached graph = graph of last flux |
| C42-C50 | `DerivedQuantities` | sums over sorted lists; C45 and C46 with doubles: pairs without sign bit are equal if neither is less, so the sorted list is unique, and adding +0 changes nothing |
| C51 | Toolbox + solver + pair fluxes | discrete adjoint identity |
| C52 | `RandomVector` over an abstract generator | state machine; the standard library's distributions are parameters |
| C53 | solver and Toolbox with any rounding | a visit keeps `0 <= tracer <= 1`: both sums run over the same connections in the same order, so monotone rounding keeps the order of the sums |
| C54 | the same | without overflow the sums are finite, so no comparison in an assertion meets NaN |
| C55, C56 | `DerivedQuantities` with any rounding | partial sums of values that are not negative rise; division by the last keeps the order |
| C57 | `Double` | invariant: a time of flight is a number, and infinite only where there is tracer; the denominator `total * (contrib / total)` cannot underflow to zero with gradual underflow and rounding to nearest |
| C58 | `tarjan.c`, the solver and `Toolbox` on the heap | each function: outcome of the first model for some outcomes of its allocations, and the blocks it adds or removes ("frame"); composition of frames |
| C59 | histories of C calls on the heap | invariant: the live blocks are those of before plus disjoint blocks of each object held; refinement to objects as values |
| C60 | solver and `Toolbox` with the statistics, over the number of sweeps allowed | relation between three runs: with counters, without, and without but with at most `INT_MAX` sweeps; the negation by an explicit sequence of iterates that rises too slowly; that calls end: the counter bounds the sweeps of each component, and the loops over components are finite |
| C61 | heap of implementation objects and the pointer of each `Toolbox` | refinement to a list of histories: pointers of distinct objects are distinct, each `Impl` is the toolbox after the object's history |
| C62 | solver, as C23 | a visit computes `(pv * c + upwind) / (total * c)`, at least `pv / total`; kept by the iteration of components; with doubles, the time of the last visit of a cell, by monotonicity of rounding, whatever the values upstream |
| C63 | diagnostics composed with `DerivedQuantities` | C62 makes travel times positive, so that C42 to C47 apply |
| C64 | `Double` (IEEE binary64) against exact rationals, on the same problem | the computation with `Double` returns because no operation overflows (`computeSolution_returns`); each operation has a relative error of at most `2^-53` (`Double.precise`) while results stay between `2^-1022` and `2^1024`, which the hypotheses ensure; cells are visited once in flow order (C32), so the errors of a cell follow from those of its upwind neighbours by induction on the layer; tests `< cutoff` and `<= 0` are decided alike because exact values keep a distance from the thresholds (`Layered.clear`, `NotTiny`) |
| C65 | `tarjan.c`, as C10 | two more ghost invariants: the finished vertices above a frame vertex form a list in which each has an edge from a later one (`Backed`); each completed component was entered at its last vertex (`Entered`) |
| C66 | `Toolbox` and solver, any arithmetic; the negation with `Double` (IEEE binary64) | without cycles every component is one cell (C32), so nothing iterates; the negation by a problem whose last component is a ring of three cells: the chain before it makes times of flight of 4.5e13, where the spacing of `double`s exceeds the tolerance, and the sweep has a cycle of length two, evaluated in the kernel on three cells; the chain of 10000 cells is handled by induction |
| C67 | `Release`: the solver without the three assertions about computed numbers (TracerTofSolver.cpp 361, 362, 366) | the two solvers differ only after a failed assertion, lifted through solves and diagnostics; the release solver is memory safe by the argument of C40 with outcomes that leave out the failed assertion, which shows that none of the other assertions fails; overflow example evaluated in the kernel |
| C68 | `Shortage`: a relation between a toolbox, a call and the states in which `std::bad_alloc` may leave the toolbox; which allocation fails is left open | induction over the history: what a toolbox holds (C35's invariant) up to the fluxes and the inflow, which hold again after the next completed assignment; undefined behaviour and mixed inflow by following the code |
| C69 | `GraphShortage`: relations for `addConnection` and `compress` that run out of memory | the three lists are those of a history without failures in which failed connections are left out or lost their weight, or there are more rows than columns; what `compress` gives depends on the lists only (C01, C02) |
| C70 | solver and `Toolbox`, as C31 | induction over the acyclic flow: both sides solve the same balance, as concentrations add up to one (C31); with cycles and with `double`s: the exact fields of the wells add up to the exact global field (uniqueness upstream), and C76, C77, C80–C82 bound the distance of each to what is returned |
| C71 | diagnostics with `DerivedQuantities`, as C34 | the balance of times (C27) multiplied by the concentration of the other side and summed over all cells; flux terms cancel by the balance of concentrations (C26) |
| C72 | two runs of `Toolbox` on problems with different pore volumes | comparison principle for the upwind balance of cycle-free flow (`upwind_le`); with any rounding, both runs side by side, every operation being monotone (`Proofs/Monotone`); with cycles, the exact fields are monotone and C76, C77 bound the distance to them; the negation by a chain with one slow cell |
| C73 | two runs on proportional problems | as C72, in both directions; with cycles and doubles the exact solutions are proportional (`prop_carries`), and both runs are close to them (C76, C77, C102) |
| C74 | solver and `Toolbox`, `Spec/FlowLaws.lean` (`upstreamFill`) | induction over the acyclic flow: a time is the fill time plus a mean of upwind times |
| C75 | all of `Toolbox`, solver and `DerivedQuantities`; `Spec/Units.lean` | multiplication commutes with every operation of the model that touches a volume or a flux (`Factor`), so the two runs go in step, function by function; the result of `std::sort` is determined by its contract |
| C76 | solver and `Toolbox`; `Spec/Balanced.lean` (exact fields carried by a flow) | a maximum principle for flows whose cells are all reached from a source: it gives existence and uniqueness of exact fields (linear algebra) and turns the residual bound of C26 into an error bound |
| C77 | as C76 | the same maximum principle for time times concentration, with the residual bound of C27; for global times, in the part of the grid upstream of a cell (`Props/GlobalTimes.lean`) |
| C78 | `DerivedQuantities` with the conversions of sizes to `int` | evaluation of the conversion; every arithmetic |
| C79 | `DerivedQuantities` with `Double`, against the same in exact arithmetic | induction over the loops with relative errors that grow by one unit per addition, sums of negative terms by symmetry of rounding; with C64 (accuracy of concentrations) and C24 (same cells) |
| C80 | solver and `Toolbox` with `Double`; `Spec/CyclicDouble.lean` (numbers in the results), `Spec/Balanced.lean` | when the iteration over a cycle stops, the last sweep changed no concentration by more than 1e-9: each cell's balance then holds up to that and the rounding errors of its own sums (relative errors, with a bound for what is lost by underflow); the maximum principle of C76 turns the residual into an error bound |
| C81 | as C80 | as C80, for the product of time and concentration: the solver's time is a quotient whose divisor contains the concentration, so the bound on rounding errors needs concentrations of at least 2^-300 and times below the cap of 200 years, which changes them |
| C82 | as C80; the concentrations of the global solve are not returned, so the theorem is stated without them | as C81 with all sources as start cells; the exact concentrations are 1 upstream, and C80's argument, applied to those that are not returned, keeps them above a half |
| C83 | as C44; the mean difference is in Spec/Lorenz.lean | the area below the curve is a sum over pairs of cells, by induction over the cells; pairs in order give the absolute difference |
| C84 | as C42 and C44 with `double`s; the computed cutoff, which may differ from the exact one by rounding, is part of the statement | relative errors of sums and quotients (as C79); the area changes little with the curve (summation by parts); cells in the wrong order have nearly equal travel times, so that the point is hardly below the line of the exact curve (`C84_line`, with C100's description of that line) |
| C85 | as C47 with `double`s; fractions of pore volume and flow that each cell has at least are part of the statement | relative error of each difference of entries (C84), carried through quotient, product and sum; sorting up to `2^-50`; the second part by computing three cells with the model of `double` in the kernel, for every order that a sort may give |
| C86 | solver and `Toolbox` with `Double`; `Spec/Tame.lean` (bounds on the flow) | rounding is monotone and there are finitely many `double`s, so sweeps that start from zero increase until nothing changes: concentrations settle; when they have settled, the values that a sweep makes of times of flight lie between two sequences of which the lower increases and the upper decreases, both settle, and the distance of their limits is below the tolerance because rounding errors are small against it where the bounds hold |
| C87 | `operator<<` with `Model/Text.lean` (`%d` and `%.*e` as digits); `Spec/ReadText.lean` reads lines back | 17 significant digits determine a `double`: the decimal nearest to it is nearer to it than half the distance of neighbouring `double`s, for normal and subnormal numbers; digits and splitting by induction; for the second theorem, `0 + s = s` for every sum `s`, because a sum that starts from `+0` is never `-0` |
| C88 | as C86; the sweep counters of `Model/SweepCounter.lean`; `SweepBounds` in `Spec/Tame.lean` | the error in a concentration, divided by the mean number of cells passed, decreases by the factor `1 - 1/H` per sweep apart from rounding, because in every cell part of the fluid has just been injected or has passed one cell fewer; the error in time of flight times concentration likewise with a polynomial factor; after `D m` sweeps both are so small that the next sweep changes nothing by more than the tolerances; then the counters agree by C60 |
| C89 | `pairVolume`, `pairFluxes` of `Model/DerivedQuantities.lean` with the `double`s of `Model/Double.lean`, on the results of the toolbox model | each sum is accurate up to a relative error per term and an absolute one for products that underflow (`Proofs/PairRounding.lean`); the balances of C80 for the injector, weighted with the producer's concentrations, and for the producer, weighted with the injector's, differ by the two fluxes of the pair (`pair_identity`); sums over wells by C80 |
| C90 | as C89, with times of flight | the same identity with the balance of time of flight times concentration of C81 in the place of that of the concentration; for the total, the exact field of C82 summed over all cells |
| C91 | two toolboxes, given the same flow with other cell numbers (`SameFlow`, `SameSets`); every permutation gives such a problem (`C91_permutation`) | without cycles the results are the only solution of equations that do not depend on numbers (C32, C39); with cycles and with doubles both results are close to the same carried field (C76, C80, C82), which is renumbered with the flow |
| C92 | a ledger of the calls (`Spec/GraphLedger.lean`): all connections ever given, those since the last success, the last graph, the last weights | induction over the history from its end; one step is the case analysis of `compress` on an object with any past that C04 and C06 use |
| C93 | `Model/Threads.lean`: the functions of the heap model as programs (sequences of accesses to the heap), threads that take turns in any order, a log of who accessed what | a program run alone does what the heap model says (`Proofs/ThreadsAlone.lean`); invariant over schedules: the blocks of the heap are those of the beginning plus disjoint blocks of each thread, and each thread is where it would be alone on a heap with only its own blocks, with other outcomes of allocations and other gaps between addresses (`Proofs/ThreadsTogether.lean`); every turn shortens a program |
| C94 | `Model/ToolboxMemory.lean`: the diagnostics calls on a machine with the C heap and requests of containers, each of which may fail; scopes with a `unique_ptr` free what they own when `bad_alloc` leaves them | simulation of the calls on the heap alone (`Proofs/ToolboxMemory.lean`): the call ends as there, or it runs out with the blocks as before and the object in a state `Model/Shortage.lean` allows; then C58 and C68 |
| C95 | the toolbox; `Spec/Upstream.lean`: the rates given for one cell | `Proofs/Upstream.lean`: a cell not on a cycle gets its value from its row of the upstream graph alone, and rows are solved after those they use; `Proofs/UpstreamData.lean`: the rows of two problems that agree upstream are the same up to position; with cycles (`Props/UpstreamCyclic.lean`) carried fields of two flows that agree on a set of cells that nothing enters are the same there, by uniqueness for the flow cut off behind that set, and C76 and C80 bound the distance to them |
| C96 | the toolbox and the pair functions; `Spec/Grouping.lean`: wells put together in groups | the field carried from the cells of a group is the sum of the fields carried from those of its members (`carries_sum`), and carried fields are unique; with C51, C76 and C80 this passes to what the toolbox returns; for times `Props/GroupTimes.lean` does the same with the fields that carry the pore volume times the concentration |
| C97 | the toolbox and the pair functions on two problems; `Spec/Sensitivity.lean`: data that differ by a factor | cycle-free flow: the balances of the two runs compared level by level (`NearFlow.upwind`); with cycles the difference of the two carried fields is itself carried, with small additions, and the maximum principle bounds it; the same for the products of concentration and time in `Props/NearTimes.lean`; `C97_jump` by solving the balances of a row of four cells with a parameter |
| C98 | the toolbox and the pair functions; `Spec/Communication.lean`: wells that communicate | zero by the support of the fields in any arithmetic (C24): each factor pair has a zero; the converse by positivity of the concentrations along each path and sums of nonnegative terms; concentration 1 by induction along the flow, since the concentrations of the wells sum to 1; with cycles by the maximum principle for the exact concentrations, which C76 and C80 compare with the computed |
| C99 | the toolbox on two problems; `Spec/Rates.lean`: problems that differ in the rate of one well | the exact fields carried by the two flows are compared with the maximum principle (`MoreFlow.own`, `MoreFlow.other`), then the error bounds of C76 and C80 are added, which are zero in cycle-free flow; times by induction along the flow; `C99_rise` by solving the balances of a row of three cells |
| C100 | `Model/DerivedQuantities.lean` on two inputs; `Spec/Subdivide.lean`: parts of cells, the line through the points of a graph | a point lies on the line exactly if it lies below all lines with slopes 1/T that touch the curve, and on one of them (`onLine_curve`); these lines, the mean difference of C83 and the points of C47 are sums over cells of pore volume times a function of travel time, and such sums do not change (`Subdivided.sum`) |
| C101 | the toolbox on two problems; `Spec/Refine.lean`: parts of cells, shares of fluxes, outlets of cells | a field carried by the coarse flow is carried by the refined one (`Refined.carries`), and both are unique (C76), then the error bounds of C76 and C80 are added; times by induction along the coarse flow, adding the balances of the parts of a cell (`Refined.times`), with cycles by the converse for the parts where cells are left (`Refined.carries_outlet`) and the error bounds of the times; pairs by adding over the parts |
| C102 | the toolbox; `Spec/Routes.lean`: routes as lists of cells, the fraction of the fluid that follows a route, the time it takes | the sums over the routes of each length obey a recursion (`onRoutes_succ`, `times_succ`); in cycle-free flow no route is longer than the number of cells, so the sum is carried by the flow and unique (C76), and times follow by induction along the flow; with cycles what has not arrived decreases geometrically, at a rate given by the number of cells the fluid passes on the average (`remaining`, `decays`), and with C77 and C81 also the error of the mean times (`Props/RouteTimes.lean`), with C77 and C82 that of global times, and that of the fluxes of pairs (`Props/GlobalTimes.lean`) |
| C103 | the toolbox; `Spec/Rename.lean`: the same wells under other names, solutions that agree up to names | the entries of the map are the same up to order and names, those of one well in the same order (`RenEntries`); so the sources per cell and per well are the same, and all solves take the same steps (`outcome_renamed`); sums of doubles commute, but are not associative: `C103_three_wells` |
| C104 | the toolbox | a call returns exactly if checks, graphs, the global solve and each local solve do; by C22 each local solve ends as on a new solver (`outcome_ok_iff`, `forEach_record_fails`) |
| C105 | the toolbox and the pair functions; `Spec/Reverse.lean`: opposite numbers, laws of products | C37; fluxes by induction over the rates, where a rate that is zero is added on one side only and adds a zero; volumes by the formula of C49, with doubles by the error bound of C79 for both orders of the factors |
| C106 | `flowCapacityStorageCapacityCurve`, `lorenzCoefficient` and the toolbox; `Spec/Measures.lean`: travel times multiplied by a number | addition commutes, and C105; sorting the multiplied times is multiplying the sorted times (`sorted_unique`), and the factor cancels in the normalised sums; for rates C73, C62 (a cell whose time is below 200 years is not slow) and C75; `C106_unswept` by the formula of C83 |
| C107 | `flowCapacityStorageCapacityCurve`, `lorenzCoefficient` and the toolbox, as in C83 and C97 | the formula of C83: the differences of inverse times change by at most r - 1 times their sum, and the sum over all pairs is the denominator; the coefficient is below one (C44); times by C97; the curve is the lower envelope of the lines that touch it (C100), and each of these changes by a factor; sweep efficiency is the filled fraction of the volume (`C47_line`), a sum over cells whose terms change by a factor; doubles by C84; `C107_cutoff` with three cells, one at the cutoff |
| C108 | the toolbox, `flowCapacityStorageCapacityCurve` and `lorenzCoefficient` with doubles, one after the other | C64 bounds the errors of the times of flight, C107 what they do to the exact curve and coefficient, C84 the errors of curve and coefficient themselves |
| C109 | `flowCapacityStorageCapacityCurve` and `sweepEfficiency`, one after the other | the line of slope 1/T that touches the curve (C100) gives the volume filled at the time T (`C47_line`); it is attained by the cells with travel times up to T (`C43_largest`) |
| C110 | `flowCapacityStorageCapacityCurve`, `lorenzCoefficient` and `sweepEfficiency` on the same curve | the coefficient as a mean difference (C83) and the swept volume as a sum over cells (`C47_line`); the triangle inequality gives the lower bound, min(a, b) ≥ min(1, a) min(1, b) for all pairs of cells, after scaling, the upper one; the bound by breakthrough likewise, with min(a, b) ≥ a b / c for c the largest inverse time; with two travel times all terms of the triangle inequality have the same sign |
| C111 | the three functions on two inputs, the second one with merged cells (`Spec/Merge.lean`) | volume and rate are the same; the minimum in the swept volume of a cell is superadditive; the lines that touch the curve (C100) depend on the swept volume only; the mean difference (C83) by the triangle inequality over the parts of two cells; `C111_cutoff` with four cells, two of which are merged |

Statements about a solver object (`Props/Solver.lean`) are repeated at the level of
`Toolbox` calls (`Props/ToolboxFlow.lean`, names ending in `_toolbox`,
`_toolbox_injection`, `_toolbox_production`), where the data come from a history of
`assign...` calls and the hypotheses speak about fluxes and inflows as given by the user.

## 3. What is modelled

| file in /repo | in the model |
|---------------|--------------|
| `opm/utility/graph/AssembledConnections.{hpp,cpp}` | everything: `Connections`, `CSR` (counting sort, `unique`, accumulation), public interface, `operator<<` |
| `opm/utility/graph/AssembledConnectionsIteration.hpp` | everything: iterators and range-for loops (`Model/NeighbourhoodIteration.lean`); elsewhere in the model a loop over a neighbourhood is a loop over the list of its (index, weight), which C08 and C09 prove equal |
| `opm/utility/graph/tarjan.{h,c}` | everything: workspaces, stacks growing towards each other in one array, both searches, reversal, accessors; with allocation and destruction on a heap of blocks |
| `opm/flowdiagnostics/ConnectivityGraph.{hpp,cpp}`, `ConnectionValues.{hpp,cpp}`, `CellSet.{hpp,cpp}`, `CellSetValues.hpp` | everything |
| `opm/flowdiagnostics/Solution.{hpp,cpp}` | everything, with copies, moves and destruction of the objects that own a pointer to the implementation, and the references that `timeOfFlight()` returns |
| `opm/flowdiagnostics/TracerTofSolver.{hpp,cpp}` | everything; the statistics `num_multicell_`, `max_size_multicell_`, `max_iter_multicell_` and the counter `num_iter`, which nothing reads, are in a separate file (`Model/SweepCounter.lean`, C60); builds without assertions are in `Model/Release.lean` (C67) |
| `opm/flowdiagnostics/Toolbox.{hpp,cpp}` | everything, with moves and destruction of objects (`Model/ToolboxObjects.lean`, C61) |
| `opm/flowdiagnostics/DerivedQuantities.{hpp,cpp}` | everything |
| `opm/utility/numeric/RandomVector.{hpp,cpp}` | everything over an abstract generator |

Not modelled: performance; the text of exceptions; how a stream formats a number
in other formats than decimal scientific (`Model/Text.lean`, C87; "C" locale, field width 0; elsewhere only which numbers are printed,
with which precision and flags); `bad_alloc` from
containers, except as an outcome of calls on a `Toolbox` or an `AssembledConnections` object
(`Model/Shortage.lean`, C68, `Model/ToolboxMemory.lean`, C94, and `Model/GraphShortage.lean`, C69; the first assumes, as libstdc++ has it, that the copy
assignment of a vector obtains memory before it changes the vector); destructors of C++ containers (those of `unique_ptr`s to C objects are
modelled); concurrent use of one object; for concurrent use of several objects (C93) the C++ containers are taken to
belong to the objects of one thread, `malloc` and `free` to be safe to call from several threads, and an access to
concern one whole block (smaller pieces cannot be told apart by other threads, as no block is accessed by two).
No file in /repo/opm has a variable with static storage duration that a call changes.

## 4. Where the code disagrees with what one would expect

Properties that are false of the code are kept in `properties.jsonl`; the negation
is proved with a witness, and the true part is proved under the suffix `_partial`.

* **C06** `Connections::clear()` keeps the largest indices, so a second graph with
  fewer rows is rejected; `CSR` also keeps old weights when the second graph has none.
* **C05** negative indices are not rejected and lead to undefined behaviour.
* **C09** `operator<<` sets format flags with the one-argument `setf`, which only
  adds flags, so they are not restored.  For the same reason a stream in `fixed` format gets
  both `fixed` and `scientific`, which is the hexadecimal format of C++11 (C87 excludes it).
* **C17** a failed allocation in `tarjan()` gives a null result, which the solver
  passes to `tarjan_reverse_sccresult` unchecked: null dereference.  (In
  `tarjan_reachable_sccs` a missing workspace fails an assertion.)  An allocation
  of zero bytes that returns `NULL`, which the C standard allows, counts as failure.
* **C18** negative cell indices in a neighbourship table are accepted.
* **C26** for a cell that is connected to itself and lies on no other cycle the balance is not what is
  computed.  The solver visits single cells once, also if they are connected to themselves, and the
  connection is missing from the result.
* **C19** the number of values of `ConnectionValues` wraps modulo 2^64.
* **C30** a start cell whose source is zero always ends in `logic_error("Tracer is zero")`.
* **C36** the cells of a start set are only compared with the inflow; the solve uses
  all sources of its id.
* `tarjan.c` forms the pointer `vert - 1` before the array.
* **C60** `++num_iter` is not bounded: for a cycle with a tiny leak the iteration can need more
  than 2^31 sweeps, and then the counter overflows.  The witness is in exact arithmetic (two cells, a
  part in 10^11 of the flux enters from outside).
* **C66** the sweeps over a cycle need not end with `double`s.  The test `max_tof_delta > tof_tol` compares
  with an absolute tolerance of 1e-12 of `max_tof_`, about 0.0063 s.  Times of flight of a cycle are not capped
  before the sweeps end, and above 2^45 s neighbouring `double`s differ by more than that.  The witness:
  a chain of 10000 cells, each taking 4.5e9 s to fill, so that none is capped, leads into a ring of three cells where
  the values alternate between two states for ever.  The program counts sweeps in an `int`, so its first
  undefined behaviour is the overflow of that counter (`C60_always_ends`, `C66_endless`).
* **C67** if the source terms of a cell add up to more than the largest `double`, a build with assertions stops
  and a build with `NDEBUG` returns times of flight of 200 years.
* **C68** `assignConnectionFlux` is not undone when it runs out of memory: the copy assignment of `ConnectionValues` has then
  changed the sizes but not the values, and the graphs built before are kept.  If no fluxes were assigned before, diagnostics read
  outside the empty vector of values; otherwise old values are read with new sizes.  A failed `assignInflowFlux` leaves
  part of the new inflow.  Callers who catch `std::bad_alloc` must repeat these assignments.
* **C69** an `addConnection` that runs out of memory cannot be repeated: the object keeps the row without the column, or
  row and column without the weight, and `compress` throws `std::logic_error` for ever, or, if there are no weights at all, accepts
  the connection without its weight.
* **C72** a cell that takes more than 200 years to fill gets the time 200 years whatever arrives from upstream, and its
  neighbours downstream go on from there.  A larger pore volume can so shorten the times of flight downstream of it.
* **C97** times of flight are not continuous in the data: when a cell becomes too slow to count as flowing (more than 200 years to
  fill), what arrives from upstream is forgotten, and times downstream of it drop at once (`C97_jump`: from 195 to 100 years).
* **C99** for the same reason more injection can raise a time of flight downstream (`C99_rise`: from 100 to nearly 195 years).
* **C103** with doubles the results can depend on the names of the wells, because the rates of wells in one cell are added in the
  order of the names (`C103_three_wells`: three wells in one cell, a difference in the last bit).
* **C106** the Lorenz coefficient depends on the unit of time (or on the size of all rates) if the flow does not reach all cells:
  such cells count with 400 years, whatever the rates (`C106_unswept`).
* **C45** with doubles the curve can depend on the numbering: the computed total pore volume does, and a cell at the cutoff is ignored
  in one order and not in the other (`C45_double_cutoff`).
* **C107** the Lorenz coefficient is not continuous in the pore volumes: it jumps when a cell passes the cutoff (`C107_cutoff`).
* **C47** holds in exact arithmetic, but not with `double`s (C85): differences of entries of the curve are rounding noise for
  cells with less than about `2^-52` of the flow.  For three cells with travel times 1, `2^53` and `2^53` efficiency goes
  0, 0.2, 1.3, 1 and time decreases at the last point.  `sweepEfficiency` skips a point only if the difference is exactly 0.
* `lorenzCoefficient` of an empty curve is -1; a curve whose kept pore volume is zero is NaN;
  `sweepEfficiency` needs fewer than `INT_MAX` points.
* Inflow cells out of range and a `pore_volume` vector that is too short for
  `injectorProducerPairVolume` are not checked.
* NaN travel times are undefined behaviour in `std::sort`.
* A graph without connections or without cells can be built but never diagnosed.

## 5. Tests against wrong programs

`seeded/LOG.jsonl` has one line per wrong program: the definition edited (in a copy of
the model), the edit, the claim it breaks, the property theorems whose proof fails
(theorems that depend on a lemma that no longer checks), and what was tightened.

### Tests of the model

`Verif/Tests` evaluates the model, in the kernel, on the cases of the seven files in `/repo/tests`
(with IEEE `double`s and the tolerance of the tests) and compares with the values expected there.
All agree, also the one comparison with zero, which is exact.  Left out is only the case `Constructor`
of `test_flowdiagnosticstool.cpp`, which draws random numbers and checks nothing.  These are
tests that the model follows the code; no theorem depends on them.

## 6. Trusted base

* Lean's kernel and the axioms `propext`, `Classical.choice`, `Quot.sound`.  Of the
  theorems in `MANIFEST.json`, `C18_negative_is_accepted` uses no axiom,
  `C17_reverse_of_null` and `C20_id_order` use `propext` only,
  `C13_start_order_irrelevant`, `C19_size_overflow`, `C20_cell_set`, `C49_unknown`,
  `C50_errors` and `C52_answers_fit` use `propext` and `Quot.sound`, and all others
  use the three axioms.  No theorem uses `sorry`, `native_decide` or `bv_decide`;
  `decide +kernel` (in examples and closed computations) is evaluated by the kernel.
* The reading of the C/C++ sources into the definitions under `Model/`, and of the
  English properties into `Spec/` and the statements in `Props/`.
* Standard library contracts: `std::vector`, `std::map`, `std::unordered_set`,
  `std::sort` (as stated above), `std::partial_sum`, `std::accumulate`, `memcpy`,
  `malloc`/`free`.
* For C57, C64 and the examples with `Double`: that the compiled program computes with
  IEEE binary64 as described above.
