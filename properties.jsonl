{"id": "C01", "title": "compress() yields the exact sorted adjacency structure", "statement": "After any sequence of addConnection() calls with non-negative indices on a fresh object, all with weights (i,j,v) or all without (i,j), and a compress(n) with n greater than every source index, numRows() is n, startPointers() has n+1 entries, starts at 0, never decreases and ends at neighbourhood().size(), and the neighbours listed for source i are exactly the j for which (i,j) was added, in strictly ascending order without duplicates.", "quantifier": "every finite list of connections, all weighted or all unweighted (any length, any multiplicity, any order), every n", "why_tests_cant": "A test fixes a handful of graphs; the counting-sort/double-transpose/condense pipeline must be right for every multiset of index pairs.", "anchors": ["opm/utility/graph/AssembledConnections.cpp: Connections::add, CSR::create, CSR::assemble, CSR::sort, CSR::transpose, CSR::condenseDuplicates, CSR::unique", "opm/utility/graph/AssembledConnections.hpp"]}
{"id": "C02", "title": "duplicate connections have their weights accumulated", "statement": "When all connections carry weights, connectionWeight() has one entry per neighbourhood() entry, and the entry belonging to (i,j) is 0 plus all the weights given for (i,j), added in the order of the addConnection() calls; this holds for whatever floating-point addition does.", "quantifier": "every list of weighted connections, every arithmetic for the weights", "why_tests_cant": "Depends on the internal permutation bookkeeping being a bijection composed correctly through three reorderings, for every input.", "anchors": ["opm/utility/graph/AssembledConnections.cpp: CSR::accumulateConnWeights, CSR::remapElementIndex, CSR::createGraph, CSR::unique"]}
{"id": "C03", "title": "the adjacency structure does not depend on insertion order", "statement": "Two lists of connections that are permutations of each other give identical startPointers() and neighbourhood(); with exact addition they also give identical connectionWeight().", "quantifier": "every pair of permuted connection lists", "why_tests_cant": "Tests can only try a few permutations of a few lists.", "anchors": ["opm/utility/graph/AssembledConnections.cpp: CSR::create"]}
{"id": "C04", "title": "compress() rejects exactly the invalid inputs and leaves the object unchanged when it does", "statement": "On a fresh object compress(n) throws logic_error exactly when weighted and unweighted connections were mixed, otherwise throws invalid_argument exactly when some source index is >= n (or no source index is >= 0 while connections exist), and in both cases the connection list and the previously published graph stay as they were.", "quantifier": "every sequence of addConnection calls and every n", "why_tests_cant": "The boundary (index = n-1 accepted, index = n rejected) and the mixed-weights rule must hold for all histories of calls, not for sampled ones.", "anchors": ["opm/utility/graph/AssembledConnections.cpp: AssembledConnections::compress, Connections::isValid, CSR::create"]}
{"id": "C05", "title": "compress() is memory-safe for non-negative indices, and negative indices are outside its contract", "statement": "For non-negative indices below the largest int, building the graph performs no out-of-bounds access, no signed overflow and violates none of its internal assertions; a negative sink index, or a negative source index that is not rejected, always leads to an out-of-bounds access (unless some index is the largest int, which is undefined behaviour too).", "quantifier": "every list of connections and every n", "why_tests_cant": "Absence of undefined behaviour on all inputs cannot be shown by running some of them, and the failing inputs need not crash in a test.", "anchors": ["opm/utility/graph/AssembledConnections.cpp: CSR::accumulateRowEntries, CSR::createGraph, CSR::condenseDuplicates"]}
{"id": "C06", "title": "after compress() new connections form a new graph", "statement": "The header promises that addConnection() calls made after compress() create a new graph: the next compress(m) behaves as on a fresh object holding only the connections added since the last successful compress().", "quantifier": "every history of addConnection and compress calls", "why_tests_cant": "Requires reasoning about arbitrary call histories; state that survives compress() only shows in particular histories.", "anchors": ["opm/utility/graph/AssembledConnections.cpp: AssembledConnections::compress, Connections::clear, Connections::maxRow", "opm/utility/graph/AssembledConnections.hpp"]}
{"id": "C07", "title": "swapping the endpoints of every connection transposes the graph", "statement": "If a second object receives every connection with source and sink exchanged, then j is a neighbour of i in the first graph exactly when i is a neighbour of j in the second, with the same accumulated weight.", "quantifier": "every list of connections with both index ranges below the row counts", "why_tests_cant": "It is a relation between two runs on every input.", "anchors": ["opm/utility/graph/AssembledConnections.cpp: CSR::create, cellNeighbourhood"]}
{"id": "C08", "title": "iterating cellNeighbourhood() over all rows visits each stored connection once", "statement": "Going over all rows r in [0,numRows()) and over cellNeighbourhood(r) visits each aggregated connection exactly once, in (row, column) order, and with exact addition the visited weights sum to the sum of all the weights that were added.", "quantifier": "every weighted graph built by addConnection/compress", "why_tests_cant": "Conservation of total weight is a statement about all inputs.", "anchors": ["opm/utility/graph/AssembledConnections.cpp: cellNeighbourhood", "opm/utility/graph/AssembledConnectionsIteration.hpp: NeighbourhoodIterator"]}
{"id": "C09", "title": "printing a graph lists each connection once and restores the stream", "statement": "operator<< writes one 'row column weight' line per aggregated connection, rows ascending and columns ascending within a row, and returns the stream with the formatting settings it had before the call.", "quantifier": "every compressed weighted graph, every initial stream state", "why_tests_cant": "The restoration claim ranges over all initial stream states.", "anchors": ["opm/utility/graph/AssembledConnections.cpp: operator<<"]}
{"id": "C10", "title": "tarjan() returns every vertex exactly once", "statement": "For every directed graph in CSR form the components returned by tarjan(), read through tarjan_get_numcomponents/tarjan_get_strongcomponent, are non-empty and together contain each vertex 0..nv-1 exactly once.", "quantifier": "every graph (any number of vertices, edges, self-loops, parallel edges)", "why_tests_cant": "Graphs are unbounded; tests use a few small ones.", "anchors": ["opm/utility/graph/tarjan.c: tarjan, tarjan_global, tarjan_local, capture_scc"]}
{"id": "C11", "title": "tarjan() components are exactly the strongly connected components", "statement": "Two vertices lie in the same returned component if and only if each can be reached from the other along directed edges.", "quantifier": "every graph and every pair of vertices", "why_tests_cant": "Low-link bookkeeping errors only show on particular graph shapes and visiting orders.", "anchors": ["opm/utility/graph/tarjan.c: dfs_from_descendant, complete_dfs_from_vertex, capture_scc"]}
{"id": "C12", "title": "tarjan() components come in reverse topological order", "statement": "Whenever there is an edge from a vertex in component a to a vertex in component b, b <= a.", "quantifier": "every graph and every edge", "why_tests_cant": "The time-of-flight solver relies on it for every flow field.", "anchors": ["opm/utility/graph/tarjan.c: tarjan, tarjan_reachable_sccs"]}
{"id": "C13", "title": "tarjan_reachable_sccs() covers exactly what is reachable from the start points", "statement": "The components returned contain, each exactly once, precisely the vertices reachable from some start point; they are the strongly connected components of the graph restricted to them and come in reverse topological order; the order and repetition of start points do not change the set.", "quantifier": "every graph and every list of start points (repetitions allowed)", "why_tests_cant": "Ranges over all graphs and all start lists.", "anchors": ["opm/utility/graph/tarjan.c: tarjan_reachable_sccs"]}
{"id": "C14", "title": "the strong-component routines never touch memory they do not own and always finish", "statement": "Although the vertex stack shares storage with the component start pointers and the component stack shares storage with the component contents, no call reads or writes out of bounds, reads uninitialised storage, overwrites live data, or violates an assertion, and the number of main-loop iterations is at most vertices + edges.", "quantifier": "every well-formed CSR graph with at least one vertex and int-sized counts", "why_tests_cant": "Memory safety of the overlapping stacks depends on a counting argument over every execution.", "anchors": ["opm/utility/graph/tarjan.c: initialise_stacks, push/peek macros, capture_scc, tarjan_local"]}
{"id": "C15", "title": "reversing a result reverses component order and nothing else", "statement": "tarjan_reverse_sccresult() returning 1 leaves the same number of components, component k being the former component n-1-k with its vertices in the same order; applying it twice restores the original; returning 0 (allocation failure) leaves the result untouched.", "quantifier": "every result and either outcome of the allocation", "why_tests_cant": "Allocation failure cannot be forced in the unit tests, and sizes are unbounded.", "anchors": ["opm/utility/graph/tarjan.c: tarjan_reverse_sccresult, reverse_scc_core, swap_scc, copy_int_vector"]}
{"id": "C16", "title": "a workspace can be reused for any sequence of searches", "statement": "The result of tarjan_reachable_sccs() does not depend on what the workspace was used for before, nor on the workspace being larger than the graph.", "quantifier": "every prior content of the workspace and every history of calls", "why_tests_cant": "Ranges over all histories of use.", "anchors": ["opm/utility/graph/tarjan.c: tarjan_initialise, create_tarjan_workspace"]}
{"id": "C17", "title": "allocation failure inside the strong-component routines is reported, and the solver's treatment of it", "statement": "tarjan() and tarjan_reachable_sccs() return NULL whenever one of their allocations fails and a complete result otherwise; a solve never proceeds with a NULL result or NULL workspace.", "quantifier": "every combination of allocation outcomes", "why_tests_cant": "Allocation failures are crash points that tests do not reach.", "anchors": ["opm/utility/graph/tarjan.c: allocate_scc_result, create_tarjan_workspace, tarjan", "opm/flowdiagnostics/TracerTofSolver.cpp: computeOrdering, computeLocalOrdering"]}
{"id": "C18", "title": "ConnectivityGraph accepts exactly in-range neighbourship tables and returns them verbatim", "statement": "Construction throws logic_error exactly when the table has odd length or contains a cell index outside [0,num_cells); on success numCells() and numConnections() are num_cells and half the length and connection(i) returns entries 2i and 2i+1.", "quantifier": "every cell count and every table", "why_tests_cant": "Boundary values and negative indices range over all tables.", "anchors": ["opm/flowdiagnostics/ConnectivityGraph.cpp: ConnectivityGraph, connection"]}
{"id": "C19", "title": "ConnectionValues behaves as a two-dimensional array", "statement": "All entries start at zero; writing (c,p) changes the value read at (c,p) and at no other pair; access throws logic_error exactly when c or p is out of range; the dimensions never change.", "quantifier": "every pair of dimensions and every sequence of writes", "why_tests_cant": "Aliasing of distinct pairs through the linear index must be excluded for all sizes.", "anchors": ["opm/flowdiagnostics/ConnectionValues.cpp: operator()"]}
{"id": "C20", "title": "CellSet is a set", "statement": "A CellSet contains exactly the cells given to its constructor or insert(), each once, independent of insertion order and repetition, and keeps its id; CellSetID order is a strict total order compatible with equality of to_string().", "quantifier": "every sequence of insertions", "why_tests_cant": "All insertion histories.", "anchors": ["opm/flowdiagnostics/CellSet.cpp"]}
{"id": "C21", "title": "Solution is a map from id to the last assigned fields", "statement": "After any sequence of assignments, timeOfFlight(id) and concentration(id) return the last value assigned for that id and kind or an empty set if there was none, timeOfFlight() the last global field, and startPoints() lists in ascending order, once each, exactly the ids with an assigned concentration; a copy is unaffected by later changes to the original. The reference that timeOfFlight() returns keeps showing the field, also when the object is moved, until the object that holds the data is destroyed; nothing is leaked or deleted twice.", "quantifier": "every history of assignments, copies, moves and destructions", "why_tests_cant": "All histories of operations on all ids.", "anchors": ["opm/flowdiagnostics/Solution.cpp"]}
{"id": "C22", "title": "a solver gives the same answer whatever it was used for before", "statement": "The result of solveGlobal() and solveLocal(start) on a TracerTofSolver is the same as on a freshly constructed solver, after any earlier sequence of solves, including solves that ended in an exception.", "quantifier": "every history of solves and failures, every arithmetic", "why_tests_cant": "Leftover state only shows after particular histories, such as a failed local solve followed by another.", "anchors": ["opm/flowdiagnostics/TracerTofSolver.cpp: solveGlobal, solveLocal, prepareForSolve, setupLocalSource, cleanupLocalSource"]}
{"id": "C23", "title": "time-of-flight never exceeds the 200-year cap and is never negative", "statement": "Every value of the global time-of-flight field and of each tracer's time-of-flight lies between 0 and 200 years.", "quantifier": "every non-negative flux graph, pore volume field and source set", "why_tests_cant": "All inputs, including cyclic flow and cells never reached.", "anchors": ["opm/flowdiagnostics/TracerTofSolver.cpp: solve, solveSingleCell"]}
{"id": "C24", "title": "the local solution lives exactly on the cells downstream of its start set", "statement": "timeOfFlight(id) and concentration(id) have the same cells, namely those reachable from the id's source cells along the direction of flow.", "quantifier": "every flow graph and start set", "why_tests_cant": "All graphs.", "anchors": ["opm/flowdiagnostics/TracerTofSolver.cpp: solveLocal, computeLocalOrdering"]}
{"id": "C25", "title": "tracer concentrations lie in (0,1] and a valid local solve never fails", "statement": "With positive sources, every concentration returned is greater than 0 and at most 1 and the 'Tracer is zero' exception is never raised, in exact arithmetic.", "quantifier": "every non-negative flux graph and every assignment of positive sources", "why_tests_cant": "Positivity along every path of every graph, cyclic ones included.", "anchors": ["opm/flowdiagnostics/TracerTofSolver.cpp: solveLocal, solveSingleCell, solveMultiCell"]}
{"id": "C26", "title": "the computed concentrations satisfy the upwind tracer balance", "statement": "In every cell, (total inflow) x concentration equals the sum over upwind neighbours of flux x their concentration plus the tracer's own source, exactly when the flow has no cycles and up to the iteration tolerance times the inflow within its cycle otherwise (exact arithmetic).", "quantifier": "every flow graph, source set and tracer", "why_tests_cant": "A balance law over all inputs; wrong ordering or dropped terms only show on particular graphs.", "anchors": ["opm/flowdiagnostics/TracerTofSolver.cpp: solveSingleCell, solveMultiCell, solve"]}
{"id": "C27", "title": "the computed time-of-flight satisfies the upwind time-of-flight balance", "statement": "In cycle-free flow each reached cell that is not capped satisfies total inflow x concentration x tof = pore volume x concentration + sum over upwind neighbours of flux x concentration x tof, using the neighbours' uncapped values (exact arithmetic).", "quantifier": "every cycle-free flow graph, pore volume field and source set", "why_tests_cant": "A balance law over all inputs.", "anchors": ["opm/flowdiagnostics/TracerTofSolver.cpp: solveSingleCell, solve"]}
{"id": "C28", "title": "a solve always finishes", "statement": "solveGlobal() and solveLocal() terminate: the iteration used for cyclic flow reaches its tolerance after finitely many sweeps (exact arithmetic).", "quantifier": "every non-negative flux graph, pore volume field and non-negative source set", "why_tests_cant": "Termination on all inputs; a test that does not finish decides nothing and a test that finishes decides one input.", "anchors": ["opm/flowdiagnostics/TracerTofSolver.cpp: solveMultiCell"]}
{"id": "C29", "title": "cells not reached from any source get the cap as time-of-flight", "statement": "In the global field every cell that is not downstream of a source has time-of-flight exactly 200 years, and so has every cell whose fill time exceeds 200 years.", "quantifier": "every flow graph", "why_tests_cant": "All graphs.", "anchors": ["opm/flowdiagnostics/TracerTofSolver.cpp: solveSingleCell, solve"]}
{"id": "C30", "title": "a local solve rejects start cells without a source and negative start values", "statement": "solveLocal() throws logic_error when a start value is negative or when a start cell has no source term in the solver.", "quantifier": "every solver and start set", "why_tests_cant": "All inputs.", "anchors": ["opm/flowdiagnostics/TracerTofSolver.cpp: setupLocalSource, solveSingleCell, solveLocal"]}
{"id": "C31", "title": "tracers of different ids partition the flow", "statement": "The concentrations of all ids add up to at most 1 in every cell, and, if all ids are asked for, to exactly 1 in every cell of a cycle-free flow such that something flows into it and into each cell upstream of it (exact arithmetic).", "quantifier": "every flow graph and every split of the sources among ids", "why_tests_cant": "All graphs and all splits.", "anchors": ["opm/flowdiagnostics/Toolbox.cpp: injDiag, assignInflowFlux", "opm/flowdiagnostics/TracerTofSolver.cpp"]}
{"id": "C32", "title": "results for cycle-free flow do not depend on the order in which cells are visited", "statement": "For cycle-free flow the local and global solutions are determined by the flow data alone: any topological order of the cells gives the same values.", "quantifier": "every cycle-free flow graph, every topological order, every arithmetic", "why_tests_cant": "Visiting order depends on numbering and on hidden choices of the search.", "anchors": ["opm/flowdiagnostics/TracerTofSolver.cpp: solve", "opm/utility/graph/tarjan.c"]}
{"id": "C33", "title": "diagnostics depend only on the latest assigned data", "statement": "The outcome of computeInjectionDiagnostics() and computeProductionDiagnostics() depends only on the connectivity, the last accepted pore volumes, the last accepted fluxes, the last inflow fluxes and the start sets, not on earlier assignments, earlier diagnostics or failed calls.", "quantifier": "every history of calls on a Toolbox", "why_tests_cant": "The cached graph makes staleness possible; only a statement over all histories excludes it.", "anchors": ["opm/flowdiagnostics/Toolbox.cpp: assignConnectionFlux, buildAssembledConnections, injDiag, prodDiag"]}
{"id": "C34", "title": "calls that are rejected leave the Toolbox unchanged", "statement": "assignPoreVolume() and assignConnectionFlux() throw logic_error exactly when the size differs from the graph's, diagnostics of valid data throw logic_error exactly when pore volumes or fluxes are missing (which includes a graph without cells or connections, for which they can never be supplied), and none of these rejected calls changes any later outcome.", "quantifier": "every history of calls", "why_tests_cant": "All histories with failures at any point.", "anchors": ["opm/flowdiagnostics/Toolbox.cpp: assignPoreVolume, assignConnectionFlux, injDiag, prodDiag"]}
{"id": "C35", "title": "start sets are validated against the inflow data", "statement": "Once data is complete, diagnostics throw runtime_error exactly when some start set's id has no inflow (injection) or outflow (production) assigned or contains a cell without inflow (outflow).", "quantifier": "every assigned inflow map and every list of start sets", "why_tests_cant": "All maps and all start-set lists.", "anchors": ["opm/flowdiagnostics/Toolbox.cpp: injDiag, prodDiag"]}
{"id": "C36", "title": "a start set selects its id's sources; its cell list is only checked", "statement": "For accepted start sets the result depends only on the set of ids: the cells listed, the order of the start sets and repeated ids have no influence.", "quantifier": "every list of start sets", "why_tests_cant": "All lists.", "anchors": ["opm/flowdiagnostics/Toolbox.cpp: injDiag, prodDiag"]}
{"id": "C37", "title": "production diagnostics are injection diagnostics of the reversed flow", "statement": "computeProductionDiagnostics() equals computeInjectionDiagnostics() on a Toolbox given the negated connection fluxes and negated inflow fluxes.", "quantifier": "every connectivity, flux field, inflow map, pore volume field and start-set list", "why_tests_cant": "A relation between two runs over all inputs.", "anchors": ["opm/flowdiagnostics/Toolbox.cpp: prodDiag, buildAssembledConnections, assignInflowFlux"]}
{"id": "C38", "title": "inflow fluxes are split by sign and summed per cell", "statement": "Positive entries act as sources and negative ones as sinks, zero entries are ignored, contributions of several ids to the same cell add up, and assigning again replaces everything.", "quantifier": "every map of inflow fluxes", "why_tests_cant": "All maps.", "anchors": ["opm/flowdiagnostics/Toolbox.cpp: assignInflowFlux"]}
{"id": "C39", "title": "the description of a connection does not matter, only the flow it carries", "statement": "Exchanging the two cells of a connection while negating its fluxes, splitting its flux over phases, or adding a connection with zero total flux does not change any diagnostic (exact arithmetic for the phase split).", "quantifier": "every connectivity, flux field and choice of connections to rewrite", "why_tests_cant": "A relation between runs over all inputs.", "anchors": ["opm/flowdiagnostics/Toolbox.cpp: buildAssembledConnections"]}
{"id": "C40", "title": "valid input never leads to undefined behaviour", "statement": "If the connectivity has cell indices in range, pore volumes and fluxes have been accepted, and inflow cells are in range, then diagnostics never access memory out of bounds, use null or uninitialised values or overflow, whatever the numbers (assertions and endless iterations excepted); for finite numbers in exact arithmetic they return a solution or throw runtime_error for unacceptable start sets.", "quantifier": "every such input and history", "why_tests_cant": "Safety on all inputs.", "anchors": ["opm/flowdiagnostics/Toolbox.cpp", "opm/flowdiagnostics/TracerTofSolver.cpp", "opm/utility/graph/AssembledConnections.cpp", "opm/utility/graph/tarjan.c"]}
{"id": "C41", "title": "a diagnostics result reports exactly the requested ids", "statement": "startPoints() of the returned solution lists exactly the distinct ids of the start sets in ascending order, the global time-of-flight has one entry per cell, and unknown ids give empty fields.", "quantifier": "every accepted list of start sets", "why_tests_cant": "All lists.", "anchors": ["opm/flowdiagnostics/Toolbox.cpp: injDiag, prodDiag", "opm/flowdiagnostics/Solution.cpp"]}
{"id": "C42", "title": "the F-Phi curve runs monotonically from (0,0) to (1,1)", "statement": "For positive travel times and positive total pore volume after filtering, both coordinates of flowCapacityStorageCapacityCurve() have one more entry than there are cells, start at 0, end at 1 and never decrease (exact arithmetic).", "quantifier": "every pore volume and time-of-flight field", "why_tests_cant": "All inputs of all sizes.", "anchors": ["opm/flowdiagnostics/DerivedQuantities.cpp: flowCapacityStorageCapacityCurve, cumulativeNormalized"]}
{"id": "C43", "title": "the F-Phi curve is concave and lies on or above the diagonal", "statement": "Under the same conditions its slopes never increase and F >= Phi at every point (exact arithmetic). The curve shows the largest flow capacity that a part of the pore volume can have: if one takes fractions of the cells, with a share x of the pore volume altogether, their share of the sum of pore volume by travel time is at most the one on the line through the points of the curve at x, and for some fractions it is just that.", "quantifier": "every pore volume and time-of-flight field", "why_tests_cant": "Depends on sorting for all inputs.", "anchors": ["opm/flowdiagnostics/DerivedQuantities.cpp: flowCapacityStorageCapacityCurve"]}
{"id": "C44", "title": "the Lorenz coefficient is between 0 and 1", "statement": "lorenzCoefficient() of a curve produced by flowCapacityStorageCapacityCurve() lies in [0,1), and is 0 exactly when all contributing cells have the same travel time (exact arithmetic).", "quantifier": "every pore volume and time-of-flight field", "why_tests_cant": "All inputs.", "anchors": ["opm/flowdiagnostics/DerivedQuantities.cpp: lorenzCoefficient"]}
{"id": "C45", "title": "the F-Phi curve does not depend on cell numbering", "statement": "Permuting the cells, consistently in all three inputs, leaves the curve unchanged (exact arithmetic), whichever algorithm std::sort uses. With IEEE 754 doubles it is unchanged bit by bit if the same cells are above the cutoff; without this proviso it is false, because the computed total pore volume depends on the order.", "quantifier": "every input and every permutation", "why_tests_cant": "All permutations.", "anchors": ["opm/flowdiagnostics/DerivedQuantities.cpp: flowCapacityStorageCapacityCurve"]}
{"id": "C46", "title": "cells above the pore-volume cutoff are ignored", "statement": "With max_pv_fraction given, the curve equals the curve of the remaining cells followed by one repeated end point per ignored cell (travel times below 1e100; exact arithmetic, and bit by bit with IEEE 754 doubles).", "quantifier": "every input and every cutoff", "why_tests_cant": "All inputs.", "anchors": ["opm/flowdiagnostics/DerivedQuantities.cpp: flowCapacityStorageCapacityCurve"]}
{"id": "C47", "title": "sweep efficiency is a monotone curve ending at 1", "statement": "For a curve produced by flowCapacityStorageCapacityCurve(), sweepEfficiency() starts at (0,0), both coordinates never decrease, efficiency stays in [0,1] and ends at 1 (exact arithmetic). On the broken line through its points the efficiency at a dimensionless time, which is time in units of pore volume by rate, is the fraction of the pore volume that is filled at that time, the fluid in a cell being replaced after its travel time.", "quantifier": "every pore volume and time-of-flight field", "why_tests_cant": "All inputs.", "anchors": ["opm/flowdiagnostics/DerivedQuantities.cpp: sweepEfficiency"]}
{"id": "C48", "title": "derived quantities reject inconsistent sizes and only those", "statement": "flowCapacityStorageCapacityCurve(), lorenzCoefficient() and sweepEfficiency() throw runtime_error exactly when the sizes of their input vectors differ.", "quantifier": "every input", "why_tests_cant": "All sizes.", "anchors": ["opm/flowdiagnostics/DerivedQuantities.cpp"]}
{"id": "C49", "title": "pair volumes are bounded and add up", "statement": "injectorProducerPairVolume() is non-negative, is unchanged when the roles of the two tracers are exchanged, is zero for unknown ids, and over all pairs adds up to at most the total pore volume, with equality when both tracer families sum to 1 in every cell (exact arithmetic).", "quantifier": "every pair of solutions", "why_tests_cant": "All solutions.", "anchors": ["opm/flowdiagnostics/DerivedQuantities.cpp: injectorProducerPairVolume"]}
{"id": "C50", "title": "pair fluxes have the documented signs and errors and add up", "statement": "injectorProducerPairFlux() throws runtime_error exactly when one of the ids is missing from the inflow map, its first value is non-negative and its second non-positive, and over all producers the first values add up to the injector's total injection where producer tracers sum to 1 (exact arithmetic).", "quantifier": "every pair of solutions and every inflow map", "why_tests_cant": "All inputs.", "anchors": ["opm/flowdiagnostics/DerivedQuantities.cpp: injectorProducerPairFlux, pairFlux"]}
{"id": "C51", "title": "injected and produced pair fluxes balance for incompressible cycle-free flow", "statement": "If every cell's total inflow equals its total outflow and the flow has no cycles, then for each injector-producer pair the two values returned by injectorProducerPairFlux() on the computed diagnostics are equal up to sign (exact arithmetic).", "quantifier": "every incompressible cycle-free flow field and every pair", "why_tests_cant": "A global duality between two independent solves.", "anchors": ["opm/flowdiagnostics/DerivedQuantities.cpp: injectorProducerPairFlux", "opm/flowdiagnostics/Toolbox.cpp", "opm/flowdiagnostics/TracerTofSolver.cpp"]}
{"id": "C52", "title": "random test vectors are reproducible and in range", "statement": "Two RandomVector objects answer the same sequence of requests identically, every answer has the requested length, and index(n,m) only contains values in [0,m]. normal(n,mean,stdev) is mean + stdev * z for the numbers z that normal(n,0,1) would have given in its place, and does not change what comes later. Asking for k and then for l numbers gives what asking for k + l numbers would have given (for normal(): if the distribution is as new after k numbers).", "quantifier": "every sequence of requests", "why_tests_cant": "All request histories.", "anchors": ["opm/utility/numeric/RandomVector.cpp"]}
{"id": "C53", "title": "floating-point diagnostics stay within their bounds", "statement": "Computed in floating point, with whatever rounding and whatever fluxes and inflows (NaN and infinite ones included), a returned solution has no time of flight below 0 or above 200 years and no concentration at or below 0 or above 1; pore volumes must not be negative.", "quantifier": "every rounding, every history with non-negative pore volumes, valid connectivity and inflow cells in range, every start set", "why_tests_cant": "All inputs and all roundings; tests compare a few values within a tolerance.", "anchors": ["opm/flowdiagnostics/TracerTofSolver.cpp: solveSingleCell, solve", "opm/flowdiagnostics/Toolbox.cpp"]}
{"id": "C54", "title": "without overflow floating-point diagnostics fail no assertion", "statement": "If in floating point no cell's inflow (forward) or outflow (backward) overflows, no assertion of the solver fails, and all returned concentrations are numbers in (0,1].", "quantifier": "every rounding, every history as above whose inflow or outflow sums are finite", "why_tests_cant": "All inputs and all roundings; assertions are compiled out of release builds.", "anchors": ["opm/flowdiagnostics/TracerTofSolver.cpp: solveSingleCell", "opm/flowdiagnostics/Toolbox.cpp"]}
{"id": "C55", "title": "the floating-point F-Phi curve rises from 0 to 1", "statement": "Computed in floating point with any rounding, both coordinates of the curve of flowCapacityStorageCapacityCurve() start at exactly 0, never decrease and end at exactly 1, unless the last entry is NaN (zero or overflowing total).", "quantifier": "every rounding, every sorting function that keeps the promise of std::sort, every input with non-negative pore volumes and positive travel times", "why_tests_cant": "All inputs and all roundings.", "anchors": ["opm/flowdiagnostics/DerivedQuantities.cpp: flowCapacityStorageCapacityCurve"]}
{"id": "C56", "title": "floating-point pair volumes and fluxes have the documented signs", "statement": "Computed in floating point with any rounding, injectorProducerPairVolume() is not negative, and of injectorProducerPairFlux() the first value is not negative and the second not positive, if pore volumes and concentrations are not negative (as those of diagnostics are).", "quantifier": "every rounding, every pair of solutions, every pair of ids", "why_tests_cant": "All inputs and all roundings.", "anchors": ["opm/flowdiagnostics/DerivedQuantities.cpp: injectorProducerPairVolume, injectorProducerPairFlux, pairFlux"]}
{"id": "C57", "title": "without overflow double-precision times of flight are numbers", "statement": "Computed with IEEE double precision, if no pore volume is negative or NaN and no cell's inflow (forward) or outflow (backward) overflows, every returned time of flight is a number in [0, 200 years], never NaN; even if intermediate products underflow or overflow.", "quantifier": "every history with such data, valid connectivity and inflow cells in range, every start set", "why_tests_cant": "All inputs; a NaN would need an underflow to zero in both numerator and denominator, which no test hits and which gradual underflow excludes.", "anchors": ["opm/flowdiagnostics/TracerTofSolver.cpp: solveSingleCell, solve", "opm/flowdiagnostics/Toolbox.cpp"]}
{"id": "C58", "title": "diagnostics leave no memory behind and use none that is gone", "statement": "Each call of computeInjectionDiagnostics() and computeProductionDiagnostics() frees every block of C memory it allocates exactly once, whether it returns or throws (also when an allocation fails), uses no pointer after it was freed, and changes no block it did not allocate.", "quantifier": "every history of calls, every heap, every pattern of failing allocations, every start set", "why_tests_cant": "Leaks and uses after free on error paths depend on which allocation fails; every allocation of every call would have to be made to fail.", "anchors": ["opm/flowdiagnostics/TracerTofSolver.cpp: computeOrdering, computeLocalOrdering", "opm/utility/graph/tarjan.c: create_tarjan_workspace, allocate_scc_result, tarjan, destroy_tarjan_workspace, destroy_tarjan_sccresult"]}
{"id": "C59", "title": "the C interface manages its memory correctly in every history", "statement": "A program that calls tarjan(), create_tarjan_workspace(), tarjan_reachable_sccs(), tarjan_reverse_sccresult() and the destroy functions in any order on pointers it got and has not destroyed, with any allocations failing: no call uses or frees memory that is not live, objects never share memory (changing one leaves all others as they are), and the live blocks are exactly those of the objects not yet destroyed, so nothing leaks.", "quantifier": "every history of calls, every graph, every heap, every pattern of failing allocations", "why_tests_cant": "All interleavings of calls on all objects and all failures of malloc.", "anchors": ["opm/utility/graph/tarjan.c: tarjan, tarjan_reachable_sccs, tarjan_reverse_sccresult, create_tarjan_workspace, destroy_tarjan_workspace, destroy_tarjan_sccresult, swap_scc"]}
{"id": "C60", "title": "the statistics of the solver do not change results", "statement": "The int counters that the solver keeps while it iterates (sweeps, components solved by iteration and their sizes) never overflow, and diagnostics end as they would without counters and leave the toolbox in the same state. With the counters every call to diagnostics on valid data ends, if in no other way by such an overflow.", "quantifier": "every history, every arithmetic, every number of sweeps, every pattern of failing allocations", "why_tests_cant": "The number of sweeps depends on all fluxes; an overflow needs more than 2^31 sweeps, which no test runs.", "anchors": ["opm/flowdiagnostics/TracerTofSolver.cpp: solveMultiCell, prepareForSolve", "opm/flowdiagnostics/Toolbox.cpp"]}
{"id": "C61", "title": "programs may create, move and destroy several toolboxes in any order", "statement": "In a program that constructs, move-constructs, move-assigns (also to itself), destroys and calls Toolbox objects in any order, every call ends as it would on a toolbox built for the same connectivity that received only the calls made on this object and on those it was moved from; other objects have no influence. Only using a destroyed or moved-from object is undefined, and the implementation objects alive are exactly those of the toolboxes neither destroyed nor moved from, so nothing leaks or is deleted twice.", "quantifier": "every program over any number of toolboxes, every arithmetic, every pattern of failing allocations inside diagnostics", "why_tests_cant": "All interleavings of construction, moves, destruction and calls.", "anchors": ["opm/flowdiagnostics/Toolbox.cpp: Toolbox, ~Toolbox, operator=, assignPoreVolume, assignConnectionFlux, assignInflowFlux, computeInjectionDiagnostics, computeProductionDiagnostics"]}
{"id": "C62", "title": "times of flight are not shorter than the time to fill a cell", "statement": "In every field returned by computeInjectionDiagnostics(), global or of one injector, a cell's time of flight is 200 years or at least its pore volume divided by the flux into it from other cells and sources; computeProductionDiagnostics() likewise with the flux out of it.", "quantifier": "every valid problem, also with cycles, every start set", "why_tests_cant": "All graphs, fluxes and pore volumes.", "anchors": ["opm/flowdiagnostics/TracerTofSolver.cpp: solveSingleCell, solveMultiCell", "opm/flowdiagnostics/Toolbox.cpp"]}
{"id": "C63", "title": "derived quantities of computed diagnostics are well defined", "statement": "For the solutions returned by diagnostics on one toolbox with positive pore volumes, not all of them above the cutoff, flowCapacityStorageCapacityCurve(forward, reverse, pv, fraction) is the curve of their global times of flight; it rises from (0,0) to (1,1) on or above the diagonal, lorenzCoefficient() of it is in [0,1), sweepEfficiency() of it rises from 0 to 1, and cells above the cutoff only add end points.", "quantifier": "every valid problem with positive pore volumes, all start sets, every cutoff, every conforming std::sort", "why_tests_cant": "All problems; a zero travel time would make the curve NaN.", "anchors": ["opm/flowdiagnostics/DerivedQuantities.cpp: flowCapacityStorageCapacityCurve, lorenzCoefficient, sweepEfficiency", "opm/flowdiagnostics/Toolbox.cpp"]}
{"id": "C64", "title": "for cycle-free flow double-precision diagnostics are accurate", "statement": "For flow without cycles and data of ordinary size, whenever exact computation returns, the computation with doubles returns too, and every time of flight and concentration computed with doubles is present exactly where the exact result is, and differs from it by a relative error of at most (k+2)^2 (4M+6) / 2^51 (times) or (k+1)(4M+6) / 2^51 (concentrations), where k is the layer of the cell and M bounds the connections and wells of a cell.", "quantifier": "every valid problem with cycle-free flow, fluxes, sources and pore volumes zero or between 2^-100 and 2^100, no cell taking 199 to 201 years to fill, no exact result below 2^-300; injection and production, every start set", "why_tests_cant": "Rounding errors depend on all numbers and all paths of the flow.", "anchors": ["opm/flowdiagnostics/TracerTofSolver.cpp: solveSingleCell, solveGlobal, solveLocal", "opm/flowdiagnostics/Toolbox.cpp"]}
{"id": "C65", "title": "components are listed against the direction of the search", "statement": "Within each component returned by tarjan() or tarjan_reachable_sccs(), every vertex but the last has an edge coming in from a vertex listed later. The last vertex has an edge coming in from another component, or the search began there: for tarjan() it is then the lowest-numbered of all vertices that lead to it, for tarjan_reachable_sccs() a start point. A component that is a ring is therefore listed against its edges.", "quantifier": "every graph, every list of start points, every workspace contents", "why_tests_cant": "All graphs; the order decides in which order the solver sweeps the cells of a cycle.", "anchors": ["opm/utility/graph/tarjan.c: tarjan, tarjan_reachable_sccs, tarjan_get_strongcomponent"]}
{"id": "C66", "title": "diagnostics return on complete data", "statement": "On valid, complete data computeInjectionDiagnostics() and computeProductionDiagnostics() end: they return a solution, throw one of the documented exceptions or stop at an assertion. This holds in every arithmetic when the flow has no cycles. It is false for doubles in general: on a valid, balanced problem with whole-number data the sweeps over a cycle of three cells alternate for ever between two states that differ by more than the tolerance, although exact arithmetic would return.", "quantifier": "every valid connectivity and complete data without cycles, every start set, every arithmetic", "why_tests_cant": "A test that runs for long cannot tell slow from endless; the failure depends on rounding.", "anchors": ["opm/flowdiagnostics/TracerTofSolver.cpp: solveMultiCell, solveSingleCell", "opm/flowdiagnostics/Toolbox.cpp"]}
{"id": "C67", "title": "builds with and without assertions do the same", "statement": "Whenever computeInjectionDiagnostics() or computeProductionDiagnostics() of a build with assertions does not stop at an assertion, a build with NDEBUG returns the same solution or throws the same exception. On valid data the NDEBUG build has no undefined behaviour, and with exact arithmetic no assertion fails. With doubles an assertion can fail on valid data, when the sum of the source terms of a cell overflows.", "quantifier": "every history of calls, every start set, every pattern of allocation failures, every arithmetic", "why_tests_cant": "Tests run one of the builds, on data for which no assertion fails.", "anchors": ["opm/flowdiagnostics/TracerTofSolver.cpp: solveSingleCell, solveMultiCell, solveGlobal, solveLocal", "opm/flowdiagnostics/Toolbox.cpp"]}
{"id": "C68", "title": "repeating the assignments repairs a toolbox on which calls ran out of memory", "statement": "Calls on a Toolbox may throw std::bad_alloc anywhere in a history. If every assignConnectionFlux() and assignInflowFlux() that did so was followed later by one that completed, diagnostics end as if the calls that ran out of memory had not been made; assignPoreVolume() and diagnostics need not be repeated. If the assignments are not repeated this is false: after a first assignConnectionFlux() that ran out of memory diagnostics with accepted start sets read outside a vector, and after an assignInflowFlux() that ran out of memory they may return times of flight that belong neither to the old nor to the new inflow. Fluxes with which diagnostics have returned stay in force.", "quantifier": "every connectivity, every history of calls of which any may run out of memory at any allocation, every start set, every arithmetic", "why_tests_cant": "A test cannot make each single allocation of each call in each history fail.", "anchors": ["opm/flowdiagnostics/Toolbox.cpp: assignConnectionFlux, assignInflowFlux, assignPoreVolume, buildAssembledConnections", "opm/flowdiagnostics/ConnectionValues.hpp: ConnectionValues"]}
{"id": "C69", "title": "running out of memory while assembling never gives a wrong weighted graph", "statement": "Calls of addConnection() and compress() on a new AssembledConnections object may throw std::bad_alloc anywhere. If at least one addConnection() with a weight returned, a later compress(n) either gives exactly the graph and weights of the connections whose addConnection() returned, or throws std::logic_error, and then it does so for ever. If only compress() ran out of memory, it can be repeated and ends as on a new object. If no addConnection() with a weight returned, compress() may also give a graph without weights that contains connections whose addConnection() threw.", "quantifier": "every history of calls up to the first compress() that returns, any of which may run out of memory at any allocation; valid indices; every arithmetic", "why_tests_cant": "A test cannot make each single allocation in each history fail.", "anchors": ["opm/utility/graph/AssembledConnections.cpp: addConnection, compress, Connections::add, Connections::isValid"]}
{"id": "C70", "title": "the global time of flight is the mean of the times of the wells", "statement": "If all injectors are asked for and flow has no cycles, then in every cell that only gets flow from cells with flow, the mean of the times of flight of the injectors weighted with their concentrations is at most the global time of flight, and equal to it if none of the times is 200 years. Likewise for producers. With cycles, and with doubles, the two are equal up to an error that is bounded with what the flow carries when each cell adds its inflow from its own cycle (the solver stops there at a tolerance) and, with doubles, a few roundings.", "quantifier": "every valid problem with cycle-free flow, every history of calls that gives it to a toolbox", "why_tests_cant": "All graphs, fluxes, pore volumes and wells.", "anchors": ["opm/flowdiagnostics/TracerTofSolver.cpp: solveSingleCell, solveGlobal, solveLocal", "opm/flowdiagnostics/Toolbox.cpp"]}
{"id": "C71", "title": "volumes are rates times arrival times", "statement": "If flow has no cycles, every cell's total inflow equals its total outflow and no time involved is 200 years, then the total pore volume is the sum over cells of production times forward time of flight, and of injection times backward time of flight; and injectorProducerPairVolume() is the producer's rate times the injector's concentration and arrival time, summed over cells, and likewise the injector's rate times the producer's concentration and time.", "quantifier": "every valid balanced problem with cycle-free flow, every pair of wells", "why_tests_cant": "A global balance over all paths of all flows.", "anchors": ["opm/flowdiagnostics/TracerTofSolver.cpp", "opm/flowdiagnostics/Toolbox.cpp", "opm/flowdiagnostics/DerivedQuantities.cpp: injectorProducerPairVolume"]}
{"id": "C72", "title": "larger pore volumes do not shorten times", "statement": "If pore volumes are made larger and all else stays, no time of flight gets shorter and concentrations do not change. This is true for cycle-free flow if no cell upstream takes more than 200 years to fill. It is false in general: a cell that takes longer is given the time 200 years whatever arrives from upstream, and the cells after it go on from there, so a larger pore volume can shorten times.", "quantifier": "every two valid problems that differ in pore volumes only, cycle-free flow, every start set", "why_tests_cant": "Compares two runs for all graphs, fluxes and volumes.", "anchors": ["opm/flowdiagnostics/TracerTofSolver.cpp: solveSingleCell", "opm/flowdiagnostics/Toolbox.cpp"]}
{"id": "C73", "title": "times scale with volumes and fluxes", "statement": "If all fluxes and inflow are multiplied by k > 0 and all pore volumes by m > 0, concentrations stay the same and each time of flight is multiplied by m/k, up to the limit of 200 years: if no cell upstream takes more than 200 years to fill before or after, and neither time is 200 years. Cycle-free flow. With cycles, and with doubles, concentrations change at most by the tolerance of the solver (1e-9 per passage of a cell on a cycle) and rounding errors, and products of concentration and time are multiplied by m/k up to such errors, if all times of the well are below 200 years.", "quantifier": "every valid problem, all positive k and m, every start set; exact arithmetic and doubles", "why_tests_cant": "Compares two runs for all graphs, fluxes and volumes.", "anchors": ["opm/flowdiagnostics/TracerTofSolver.cpp: solveSingleCell", "opm/flowdiagnostics/Toolbox.cpp"]}
{"id": "C74", "title": "times of flight are bounded by what lies upstream", "statement": "For flow without cycles no time of flight of an injector exceeds the sum over the cell and all cells upstream of it of pore volume divided by the total flux into the cell, nor does the global one of a cell downstream of a source. (Elsewhere the global one is 200 years.) For production the same with the cells downstream and the flux out of them.", "quantifier": "every valid problem with cycle-free flow, every start set", "why_tests_cant": "All paths of all flows.", "anchors": ["opm/flowdiagnostics/TracerTofSolver.cpp: solveSingleCell, solveGlobal, solveLocal", "opm/flowdiagnostics/Toolbox.cpp"]}
{"id": "C75", "title": "the unit of volume does not matter", "statement": "If all pore volumes, fluxes and inflow values given to a toolbox are multiplied by the same positive number, diagnostics end in the same way and return the same times of flight and concentrations. injectorProducerPairVolume() and injectorProducerPairFlux() are multiplied by the number; flowCapacityStorageCapacityCurve() stays the same.", "quantifier": "every connectivity, every history of calls with any data (also invalid or infinite), every flow, also with cycles, every start set, every pattern of failing allocations, every conforming std::sort; exact arithmetic", "why_tests_cant": "Compares two runs for all histories, graphs and numbers.", "anchors": ["opm/flowdiagnostics/TracerTofSolver.cpp", "opm/flowdiagnostics/Toolbox.cpp", "opm/flowdiagnostics/DerivedQuantities.cpp: injectorProducerPairVolume, injectorProducerPairFlux, flowCapacityStorageCapacityCurve"]}
{"id": "C76", "title": "concentrations are accurate in flow with cycles", "statement": "Every well has exactly one field of exact concentrations: zero in the cells that its flow does not reach, and in the others what comes in, plus what the well adds, equals the concentration times the total flux into the cell. If no cell is connected to itself without lying on another cycle, the concentrations that diagnostics return are never above the exact ones, and below them by at most 1e-9 times the field that is carried by the same flow when each cell adds the flux that it gets from its own cycle. If all injectors (producers) are asked for, their concentrations add up to 1 up to such an error in every cell such that each cell upstream (downstream) of it is reached from a source (reaches a sink).", "quantifier": "every valid problem, with any cycles, in which no cell is connected to itself without lying on another cycle; every history of calls that gives it to a toolbox; every start set", "why_tests_cant": "The iteration stops when changes are small; only a proof shows for all graphs that the error is then small too.", "anchors": ["opm/flowdiagnostics/TracerTofSolver.cpp: solveSingleCell, solveMultiCell, solveLocal", "opm/flowdiagnostics/Toolbox.cpp"]}
{"id": "C77", "title": "times of flight are accurate in flow with cycles", "statement": "If no cell is connected to itself without lying on another cycle, and no time of flight of a well exceeds a < 200 years, the times that diagnostics return differ from the exact ones, which solve the balance of time times concentration exactly, by an explicit small multiple (1e-9 times a, 1e-9 and 200 years times 1e-12) of fields that the same flow carries. The bound a can be read off the exact times. The global times of flight of injection and production differ likewise from the exact mean times since all fluid in a cell entered (until it leaves).", "quantifier": "every valid problem, with any cycles, in which no cell is connected to itself without lying on another cycle; every history of calls that gives it to a toolbox; every start set", "why_tests_cant": "The iteration stops when changes are small; only a proof shows for all graphs that the error is then small too.", "anchors": ["opm/flowdiagnostics/TracerTofSolver.cpp: solveSingleCell, solveMultiCell, solveLocal", "opm/flowdiagnostics/Toolbox.cpp"]}
{"id": "C78", "title": "more cells than int can count", "statement": "If the vectors given to flowCapacityStorageCapacityCurve() or sweepEfficiency() agree in size and have 2^31 elements or more, but fewer than 2^32, they throw logic_error (length_error) instead of giving a wrong curve. lorenzCoefficient() gives no warning: for more than 2^31 points, but no more than 2^32, and for none, it returns -1 whatever the curve.", "quantifier": "every input of such a size, every arithmetic", "why_tests_cant": "Needs vectors of 16 GB, for all values.", "anchors": ["opm/flowdiagnostics/DerivedQuantities.cpp"]}
{"id": "C79", "title": "volumes and fluxes of pairs computed with doubles are accurate", "statement": "For flow without cycles with data of ordinary magnitude (zero or 1e-30 to 1e30) and no tiny results, diagnostics with doubles return whenever the exact computation does, and injectorProducerPairVolume() and injectorProducerPairFlux() of what they return differ from the exact values by at most (6 (L + 1) (4 M + 6) + 2 + n) / 2^51 of them, L + 1 being the number of layers, n the number of cells and M the most connections or wells of a cell. The same holds with any concentrations that are accurate, wherever they come from.", "quantifier": "every valid problem without cycles of moderate size, every history of calls that gives it to a toolbox, every start set, every pair of an injector and a producer", "why_tests_cant": "Rounding errors of all inputs; a test compares a few against tolerances chosen by hand.", "anchors": ["opm/flowdiagnostics/DerivedQuantities.cpp: injectorProducerPairVolume, injectorProducerPairFlux", "opm/flowdiagnostics/TracerTofSolver.cpp"]}
{"id": "C80", "title": "concentrations computed with doubles are accurate in flow with cycles", "statement": "Whenever diagnostics computed with doubles return, on data of ordinary magnitude (zero or 1e-30 to 1e30, and no more than 2^100 of total flux into a cell, for production out of it), every concentration lies between 0 and 1, and in every cell, unless it is connected to itself without lying on another cycle, what comes in plus what the well adds equals concentration times total flux up to 1e-9 of the flux that the cell gets from its own cycle and (4 M + 6) / 2^51 of the total flux, M being the most connections or wells of a cell. If there is no such cell, they differ from the exact concentrations by at most 1e-9 m + (4 M + 6) / 2^51 h, where m and h are the fields carried by the same flow when each cell adds the flux that it gets from its own cycle, or all its flux; and if all injectors (producers) are asked for, their concentrations add up to 1 with at most as many such errors as there are wells, in every cell such that each cell upstream (downstream) of it is reached from a source (reaches a sink).", "quantifier": "every valid problem of ordinary magnitude, with any cycles; every history of calls that gives it to a toolbox; every start set; every run that returns", "why_tests_cant": "Rounding errors and stopped iterations of all flows; a test compares a few against tolerances chosen by hand.", "anchors": ["opm/flowdiagnostics/TracerTofSolver.cpp: solveSingleCell, solveMultiCell, solveLocal", "opm/flowdiagnostics/Toolbox.cpp"]}
{"id": "C81", "title": "times of flight of a well computed with doubles are accurate in flow with cycles", "statement": "Whenever diagnostics computed with doubles return, on data of ordinary magnitude (zero or 1e-30 to 1e30, and no more than 2^100 of total flux into a cell, for production out of it), with no time of flight of the well above a < 200 years and none of its concentrations below 2^-300, its times of flight are not negative, and in every cell, unless it is connected to itself without lying on another cycle, pore volume times concentration plus the time carried in equals the time carried out, up to a * 1e-9 + 200 years * 1e-12 times the flux that the cell gets from its own cycle and (a + 1) (4 M + 8) / 2^51 of the total flux, M being the most connections or wells of a cell. If there is no such cell, they differ from the exact times by an explicit small multiple of fields carried by the same flow.", "quantifier": "every valid problem of ordinary magnitude, with any cycles; every history of calls that gives it to a toolbox; every start set; every run that returns", "why_tests_cant": "Rounding errors and stopped iterations of all flows; a test compares a few against tolerances chosen by hand.", "anchors": ["opm/flowdiagnostics/TracerTofSolver.cpp: solveSingleCell, solveMultiCell, solveLocal", "opm/flowdiagnostics/Toolbox.cpp"]}
{"id": "C82", "title": "global times of flight computed with doubles are accurate in flow with cycles", "statement": "Whenever diagnostics computed with doubles return, on data of ordinary magnitude (zero or 1e-30 to 1e30, and no more than 2^100 of total flux into a cell, for production out of it) without a cell that is connected to itself without lying on another cycle, the global time of flight of a cell differs from the exact one by an explicit small multiple of fields carried by the same flow, if each cell upstream (for production: downstream) of it is reached from a source (reaches a sink), has a time of at most a < 200 years, and the errors of concentrations bounded in C80 are at most a half there.", "quantifier": "every valid problem of ordinary magnitude, with any cycles; every history of calls that gives it to a toolbox; every start set; every run that returns; every cell", "why_tests_cant": "Rounding errors and stopped iterations of all flows; the concentrations that enter are not even returned.", "anchors": ["opm/flowdiagnostics/TracerTofSolver.cpp: solveSingleCell, solveMultiCell, solveGlobal", "opm/flowdiagnostics/Toolbox.cpp"]}
{"id": "C83", "title": "the Lorenz coefficient is a mean difference of inverse travel times", "statement": "lorenzCoefficient() of the curve that flowCapacityStorageCapacityCurve() returns equals the sum over all pairs of cells below the cutoff of the product of their pore volumes and the difference of their inverse travel times, divided by twice the product of the total pore volume of these cells and the sum of their pore volumes divided by travel times.", "quantifier": "every valid input, every number of cells, every conforming sort", "why_tests_cant": "An identity over all inputs, in exact arithmetic.", "anchors": ["opm/flowdiagnostics/DerivedQuantities.cpp: flowCapacityStorageCapacityCurve, lorenzCoefficient"]}
{"id": "C84", "title": "F-Phi curve and Lorenz coefficient computed with doubles are accurate", "statement": "With doubles of ordinary magnitude (zero or 1e-30 to 1e30), positive travel times and some cell with pore volume of at most half the cutoff: flowCapacityStorageCapacityCurve() returns two lists that rise from 0 to 1. There is a cutoff within (n + 1) / 2^51 of the one asked for and an order of the cells in which travel times decrease by at most 2^-50 of them, such that every entry differs by at most (2 n + 5) / 2^51 from the one computed without rounding; so each computed point differs from a point on the exact curve for that cutoff by at most (2 n + 5) / 2^51 in storage capacity and (2 n + 7) / 2^51 in flow capacity. lorenzCoefficient() of the curve differs by at most (10 n + 50) / 2^51 from the mean difference of inverse travel times with that cutoff; and for any curve of doubles that rises from 0 to 1 it differs by at most (2 n + 24) / 2^51 from twice the area between curve and diagonal.", "quantifier": "every input of ordinary magnitude, every number of cells n below 2^31, every conforming sort", "why_tests_cant": "Rounding errors of all inputs, and the order of cells with nearly equal travel times; a test compares a few against tolerances chosen by hand.", "anchors": ["opm/flowdiagnostics/DerivedQuantities.cpp: flowCapacityStorageCapacityCurve, cumulativeNormalized, lorenzCoefficient"]}
{"id": "C85", "title": "sweep efficiency computed with doubles, accurate or not", "statement": "With doubles of ordinary magnitude as in C84, let mu be at least 16 (2 n + 5) / 2^51 and let each cell with pore volume have at least a fraction mu of the pore volume and of the sum of pore volumes divided by travel times. Then sweepEfficiency() of the curve returns (0, 0) and a point for each cell with pore volume below the cutoff (that of C84). Its time differs from the travel time divided by the mean travel time by at most a fraction 6 (2 n + 5) / (2^51 mu), its efficiency from the fraction of the volume filled at that time by at most 12 (2 n + 5) / (2^51 mu). Without the condition on the fractions, times and efficiencies may decrease, and efficiency may exceed 1 by more than a quarter.", "quantifier": "every input of ordinary magnitude that meets the condition, every number of cells n below 2^31 - 1, every conforming sort; for the second part one input and every conforming sort", "why_tests_cant": "Rounding errors of all inputs are magnified by differences of nearly equal numbers; a test does not see by how much.", "anchors": ["opm/flowdiagnostics/DerivedQuantities.cpp: flowCapacityStorageCapacityCurve, sweepEfficiency"]}
{"id": "C86", "title": "with doubles, diagnostics return in flow with cycles that are not too long and not too weakly fed", "statement": "On data of ordinary magnitude (zero or 1e-30 to 1e30, and no more than 2^100 of total flux into a cell, for production out of it), a valid request for injectors (producers) returns a solution if bounds H, phi, mu and L hold for the flow from all sources together and for the flow from each well asked for: fluid that the flow carries to a cell has passed at most H cells on average (cycles counted as often as passed; sum over passed cells that the flow reaches, divided by its concentration); filling a cell takes at most phi seconds; no cell reached is connected to itself without lying on another cycle; in a cell on a cycle each connection and each injection brings at least a fraction mu of the inflow; at most L cells lie on common cycles; and (4 phi + 1) H^2 (4 M + 6) <= 4e11 and 2 H <= (mu / 4)^L 2^500, M being the most connections or wells of a cell.", "quantifier": "every valid problem of ordinary magnitude within the bounds, with any cycles; every history of calls that gives it to a toolbox; every valid start set", "why_tests_cant": "Whether iterations with rounded numbers ever meet their tolerance is a matter of all flows; a run that does not return cannot be told from a slow one by a test.", "anchors": ["opm/flowdiagnostics/TracerTofSolver.cpp: solveMultiCell, solveGlobal, solveLocal", "opm/flowdiagnostics/Toolbox.cpp"]}
{"id": "C87", "title": "what is printed can be read back exactly", "statement": "Printing a compressed graph of doubles with operator<< to a stream that prints decimal numbers (not in fixed format, no showpos or uppercase) appends, whatever precision it was set to, one line 'row column weight' for each connection, from which rows, columns and weights are read back without loss: the double nearest to each printed number is the weight itself. A graph that is built from the connections read back has the same rows, columns and weights.", "quantifier": "every list of connections with valid indices and weights (sums may be infinite, but not NaN), every number of rows up to 2^31 - 1, every such stream and whatever has been written to it before", "why_tests_cant": "All doubles: a test compares the text for a few; a digit too few shows only for some.", "anchors": ["opm/utility/graph/AssembledConnections.cpp: operator<<", "opm/utility/graph/AssembledConnections.hpp: AssembledConnections"]}
{"id": "C88", "title": "with doubles, diagnostics take a limited number of sweeps over a cycle", "statement": "Let the conditions of C86 hold with (4 M + 6) H <= 50000 and (4 phi + 1) H^2 (4 M + 6) <= 2e10, and let D >= H and m be whole numbers with 16e9 D <= 2^m and 10000 (4 phi + 1) D^2 (m + 3) <= 2^m. Then no component is swept more than D m + 1 times: if the calculation were stopped after so many sweeps it would return the same solution. If D m + 1 < 2^31 the int counters of sweeps do not overflow.", "quantifier": "every valid problem of ordinary magnitude within the bounds, with any cycles; every history of calls that gives it to a toolbox; every valid start set", "why_tests_cant": "A bound on the number of iterations over all flows; a test observes the number for a few.", "anchors": ["opm/flowdiagnostics/TracerTofSolver.cpp: solveMultiCell, solveGlobal, solveLocal", "opm/flowdiagnostics/Toolbox.cpp"]}
{"id": "C89", "title": "volumes and fluxes of pairs computed with doubles add up and balance in flow with cycles", "statement": "Whenever both diagnostics computed with doubles return, on data of ordinary magnitude (zero or 1e-30 to 1e30, and no more than 2^100 of total flux into a cell, for production out of it), the volume and the fluxes of every pair of wells asked for are returned and are finite, with the documented signs: they are the sums over cells of pore volume times both concentrations, and of well flux times the concentration of the other well, up to stated rounding errors. If no cell is connected to itself without lying on another cycle, the two fluxes of a pair differ by no more than the imbalance of the cells, 1e-9 of the flux within cycles and rounding errors; if all wells are asked for and everything flows from an injector to a producer, the fluxes of a well's pairs add up to its rate and the volumes of all pairs to the pore volume, up to the errors of C80.", "quantifier": "every valid problem of ordinary magnitude, with any cycles; every history of calls that gives it to a toolbox; every start set; every run that returns; every pair of wells", "why_tests_cant": "Rounding errors and stopped iterations of all flows.", "anchors": ["opm/flowdiagnostics/DerivedQuantities.cpp: injectorProducerPairVolume, injectorProducerPairFlux", "opm/flowdiagnostics/TracerTofSolver.cpp: solveMultiCell, solveLocal", "opm/flowdiagnostics/Toolbox.cpp"]}
{"id": "C90", "title": "with doubles and in flow with cycles volumes are rates times arrival times", "statement": "Whenever both diagnostics computed with doubles return, on data as in C80 (for fluxes into and out of cells) without a cell that is connected to itself without lying on another cycle, the volume of a pair is the sum over the producer's cells of what it produces there times concentration and time of flight of the injector; it is also the sum over the injector's cells of what it injects there times concentration and time of flight of the producer. This holds up to stated multiples of the imbalance of the cells, of the flux within cycles and of rounding errors, if the times are at most a < 200 years and no concentration is below 2^-300. If every cell is balanced and lies downstream of an injector (upstream of a producer), the pore volume is the sum of what is produced (injected) times the global time of flight, up to the errors of C82.", "quantifier": "every valid problem of ordinary magnitude, with any cycles; every history of calls that gives it to a toolbox; every start set; every run that returns; every pair of wells", "why_tests_cant": "Links separately computed results over all flows; tests use tolerances chosen by hand.", "anchors": ["opm/flowdiagnostics/DerivedQuantities.cpp: injectorProducerPairVolume", "opm/flowdiagnostics/TracerTofSolver.cpp: solveMultiCell, solveGlobal, solveLocal", "opm/flowdiagnostics/Toolbox.cpp"]}
{"id": "C91", "title": "the numbering of cells does not matter", "statement": "Give the cells other numbers, and list the connections in another order, in the other direction or split up. In exact arithmetic and flow without cycles the toolbox then accepts the same requests and returns the same start points, times of flight and concentrations, each in the cell with the new number; volumes and fluxes of pairs and the F-Phi curve are the same. In flow with cycles the concentrations in two numberings differ by at most 1e-9 times what the flow carries when each cell adds the flux it gets from its own cycle. With doubles, on data as in C80, concentrations and times of flight differ by at most twice the error bounds of C80 and C82.", "quantifier": "every valid problem, every permutation of its cells, every history of calls that gives the two problems to toolboxes, every start set", "why_tests_cant": "Cell numbers determine the order in which every loop of the solver runs; a test compares few numberings of few grids.", "anchors": ["opm/flowdiagnostics/Toolbox.cpp: computeInjectionDiagnostics, computeProductionDiagnostics", "opm/flowdiagnostics/TracerTofSolver.cpp: solveLocal, solveGlobal, solveSingleCell, solveMultiCell", "opm/flowdiagnostics/DerivedQuantities.cpp: injectorProducerPairVolume, injectorProducerPairFlux, flowCapacityStorageCapacityCurve", "opm/utility/graph/AssembledConnections.cpp: create"]}
{"id": "C92", "title": "what every history of calls on a graph object leaves", "statement": "After any sequence of addConnection() and compress() calls on one object, with and without exceptions on the way: compress(n) throws logic_error exactly when weighted and unweighted connections were added since the last successful compress(); otherwise it throws invalid_argument exactly when connections were added since then and some connection ever given to the object has a source >= n; after an exception the object is unchanged; otherwise it succeeds. The graph shown is always that of the connections added between the last two successful compress() calls, with max(n, 1 + the largest source ever given) rows, and connectionWeight() holds the accumulated weights of the last graph that had any. In particular a rejected compress() can be repeated with a larger n.", "quantifier": "every history of addConnection and compress calls with indices in range, every arithmetic for the weights", "why_tests_cant": "A history has no bound; what earlier graphs leave behind shows only in particular combinations.", "anchors": ["opm/utility/graph/AssembledConnections.cpp: addConnection, compress, Connections::isValid, Connections::clear, CSR::create", "opm/utility/graph/AssembledConnections.hpp: addConnection, compress"]}
{"id": "C93", "title": "threads with objects of their own do not disturb one another", "statement": "Several threads use the library at the same time; each calls only objects of its own (a toolbox, or results and workspaces of the C interface), and all share the C heap. Whatever the order in which their accesses to the heap happen: no thread accesses memory that is not allocated or that another thread or the rest of the program accesses, so there are no data races; a thread that has finished got the same answers as in a program without other threads; when all calls have returned or thrown, the heap is what it was at the beginning. If every thread gets turns again and again, all of them finish. If allocations succeed, the answers of a thread do not depend on the others at all.", "quantifier": "every number of threads, every sequence of calls of each, every interleaving of their accesses to the heap, every outcome of allocations, every initial heap, every arithmetic", "why_tests_cant": "The number of interleavings grows exponentially; a test runs a few that the scheduler happens to choose.", "anchors": ["opm/utility/graph/tarjan.c: create_tarjan_workspace, destroy_tarjan_workspace, tarjan, tarjan_reachable_sccs, tarjan_reverse_sccresult, destroy_tarjan_sccresult", "opm/flowdiagnostics/TracerTofSolver.cpp", "opm/flowdiagnostics/Toolbox.cpp"]}
{"id": "C94", "title": "running out of memory in the middle of diagnostics leaks nothing and spoils nothing", "statement": "A container may fail to get memory at any point of a diagnostics call, also while memory obtained with malloc is in use, and malloc itself may fail. If the call throws bad_alloc, all memory it obtained with malloc has been freed again, every other block is as before, and nothing was accessed that is not allocated. Called again with enough memory, diagnostics return or throw exactly what they would have without the failed call. If no container fails, the call ends as the other properties say.", "quantifier": "every history of calls (some of which may have run out of memory), every start sets, every choice of requests of containers and of allocations that fail, every heap, every arithmetic", "why_tests_cant": "A test would have to make each single allocation of each call fail in turn, for every input.", "anchors": ["opm/flowdiagnostics/Toolbox.cpp: injDiag, prodDiag, buildAssembledConnections", "opm/flowdiagnostics/TracerTofSolver.cpp: solveGlobal, solveLocal, computeOrdering, computeLocalOrdering", "opm/utility/graph/tarjan.c: tarjan, tarjan_reachable_sccs, tarjan_reverse_sccresult, destroy_tarjan_sccresult"]}
{"id": "C95", "title": "what is computed for a cell depends only on what lies upstream of it", "statement": "Take two problems, on grids of any sizes, with any start sets. If no cell upstream of cell v is on a cycle, and v and the cells upstream of it have in both the same pore volumes, the same fluxes into them from each cell and the same rates of injection, then both give for v the same global time of flight, and for every start set named in both the same time of flight and concentration, to the last bit, whatever the arithmetic. Cycles, cells, fluxes and wells anywhere else make no difference. With cycles upstream the concentrations of a well differ by at most 1e-9 times what the flow carries when each cell adds the flux it gets from its own cycle (exact arithmetic), or by twice the error bound of C80 (doubles, data as in C80). For production the same holds with downstream for upstream.", "quantifier": "every two valid problems that agree upstream of a cell, every history of calls that gives them to toolboxes, every start sets, every arithmetic", "why_tests_cant": "Quantifies over pairs of problems; the loops of the solver walk all cells in an order that depends on the whole grid.", "anchors": ["opm/flowdiagnostics/Toolbox.cpp: computeInjectionDiagnostics, computeProductionDiagnostics", "opm/flowdiagnostics/TracerTofSolver.cpp: solveGlobal, solveLocal, solveSingleCell, solveMultiCell, computeOrdering, computeLocalOrdering"]}
{"id": "C96", "title": "wells can be put together in groups", "statement": "Put wells together in groups, so that in each cell a group injects and produces what its members inject and produce together. In exact arithmetic and flow without cycles: the global times of flight do not change; the concentration of a group is the sum of those of its members; its time of flight is the mean of theirs, weighted with the concentrations, or larger where a member reaches the largest time that is reported; the volume and the fluxes of a pair of groups are the sums of those of the pairs of their members. With cycles and with doubles the concentration of a group differs from the sum of those of its members by at most the error bounds of C76 and C80 (with doubles, for data as in C80) for each member and once more. The same holds for the product of time of flight and concentration with an error that is proportional to the flux on cycles and, with doubles, to the rounding unit, if no time of the group or of a member is above some a below the largest time that is reported, and with doubles no concentration downstream is below 2^-300.", "quantifier": "every valid problem, every way to put its wells together, every history of calls that gives the two problems to toolboxes, every start sets", "why_tests_cant": "Quantifies over pairs of problems and all partitions of the wells.", "anchors": ["opm/flowdiagnostics/Toolbox.cpp: computeInjectionDiagnostics, computeProductionDiagnostics", "opm/flowdiagnostics/TracerTofSolver.cpp: solveLocal, solveGlobal, solveSingleCell, solveMultiCell", "opm/flowdiagnostics/DerivedQuantities.cpp: injectorProducerPairVolume, injectorProducerPairFlux"]}
{"id": "C97", "title": "Results change little if the data change little", "statement": "Let two problems have the same connections with flow and the same wells, with fluxes, pore volumes and rates that differ at most by a factor r. In exact arithmetic and cycle-free flow the concentration of a well in a cell that lies k connections deep changes at most by the factor r^(2k+2); its time of flight, and the global time of flight, change at most by the factor r^(4k+6) if the same cells upstream are too slow to count as flowing; pair volumes and pair fluxes change accordingly. With cycles the concentrations change by at most 2(r-1) times the number of cells the fluid passes on the average, plus the tolerance of the solver (and, with doubles and data as in C80, the rounding errors bounded there) in both problems; and if no time of flight reaches 200 years, the products of concentration and time of flight change by at most r-1 times a bound that depends on the flow only, plus such errors. Times of flight do jump, however little the data change, when a cell upstream becomes too slow to count as flowing.", "quantifier": "all pairs of valid problems whose data differ by a factor r at least 1, all grids, all wells, all cells; exact arithmetic and doubles", "why_tests_cant": "a test compares two particular data sets; how errors in the data grow along the flow is a statement about all grids and all perturbations", "anchors": ["opm/flowdiagnostics/Toolbox.cpp: Toolbox::computeInjectionDiagnostics, Toolbox::computeProductionDiagnostics", "opm/flowdiagnostics/TracerTofSolver.cpp: TracerTofSolver::solveLocal, TracerTofSolver::solveGlobal, TracerTofSolver::solveSingleCell"]}
{"id": "C98", "title": "The volume and the fluxes of a pair are zero exactly when the pair does not communicate", "statement": "If no fluid gets from a cell where an injector injects to a cell where a producer produces, then the volume of the pair and its fluxes are exactly zero, in every arithmetic, with or without cycles (the flux of the producer, if none of its values is a NaN or the like). Conversely, in exact arithmetic, the volume of a pair is positive if there is a cell with positive pore volume between the two wells, and its fluxes are not zero if fluid of the injector gets to the producer. In cycle-free flow the concentration of a well in a cell is 1 exactly if no fluid of another well is there, provided that something flows through each cell upstream. With cycles it is less than 1 if fluid of another well is there, and otherwise 1 up to the tolerance of the solver times the flux around cycles, if fluid of a well gets to each cell upstream; with doubles, up to their errors in addition.", "quantifier": "all valid problems, all histories of calls, all start sets, all pairs of wells; any arithmetic for the zero, exact arithmetic for the converse", "why_tests_cant": "which wells communicate is a statement about all paths through all grids; a test shows one grid", "anchors": ["opm/flowdiagnostics/DerivedQuantities.cpp: injectorProducerPairVolume, injectorProducerPairFlux", "opm/flowdiagnostics/Toolbox.cpp: Toolbox::computeInjectionDiagnostics, Toolbox::computeProductionDiagnostics", "opm/flowdiagnostics/TracerTofSolver.cpp: TracerTofSolver::solveLocal"]}
{"id": "C99", "title": "Raising the rate of a well raises its share and lowers those of the others", "statement": "Let a well inject more in some cells (or begin to), with the fluxes and the other wells as before. Then its concentration falls in no cell, and the concentration of each other injector rises in no cell: in exact arithmetic and cycle-free flow without exception, with cycles up to the tolerance of the solver, with doubles and data as in C80 up to the error bounds given there. In exact arithmetic and cycle-free flow the global time of flight of a cell does not rise either, if something flows into each cell upstream of it and the same cells upstream are too slow to count as flowing; if one becomes fast enough it can rise, from 100 to 195 years, however little more is injected. The same holds for production.", "quantifier": "all pairs of valid problems that differ in the rate of one well, all grids, all wells, all cells, all histories of calls; exact arithmetic and doubles", "why_tests_cant": "a comparison of two data sets on all grids; a test compares two particular ones", "anchors": ["opm/flowdiagnostics/Toolbox.cpp: Toolbox::computeInjectionDiagnostics, Toolbox::computeProductionDiagnostics", "opm/flowdiagnostics/TracerTofSolver.cpp: TracerTofSolver::solveLocal, TracerTofSolver::solveGlobal, TracerTofSolver::solveSingleCell"]}
{"id": "C100", "title": "How the volume is divided into cells does not matter to the F-Phi curve", "statement": "Divide cells into parts with the same travel time, whose pore volumes add up to that of the cell, so that the cutoff ignores just the parts of the cells it ignored. In exact arithmetic the line through the points of flowCapacityStorageCapacityCurve() stays the same, so does lorenzCoefficient() of it, and sweepEfficiency() of it has the same points (each repeated for the parts). The cells may be in any order, and the two calls of std::sort may break ties in any way.", "quantifier": "all valid inputs of the curve, all subdivisions of the cells, all sorting algorithms; exact arithmetic", "why_tests_cant": "a test divides one grid in one way; that the result belongs to the reservoir and not to the grid is a statement about all subdivisions", "anchors": ["opm/flowdiagnostics/DerivedQuantities.cpp: flowCapacityStorageCapacityCurve, lorenzCoefficient, sweepEfficiency"]}
{"id": "C101", "title": "Refining the grid does not change the results", "statement": "Divide cells into parts, so that the flux from each cell to another, and what a well injects in a cell, is divided among the parts of the latter with the same fractions; the flow within a cell may be any that reaches all its parts. In exact arithmetic and flow without cycles the concentration of an injector in each part is its concentration in the cell, and volumes and fluxes of pairs of wells do not change (if what leaves a cell is divided in fractions as well, and the pore volumes of parts add up). If each cell is left through one of its parts only, the time of flight there, of an injector and global, is that of the cell, unless a cell upstream takes more than 200 years to fill. With cycles concentrations in parts and cells differ at most by the tolerance of the solver, with doubles and data as in C80 by the error bounds given there for both grids; where cells are left through one part and no time of the well is above some a below the largest time that is reported, the same holds for the products of concentrations and times of flight of a well, with an error proportional to the flux on cycles and, with doubles and concentrations of at least 2^-300, to the rounding unit. The same holds for production.", "quantifier": "all pairs of valid problems of which one refines the other, all grids, all ways to divide cells and fluxes, all wells, all histories of calls; exact arithmetic and doubles", "why_tests_cant": "a comparison of two grids for all grids and refinements; a test refines one grid in one way", "anchors": ["opm/flowdiagnostics/Toolbox.cpp: Toolbox::computeInjectionDiagnostics, Toolbox::computeProductionDiagnostics", "opm/flowdiagnostics/TracerTofSolver.cpp: TracerTofSolver::solveLocal, TracerTofSolver::solveGlobal, TracerTofSolver::solveSingleCell, TracerTofSolver::solveMultiCell", "opm/flowdiagnostics/DerivedQuantities.cpp: injectorProducerPairVolume, injectorProducerPairFlux"]}
{"id": "C102", "title": "Concentrations and times of flight are those of fluid following all routes through the cells", "statement": "A route is a sequence of cells joined by flow, from a cell where a well injects to the cell of interest. If the fluid in each cell is mixed, each route brings a certain fraction of the fluid in its last cell: the product of the fractions of the flux into each cell that come from the preceding one. In exact arithmetic and flow without cycles the concentration of an injector in a cell is the sum of these fractions over all routes from the well, its time of flight is the mean of the times the routes take (the sum of the fill times of their cells, where a cell that takes more than 200 years sets the time to 200 years) and not more than 200 years, the global time of flight is the mean over the routes from all injectors, and the fluxes of a pair of wells are what comes on the routes between them. With cycles there are infinitely many routes; the sums over more and more of them come as close to the concentration as the tolerance of the solver (with doubles and data as in C80, and the error bounds given there) allows, and if all times of flight of the well are below 200 years, the mean times over them come as close to its times of flight as the tolerances (with doubles, and the error bounds of C81) allow. So do the sums over routes to the fluxes of a pair of wells, and the mean times over the routes from all injectors to the global times of flight if these are below 200 years everywhere (with doubles, if in addition errors of concentrations are below a half as in C82). The same holds for production with routes to the producers.", "quantifier": "all valid problems, all histories of calls, all wells, all cells, all routes of any length; exact arithmetic and doubles", "why_tests_cant": "the number of routes grows exponentially with the grid and is infinite with cycles; a test can only add up those of a small grid", "anchors": ["opm/flowdiagnostics/Toolbox.cpp: Toolbox::computeInjectionDiagnostics, Toolbox::computeProductionDiagnostics", "opm/flowdiagnostics/TracerTofSolver.cpp: TracerTofSolver::solveLocal, TracerTofSolver::solveGlobal, TracerTofSolver::solveSingleCell, TracerTofSolver::solveMultiCell", "opm/flowdiagnostics/DerivedQuantities.cpp: injectorProducerPairFlux"]}
{"id": "C103", "title": "The names of wells do not matter", "statement": "If wells get other names (a different name for each), and the start sets are named accordingly, diagnostics end in the same way: with the same exception, or with a solution that has the same global times of flight, and under the new name of each well the concentrations and times of flight it had under the old one, and no other names. So do volumes and fluxes of pairs of wells. This holds although the map of inflows is traversed in the order of the names: in exact arithmetic always, and with doubles bit by bit if no cell is open to more than two wells of the kind in question (injecting, producing). With three wells in a cell the sum of their rates, rounded twice, may depend on the names.", "quantifier": "all grids, connectivities and data (valid or not), all histories of calls, all injective renamings, all start sets, all outcomes of allocations; exact arithmetic, doubles, and any arithmetic in which the rates of the wells in each cell add up to the same number in both orders", "why_tests_cant": "a comparison of two runs for all data and all renamings; the order of a map changes only for particular names", "anchors": ["opm/flowdiagnostics/Toolbox.cpp: Toolbox::assignInflowFlux, Toolbox::computeInjectionDiagnostics, Toolbox::computeProductionDiagnostics", "opm/flowdiagnostics/CellSet.cpp: CellSetID::operator<", "opm/flowdiagnostics/Solution.cpp: Solution::concentration, Solution::timeOfFlight", "opm/flowdiagnostics/DerivedQuantities.cpp: injectorProducerPairVolume, injectorProducerPairFlux"]}
{"id": "C104", "title": "Wells may be asked for together or one by one", "statement": "Diagnostics for several start sets return a solution exactly if they do for no start set and for each of the start sets alone. Two such calls on the same data give the same global times of flight, and for each well that both are asked for the same concentrations and times of flight, whatever other wells they are asked for. If a call for several start sets ends in another way (an exception, undefined behaviour, or without end), a call for none of them or for one of them alone ends in the same way.", "quantifier": "all graphs, data and histories of calls, all lists of start sets, every arithmetic; the same outcome of allocations in each solve", "why_tests_cant": "a comparison of calls with all subsets of all lists of start sets, in all states of a toolbox; the solver object is shared between the solves of one call, and tests ask for one combination", "anchors": ["opm/flowdiagnostics/Toolbox.cpp: Toolbox::computeInjectionDiagnostics, Toolbox::computeProductionDiagnostics", "opm/flowdiagnostics/TracerTofSolver.cpp: TracerTofSolver::solveGlobal, TracerTofSolver::solveLocal", "opm/flowdiagnostics/Solution.cpp: Solution::assign"]}
{"id": "C105", "title": "Reversing the flow exchanges the two wells of a pair", "statement": "Give a toolbox the negated connection fluxes and the negated inflow, so that injectors become producers. Then injection diagnostics return what production diagnostics returned before and the other way round, and injectorProducerPairFlux() of a pair with its parts exchanged returns the two fluxes exchanged and with the opposite sign: in exact arithmetic, and with doubles bit by bit but for the signs of zeros, if rates are numbers (zero included) and concentrations are numbers between 0 and 1. injectorProducerPairVolume() returns the same volume in exact arithmetic, and with doubles one that differs at most by rounding errors, of (4 + a + b) / 2^51 of the volume if the wells have concentrations in a and b cells.", "quantifier": "all valid connectivities, all data and histories of calls, all start sets, all pairs of wells; any pair of solutions for the part on pairs; exact arithmetic and doubles", "why_tests_cant": "a comparison of two runs for all data; the functions treat injectors and producers by different code, and whether this difference ever shows is not seen from single pairs", "anchors": ["opm/flowdiagnostics/Toolbox.cpp: Toolbox::computeInjectionDiagnostics, Toolbox::computeProductionDiagnostics", "opm/flowdiagnostics/DerivedQuantities.cpp: injectorProducerPairVolume, injectorProducerPairFlux"]}
{"id": "C106", "title": "Heterogeneity measures depend neither on the direction of flow nor on the unit of time", "statement": "flowCapacityStorageCapacityCurve(), and with it lorenzCoefficient() and sweepEfficiency(), stays the same if the times from injectors and the times to producers are exchanged (any input, also with doubles, bit by bit), so also if all fluxes and rates of a toolbox are negated and diagnostics are computed again. In exact arithmetic it stays the same if all travel times are multiplied by a positive number and are below 1e100. So in cycle-free flow with positive pore volumes it stays the same if all fluxes and rates are multiplied by one positive number and all pore volumes by another, provided that all times of flight are below 200 years before and after. This proviso is needed: with a cell that the flow does not reach the Lorenz coefficient rises when all rates are doubled, since that cell counts with 400 years before and after.", "quantifier": "all inputs of the curve, all histories of calls with reversed data, all valid problems, all positive factors, every conforming std::sort; exact arithmetic, for the direction also doubles", "why_tests_cant": "a comparison of two runs for all data and all factors; that a limit of 200 years enters a dimensionless number is not seen in tests with flow through all cells", "anchors": ["opm/flowdiagnostics/DerivedQuantities.cpp: flowCapacityStorageCapacityCurve, lorenzCoefficient, sweepEfficiency", "opm/flowdiagnostics/Toolbox.cpp: Toolbox::computeInjectionDiagnostics, Toolbox::computeProductionDiagnostics", "opm/flowdiagnostics/TracerTofSolver.cpp: TracerTofSolver::solveGlobal"]}
{"id": "C107", "title": "F-Phi curve, Lorenz coefficient and sweep efficiency change little if the data change little", "statement": "If the pore volumes of the cells that are not ignored change by at most a factor s and their total travel times by at most a factor r, and the same cells are ignored, the Lorenz coefficient of the F-Phi curve changes by at most s^4 r^2 - 1. For diagnostics computed by the toolbox for two flow fields without cycles whose fluxes, pore volumes and well rates differ by at most a factor r, with the same cells too slow to be treated as flowing, the coefficients differ by at most r^(8L+16) - 1, where L bounds the number of steps along the flow. The F-Phi curve itself, as the broken line through its points, changes by at most the factor s^2 r^2, for such diagnostics by at most r^(8L+14). Sweep efficiency as a function of dimensionless time changes by at most the factor s^4 r^2. With IEEE 754 doubles the first bound holds up to (20n+100)/2^51, n being the number of cells. Without the proviso that the same cells are ignored it is false: an arbitrarily small change of a pore volume at the cutoff can take the coefficient from 1/6 to 0.", "quantifier": "all inputs of the curve with positive travel times, all pairs of close valid problems without cycles, all factors, all cutoffs and all ways the sort may order equal times, in exact arithmetic; for the first bound also doubles of ordinary magnitude", "why_tests_cant": "a test compares two fixed data sets; a bound on the change for every grid, flow and pair of data sets needs an argument about sums over all pairs of cells and about times of flight along all paths, and the jump at the cutoff is not seen unless a pore volume happens to lie there", "anchors": ["opm/flowdiagnostics/DerivedQuantities.cpp: flowCapacityStorageCapacityCurve, lorenzCoefficient", "opm/flowdiagnostics/Toolbox.cpp: Toolbox::computeInjectionDiagnostics, Toolbox::computeProductionDiagnostics", "opm/flowdiagnostics/TracerTofSolver.cpp: TracerTofSolver::solveGlobal"]}
{"id": "C108", "title": "F-Phi curve and Lorenz coefficient computed with doubles from the data are accurate", "statement": "Flow without cycles and data of ordinary magnitude. Compute diagnostics in both directions, the F-Phi curve of their times of flight and its Lorenz coefficient with IEEE 754 doubles, and the same in exact arithmetic. If all pore volumes are positive, no exact time of flight is below 2^-99, and no pore volume lies within rounding errors of the cutoff, then all these calls return, each computed point of the curve differs from a point on the exact curve by at most (2n + 5)/2^51 in storage capacity and (6A + 2n + 7)/2^51 in flow capacity, and the coefficients differ by at most (6A + 10n + 50)/2^51, where n is the number of cells and A = (k+2)^2 (4M+6) for flow of depth k with at most M connections and M wells per cell bounds the relative errors of the times of flight.", "quantifier": "all valid problems without cycles of ordinary magnitude, all histories of calls, all start sets, all cutoffs, all ways the sorts may order equal times; doubles compared with exact arithmetic", "why_tests_cant": "a test sees the rounding errors of one data set and has no exact result to compare with; the bound must hold for all grids, depths and orders of summation, through four functions in a row", "anchors": ["opm/flowdiagnostics/Toolbox.cpp: Toolbox::computeInjectionDiagnostics, Toolbox::computeProductionDiagnostics", "opm/flowdiagnostics/TracerTofSolver.cpp: TracerTofSolver::solveGlobal, TracerTofSolver::solveSingleCell", "opm/flowdiagnostics/DerivedQuantities.cpp: flowCapacityStorageCapacityCurve, lorenzCoefficient"]}
{"id": "C109", "title": "Sweep efficiency is what the F-Phi curve says about the volume", "statement": "In exact arithmetic, for positive travel times: sweep efficiency after a dimensionless time t, on the line through the points that sweepEfficiency() returns, is the smallest value of x + t (1 - y) over all points (x, y) on the line through the points that flowCapacityStorageCapacityCurve() returns, and this value is attained. In particular the largest excess of flow capacity over storage capacity is the fraction of the volume that has not been swept when one pore volume has been injected. Sweep efficiency is at most the dimensionless time, and equal to it exactly up to breakthrough, that is as long as no cell with pore volume has a travel time below that time.", "quantifier": "all inputs of the curve with positive travel times and some pore volume below the cutoff, all times, all ways the sort may order equal times; exact arithmetic", "why_tests_cant": "a relation between the results of two functions at all times and all points between the tabulated ones, for all inputs; tests compare tabulated values of one input", "anchors": ["opm/flowdiagnostics/DerivedQuantities.cpp: flowCapacityStorageCapacityCurve, sweepEfficiency"]}
{"id": "C110", "title": "Lorenz coefficient and sweep efficiency bound one another", "statement": "In exact arithmetic, for positive travel times: let e be sweep efficiency at the dimensionless time 1, that is when one pore volume has been injected, read off the line through the points that sweepEfficiency() returns. Then the coefficient that lorenzCoefficient() returns for the same F-Phi curve lies between 1 - e and 1 - e^2. It equals 1 - e if the volume has only two travel times. It is zero exactly if e = 1, that is if all volume has the same travel time. It is at most 1 - b, where b is the dimensionless time of breakthrough (the least travel time of a cell with pore volume, by volume and times rate).", "quantifier": "all inputs of the curve with positive travel times and some pore volume below the cutoff, all ways the sort may order equal times; exact arithmetic", "why_tests_cant": "an inequality between the results of two functions for all numbers of cells and all travel times; tests see the two numbers for one input", "anchors": ["opm/flowdiagnostics/DerivedQuantities.cpp: flowCapacityStorageCapacityCurve, lorenzCoefficient, sweepEfficiency"]}
{"id": "C111", "title": "Averaging over cells never adds heterogeneity", "statement": "In exact arithmetic, for positive travel times: merge cells, so that the pore volume of a merged cell is the sum of those of its parts and its travel time their harmonic mean weighted with pore volume (pore volume by travel time, the flow through the cell, adds up), and so that the cutoff ignores the same volume. Then flowCapacityStorageCapacityCurve() of the merged cells lies nowhere above that of the parts, lorenzCoefficient() is no larger, and sweepEfficiency() is no smaller at any dimensionless time at which both are given. The proviso on the cutoff is needed: if a merged cell is above the cutoff and its parts are not, the Lorenz coefficient can rise, for instance from 5/66 to 1/6.", "quantifier": "all inputs of the curve with positive travel times, all ways to merge cells, all times, all ways the sorts may order equal times; exact arithmetic", "why_tests_cant": "a comparison of two grids for all inputs and all ways of merging; the two sorts put the volume in different orders, and tests see a few of them", "anchors": ["opm/flowdiagnostics/DerivedQuantities.cpp: flowCapacityStorageCapacityCurve, lorenzCoefficient, sweepEfficiency"]}
