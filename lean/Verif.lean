import Verif.Model.Arith
import Verif.Model.AssembledConnections
import Verif.Model.CellSet
import Verif.Model.ConnectivityGraph
import Verif.Model.DerivedQuantities
import Verif.Model.Double
import Verif.Model.GraphShortage
import Verif.Model.Heap
import Verif.Model.NeighbourhoodIteration
import Verif.Model.OMap
import Verif.Model.RandomVector
import Verif.Model.Release
import Verif.Model.Res
import Verif.Model.Shortage
import Verif.Model.Solution
import Verif.Model.SweepCounter
import Verif.Model.Tarjan
import Verif.Model.TarjanHeap
import Verif.Model.Text
import Verif.Model.Threads
import Verif.Model.Toolbox
import Verif.Model.ToolboxHeap
import Verif.Model.ToolboxMemory
import Verif.Model.ToolboxObjects
import Verif.Model.TracerTofSolver
import Verif.Spec.Accuracy
import Verif.Spec.Balanced
import Verif.Spec.Communication
import Verif.Spec.CyclicDouble
import Verif.Spec.Derived
import Verif.Spec.Flow
import Verif.Spec.FlowData
import Verif.Spec.FlowLaws
import Verif.Spec.Graph
import Verif.Spec.GraphHistory
import Verif.Spec.GraphLedger
import Verif.Spec.GraphShortage
import Verif.Spec.Grouping
import Verif.Spec.Heap
import Verif.Spec.HeapHistory
import Verif.Spec.Lorenz
import Verif.Spec.Measures
import Verif.Spec.Merge
import Verif.Spec.Objects
import Verif.Spec.PairAccuracy
import Verif.Spec.Rates
import Verif.Spec.ReadText
import Verif.Spec.Refine
import Verif.Spec.Release
import Verif.Spec.Rename
import Verif.Spec.Renumbering
import Verif.Spec.Reverse
import Verif.Spec.Rounding
import Verif.Spec.Routes
import Verif.Spec.SCC
import Verif.Spec.Sensitivity
import Verif.Spec.Shortage
import Verif.Spec.SolverCalls
import Verif.Spec.Subdivide
import Verif.Spec.Support
import Verif.Spec.SweepCounter
import Verif.Spec.Tame
import Verif.Spec.Threads
import Verif.Spec.Toolbox
import Verif.Spec.ToolboxObjects
import Verif.Spec.Units
import Verif.Spec.Upstream
import Verif.Proofs.Accuracy
import Verif.Proofs.AccuracyData
import Verif.Proofs.AccuracyProblem
import Verif.Proofs.AccuracyReturns
import Verif.Proofs.AccuracySolution
import Verif.Proofs.AccuracySolve
import Verif.Proofs.Adjacency
import Verif.Proofs.Climb
import Verif.Proofs.ClimbCell
import Verif.Proofs.ClimbComponent
import Verif.Proofs.ClimbMono
import Verif.Proofs.ClimbPace
import Verif.Proofs.ClimbRate
import Verif.Proofs.ClimbReturns
import Verif.Proofs.ClimbRule
import Verif.Proofs.ClimbSolve
import Verif.Proofs.ClimbSteps
import Verif.Proofs.ClimbTimes
import Verif.Proofs.ClimbVisit
import Verif.Proofs.Compress
import Verif.Proofs.Condense
import Verif.Proofs.CountedEnds
import Verif.Proofs.CountingSort
import Verif.Proofs.Create
import Verif.Proofs.CreateUB
import Verif.Proofs.DerivedCurve
import Verif.Proofs.DerivedSeq
import Verif.Proofs.DerivedSort
import Verif.Proofs.DerivedSweep
import Verif.Proofs.DerivedValid
import Verif.Proofs.Double
import Verif.Proofs.DoubleGradual
import Verif.Proofs.DoubleInt
import Verif.Proofs.DoublePrecise
import Verif.Proofs.DoubleSign
import Verif.Proofs.EndlessData
import Verif.Proofs.EndlessOrder
import Verif.Proofs.EndlessProblem
import Verif.Proofs.EndlessRing
import Verif.Proofs.EndlessSolve
import Verif.Proofs.Ends
import Verif.Proofs.FillTime
import Verif.Proofs.FlowGraph
import Verif.Proofs.FluxRows
import Verif.Proofs.Fuel
import Verif.Proofs.GraphIter
import Verif.Proofs.GraphShortage
import Verif.Proofs.HeapBasics
import Verif.Proofs.HeapCalls
import Verif.Proofs.HeapHistory
import Verif.Proofs.HeapSolver
import Verif.Proofs.HeapTarjan
import Verif.Proofs.HeapToolbox
import Verif.Proofs.LorenzCurve
import Verif.Proofs.LorenzPairs
import Verif.Proofs.LorenzRounding
import Verif.Proofs.Monotone
import Verif.Proofs.Near
import Verif.Proofs.NeighbourhoodIteration
import Verif.Proofs.OMap
import Verif.Proofs.Objects
import Verif.Proofs.PairAccuracy
import Verif.Proofs.PairRounding
import Verif.Proofs.Release
import Verif.Proofs.Rename
import Verif.Proofs.Res
import Verif.Proofs.Rounding
import Verif.Proofs.RoundingCurve
import Verif.Proofs.RoundingFinite
import Verif.Proofs.RoundingFlow
import Verif.Proofs.RoundingSolver
import Verif.Proofs.RoundingSort
import Verif.Proofs.RoundingTime
import Verif.Proofs.RoundingToolbox
import Verif.Proofs.Settled
import Verif.Proofs.Shortage
import Verif.Proofs.ShortageFlux
import Verif.Proofs.Slack
import Verif.Proofs.SlackCell
import Verif.Proofs.SlackLocal
import Verif.Proofs.SlackSolution
import Verif.Proofs.SlackSolve
import Verif.Proofs.SlackTime
import Verif.Proofs.SlackTimeGlobal
import Verif.Proofs.SlackTimeLocal
import Verif.Proofs.SlackTimeSolve
import Verif.Proofs.SolutionObjects
import Verif.Proofs.SolverComp
import Verif.Proofs.SolverFacts
import Verif.Proofs.SolverK
import Verif.Proofs.SolverOrder
import Verif.Proofs.SolverRefine
import Verif.Proofs.SolverRun
import Verif.Proofs.SolverSafe
import Verif.Proofs.SolverState
import Verif.Proofs.SolverTop
import Verif.Proofs.SolverVisit
import Verif.Proofs.SupportAny
import Verif.Proofs.SweepAcyclic
import Verif.Proofs.SweepCounter
import Verif.Proofs.SweepDouble
import Verif.Proofs.SweepOverflow
import Verif.Proofs.SweepRounding
import Verif.Proofs.TarjanEntry
import Verif.Proofs.TarjanInv
import Verif.Proofs.TarjanMem
import Verif.Proofs.TarjanReverse
import Verif.Proofs.TarjanTop
import Verif.Proofs.Text
import Verif.Proofs.ThreadsAlone
import Verif.Proofs.ThreadsTogether
import Verif.Proofs.ToolboxData
import Verif.Proofs.ToolboxExact
import Verif.Proofs.ToolboxExist
import Verif.Proofs.ToolboxFlux
import Verif.Proofs.ToolboxHistory
import Verif.Proofs.ToolboxMemory
import Verif.Proofs.ToolboxObjects
import Verif.Proofs.ToolboxSafe
import Verif.Proofs.ToolboxSolve
import Verif.Proofs.ToolboxSplit
import Verif.Proofs.ToolboxTop
import Verif.Proofs.Transpose
import Verif.Proofs.Units
import Verif.Proofs.Upstream
import Verif.Proofs.UpstreamData
import Verif.Props.Accuracy
import Verif.Props.Alone
import Verif.Props.Communication
import Verif.Props.CurveAccurate
import Verif.Props.CurveBest
import Verif.Props.CurveDouble
import Verif.Props.CurveNear
import Verif.Props.CyclicAccuracy
import Verif.Props.CyclicDouble
import Verif.Props.CyclicGlobal
import Verif.Props.CyclicTime
import Verif.Props.Derived
import Verif.Props.DerivedDiagnostics
import Verif.Props.DerivedSizes
import Verif.Props.Double
import Verif.Props.DoubleSymmetry
import Verif.Props.DoubleTime
import Verif.Props.Endless
import Verif.Props.FillTime
import Verif.Props.FlowBound
import Verif.Props.FlowChanges
import Verif.Props.FlowLaws
import Verif.Props.FlowLawsExamples
import Verif.Props.GlobalTimes
import Verif.Props.Graph
import Verif.Props.GraphLedger
import Verif.Props.GraphShortage
import Verif.Props.GroupTimes
import Verif.Props.Grouping
import Verif.Props.Heap
import Verif.Props.Lorenz
import Verif.Props.LorenzAccurate
import Verif.Props.LorenzNear
import Verif.Props.LorenzSweep
import Verif.Props.MeanTime
import Verif.Props.Measures
import Verif.Props.Merge
import Verif.Props.Monotone
import Verif.Props.MonotoneCyclic
import Verif.Props.NearTimes
import Verif.Props.NeighbourhoodIteration
import Verif.Props.Objects
import Verif.Props.PairAccuracy
import Verif.Props.PairDouble
import Verif.Props.Pairs
import Verif.Props.Rates
import Verif.Props.Refine
import Verif.Props.RefineTimes
import Verif.Props.Release
import Verif.Props.Rename
import Verif.Props.Renumbering
import Verif.Props.Reverse
import Verif.Props.Rounding
import Verif.Props.RouteTimes
import Verif.Props.Routes
import Verif.Props.ScaledCyclic
import Verif.Props.Sensitivity
import Verif.Props.Settles
import Verif.Props.Shortage
import Verif.Props.Solver
import Verif.Props.SolverOrder
import Verif.Props.Subdivide
import Verif.Props.SupportAny
import Verif.Props.SweepCounter
import Verif.Props.SweepCurve
import Verif.Props.SweepDouble
import Verif.Props.SweepNear
import Verif.Props.Sweeps
import Verif.Props.Tarjan
import Verif.Props.TarjanListing
import Verif.Props.Text
import Verif.Props.Threads
import Verif.Props.Together
import Verif.Props.Toolbox
import Verif.Props.ToolboxFlow
import Verif.Props.ToolboxMemory
import Verif.Props.ToolboxObjects
import Verif.Props.ToolboxProblem
import Verif.Props.Units
import Verif.Props.Upstream
import Verif.Props.UpstreamCyclic
import Verif.Tests.AssembledConnections
import Verif.Tests.Close
import Verif.Tests.Containers
import Verif.Tests.DerivedQuantities
import Verif.Tests.Tarjan
import Verif.Tests.Toolbox
