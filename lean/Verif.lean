import Verif.Model.Basic
import Verif.Model.Basin
import Verif.Model.Bench
import Verif.Model.Box
import Verif.Model.Cluster
import Verif.Model.Containers
import Verif.Model.Correlated
import Verif.Model.Crude
import Verif.Model.Cuboid
import Verif.Model.Escape
import Verif.Model.EventLoop
import Verif.Model.GraphAdapter
import Verif.Model.Marcus
import Verif.Model.Merging
import Verif.Model.Programs
import Verif.Model.Queue
import Verif.Model.Range
import Verif.Model.RateContainer
import Verif.Model.Rounded
import Verif.Model.RoundedCuboid
import Verif.Model.RoundedLoop
import Verif.Model.RoundedMarcus
import Verif.Model.RoundedStay
import Verif.Model.RoundedToF
import Verif.Model.Site
import Verif.Model.System
import Verif.Model.ToF
import Verif.Model.ToFMain
import Verif.Model.ToFOutput
import Verif.Model.Versus
import Verif.Spec.Basin
import Verif.Spec.Bench
import Verif.Spec.BenchTotal
import Verif.Spec.Box
import Verif.Spec.Cluster
import Verif.Spec.ClusterOrder
import Verif.Spec.ClusterWalk
import Verif.Spec.Containers
import Verif.Spec.Correlated
import Verif.Spec.Crude
import Verif.Spec.Cuboid
import Verif.Spec.Escape
import Verif.Spec.GraphAdapter
import Verif.Spec.Line
import Verif.Spec.Merging
import Verif.Spec.MergingBooks
import Verif.Spec.Programs
import Verif.Spec.Queue
import Verif.Spec.Range
import Verif.Spec.RateContainer
import Verif.Spec.Rounded
import Verif.Spec.RoundedCluster
import Verif.Spec.RoundedCuboid
import Verif.Spec.RoundedLoop
import Verif.Spec.RoundedMarcus
import Verif.Spec.RoundedStay
import Verif.Spec.RoundedToF
import Verif.Spec.Site
import Verif.Spec.SiteOrder
import Verif.Spec.System
import Verif.Spec.SystemOverflow
import Verif.Spec.SystemReverse
import Verif.Spec.SystemStays
import Verif.Spec.SystemWalk
import Verif.Spec.ToF
import Verif.Spec.ToFEnds
import Verif.Spec.ToFMain
import Verif.Spec.ToFOutput
import Verif.Spec.Units
import Verif.Spec.Walker
import Verif.Spec.Width
import Verif.Lemmas.Basin
import Verif.Lemmas.Bench
import Verif.Lemmas.BenchBox
import Verif.Lemmas.BenchRun
import Verif.Lemmas.BenchTotal
import Verif.Lemmas.Box
import Verif.Lemmas.BoxRates
import Verif.Lemmas.ClusterAfter
import Verif.Lemmas.ClusterDist
import Verif.Lemmas.ClusterDust
import Verif.Lemmas.ClusterFuel
import Verif.Lemmas.ClusterIter
import Verif.Lemmas.ClusterLimit
import Verif.Lemmas.ClusterMerge
import Verif.Lemmas.ClusterOrder
import Verif.Lemmas.ClusterOrderCalls
import Verif.Lemmas.ClusterOrderStep
import Verif.Lemmas.ClusterOverflow
import Verif.Lemmas.ClusterPace
import Verif.Lemmas.ClusterReady
import Verif.Lemmas.ClusterRounds
import Verif.Lemmas.ClusterSolved
import Verif.Lemmas.ClusterTables
import Verif.Lemmas.ClusterTerm
import Verif.Lemmas.ClusterTotal
import Verif.Lemmas.ClusterTrace
import Verif.Lemmas.ClusterUpdate
import Verif.Lemmas.ClusterVisits
import Verif.Lemmas.ClusterWalk
import Verif.Lemmas.ClusterWitness
import Verif.Lemmas.Correlated
import Verif.Lemmas.Crude
import Verif.Lemmas.CrudeRun
import Verif.Lemmas.Cuboid
import Verif.Lemmas.CuboidAll
import Verif.Lemmas.CuboidNeighbors
import Verif.Lemmas.Escape
import Verif.Lemmas.EscapeBasin
import Verif.Lemmas.EscapeCluster
import Verif.Lemmas.EscapeNet
import Verif.Lemmas.EscapeRun
import Verif.Lemmas.Except
import Verif.Lemmas.GraphAdapter
import Verif.Lemmas.IMap
import Verif.Lemmas.Line
import Verif.Lemmas.LineLoops
import Verif.Lemmas.MapSum
import Verif.Lemmas.MergingBooks
import Verif.Lemmas.MergingCluster
import Verif.Lemmas.MergingIdle
import Verif.Lemmas.MergingNet
import Verif.Lemmas.MergingTotal
import Verif.Lemmas.Order
import Verif.Lemmas.Programs
import Verif.Lemmas.Queue
import Verif.Lemmas.Range
import Verif.Lemmas.RangeCuboid
import Verif.Lemmas.RangeMarcus
import Verif.Lemmas.RangeSite
import Verif.Lemmas.RangeToF
import Verif.Lemmas.RateContainer
import Verif.Lemmas.Rounded
import Verif.Lemmas.RoundedAcc
import Verif.Lemmas.RoundedCluster
import Verif.Lemmas.RoundedCuboid
import Verif.Lemmas.RoundedDerive
import Verif.Lemmas.RoundedEnd
import Verif.Lemmas.RoundedIter
import Verif.Lemmas.RoundedLaw
import Verif.Lemmas.RoundedLoop
import Verif.Lemmas.RoundedRounds
import Verif.Lemmas.RoundedSite
import Verif.Lemmas.RoundedStay
import Verif.Lemmas.RoundedTables
import Verif.Lemmas.RoundedTimes
import Verif.Lemmas.RoundedToF
import Verif.Lemmas.Rounding
import Verif.Lemmas.Site
import Verif.Lemmas.SiteOrder
import Verif.Lemmas.SystemCalls
import Verif.Lemmas.SystemCounts
import Verif.Lemmas.SystemExit
import Verif.Lemmas.SystemFrame
import Verif.Lemmas.SystemGrain
import Verif.Lemmas.SystemHands
import Verif.Lemmas.SystemInit
import Verif.Lemmas.SystemInv
import Verif.Lemmas.SystemInvariant
import Verif.Lemmas.SystemKnown
import Verif.Lemmas.SystemLive
import Verif.Lemmas.SystemLong
import Verif.Lemmas.SystemMerge
import Verif.Lemmas.SystemOcc
import Verif.Lemmas.SystemOverflow
import Verif.Lemmas.SystemOverflowGrain
import Verif.Lemmas.SystemOverflowRun
import Verif.Lemmas.SystemPace
import Verif.Lemmas.SystemReverse
import Verif.Lemmas.SystemRun
import Verif.Lemmas.SystemSeeds
import Verif.Lemmas.SystemSolid
import Verif.Lemmas.SystemSound
import Verif.Lemmas.SystemStatic
import Verif.Lemmas.SystemStays
import Verif.Lemmas.SystemTotal
import Verif.Lemmas.SystemTwoWay
import Verif.Lemmas.SystemVisits
import Verif.Lemmas.SystemWalk
import Verif.Lemmas.SystemWalkLaw
import Verif.Lemmas.SystemWitness
import Verif.Lemmas.ToF
import Verif.Lemmas.ToFEnds
import Verif.Lemmas.ToFLoops
import Verif.Lemmas.ToFOutput
import Verif.Lemmas.ToFOverflow
import Verif.Lemmas.ToFRun
import Verif.Lemmas.ToFStart
import Verif.Lemmas.ToFStory
import Verif.Lemmas.ToFWhole
import Verif.Lemmas.UnitsBase
import Verif.Lemmas.UnitsCluster
import Verif.Lemmas.UnitsSystem
import Verif.Lemmas.UnitsVisits
import Verif.Lemmas.UnitsWorld
import Verif.Lemmas.Walker
import Verif.Lemmas.Width
import Verif.Props.Basin
import Verif.Props.BasinSettings
import Verif.Props.Bench
import Verif.Props.BenchTotal
import Verif.Props.Box
import Verif.Props.ClusterClosed
import Verif.Props.ClusterLimit
import Verif.Props.ClusterMerge
import Verif.Props.ClusterOrder
import Verif.Props.ClusterPick
import Verif.Props.ClusterProb
import Verif.Props.ClusterRounds
import Verif.Props.ClusterTime
import Verif.Props.ClusterWalk
import Verif.Props.Containers
import Verif.Props.Correlated
import Verif.Props.Crude
import Verif.Props.CrudeRun
import Verif.Props.CuboidAll
import Verif.Props.CuboidDup
import Verif.Props.CuboidIndex
import Verif.Props.CuboidMetric
import Verif.Props.CuboidNeighbors
import Verif.Props.Escape
import Verif.Props.EscapeCluster
import Verif.Props.GraphAdapter
import Verif.Props.Line
import Verif.Props.LineLoops
import Verif.Props.Marcus
import Verif.Props.Merging
import Verif.Props.MergingBooks
import Verif.Props.MergingTest
import Verif.Props.MergingTotal
import Verif.Props.Programs
import Verif.Props.Queue
import Verif.Props.Range
import Verif.Props.RateContainer
import Verif.Props.Rounded
import Verif.Props.RoundedAcc
import Verif.Props.RoundedCluster
import Verif.Props.RoundedCuboid
import Verif.Props.RoundedIter
import Verif.Props.RoundedLoop
import Verif.Props.RoundedMarcus
import Verif.Props.RoundedStay
import Verif.Props.RoundedToF
import Verif.Props.Site
import Verif.Props.SiteOrder
import Verif.Props.SiteQueries
import Verif.Props.SystemCalls
import Verif.Props.SystemCounts
import Verif.Props.SystemGrain
import Verif.Props.SystemHopSafe
import Verif.Props.SystemInit
import Verif.Props.SystemOverflow
import Verif.Props.SystemPace
import Verif.Props.SystemPartition
import Verif.Props.SystemReverse
import Verif.Props.SystemSettings
import Verif.Props.SystemStays
import Verif.Props.SystemTime
import Verif.Props.SystemTotal
import Verif.Props.SystemVisits
import Verif.Props.SystemWalk
import Verif.Props.SystemWalkers
import Verif.Props.ToF
import Verif.Props.ToFEnds
import Verif.Props.ToFMain
import Verif.Props.ToFOutput
import Verif.Props.ToFOverflow
import Verif.Props.Units
import Verif.Props.Versus
import Verif.Props.Walker
import Verif.Props.Width
import Verif.Tests.Clusters
import Verif.Tests.Systems
import Verif.Tests.Units
import Verif.Audit
