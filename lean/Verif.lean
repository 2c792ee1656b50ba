import Verif.Props.Algorithms
import Verif.Props.Containers
import Verif.Props.Partitioned
import Verif.Props.Graph
import Verif.Props.GraphInit
import Verif.Props.SharedWeights
import Verif.Props.Traversal
import Verif.Props.SubGraph
import Verif.Props.Tree
import Verif.Props.Rollback
import Verif.Props.ThreadPool
import Verif.Props.CommandLine
import Verif.Props.Text
import Verif.Props.Suite
import Verif.Props.Dependency
import Verif.Props.PruneFiles
import Verif.Props.StaticStorage
import Verif.Props.Ratio
import Verif.Props.Shell
import Verif.Props.Bitmask
import Verif.Props.Logger
import Verif.Props.Assign
import Verif.Props.Statistics
import Verif.Props.FailureInfo
import Verif.Props.SortNodes
import Verif.Props.RunTests
import Verif.Props.Includes
import Verif.Props.SoftUpdate
import Verif.Props.TypeLists
import Verif.Props.Units
import Verif.Props.Convert
import Verif.Props.Coordinates
import Verif.Props.Checkers
import Verif.Props.PathCheck
import Verif.Props.Semantics
import Verif.Props.SortEdges
import Verif.Props.Materials
import Verif.Props.PathEquivalence
import Verif.Props.Reports
import Verif.Props.RunnerArgs
import Verif.Props.RunnerSandbox
import Verif.Props.FileEditors
import Verif.Props.TestCreator
import Verif.Props.StateTransition
import Verif.Props.Spaces
import Verif.Props.Performance
import Verif.Props.Postprocess
import Verif.Props.AllocationChecks
import Verif.Props.Instability
import Verif.Props.Quantities
import Verif.Props.Projects
import Verif.Props.Iterators
import Verif.Props.Summaries
import Verif.Props.LoggerText
import Verif.Props.Messages
import Verif.Props.NodeWeights
import Verif.Props.ProjectPaths
import Verif.Props.TraversalResults
import Verif.Props.Forest
import Verif.Props.TidyName
import Verif.Props.TestFiles
import Verif.Props.RunReport
import Verif.Props.AddSuites
import Verif.Props.Incremental
import Verif.Props.Help
import Verif.Props.Resolve
import Verif.Props.WholeGraph
import Verif.Props.MachineNumbers
import Verif.Props.StringReports
import Verif.Props.Comparisons
import Verif.Props.GraphErrors
import Verif.Props.Futures
import Verif.Props.MetaData
import Verif.Props.ShellRun
import Verif.Props.Portable
import Verif.Props.SuiteTypes
import Verif.Props.Calibrate
import Verif.Props.ConversionSpace
import Verif.Props.StandardUnits
import Verif.Props.RoundedConvert
import Verif.Props.Recovery
import Verif.Props.LinearStorage
import Verif.Props.EdgeObjects
import Verif.Props.CountingAllocator
import Verif.Props.RunnerHelp
import Verif.Props.Copyright
import Verif.Props.DeepEquality
import Verif.Props.Euclidean
import Verif.Props.TestFilesSamples
