import Verif.Model.Basic
import Verif.Model.Boxed
import Verif.Model.Calls
import Verif.Model.Capacity
import Verif.Model.Caught
import Verif.Model.CaughtRelease
import Verif.Model.Checked
import Verif.Model.Collections
import Verif.Model.ConnComp
import Verif.Model.Csv
import Verif.Model.CsvFiles
import Verif.Model.CsvSteps
import Verif.Model.Detect
import Verif.Model.Disk
import Verif.Model.Endian
import Verif.Model.Gen
import Verif.Model.GraphMap
import Verif.Model.Guard
import Verif.Model.Handles
import Verif.Model.Hosts
import Verif.Model.IterSearches
import Verif.Model.IterState
import Verif.Model.LabelMap
import Verif.Model.Ldbc
import Verif.Model.Looks
import Verif.Model.Loops
import Verif.Model.MapEq
import Verif.Model.Mmap
import Verif.Model.Names
import Verif.Model.Programs
import Verif.Model.Reach
import Verif.Model.Release
import Verif.Model.Reorder
import Verif.Model.SearchState
import Verif.Model.Serde
import Verif.Model.SetOps
import Verif.Model.Static
import Verif.Model.StatsLines
import Verif.Model.Traversal
import Verif.Model.Utf8
import Verif.Model.View
import Verif.Model.ZipState
import Verif.Spec.Again
import Verif.Spec.AnyEqual
import Verif.Spec.AnySets
import Verif.Spec.AnySubgraphs
import Verif.Spec.AnyView
import Verif.Spec.Components
import Verif.Spec.ConnComp
import Verif.Spec.Crash
import Verif.Spec.Csr
import Verif.Spec.Csv
import Verif.Spec.CsvGrammar
import Verif.Spec.CsvSize
import Verif.Spec.CsvSteps
import Verif.Spec.Endian
import Verif.Spec.Forget
import Verif.Spec.Gen
import Verif.Spec.Graph
import Verif.Spec.History
import Verif.Spec.Hosts
import Verif.Spec.Ids
import Verif.Spec.Iso
import Verif.Spec.Labels
import Verif.Spec.Ldbc
import Verif.Spec.LdbcNames
import Verif.Spec.Leftovers
import Verif.Spec.Lids
import Verif.Spec.Lists
import Verif.Spec.Loops
import Verif.Spec.Melt
import Verif.Spec.Mirror
import Verif.Spec.Mmap
import Verif.Spec.Names
import Verif.Spec.Numbers
import Verif.Spec.Order
import Verif.Spec.Overdump
import Verif.Spec.RawCsr
import Verif.Spec.Release
import Verif.Spec.Reread
import Verif.Spec.RootCost
import Verif.Spec.SearchCost
import Verif.Spec.SearchState
import Verif.Spec.Serde
import Verif.Spec.SetOps
import Verif.Spec.Shapes
import Verif.Spec.Sizes
import Verif.Spec.Sound
import Verif.Spec.Traversal
import Verif.Spec.Uniform
import Verif.Spec.Unsorted
import Verif.Spec.Utf8
import Verif.Spec.Values
import Verif.Spec.View
import Verif.Spec.Wide
import Verif.Proof.Again
import Verif.Proof.AnySets
import Verif.Proof.AnySubgraphs
import Verif.Proof.AnyView
import Verif.Proof.Build
import Verif.Proof.Caught
import Verif.Proof.CaughtRelease
import Verif.Proof.CaughtSearch
import Verif.Proof.Checked
import Verif.Proof.Collections
import Verif.Proof.Components
import Verif.Proof.ConnComp
import Verif.Proof.ConnCompGraph
import Verif.Proof.ConnSubgraph
import Verif.Proof.ConnSubgraphRuns
import Verif.Proof.Counting
import Verif.Proof.Crash
import Verif.Proof.Csr
import Verif.Proof.Csv
import Verif.Proof.CsvFiles
import Verif.Proof.CsvGrammar
import Verif.Proof.CsvLines
import Verif.Proof.CsvSize
import Verif.Proof.CsvSteps
import Verif.Proof.Cut
import Verif.Proof.Cycles
import Verif.Proof.Detect
import Verif.Proof.Disk
import Verif.Proof.Endian
import Verif.Proof.Freeze
import Verif.Proof.FrozenSearch
import Verif.Proof.FrozenSize
import Verif.Proof.Gen
import Verif.Proof.GraphInv
import Verif.Proof.GraphMap
import Verif.Proof.GraphOps
import Verif.Proof.GraphRefine
import Verif.Proof.Handshake
import Verif.Proof.History
import Verif.Proof.Ids
import Verif.Proof.Imported
import Verif.Proof.Iso
import Verif.Proof.LabelMap
import Verif.Proof.Labels
import Verif.Proof.Ldbc
import Verif.Proof.LdbcNames
import Verif.Proof.LdbcRead
import Verif.Proof.Leftovers
import Verif.Proof.Lists
import Verif.Proof.Loops
import Verif.Proof.Makeable
import Verif.Proof.Melt
import Verif.Proof.Mirror
import Verif.Proof.Mmap
import Verif.Proof.MmapGraph
import Verif.Proof.MmapRoom
import Verif.Proof.Names
import Verif.Proof.Order
import Verif.Proof.Overdump
import Verif.Proof.RawCsr
import Verif.Proof.Release
import Verif.Proof.ReleaseLdbc
import Verif.Proof.Reorder
import Verif.Proof.ReorderIso
import Verif.Proof.RootChain
import Verif.Proof.RootCost
import Verif.Proof.SearchCost
import Verif.Proof.SearchMoment
import Verif.Proof.SearchState
import Verif.Proof.Serde
import Verif.Proof.SerdeClosed
import Verif.Proof.SetOps
import Verif.Proof.Shapes
import Verif.Proof.Sizes
import Verif.Proof.SpecGraph
import Verif.Proof.Static
import Verif.Proof.SweepUnique
import Verif.Proof.Traversal
import Verif.Proof.TraversalMove
import Verif.Proof.TraversalOrder
import Verif.Proof.TraversalPart
import Verif.Proof.TraversalParts
import Verif.Proof.TraversalSpec
import Verif.Proof.Undo
import Verif.Proof.Uniform
import Verif.Proof.Unsorted
import Verif.Proof.Values
import Verif.Proof.View
import Verif.Proof.Zip
import Verif.Proof.ZipWrap
import Verif.Props.Again
import Verif.Props.Algebra
import Verif.Props.AnyComp
import Verif.Props.AnyCsv
import Verif.Props.AnyEqual
import Verif.Props.AnySets
import Verif.Props.AnySubgraphs
import Verif.Props.AnyView
import Verif.Props.BareStats
import Verif.Props.Boxed
import Verif.Props.Caught
import Verif.Props.CaughtCopies
import Verif.Props.CaughtRelease
import Verif.Props.Components
import Verif.Props.ConnComp
import Verif.Props.ConnSubgraph
import Verif.Props.ConnSubgraphRuns
import Verif.Props.Crash
import Verif.Props.Csv
import Verif.Props.CsvFiles
import Verif.Props.CsvGrammar
import Verif.Props.CsvLines
import Verif.Props.CsvSize
import Verif.Props.CsvStats
import Verif.Props.CsvSteps
import Verif.Props.CsvUtf8
import Verif.Props.Cut
import Verif.Props.Cycles
import Verif.Props.Degrees
import Verif.Props.Density
import Verif.Props.DensityFiles
import Verif.Props.Detect
import Verif.Props.Endian
import Verif.Props.Equality
import Verif.Props.Equality2
import Verif.Props.EqualityLaws
import Verif.Props.Expected
import Verif.Props.Forget
import Verif.Props.FrozenSearch
import Verif.Props.FrozenStats
import Verif.Props.Gen
import Verif.Props.GraphHistory
import Verif.Props.GraphState
import Verif.Props.Guard
import Verif.Props.Handles
import Verif.Props.Hosts
import Verif.Props.Ids
import Verif.Props.Imported
import Verif.Props.InSide
import Verif.Props.Iso
import Verif.Props.IterSearches
import Verif.Props.IterState
import Verif.Props.LabelMaps
import Verif.Props.LabelTools
import Verif.Props.Labels
import Verif.Props.Ldbc
import Verif.Props.LdbcNames
import Verif.Props.LdbcOrder
import Verif.Props.LdbcText
import Verif.Props.Leftovers
import Verif.Props.Lids
import Verif.Props.Lists
import Verif.Props.Looks
import Verif.Props.Loops
import Verif.Props.Makeable
import Verif.Props.MapEq
import Verif.Props.Melt
import Verif.Props.Mirror
import Verif.Props.Mixup
import Verif.Props.Mmap
import Verif.Props.MmapSearch
import Verif.Props.Numbers
import Verif.Props.Order
import Verif.Props.Overdump
import Verif.Props.Parts
import Verif.Props.Pipeline
import Verif.Props.Programs
import Verif.Props.RandomTests
import Verif.Props.RawCsr
import Verif.Props.Reassemble
import Verif.Props.Reimport
import Verif.Props.Relabel
import Verif.Props.Release
import Verif.Props.ReleaseLdbc
import Verif.Props.Reorder
import Verif.Props.ReorderFreeze
import Verif.Props.ReorderVec
import Verif.Props.Reread
import Verif.Props.RootCost
import Verif.Props.SameSearch
import Verif.Props.SearchCost
import Verif.Props.SearchMoment
import Verif.Props.SearchState
import Verif.Props.Serde
import Verif.Props.SetOps
import Verif.Props.Settle
import Verif.Props.Shapes
import Verif.Props.SharedLabels
import Verif.Props.Sizes
import Verif.Props.Stages
import Verif.Props.Static
import Verif.Props.StaticEdges
import Verif.Props.StatsFiles
import Verif.Props.StatsLines
import Verif.Props.Strings
import Verif.Props.ToolChain
import Verif.Props.Traversal
import Verif.Props.TraversalMove
import Verif.Props.Undo
import Verif.Props.Uniform
import Verif.Props.Union
import Verif.Props.Unsorted
import Verif.Props.Utf8
import Verif.Props.Values
import Verif.Props.Wide
import Verif.Props.Zip
import Verif.Props.ZipState
import Verif.Tests.Suite
