import Verif.Props.Labels
import Verif.Props.Core
import Verif.Props.Align
import Verif.Props.Merge
import Verif.Props.Structure
import Verif.Props.Axes
import Verif.Props.Flatten
import Verif.Props.Reduce
import Verif.Props.Missing
import Verif.Props.Numeric
import Verif.Props.Ranking
import Verif.Props.Normalize
import Verif.Props.Group
import Verif.Props.Move
import Verif.Props.Index
import Verif.Props.Setitem
import Verif.Props.Lix
import Verif.Props.Resample
import Verif.Props.Stack
import Verif.Props.History
import Verif.Props.IOLabel
import Verif.Props.IO
import Verif.Props.Repack
import Verif.Props.Lara
import Verif.Props.Heap
import Verif.Props.HeapValues
import Verif.Props.HeapViews
import Verif.Props.Reorder
import Verif.Props.Cov
import Verif.Props.RealStats
import Verif.Props.Shuffle
import Verif.Props.Queries
import Verif.Props.Elementwise
import Verif.Props.Param
import Verif.Props.Arith
import Verif.Props.Chain
import Verif.Props.Csv
import Verif.Props.Create
import Verif.Props.Rename
import Verif.Props.Tofile
import Verif.HeapOwn
import Verif.Props.HeapProg
import Verif.Props.Yahoo
import Verif.Props.Order
import Verif.Props.Units
import Verif.Props.Totals
import Verif.Props.LastSlice
import Verif.Props.Twice
import Verif.Testing
import Verif.Props.Testing
import Verif.Print
import Verif.Props.Print
import Verif.PrettyTable
import Verif.Props.PrettyTable
import Verif.Props.Wrap
import Verif.Stats
import Verif.Props.Stats
import Verif.Props.Parts
import Verif.LaraSet
import Verif.Props.LaraSet
import Verif.IOLoop
import Verif.Props.IOLoop
import Verif.Formula
import Verif.Props.Formula
import Verif.FlarryArith
import Verif.Props.FlarryArith
import Verif.Moving
import Verif.Props.Moving
import Verif.Props.MergeMany
import Verif.HeapMore
import Verif.HeapMoreFacts
import Verif.HeapMoreRun
import Verif.Props.HeapMore
import Verif.Props.AnyOrder
import Verif.Props.Unique
import Verif.Props.GroupParts
import Verif.Props.Files
import Verif.Props.Growth
import Verif.Props.Raises
import Verif.Props.Lookback
import Verif.Props.MoveBn
import Verif.Before
import Verif.BeforeAxes
import Verif.BeforeLines
import Verif.Props.Before
import Verif.Props.Differences
import Verif.Props.Blind
import Verif.Objects
import Verif.Props.Objects
import Verif.Checks.Docstrings
import Verif.Checks.Methods
import Verif.Checks.Functions
import Verif.Checks.Indexing
import Verif.Props.AnyAxis
import Verif.Operand
import Verif.Props.Operand
import Verif.TestingAny
import Verif.Props.TestingAny
import Verif.Props.StatUnits
import Verif.Store
import Verif.Props.Store
import Verif.Props.TakeIndex
import Verif.Props.Empties
import Verif.Props.Kinds
import Verif.Props.Algebra
import Verif.Props.Gaps
import Verif.Props.MoreData
import Verif.NegSkip
import Verif.Props.NegSkip
import Verif.Props.GroupStats
import Verif.Props.Layers
import Verif.Protocol
import Verif.Props.Protocol
import Verif.ObjectArith
import Verif.Props.ObjectArith
import Verif.Props.Identities
import Verif.Props.Chunks
import Verif.Props.ChunkMedian
import Verif.Props.Covariance
import Verif.Props.RankGauss
import Verif.Props.Neutral
import Verif.RealScore
import Verif.Props.RealScore
import Verif.RealLog
import Verif.Props.RealLog
import Verif.Props.RealAgree
import Verif.Props.Nearest
import Verif.Props.GeoMean
import Verif.Props.GroupSplit
