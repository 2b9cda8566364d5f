import Verif.Props.AggNames
import Verif.Props.Aggregate
import Verif.Props.ApproxPlain
import Verif.Props.ApproxSingle
import Verif.Props.Build
import Verif.Props.Calculator
import Verif.Props.CalculatorPlain
import Verif.Props.CalculatorRows
import Verif.Props.Cfm
import Verif.Props.CfmApprox
import Verif.Props.CfmLeak
import Verif.Props.Chunk
import Verif.Props.ConcatLast
import Verif.Props.Created
import Verif.Props.Cumulative
import Verif.Props.Dask
import Verif.Props.DaskMatrix
import Verif.Props.Describe
import Verif.Props.Dfs
import Verif.Props.DfsAnswer
import Verif.Props.DfsApprox
import Verif.Props.DfsApproxWitness
import Verif.Props.DfsComplete
import Verif.Props.DfsCompleteWitness
import Verif.Props.DfsInput
import Verif.Props.DfsMatrix
import Verif.Props.DfsMatrixWitness
import Verif.Props.DfsWitness
import Verif.Props.Disk
import Verif.Props.Encode
import Verif.Props.Encoded
import Verif.Props.EncodedSingle
import Verif.Props.EntitySet
import Verif.Props.EntitySetEq
import Verif.Props.EntryPoint
import Verif.Props.Feature
import Verif.Props.FeatureFile
import Verif.Props.FeatureGroup
import Verif.Props.FeatureRead
import Verif.Props.Gather
import Verif.Props.Graph
import Verif.Props.GraphWitness
import Verif.Props.Haversine
import Verif.Props.Infer
import Verif.Props.Interesting
import Verif.Props.Keys
import Verif.Props.LastTime
import Verif.Props.LastTimeDask
import Verif.Props.Listing
import Verif.Props.MakePrim
import Verif.Props.Match
import Verif.Props.Names
import Verif.Props.Normalised
import Verif.Props.Operators
import Verif.Props.Pipeline
import Verif.Props.PipelineApprox
import Verif.Props.PipelineApproxWitness
import Verif.Props.PipelineWitness
import Verif.Props.Places
import Verif.Props.Plan
import Verif.Props.Plot
import Verif.Props.PrimFile
import Verif.Props.Progress
import Verif.Props.Query
import Verif.Props.Relate
import Verif.Props.Reloaded
import Verif.Props.Replaced
import Verif.Props.SavedDfs
import Verif.Props.SavedDfsWitness
import Verif.Props.Schema
import Verif.Props.Selection
import Verif.Props.Serialize
import Verif.Props.Stats
import Verif.Props.Timedelta
import Verif.Props.TimedeltaExact
import Verif.Props.TransPrims
import Verif.Props.Trie
import Verif.Props.Types
import Verif.Props.Unused
import Verif.Props.Util
import Verif.Props.VarTypes
