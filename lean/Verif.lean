import Verif.Props.Writer
import Verif.Props.Stream
import Verif.Props.Targets
import Verif.Props.Routing
import Verif.Props.DictSet
import Verif.Lemmas.DateTime
import Verif.Props.Cursor
import Verif.Props.Dates
import Verif.Props.Paths
import Verif.Props.Listing
import Verif.Props.Naming
import Verif.Props.Reader
import Verif.Props.Partition
import Verif.Props.Blobs
import Verif.Props.Formats
import Verif.Props.EndToEnd
import Verif.Props.Parallel
import Verif.Props.Database
import Verif.Props.Validator
import Verif.Props.GroupBy
import Verif.Props.Like
import Verif.Props.Filters
import Verif.Props.Expression
import Verif.Props.ExprEval
import Verif.Props.ExprDnf
import Verif.Props.Entropy
import Verif.Props.Paging
import Verif.Props.Histogram
import Verif.Props.Records
import Verif.Props.Display
import Verif.Props.Collected
import Verif.Props.Functions
import Verif.Props.Tokenizer
import Verif.Props.Xml
import Verif.Props.Evaluator
import Verif.Props.Sql
import Verif.Props.SqlReader
import Verif.Props.SqlGroup
import Verif.Props.SqlFails
import Verif.Props.SqlSamples
import Verif.Model.ObjectStore
import Verif.Lemmas.ObjectStore
import Verif.Props.ObjectStore
import Verif.Model.DictSetStream
import Verif.Props.DictSetStream
import Verif.Model.WriterInit
import Verif.Lemmas.WriterInit
import Verif.Props.WriterInit
import Verif.Model.Disk
import Verif.Lemmas.Disk
import Verif.Lemmas.DiskMany
import Verif.Props.Disk
import Verif.Model.Threads
import Verif.Props.Threads
import Verif.Model.History
import Verif.Props.History
import Verif.Props.Days
import Verif.Props.SqlStorage
import Verif.Lemmas.Torn
import Verif.Model.StreamStorage
import Verif.Spec.StreamStorage
import Verif.Lemmas.StreamStorage
import Verif.Lemmas.StreamRead
import Verif.Lemmas.StreamReach
import Verif.Lemmas.Layouts
import Verif.Props.StreamStorage
import Verif.Lemmas.FieldLayout
import Verif.Lemmas.FieldReach
import Verif.Props.FieldStorage
import Verif.Lemmas.DiskMerge
import Verif.Lemmas.ManyStreams
import Verif.Lemmas.ManyReach
import Verif.Props.ManyStorage
import Verif.Spec.Follow
import Verif.Props.Follow
import Verif.Spec.FollowStream
import Verif.Lemmas.FollowStream
import Verif.Props.FollowStream
import Verif.Model.ErrorStack
import Verif.Spec.ErrorStack
import Verif.Props.ErrorStack
import Verif.Model.Colors
import Verif.Spec.Colors
import Verif.Props.Colors
import Verif.Model.Context
import Verif.Props.Context
import Verif.Model.NullAdapter
import Verif.Props.NullAdapter
import Verif.Model.Cloud
import Verif.Spec.Cloud
import Verif.Lemmas.Cloud
import Verif.Lemmas.Repeats
import Verif.Props.Cloud
import Verif.Model.Overlap
import Verif.Spec.Overlap
import Verif.Lemmas.Overlap
import Verif.Props.Overlap
import Verif.Lemmas.Split
import Verif.Props.Split
import Verif.Model.ReaderFilter
import Verif.Props.ReaderFilter
import Verif.Model.StoredSets
import Verif.Spec.StoredSets
import Verif.Props.StoredSets
import Verif.Model.SetFilter
import Verif.Props.SetFilter
import Verif.Model.Words
import Verif.Spec.Words
import Verif.Props.Words
import Verif.Model.BlobIds
import Verif.Props.BlobIds
import Verif.Model.BigQuery
import Verif.Props.BigQuery
import Verif.Model.FunctionTable
import Verif.Spec.FunctionTable
import Verif.Props.FunctionTable
import Verif.Model.CloudSql
import Verif.Props.CloudSql
import Verif.Model.Summaries
import Verif.Spec.Order
import Verif.Lemmas.Order
import Verif.Props.Summaries
import Verif.Spec.Collected
import Verif.Props.SortTake
import Verif.Props.DisplayCells
import Verif.Spec.Cells
import Verif.Model.Statistics
import Verif.Props.Statistics
import Verif.Spec.Answered
import Verif.Props.StreamSql
import Verif.Spec.Week
import Verif.Props.Week
import Verif.Model.Remembered
import Verif.Props.Remembered
import Verif.Model.CloudStream
import Verif.Lemmas.SameBlobs
import Verif.Lemmas.CloudStream
import Verif.Props.CloudStream
import Verif.Model.TextWrap
import Verif.Spec.TextWrap
import Verif.Lemmas.TextWrap
import Verif.Props.TextWrap
import Verif.Props.TextHyphens
import Verif.Props.PowerLoss
import Verif.Props.CloudStreamSql
import Verif.Lemmas.CloudMany
import Verif.Props.CloudMany
import Verif.Props.Replaced
import Verif.Props.ReplacedRuns
import Verif.Props.FunctionNames
import Verif.Lemmas.PermBlobs
import Verif.Spec.FollowCloud
import Verif.Props.FollowCloud
import Verif.Props.FollowDays
import Verif.Props.FollowDaysCloud
import Verif.Props.CloudOverlap
import Verif.Props.CloudSplit
import Verif.Props.TempFiles
import Verif.Props.AfterFinalize
import Verif.Model.Timestamps
import Verif.Props.Timestamps
