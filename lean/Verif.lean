import Verif.Exec.TaskStateProps
import Verif.Exec.InputsProps
import Verif.Exec.TopologyProps
import Verif.Exec.SchedulerProps
import Verif.Exec.SchedulerProps2
import Verif.Exec.SchedulerProps3
import Verif.Exec.AssignerProps
import Verif.Exec.DriverProps
import Verif.Exec.OutputProps
import Verif.Exec.StreamsProps
import Verif.Exec.PoolProps
import Verif.Phys.RangeProps
import Verif.Phys.RowsProps
import Verif.Delta.Z85Props
import Verif.Base.Sort
import Verif.Delta.LogProps
import Verif.Delta.CoverProps
import Verif.Exec.AssignerProps2
import Verif.Exec.LocalStreamsProps
import Verif.Delta.CompactLemmas
import Verif.Delta.CompactProps
import Verif.Delta.Replay
import Verif.Delta.ReplayLemmas
import Verif.Delta.ReplayProps
import Verif.Delta.Commit
import Verif.Delta.CommitLemmas
import Verif.Delta.CommitProps
import Verif.Base.Calendar
import Verif.Iceberg.Transform
import Verif.Iceberg.TransformLemmas
import Verif.Iceberg.TransformProps
import Verif.Iceberg.Pruning
import Verif.Iceberg.PruningLemmas
import Verif.Iceberg.PruningProps
import Verif.Iceberg.Limit
import Verif.Iceberg.LimitProps
import Verif.Iceberg.Deletes
import Verif.Iceberg.DeletesLemmas
import Verif.Iceberg.DeletesProps
import Verif.Iceberg.Snapshot
import Verif.Iceberg.SnapshotLemmas
import Verif.Iceberg.SnapshotProps
import Verif.Iceberg.SnapshotRows
import Verif.Iceberg.RowIds
import Verif.Iceberg.RowIdsProps
import Verif.Iceberg.Protocol
import Verif.Iceberg.ProtocolLemmas
import Verif.Iceberg.ProtocolProps
import Verif.Iceberg.Catalog
import Verif.Iceberg.CatalogProps
import Verif.Connect.Executor
import Verif.Connect.ExecutorLemmas
import Verif.Connect.ExecutorData
import Verif.Connect.ExecutorLive
import Verif.Connect.ExecutorProps
import Verif.Connect.Operations
import Verif.Connect.OperationsProps
import Verif.Connect.Sessions
import Verif.Connect.SessionsProps
import Verif.Connect.Config
import Verif.Connect.ConfigProps
import Verif.Connect.Streaming
import Verif.Connect.StreamingProps
import Verif.Func.WindowProps
import Verif.Func.SequenceProps
import Verif.Func.TemporalSeqProps
import Verif.Func.LikeProps
import Verif.Func.DigitsProps
import Verif.Func.PreimageProps
import Verif.Func.BitmapProps
import Verif.Func.ModeProps
import Verif.Func.CountMinProps
import Verif.Func.PercentileProps
import Verif.Func.PercentileDiscProps
import Verif.Func.TryAvgProps
import Verif.Func.MaxByProps
import Verif.Func.HistogramProps
import Verif.Func.WindowFnProps
import Verif.Opt.JoinPlan
import Verif.Opt.JoinGraph
import Verif.Opt.JoinEnum
import Verif.Opt.JoinRebuild
import Verif.Opt.JoinSetLemmas
import Verif.Opt.JoinProd
import Verif.Opt.JoinSpec
import Verif.Opt.JoinExpr
import Verif.Opt.JoinBuild
import Verif.Opt.JoinVisit
import Verif.Opt.JoinTable
import Verif.Opt.JoinTree
import Verif.Opt.JoinCheck
import Verif.Opt.StableName
import Verif.Opt.JoinProps
import Verif.Merge.Model
import Verif.Merge.Spec
import Verif.Merge.Lemmas
import Verif.Merge.RowLemmas
import Verif.Merge.TableLemmas
import Verif.Merge.ResultLemmas
import Verif.Merge.RunLemmas
import Verif.Merge.Sample
import Verif.Merge.CowProps
import Verif.Merge.MorProps
import Verif.Merge.Source
import Verif.Merge.SourceProps
import Verif.Merge.Metrics
import Verif.Merge.MetricsProps
import Verif.Merge.Rename
import Verif.Merge.RenameProps
import Verif.Catalog.Assoc
import Verif.Catalog.Managed
import Verif.Catalog.Memory
import Verif.Catalog.MemoryProps
import Verif.Catalog.MemoryListProps
import Verif.Catalog.ManagedProps
import Verif.Catalog.Manager
import Verif.Catalog.ManagerProps
import Verif.Catalog.StatementProps
import Verif.Catalog.Cache
import Verif.Catalog.CacheProps
import Verif.Catalog.Function
import Verif.Catalog.FunctionProps
import Verif.Sql.Lexer
import Verif.Sql.LexerLemmas
import Verif.Sql.LexerLocal
import Verif.Sql.Str
import Verif.Sql.StrLemmas
import Verif.Sql.LexerProps
import Verif.Sql.Name
import Verif.Sql.NameProps
import Verif.Sql.Param
import Verif.Sql.ParamProps
import Verif.Catalog.CreateProps
import Verif.Sql.Number
import Verif.Sql.NumberLemmas
import Verif.Sql.NumberValue
import Verif.Sql.NumberProps
import Verif.Sql.Interval
import Verif.Sql.IntervalProps
import Verif.Sql.IntervalMulti
import Verif.Sql.Datetime
import Verif.Sql.DatetimeProps
import Verif.Sql.Display
import Verif.Sql.DisplayProps
import Verif.Sql.Pratt
import Verif.Sql.PrattProps
import Verif.Sql.PrattSound
import Verif.Sql.Ddl
import Verif.Sql.DdlProps
import Verif.Io.Utf8
import Verif.Io.Utf8Lemmas
import Verif.Io.Utf8Props
import Verif.Io.Text
import Verif.Io.TextLemmas
import Verif.Io.TextProps
import Verif.Io.Glob
import Verif.Io.GlobParse
import Verif.Io.GlobLemmas
import Verif.Io.GlobProps
import Verif.Sql.SoundProps
import Verif.Celeborn.Lifecycle
import Verif.Celeborn.IdLemmas
import Verif.Celeborn.IdProps
import Verif.Celeborn.AnswerLemmas
import Verif.Celeborn.AnswerProps
import Verif.Celeborn.ReviveLemmas
import Verif.Celeborn.ReviveProps
import Verif.Celeborn.CommitLemmas
import Verif.Celeborn.CoverLemmas
import Verif.Celeborn.CommitProps
import Verif.Celeborn.MetricsLemmas
import Verif.Celeborn.MetricsProps
import Verif.Celeborn.Transport
import Verif.Celeborn.TransportLemmas
import Verif.Celeborn.TransportProps
import Verif.Celeborn.Data
import Verif.Celeborn.DataLemmas
import Verif.Celeborn.DataProps
import Verif.Celeborn.Client
import Verif.Celeborn.ClientLemmas
import Verif.Celeborn.ClientProps
import Verif.Celeborn.Names
import Verif.Celeborn.NamesProps
import Verif.Delta.Checksum
import Verif.Delta.ChecksumLemmas
import Verif.Delta.ChecksumProps
import Verif.Delta.SchemaProps
import Verif.Delta.WideningProps
import Verif.Delta.UpgradeProps
import Verif.Delta.PathTextProps
import Verif.Celeborn.FrozenLemmas
import Verif.Celeborn.StopProps
import Verif.Delta.MetaFilter
import Verif.Delta.MetaFilterLemmas
import Verif.Delta.MetaFilterSound
import Verif.Delta.RowDelete
import Verif.Delta.RowDeleteLemmas
import Verif.Delta.RowDeleteProps
import Verif.Delta.FileStatsProps
import Verif.Delta.PartValueProps
import Verif.Delta.FileStats
import Verif.Delta.FileStatsLemmas
import Verif.Delta.PartValue
import Verif.PySource.Filter
import Verif.PySource.FilterProps
import Verif.PySource.Write
import Verif.PySource.WriteProps
import Verif.PySource.Read
import Verif.PySource.ReadProps
import Verif.PySource.Decimal
import Verif.PySource.DecimalProps
import Verif.Arrays.Layout
import Verif.Arrays.Compact
import Verif.Arrays.CompactProps
import Verif.Arrays.MapFrom
import Verif.Arrays.MapFromLemmas
import Verif.Arrays.MapFromProps
import Verif.Arrays.RowWise
import Verif.Arrays.RowWiseProps
import Verif.Arrays.Planned
import Verif.Arrays.PlannedProps
import Verif.Arrays.Lambda
import Verif.Arrays.ExistsProps
import Verif.Arrays.LambdaProps
import Verif.Delta.DvWrite
import Verif.Delta.DvWriteLemmas
import Verif.Delta.DvWriteProps
import Verif.Delta.DvFile
import Verif.Delta.DvFileProps
import Verif.Delta.DvScan
import Verif.Delta.DvScanProps
import Verif.Func.TryArithProps
import Verif.Merge.StoreAssignProps
import Verif.Evolve.CastProps
import Verif.Evolve.RewriteProps
import Verif.Iceberg.SchemaIdsProps
import Verif.Checkpoint.RowsProps
import Verif.Checkpoint.RegistryProps
import Verif.Io.RateProps
import Verif.Iceberg.AppendProps
import Verif.Delta.MergeSchemaProps
import Verif.Func.StructFieldProps
import Verif.Func.DropFieldProps
import Verif.Phys.SampleProps
import Verif.Plan.RenameColumnsProps
import Verif.Plan.SetOpProps
import Verif.Plan.NaProps
import Verif.Plan.ColumnOpProps
import Verif.Plan.TailProps
import Verif.Plan.UnpivotProps
import Verif.Plan.CrosstabProps
import Verif.Plan.DropColumnsProps
