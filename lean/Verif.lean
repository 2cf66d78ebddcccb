import Verif.Sync.Writer
import Verif.Sync.WriterSpec
import Verif.Sync.WriterLemmas
import Verif.Sync.WriterInv
import Verif.Sync.WriterInv2
import Verif.Sync.WriterClosed
import Verif.Sync.WriterInv3
import Verif.Sync.WriterInfo
import Verif.Sync.WriterFlush
import Verif.Sync.WriterProps
import Verif.Sync.WriterMore
import Verif.Sync.Data
import Verif.Sync.DataSpec
import Verif.Sync.SquashProof
import Verif.Sync.Resquash
import Verif.Sync.SquashProps
import Verif.Sync.Apply
import Verif.Sync.Normalize
import Verif.Sync.ApplyProps
import Verif.Sync.MergeNet
import Verif.Sync.MergeCols
import Verif.Sync.MergeProof
import Verif.Sync.MergeProps
import Verif.Sync.Prune
import Verif.Sync.PruneProps
import Verif.Sync.FlushKeys
import Verif.Sync.Schema
import Verif.Sync.SchemaProps
import Verif.Store.Cache
import Verif.Store.CacheProps
import Verif.Store.CacheMetrics
import Verif.Store.CacheMetricsProps
import Verif.Store.CacheMore
import Verif.Store.CacheFiles
import Verif.Store.CacheFilesProps
import Verif.Store.Http
import Verif.Store.HttpMeta
import Verif.Store.HttpMetaProps
import Verif.Store.HttpProps
import Verif.Store.Wrapped
import Verif.Store.WrappedProps
import Verif.Dml.Rechunk
import Verif.Dml.RechunkProps
import Verif.Dml.Dml
import Verif.Dml.DmlProps
import Verif.Dml.RowGroups
import Verif.Dml.RowGroupsProps
import Verif.Catalog.Catalog
import Verif.Catalog.CatalogInv
import Verif.Catalog.CatalogProps
import Verif.Catalog.DropProps
import Verif.Catalog.HistProps
import Verif.Catalog.ListProps
import Verif.Catalog.Gc
import Verif.Catalog.GcProps
import Verif.Frontend.Auth
import Verif.Frontend.AuthProps
import Verif.Frontend.Http
import Verif.Frontend.HttpProps
import Verif.Frontend.EtagProps
import Verif.Frontend.Flight
import Verif.Frontend.FlightProps
import Verif.Sql.TimeTravel
import Verif.Sql.TimeTravelProps
import Verif.Sql.Parser
import Verif.Sql.ParserProps
import Verif.Sql.GrammarProps
import Verif.Sql.VacTrunc
import Verif.Sql.VacTruncProps
import Verif.Remote.Pushdown
import Verif.Remote.PushdownProps
import Verif.Remote.Quote
import Verif.Remote.QuoteProps
import Verif.Misc.Wasm
import Verif.Misc.WasmProps
import Verif.Misc.WasmLegacy
import Verif.Misc.WasmLegacyProps
import Verif.Misc.WasmCall
import Verif.Misc.WasmCallProps
import Verif.Misc.Types
import Verif.Misc.TypesProps
import Verif.Misc.MemPool
import Verif.Misc.MemPoolProps
import Verif.Misc.Config
import Verif.Misc.ConfigProps
import Verif.Misc.StoreOpts
import Verif.Misc.StoreOptsProps
import Verif.Misc.StoreFactory
import Verif.Misc.StoreFactoryProps
import Verif.Context.Ddl
import Verif.Context.External
import Verif.Context.ExternalProps
import Verif.Frontend.FlightReq
import Verif.Frontend.FlightReqProps
import Verif.Sql.ExternalStmt
import Verif.Sql.ExternalStmtProps
import Verif.Context.DdlLemmas
import Verif.Context.UploadProps
import Verif.Context.DdlProps
import Verif.Context.DropStmtProps
import Verif.Context.FnSessionProps
import Verif.Context.StmtProps
import Verif.Context.IsolationProps
import Verif.Context.RenameProps
import Verif.Misc.FnDetails
import Verif.Misc.FnDetailsProps
import Verif.Remote.Scan
import Verif.Remote.ScanProps
import Verif.Catalog.SysTables
import Verif.Catalog.SysTablesProps
import Verif.Catalog.Meta
import Verif.Catalog.MetaProps
import Verif.Context.Session
import Verif.Context.SessionProps
import Verif.Iceberg.Iceberg
import Verif.Iceberg.IcebergProps
import Verif.Dml.Plan
import Verif.Dml.PlanProps
import Verif.Misc.Startup
import Verif.Misc.StartupProps
import Verif.Script.Script
import Verif.Script.ScriptProps
import Verif.Script.Cli
import Verif.Script.CliProps
import Verif.Context.Convert
import Verif.Context.ConvertProps
import Verif.Misc.StoreEnv
import Verif.Misc.StoreEnvProps
import Verif.Frontend.Routes
import Verif.Frontend.RoutesProps
import Verif.Frontend.StatusProps
import Verif.Sync.ResendProps
import Verif.Sync.EndToEnd
import Verif.Sync.EndToEndProps
import Verif.Sync.Target
import Verif.Sync.TargetProps
import Verif.Sync.Metrics
import Verif.Sync.MetricsInv
import Verif.Sync.MetricsProps
import Verif.Frontend.Outer
import Verif.Frontend.OuterProps
import Verif.Context.Foreign
import Verif.Context.ForeignProps
import Verif.Frontend.Json
import Verif.Frontend.JsonProps
import Verif.Store.Address
import Verif.Store.AddressProps
import Verif.Context.Coerce
import Verif.Context.CoerceProps
import Verif.Catalog.Upgrade
import Verif.Catalog.UpgradeProps
import Verif.Catalog.PgSchema
import Verif.Catalog.PgSchemaProps
import Verif.Catalog.Concurrent
import Verif.Catalog.ConcurrentProps
import Verif.Dml.Races
import Verif.Dml.RacesProps
import Verif.Context.Lookups
import Verif.Context.LookupsProps
import Verif.Context.Database
import Verif.Context.DatabaseSpec
import Verif.Context.DatabaseInv
import Verif.Context.DatabaseProps
import Verif.Context.VersionsProps
import Verif.Misc.Listen
import Verif.Misc.ListenProps
import Verif.Sync.LagProps
import Verif.Sync.Columns
import Verif.Sync.ColumnsProps
import Verif.Sync.Shared
import Verif.Sync.SharedProps
import Verif.Sync.AcceptedProps
import Verif.Sync.Names
import Verif.Sync.NamesProps
import Verif.Misc.WasmResultProps
import Verif.Catalog.ExactProps
import Verif.Catalog.GcExactProps
import Verif.Frontend.EtagMoreProps
import Verif.Remote.QuoteExactProps
import Verif.Context.DdlExactProps
import Verif.Context.StmtExactProps
import Verif.Script.ScriptExactProps
import Verif.Catalog.Pg
import Verif.Catalog.PgInv
import Verif.Catalog.PgProps
import Verif.Context.Alter
import Verif.Context.AlterProps
import Verif.Misc.Shutdown
import Verif.Misc.ShutdownProps
import Verif.Sync.ApplyExact
import Verif.Sync.MergeExact
import Verif.Context.UploadExact
import Verif.Sync.NameValues
import Verif.Sync.NameValuesProps
import Verif.Sync.NameFlush
import Verif.Sync.NameFlushProps
import Verif.Context.StorageProps
import Verif.Sync.NamePrune
import Verif.Sync.NamePruneProps
import Verif.Sync.FileHistory
import Verif.Sync.FileHistoryProps
import Verif.Sync.NameHistory
import Verif.Sync.NameHistoryProps
