import Verif.Dict
import Verif.Model.AdapterOptions
import Verif.Model.AdapterTablesOther
import Verif.Model.AdapterTablesPandas
import Verif.Model.AdapterTablesPolars
import Verif.Model.Adapters
import Verif.Model.Async
import Verif.Model.Autoload
import Verif.Model.Behaviors
import Verif.Model.Build
import Verif.Model.Builder
import Verif.Model.CacheKey
import Verif.Model.CacheLog
import Verif.Model.Caching
import Verif.Model.CheckInstance
import Verif.Model.Config
import Verif.Model.DataFns
import Verif.Model.Decorators
import Verif.Model.Deprecation
import Verif.Model.Does
import Verif.Model.Driver
import Verif.Model.DryRun
import Verif.Model.Exec
import Verif.Model.ExecutionPath
import Verif.Model.ExtractColumns
import Verif.Model.FileCache
import Verif.Model.Fingerprint
import Verif.Model.FromFn
import Verif.Model.Graceful
import Verif.Model.Grouping
import Verif.Model.Hooks
import Verif.Model.Kedro
import Verif.Model.LegacyCache
import Verif.Model.Lifecycle
import Verif.Model.Materialize
import Verif.Model.Metadata
import Verif.Model.MetadataStore
import Verif.Model.Node
import Verif.Model.ParamFamily
import Verif.Model.Pickling
import Verif.Model.Pipe
import Verif.Model.Pool
import Verif.Model.Query
import Verif.Model.Recorders
import Verif.Model.Remote
import Verif.Model.ResultBuild
import Verif.Model.ResultStore
import Verif.Model.RunHooks
import Verif.Model.Sched
import Verif.Model.Schema
import Verif.Model.Spark
import Verif.Model.SparkColumns
import Verif.Model.Stack
import Verif.Model.StoreCopy
import Verif.Model.Subdag
import Verif.Model.Tags
import Verif.Model.Targets
import Verif.Model.TaskCache
import Verif.Model.Telemetry
import Verif.Model.TempModule
import Verif.Model.Topo
import Verif.Model.Tracing
import Verif.Model.Types
import Verif.Model.Validators
import Verif.Model.Versions
import Verif.Model.Visualize
import Verif.Model.WithColumns
import Verif.Proofs.AdapterOptions
import Verif.Proofs.AdapterTables
import Verif.Proofs.Adapters
import Verif.Proofs.AnyPlan
import Verif.Proofs.Async
import Verif.Proofs.Between
import Verif.Proofs.BlockPlan
import Verif.Proofs.Blocks
import Verif.Proofs.Build
import Verif.Proofs.BuildTypes
import Verif.Proofs.CacheLog
import Verif.Proofs.CacheRead
import Verif.Proofs.Caching
import Verif.Proofs.CachingHit
import Verif.Proofs.CachingRun
import Verif.Proofs.Create
import Verif.Proofs.CrossSim
import Verif.Proofs.DriverExec
import Verif.Proofs.Exec
import Verif.Proofs.Fingerprint
import Verif.Proofs.Groupings
import Verif.Proofs.InputVars
import Verif.Proofs.Lifecycle
import Verif.Proofs.LifecycleInv
import Verif.Proofs.LifecycleOrder
import Verif.Proofs.Materialize
import Verif.Proofs.Names
import Verif.Proofs.NoFail
import Verif.Proofs.Override
import Verif.Proofs.ParDen
import Verif.Proofs.ParRun
import Verif.Proofs.ParRun2
import Verif.Proofs.ParRun3
import Verif.Proofs.ParRun4
import Verif.Proofs.ParRun5
import Verif.Proofs.Pipe
import Verif.Proofs.PlainPlan
import Verif.Proofs.PlainRun
import Verif.Proofs.PlainRun2
import Verif.Proofs.Plan
import Verif.Proofs.Query
import Verif.Proofs.Recorders
import Verif.Proofs.Remote
import Verif.Proofs.RunFacts
import Verif.Proofs.Sched1
import Verif.Proofs.Sched10
import Verif.Proofs.Sched11
import Verif.Proofs.Sched2
import Verif.Proofs.Sched3
import Verif.Proofs.Sched4
import Verif.Proofs.Sched5
import Verif.Proofs.Sched6
import Verif.Proofs.Sched7
import Verif.Proofs.Sched8
import Verif.Proofs.Sched9
import Verif.Proofs.Spark
import Verif.Proofs.SparkChain
import Verif.Proofs.SparkColumns
import Verif.Proofs.SparkRun
import Verif.Proofs.Stateless
import Verif.Proofs.StoreCopy
import Verif.Proofs.Subdag
import Verif.Proofs.TaskCache
import Verif.Proofs.TaskCacheAgain
import Verif.Proofs.TaskCacheRun
import Verif.Proofs.TaskPlan
import Verif.Proofs.Topo
import Verif.Proofs.Tracing
import Verif.Proofs.Types
import Verif.Proofs.WithColumns
import Verif.Props.AdapterOptions
import Verif.Props.Adapters
import Verif.Props.Async
import Verif.Props.Autoload
import Verif.Props.Behaviors
import Verif.Props.Blocks
import Verif.Props.Builder
import Verif.Props.BuilderChecks
import Verif.Props.CacheKey
import Verif.Props.CacheLog
import Verif.Props.CacheRead
import Verif.Props.Caching
import Verif.Props.CachingSample
import Verif.Props.CheckInstance
import Verif.Props.Config
import Verif.Props.Construction
import Verif.Props.Cycles
import Verif.Props.DataFns
import Verif.Props.Decorators
import Verif.Props.Deprecation
import Verif.Props.Does
import Verif.Props.DryRun
import Verif.Props.Execution
import Verif.Props.ExecutionPath
import Verif.Props.ExtractColumns
import Verif.Props.FileCache
import Verif.Props.Fingerprint
import Verif.Props.FromFn
import Verif.Props.Graceful
import Verif.Props.Hooks
import Verif.Props.Kedro
import Verif.Props.LegacyCache
import Verif.Props.Materialize
import Verif.Props.Metadata
import Verif.Props.MetadataStore
import Verif.Props.Mutate
import Verif.Props.Overrides
import Verif.Props.Parallel
import Verif.Props.ParamFamily
import Verif.Props.Pickling
import Verif.Props.Pipe
import Verif.Props.Pool
import Verif.Props.Queries
import Verif.Props.Recorders
import Verif.Props.Remote
import Verif.Props.ResultBuild
import Verif.Props.ResultStore
import Verif.Props.RunHooks
import Verif.Props.Sample
import Verif.Props.Schema
import Verif.Props.Spark
import Verif.Props.SparkColumns
import Verif.Props.Stack
import Verif.Props.StoreCopy
import Verif.Props.Subdag
import Verif.Props.Tags
import Verif.Props.Targets
import Verif.Props.TaskCache
import Verif.Props.TaskEquiv
import Verif.Props.TaskLimits
import Verif.Props.TaskSample
import Verif.Props.Tasks
import Verif.Props.Telemetry
import Verif.Props.TempModule
import Verif.Props.Topo
import Verif.Props.Tracing
import Verif.Props.TypeChecker
import Verif.Props.Types
import Verif.Props.Validators
import Verif.Props.Versions
import Verif.Props.Visualize
import Verif.Props.WithColumns
import Verif.Spec.AdapterOptions
import Verif.Spec.Adapters
import Verif.Spec.CacheKey
import Verif.Spec.Caching
import Verif.Spec.CheckInstance
import Verif.Spec.Decor
import Verif.Spec.Denotation
import Verif.Spec.Does
import Verif.Spec.FileCache
import Verif.Spec.Fingerprint
import Verif.Spec.Graceful
import Verif.Spec.Groups
import Verif.Spec.Hooks
import Verif.Spec.Keys
import Verif.Spec.LegacyCache
import Verif.Spec.MetadataStore
import Verif.Spec.Mutate
import Verif.Spec.Parallel
import Verif.Spec.Pipe
import Verif.Spec.Plan
import Verif.Spec.Reach
import Verif.Spec.Recorders
import Verif.Spec.ResultBuild
import Verif.Spec.Run
import Verif.Spec.RunHooks
import Verif.Spec.Stack
import Verif.Spec.TaskCache
import Verif.Spec.Tracing
import Verif.Spec.Types
import Verif.Spec.Validators
import Verif.Spec.Versions
import Verif.Spec.WithColumns
