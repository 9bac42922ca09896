import Verif.Sql.Value
import Verif.Sql.Db
import Verif.Code.Meta
import Verif.Code.Resolve
import Verif.Code.Trigger
import Verif.Code.GetTriggers
import Verif.Lemmas.Engine
import Verif.Spec.Callback
import Verif.Lemmas.TriggerSet
import Verif.Lemmas.Tracking
import Verif.Lemmas.TrackingInv
import Verif.Lemmas.Declared
import Verif.Lemmas.Affected
import Verif.Spec.Agree
import Verif.Spec.Legal
import Verif.Spec.Declared
import Verif.Spec.Affected
import Verif.Demo
import Verif.DemoTriggers
import Verif.DemoFacts
import Verif.Lemmas.Quiet
import Verif.Props.Tracking
import Verif.Props.Conditions
import Verif.Lemmas.Merge
import Verif.Lemmas.Names
import Verif.Props.TriggerSet
import Verif.Props.Resolve
import Verif.Code.CondText
import Verif.Props.CondText
import Verif.Spec.Aggregate
import Verif.Lemmas.AggRuns
import Verif.Lemmas.Phases
import Verif.Lemmas.Aggregate
import Verif.Lemmas.AggInv
import Verif.Lemmas.AggOrder
import Verif.Props.Aggregates
import Verif.Code.Orm
import Verif.Code.Rebuild
import Verif.Spec.Flush
import Verif.Spec.FlushRun
import Verif.Lemmas.Confined
import Verif.Lemmas.Save
import Verif.Lemmas.Flush
import Verif.Lemmas.FlushRun
import Verif.Lemmas.Visits
import Verif.DemoApp
import Verif.DemoChain
import Verif.Props.Flush
import Verif.Props.FlushViolations
import Verif.Spec.Acyclic
import Verif.Lemmas.Marks
import Verif.Lemmas.MarksInv
import Verif.Lemmas.Settle
import Verif.Lemmas.NoError
import Verif.Props.Settle
import Verif.Code.Registry
import Verif.Props.Rebuild
import Verif.Lemmas.Trace
import Verif.Spec.CacheKey
import Verif.Lemmas.CacheKey
import Verif.Lemmas.KeyInv
import Verif.Lemmas.KeyKept
import Verif.Lemmas.KeyDeclared
import Verif.Props.CacheKey
import Verif.Spec.Save
import Verif.Lemmas.SaveAgg
import Verif.Lemmas.SaveStored
import Verif.Props.Save
import Verif.Code.FieldValue
import Verif.Props.FieldValue
import Verif.Code.M2M
import Verif.Spec.M2M
import Verif.Lemmas.M2M
import Verif.Props.M2M
import Verif.Code.Classes
import Verif.Spec.Classes
import Verif.Lemmas.Classes
import Verif.Props.Classes
import Verif.Code.Install
import Verif.Spec.Install
import Verif.Lemmas.Install
import Verif.Props.Install
import Verif.Code.Daemon
import Verif.Spec.Daemon
import Verif.Lemmas.Daemon
import Verif.Props.Daemon
import Verif.Code.Deconstruct
import Verif.Lemmas.Deconstruct
import Verif.Props.Deconstruct
import Verif.Lemmas.Concerned
import Verif.Lemmas.CachedInv
import Verif.Code.Cached
import Verif.Spec.Cached
import Verif.Lemmas.Cached
import Verif.Props.Cached
import Verif.Props.Confluent
import Verif.Props.Session
import Verif.Code.SqlText
import Verif.Sql.Text
import Verif.Spec.SqlText
import Verif.Lemmas.SqlLex
import Verif.Lemmas.SqlToks
import Verif.Lemmas.SqlActions
import Verif.Lemmas.SqlRead
import Verif.Lemmas.SqlTrigger
import Verif.Lemmas.SqlDecls
import Verif.Lemmas.SqlParams
import Verif.Lemmas.SqlChars
import Verif.Props.SqlText
import Verif.Spec.Transparent
import Verif.Lemmas.Transparent
import Verif.Props.Transparent
import Verif.Spec.Finishes
import Verif.Lemmas.Finishes
import Verif.Props.Finishes
import Verif.Spec.Columns
import Verif.Lemmas.Columns
import Verif.Props.Columns
import Verif.Code.Databases
import Verif.Spec.Databases
import Verif.Props.Databases
import Verif.Code.Crew
import Verif.Spec.Crew
import Verif.Lemmas.Crew
import Verif.Props.Crew
import Verif.Code.Managers
import Verif.Props.Managers
import Verif.Code.Transactions
import Verif.Spec.Transactions
import Verif.Lemmas.Transactions
import Verif.Lemmas.TxnView
import Verif.Lemmas.TxnInv
import Verif.Lemmas.TxnFar
import Verif.Props.Transactions
import Verif.Audit
import Verif.Sql.Run
import Verif.Lemmas.Run
import Verif.Props.EndToEnd
import Verif.Code.AggManagers
import Verif.Spec.AggManagers
import Verif.Props.AggManagers
import Verif.Code.Snapshot
import Verif.Props.Snapshot
import Verif.Code.Calls
import Verif.Spec.Calls
import Verif.Lemmas.Calls
import Verif.Spec.SumCalls
import Verif.Lemmas.SumCalls
import Verif.Props.Calls
import Verif.Spec.TxnAgg
import Verif.Lemmas.TxnAgg
import Verif.Props.TxnAgg
import Verif.Spec.Returns
import Verif.Lemmas.Returns
import Verif.Spec.FieldOrder
import Verif.Lemmas.FieldOrder
import Verif.Lemmas.FieldSolved
import Verif.Props.Returns
import Verif.Code.Hooks
import Verif.Lemmas.Hooks
import Verif.Props.Hooks
import Verif.Spec.Reach
import Verif.Spec.Range
import Verif.Lemmas.Range
import Verif.Props.Range
import Verif.Spec.Inherited
import Verif.Lemmas.Inherited
import Verif.Props.Inherited
import Verif.Spec.BulkUnsafe
import Verif.Lemmas.BulkUnsafe
import Verif.Props.BulkUnsafe
import Verif.Code.JoinFilter
import Verif.Spec.JoinFilter
import Verif.Lemmas.JoinFilter
import Verif.Props.JoinFilter
import Verif.Code.RandomKey
import Verif.Props.RandomKey
import Verif.Code.Deploy
import Verif.Lemmas.Deploy
import Verif.Props.Deploy
import Verif.Code.Request
import Verif.Spec.Request
import Verif.Props.Request
import Verif.Spec.Untouched
import Verif.Lemmas.Untouched
import Verif.Props.Untouched
import Verif.Spec.Works
import Verif.Lemmas.Works
import Verif.Props.Works
import Verif.Code.Waiting
import Verif.Spec.Waiting
import Verif.Lemmas.Waiting
import Verif.Lemmas.OneRow
import Verif.Props.Waiting
import Verif.Spec.TxnKey
import Verif.Lemmas.TxnKey
import Verif.Props.TxnKey
import Verif.Code.Evaluations
import Verif.Spec.Evaluations
import Verif.Lemmas.Evaluations
import Verif.Props.Evaluations
import Verif.Props.ChosenKey
import Verif.Spec.ToField
import Verif.Lemmas.ToField
import Verif.Props.ToField
import Verif.Sql.KeyText
import Verif.Code.TextFlush
import Verif.Spec.KeyText
import Verif.Lemmas.KeyText
import Verif.Lemmas.TextFlush
import Verif.Props.KeyText
import Verif.Sql.Store
import Verif.Spec.Store
import Verif.Lemmas.Store
import Verif.Props.Store
import Verif.Spec.TxnKeySerial
import Verif.Lemmas.TxnKeySerial
import Verif.Props.TxnKeySerial
import Verif.Code.Reading
import Verif.Spec.Reading
import Verif.Lemmas.Reading
import Verif.Props.Reading
import Verif.Lemmas.TxnBound
import Verif.Props.TxnBound
import Verif.Code.EmptyList
import Verif.Spec.EmptyList
import Verif.Props.EmptyList
import Verif.Code.Execute
import Verif.Lemmas.Execute
import Verif.Props.Execute
import Verif.Props.FilterSqlite
import Verif.Code.Loading
import Verif.Spec.Loading
import Verif.Lemmas.Loading
import Verif.Lemmas.LoadingRun
import Verif.Props.Loading
import Verif.Code.Reflect
import Verif.Spec.Reflect
import Verif.Props.Reflect
import Verif.Code.Senders
import Verif.Spec.Senders
import Verif.Props.Senders
import Verif.Code.CachedInit
import Verif.Props.CachedInit
import Verif.Code.ContentTypes
import Verif.Props.ContentTypes
import Verif.Code.MultiTable
import Verif.Spec.MultiTable
import Verif.Lemmas.MultiTable
import Verif.Props.MultiTable
import Verif.Props.MultiTableAgg
import Verif.Spec.Ranked
import Verif.Lemmas.Ranked
import Verif.Props.Ranked
import Verif.Props.ProxyDep
import Verif.Code.Held
import Verif.Spec.Held
import Verif.Lemmas.Held
import Verif.Props.Held
import Verif.Code.Unique
import Verif.Spec.Unique
import Verif.Lemmas.Unique
import Verif.Props.Unique
import Verif.Lemmas.HeldSum
import Verif.Props.HeldSum
import Verif.Code.Typed
import Verif.Spec.Typed
import Verif.Lemmas.Typed
import Verif.Props.Typed
import Verif.Code.CachedAttr
import Verif.Spec.CachedAttr
import Verif.Lemmas.CachedAttr
import Verif.Props.CachedAttr
import Verif.Code.TypedCalls
import Verif.Spec.TypedCalls
import Verif.Lemmas.TypedCalls
import Verif.Props.TypedCalls
import Verif.Sql.Upsert
import Verif.Spec.Upsert
import Verif.Lemmas.Upsert
import Verif.Props.Upsert
import Verif.Sql.Cascade
import Verif.Spec.Cascade
import Verif.Lemmas.Cascade
import Verif.Props.Cascade
import Verif.Spec.Rekey
import Verif.Lemmas.Rekey
import Verif.Props.Rekey
import Verif.Code.Collector
import Verif.Spec.Collector
import Verif.Lemmas.Collector
import Verif.Props.Collector
import Verif.Spec.DeleteCached
import Verif.Lemmas.DeleteCached
import Verif.Props.DeleteCached
import Verif.Code.Emptied
import Verif.Lemmas.Emptied
import Verif.Props.Emptied
import Verif.Code.DeepTables
import Verif.Spec.DeepTables
import Verif.Lemmas.DeepTables
import Verif.Props.DeepTables
import Verif.Code.Savepoints
import Verif.Spec.Savepoints
import Verif.Lemmas.Savepoints
import Verif.Props.Savepoints
import Verif.Lemmas.Mishaps
import Verif.Code.Scripts
import Verif.Spec.Scripts
import Verif.Props.Scripts
import Verif.Code.Views
import Verif.Spec.Views
import Verif.Props.Views
import Verif.Props.Mishaps
import Verif.Spec.Crashes
import Verif.Props.Crashes
import Verif.Props.Rebuilt
import Verif.Props.Deleted
