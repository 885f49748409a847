import Verif.Model.AddRetractAlter
import Verif.Model.Algebrize
import Verif.Model.Base
import Verif.Model.Bootstrap
import Verif.Model.Builder
import Verif.Model.CC
import Verif.Model.Cache
import Verif.Model.Calendar
import Verif.Model.Chunks
import Verif.Model.Cli
import Verif.Model.Edn
import Verif.Model.EdnParse
import Verif.Model.Entities
import Verif.Model.EntityParse
import Verif.Model.Ffi
import Verif.Model.FloatText
import Verif.Model.Fulltext
import Verif.Model.Intern
import Verif.Model.Lookup
import Verif.Model.Matcher
import Verif.Model.Merge
import Verif.Model.Metadata
import Verif.Model.Names
import Verif.Model.Observer
import Verif.Model.Partition
import Verif.Model.Prepared
import Verif.Model.PrettyPrint
import Verif.Model.Project
import Verif.Model.Pull
import Verif.Model.QueryAst
import Verif.Model.QueryBuilder
import Verif.Model.QueryParse
import Verif.Model.QueryResult
import Verif.Model.Reopen
import Verif.Model.Session
import Verif.Model.Sql
import Verif.Model.SqlText
import Verif.Model.SqlValue
import Verif.Model.Store
import Verif.Model.StoreSync
import Verif.Model.Sync
import Verif.Model.SyncFlow
import Verif.Model.Timelines
import Verif.Model.Transact
import Verif.Model.Trie
import Verif.Model.Upsert
import Verif.Model.Vocabulary
import Verif.Model.VocabularySource
import Verif.Model.Wire
import Verif.Proofs.Allocate
import Verif.Proofs.Apply
import Verif.Proofs.AttrMaps
import Verif.Proofs.BootLog
import Verif.Proofs.Bound
import Verif.Proofs.Built
import Verif.Proofs.Cache
import Verif.Proofs.CacheAgree
import Verif.Proofs.CacheInv
import Verif.Proofs.Calendar
import Verif.Proofs.Cli
import Verif.Proofs.CliReader
import Verif.Proofs.Effect
import Verif.Proofs.Entities
import Verif.Proofs.EntityParse
import Verif.Proofs.EntityWf
import Verif.Proofs.Errors
import Verif.Proofs.Examples
import Verif.Proofs.FloatText
import Verif.Proofs.Fulltext
import Verif.Proofs.FulltextDb
import Verif.Proofs.History
import Verif.Proofs.HistoryRows
import Verif.Proofs.IdentMaps
import Verif.Proofs.Idents
import Verif.Proofs.InstText
import Verif.Proofs.KernelRfl
import Verif.Proofs.Late
import Verif.Proofs.Meta
import Verif.Proofs.NoPanic
import Verif.Proofs.Permute
import Verif.Proofs.PermuteApply
import Verif.Proofs.Pull
import Verif.Proofs.QueryAggregate
import Verif.Proofs.QueryAnswers
import Verif.Proofs.QueryCached
import Verif.Proofs.QueryClauses
import Verif.Proofs.QueryCols
import Verif.Proofs.QueryEnv
import Verif.Proofs.QueryEvolve
import Verif.Proofs.QueryExt
import Verif.Proofs.QueryFinish
import Verif.Proofs.QueryFrame
import Verif.Proofs.QueryFulltext
import Verif.Proofs.QueryInv
import Verif.Proofs.QueryKept
import Verif.Proofs.QueryLocal
import Verif.Proofs.QueryLog
import Verif.Proofs.QueryMono
import Verif.Proofs.QueryNot
import Verif.Proofs.QueryNotRef
import Verif.Proofs.QueryOr
import Verif.Proofs.QueryOrJoin
import Verif.Proofs.QueryOrSimple
import Verif.Proofs.QueryOrStep
import Verif.Proofs.QueryOrder
import Verif.Proofs.QueryParse
import Verif.Proofs.QueryParts
import Verif.Proofs.QueryPattern
import Verif.Proofs.QueryPred
import Verif.Proofs.QueryProject
import Verif.Proofs.QueryRun
import Verif.Proofs.QuerySatVars
import Verif.Proofs.QuerySem
import Verif.Proofs.QueryStep
import Verif.Proofs.QueryText
import Verif.Proofs.QueryTotal
import Verif.Proofs.QueryTyped
import Verif.Proofs.QueryWf
import Verif.Proofs.Replay
import Verif.Proofs.Resolve
import Verif.Proofs.Run
import Verif.Proofs.SchemaRead
import Verif.Proofs.Session
import Verif.Proofs.SessionRun
import Verif.Proofs.SqlOrder
import Verif.Proofs.SqlText
import Verif.Proofs.SqlTextQuery
import Verif.Proofs.SqlTextTotal
import Verif.Proofs.Store
import Verif.Proofs.Trace
import Verif.Proofs.Trie
import Verif.Proofs.Upsert
import Verif.Proofs.UpsertLoop
import Verif.Proofs.Vocabulary
import Verif.Proofs.Wire
import Verif.Props.Aggregates
import Verif.Props.Allocation
import Verif.Props.Answers
import Verif.Props.Bound
import Verif.Props.Built
import Verif.Props.Cache
import Verif.Props.Checks
import Verif.Props.Chunks
import Verif.Props.Cli
import Verif.Props.Commute
import Verif.Props.Datoms
import Verif.Props.EdnOrder
import Verif.Props.EdnParse
import Verif.Props.EdnText
import Verif.Props.Entities
import Verif.Props.EntitiesKnown
import Verif.Props.EntitiesNoPanic
import Verif.Props.EntityParse
import Verif.Props.Ffi
import Verif.Props.FindSpecs
import Verif.Props.Fulltext
import Verif.Props.InProgressQuery
import Verif.Props.Instants
import Verif.Props.Intern
import Verif.Props.Lookup
import Verif.Props.Matcher
import Verif.Props.Merge
import Verif.Props.MergeMore
import Verif.Props.MovedHistory
import Verif.Props.Narrow
import Verif.Props.NoPanic
import Verif.Props.Observers
import Verif.Props.Permute
import Verif.Props.PermuteEntities
import Verif.Props.Prepared
import Verif.Props.PrettyPrint
import Verif.Props.Pull
import Verif.Props.Query
import Verif.Props.QueryCached
import Verif.Props.QueryExamples
import Verif.Props.QueryFacts
import Verif.Props.QueryFulltext
import Verif.Props.QueryLog
import Verif.Props.QueryOr
import Verif.Props.QueryOrder
import Verif.Props.QueryParse
import Verif.Props.QueryShape
import Verif.Props.QueryText
import Verif.Props.QueryTotal
import Verif.Props.Rebase
import Verif.Props.Replicate
import Verif.Props.Savepoints
import Verif.Props.Schema
import Verif.Props.Selection
import Verif.Props.Session
import Verif.Props.SqlText
import Verif.Props.StoreSync
import Verif.Props.Sync
import Verif.Props.SyncFlow
import Verif.Props.SyncStore
import Verif.Props.Tempids
import Verif.Props.Timelines
import Verif.Props.Undo
import Verif.Props.Values
import Verif.Props.Vocabularies
import Verif.Props.Vocabulary
import Verif.Props.VocabularySource
import Verif.Props.VocabularyUpgrade
import Verif.Props.Wire
import Verif.Spec.Bound
import Verif.Spec.Built
import Verif.Spec.Calendar
import Verif.Spec.Cli
import Verif.Spec.EdnText
import Verif.Spec.Entities
import Verif.Spec.EntityForms
import Verif.Spec.InstText
import Verif.Spec.Matcher
import Verif.Spec.Pull
import Verif.Spec.Query
import Verif.Spec.QueryForms
import Verif.Spec.QueryText
import Verif.Spec.Session
import Verif.Spec.SqlText
import Verif.Spec.Transact
