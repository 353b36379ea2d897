import Verif.Props.Aggregation
import Verif.Props.Policy
import Verif.Props.Pipeline
import Verif.Props.Metadata
import Verif.Props.Filter
import Verif.Props.Id
import Verif.Props.TagsFilter
import Verif.Props.TagsParse
import Verif.Props.ForwardMatch
import Verif.Props.ForwardRange
import Verif.Props.ForwardRollups
import Verif.Props.MatchPoint
import Verif.Props.MatchM3
import Verif.Props.ForwardTogether
import Verif.Props.ForwardOne
import Verif.Props.ReverseMatch
import Verif.Props.RuleSetEdits
import Verif.Props.RuleNames
import Verif.Props.RuleSetProto
import Verif.Props.RuleSetViews
import Verif.Props.RuleHeap
import Verif.Props.ActiveShared
import Verif.Props.RuleSetClone
import Verif.Props.Namespace
import Verif.Props.Store
import Verif.Props.StoreLifecycle
import Verif.Props.RuleSetRecords
import Verif.Props.LegacyRules
import Verif.Props.CacheList
import Verif.Props.Cache
import Verif.Props.CacheResults
import Verif.Props.CacheRest
import Verif.Props.CacheOrphans
import Verif.Props.MatchSent
import Verif.Props.Matcher
import Verif.Props.MatcherCache
import Verif.Props.CacheFine
import Verif.Model.Wire
import Verif.Model.WireMessages
import Verif.Lemmas.Wire
import Verif.Lemmas.WireMessages
import Verif.Props.Messages
import Verif.Lemmas.WireRobust
import Verif.Props.ProtoIterator
import Verif.Props.ProtoBuffer
import Verif.Model.Msgpack
import Verif.Model.MsgpackLib
import Verif.Model.MsgpackAgg
import Verif.Spec.Msgpack
import Verif.Lemmas.Msgpack
import Verif.Lemmas.MsgpackEncode
import Verif.Lemmas.MsgpackLib
import Verif.Props.Msgpack
import Verif.Props.RawMetric
import Verif.Props.MsgpackAgg
import Verif.Props.MsgpackMemory
import Verif.Model.Migration
import Verif.Spec.Migration
import Verif.Props.Migration
import Verif.Props.PoliciesIff
import Verif.Model.Validator
import Verif.Spec.Validator
import Verif.Lemmas.Validator
import Verif.Props.Validator
import Verif.Props.ValidatorOptions
import Verif.Props.ValidatorReload
import Verif.Model.Float
import Verif.Model.Transformation
import Verif.Lemmas.Float
import Verif.Spec.Transformation
import Verif.Props.Transformation
import Verif.Model.NsValidator
import Verif.Spec.NsValidator
import Verif.Props.NsValidator
import Verif.Model.NsOptions
import Verif.Spec.NsOptions
import Verif.Props.NsOptions
import Verif.Spec.RuleOrder
import Verif.Props.RuleOrder
import Verif.Spec.WireFormat
import Verif.Lemmas.WireAppend
import Verif.Props.WireUnknown
import Verif.Lemmas.MsgpackWork
import Verif.Props.MsgpackWork
import Verif.Props.MsgpackZeros
import Verif.Props.HashMap
import Verif.Model.WireRules
import Verif.Model.StoreBytes
import Verif.Lemmas.WireRules
import Verif.Spec.StoredRules
import Verif.Props.WireRules
import Verif.Props.StoreBytes
import Verif.Model.ValidatorConfig
import Verif.Spec.ValidatorConfig
import Verif.Props.ValidatorConfig
import Verif.Model.Json
import Verif.Spec.Json
import Verif.Lemmas.Json
import Verif.Props.Json
import Verif.Props.JsonForm
import Verif.Model.Yaml
import Verif.Spec.Yaml
import Verif.Lemmas.Yaml
import Verif.Props.Yaml
import Verif.Props.YamlNull
import Verif.Props.Configured
import Verif.Props.ConfiguredLast
import Verif.Props.PoolKept
import Verif.Model.TypesConfig
import Verif.Spec.TypesConfig
import Verif.Props.TypesConfig
import Verif.Model.ViewEqual
import Verif.Spec.ViewEqual
import Verif.Props.ViewEqual
import Verif.Model.ChangeSort
import Verif.Spec.ChangeSort
import Verif.Props.ChangeSort
import Verif.Props.ReverseOrder
import Verif.Model.Deploy
import Verif.Props.Deploy
import Verif.Props.Revalidate
import Verif.Props.DeployPermitted
import Verif.Model.Locks
import Verif.Lemmas.Locks
import Verif.Props.Locks
import Verif.Model.Pool
import Verif.Props.Pool
import Verif.Model.Keys
import Verif.Props.Keys
import Verif.Model.Resolve
import Verif.Props.Resolve
import Verif.Props.ResolveExact
import Verif.Model.MetaMemory
import Verif.Lemmas.MetaMemory
import Verif.Lemmas.MetaMemoryResolve
import Verif.Props.MetaMemory
import Verif.Model.ViewShared
import Verif.Props.ViewShared
import Verif.Props.OptionsHeap
import Verif.Spec.Schema
import Verif.Spec.SchemaContents
import Verif.Lemmas.Schema
import Verif.Lemmas.SchemaUnique
import Verif.Props.Schema
import Verif.Spec.SchemaRead
import Verif.Lemmas.SchemaRead
import Verif.Lemmas.SchemaReadMessages
import Verif.Lemmas.SchemaReadRules
import Verif.Lemmas.SchemaReadEncoded
import Verif.Props.SchemaRead
import Verif.Model.EditErrors
import Verif.Props.EditErrors
import Verif.Props.EditErrorsBatch
import Verif.Props.BatchUnchanged
import Verif.Props.ReloadLoss
import Verif.Model.ListPool
import Verif.Lemmas.ListPool
import Verif.Props.ListPool
import Verif.Lemmas.MsgpackDelim
import Verif.Props.MsgpackAny
import Verif.Model.KeyMemory
import Verif.Props.KeyMemory
import Verif.Props.JsonAbsent
import Verif.Model.MsgpackEncoder
import Verif.Props.MsgpackEncoder
import Verif.Props.RawAny
import Verif.Props.RawExact
import Verif.Model.Text
import Verif.Spec.Text
import Verif.Props.PipelineText
import Verif.Props.FilterText
import Verif.Model.Lookups
import Verif.Props.Lookups
import Verif.Spec.MsgpackForm
import Verif.Lemmas.MsgpackExact
import Verif.Lemmas.MsgpackExactIter
import Verif.Lemmas.MsgpackExactAgg
import Verif.Props.MsgpackExact
import Verif.Props.MsgpackExactAgg
import Verif.Props.MsgpackStream
import Verif.Props.SchemaAccept
import Verif.Props.SchemaLiberty
import Verif.Props.MigrationAny
import Verif.Props.MigrationSwitch
import Verif.Model.Must
import Verif.Spec.PolicyText
import Verif.Props.PolicyText
import Verif.Props.ReverseFirst
import Verif.Props.LatestExact
import Verif.Props.ProtoHollow
import Verif.Props.PoolAgain
import Verif.Props.HashDelete
