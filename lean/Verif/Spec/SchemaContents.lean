import Verif.Spec.Schema
import Verif.Spec.StoredRules
/-
What messages, rule sets and namespaces are in terms of the published messages: for each field by its name in the .proto file what
it has to contain.
-/
namespace Verif.Spec.Schema
open Verif.Policy Verif.Meta Verif.Msg Verif.Spec.WireFormat

/-- The types in an aggregation id: the values of the enumeration whose bits are set. -/
def typesOf (id : Agg.ID) : List Val :=
  (Enum.values .AggregationType).filterMap fun v => if v.2 ≠ 0 ∧ id.getLsbD v.2 = true then some (.label v.1) else none

/-- The types as the constants of package aggregation, and their names in the file. -/
def typeLabels : List (Int × String) :=
  [(Agg.Last, "LAST"), (Agg.Min, "MIN"), (Agg.Max, "MAX"), (Agg.Mean, "MEAN"), (Agg.Median, "MEDIAN"), (Agg.Count, "COUNT"),
   (Agg.Sum, "SUM"), (Agg.SumSq, "SUMSQ"), (Agg.Stdev, "STDEV"), (Agg.P10, "P10"), (Agg.P20, "P20"), (Agg.P30, "P30"),
   (Agg.P40, "P40"), (Agg.P50, "P50"), (Agg.P60, "P60"), (Agg.P70, "P70"), (Agg.P80, "P80"), (Agg.P90, "P90"), (Agg.P95, "P95"),
   (Agg.P99, "P99"), (Agg.P999, "P999"), (Agg.P9999, "P9999")]

def typeLabel (t : Int) : Val := .label ((typeLabels.lookup t).getD "UNKNOWN")

def transformationLabel (t : Int) : Val := .label (if t = 1 then "ABSOLUTE" else if t = 2 then "PERSECOND" else "UNKNOWN")

def dropLabel (d : Nat) : Val :=
  .label (if d = DropMust then "DROP_MUST" else if d = DropIfOnlyMatch then "DROP_IF_ONLY_MATCH" else "NONE")

def metricLabel (t : Int) : Val :=
  .label (if t = CounterType then "COUNTER" else if t = TimerType then "TIMER" else if t = GaugeType then "GAUGE" else "UNKNOWN")

/-- An aggregation id. -/
def aggregationID (id : Agg.ID) : Contents := [("id", [.int id.toNat])]

/-- A storage policy; the precision is given by its length. -/
def storagePolicy (x : XTime) (p : StoragePolicy) : Contents :=
  [("resolution", [.msg [("window_size", [.int p.resolution.window]), ("precision", [.int ((x.unitValue p.resolution.precision).getD 0)])]]),
   ("retention", [.msg [("period", [.int p.retention])]])]

/-! ### Messages -/

/-- An operation of an applied pipeline. -/
def appliedOp (u : Applied.OpUnion) : Contents :=
  if u.type = Pipe.TransformationOpType then
    [("type", [.label "TRANSFORMATION"]), ("transformation", [.msg [("type", [transformationLabel u.transformation])]]), ("rollup", [])]
  else
    [("type", [.label "ROLLUP"]), ("transformation", []),
     ("rollup", [.msg [("id", [.bytes u.rollup.id]), ("aggregation_id", [.msg (aggregationID u.rollup.aggID)])]])]

def appliedPipeline (p : Applied.Pipeline) : Contents := [("ops", p.map fun u => .msg (appliedOp u))]

def pipelineMetadata (x : XTime) (m : PipelineMetadata) : Contents :=
  [("aggregation_id", [.msg (aggregationID m.aggID)]), ("storage_policies", m.storagePolicies.map fun p => .msg (storagePolicy x p)),
   ("pipeline", [.msg (appliedPipeline m.pipeline)]), ("drop_policy", [dropLabel m.drop])]

def stagedMetadata (x : XTime) (s : StagedMetadata) : Contents :=
  [("cutover_nanos", [.int s.cutoverNanos]), ("tombstoned", [.bool s.tombstoned]),
   ("metadata", [.msg [("pipelines", s.pipelines.map fun p => .msg (pipelineMetadata x p))]])]

def stagedMetadatas (x : XTime) (s : List StagedMetadata) : Contents := [("metadatas", s.map fun m => .msg (stagedMetadata x m))]

def forwardMetadata (x : XTime) (m : ForwardMetadata) : Contents :=
  [("aggregation_id", [.msg (aggregationID m.aggID)]), ("storage_policy", [.msg (storagePolicy x m.storagePolicy)]),
   ("pipeline", [.msg (appliedPipeline m.pipeline)]), ("source_id", [.int m.sourceID.toNat]),
   ("num_forwarded_times", [.int m.numForwardedTimes])]

def timedMetadata (x : XTime) (m : TimedMetadata) : Contents :=
  [("aggregation_id", [.msg (aggregationID m.aggID)]), ("storage_policy", [.msg (storagePolicy x m.storagePolicy)])]

/-- A message. -/
def message (x : XTime) : Spec.Msg.Message → Contents
  | .counter m =>
    [("type", [.label "COUNTER_WITH_METADATAS"]),
     ("counter_with_metadatas", [.msg [("counter", [.msg [("id", [.bytes m.metric.id]), ("value", [.int m.metric.value])]]),
       ("metadatas", [.msg (stagedMetadatas x m.metadata)])]]),
     ("batch_timer_with_metadatas", []), ("gauge_with_metadatas", []), ("forwarded_metric_with_metadata", []),
     ("timed_metric_with_metadata", [])]
  | .batchTimer m =>
    [("type", [.label "BATCH_TIMER_WITH_METADATAS"]), ("counter_with_metadatas", []),
     ("batch_timer_with_metadatas", [.msg [("batch_timer", [.msg [("id", [.bytes m.metric.id]), ("values", m.metric.values.map .dbl)]]),
       ("metadatas", [.msg (stagedMetadatas x m.metadata)])]]),
     ("gauge_with_metadatas", []), ("forwarded_metric_with_metadata", []), ("timed_metric_with_metadata", [])]
  | .gauge m =>
    [("type", [.label "GAUGE_WITH_METADATAS"]), ("counter_with_metadatas", []), ("batch_timer_with_metadatas", []),
     ("gauge_with_metadatas", [.msg [("gauge", [.msg [("id", [.bytes m.metric.id]), ("value", [.dbl m.metric.value])]]),
       ("metadatas", [.msg (stagedMetadatas x m.metadata)])]]),
     ("forwarded_metric_with_metadata", []), ("timed_metric_with_metadata", [])]
  | .forwarded m =>
    [("type", [.label "FORWARDED_METRIC_WITH_METADATA"]), ("counter_with_metadatas", []), ("batch_timer_with_metadatas", []),
     ("gauge_with_metadatas", []),
     ("forwarded_metric_with_metadata", [.msg [("metric", [.msg [("type", [metricLabel m.metric.type]), ("id", [.bytes m.metric.id]),
         ("time_nanos", [.int m.metric.timeNanos]), ("values", m.metric.values.map .dbl)]]),
       ("metadata", [.msg (forwardMetadata x m.metadata)])]]),
     ("timed_metric_with_metadata", [])]
  | .timed m =>
    [("type", [.label "TIMED_METRIC_WITH_METADATA"]), ("counter_with_metadatas", []), ("batch_timer_with_metadatas", []),
     ("gauge_with_metadatas", []), ("forwarded_metric_with_metadata", []),
     ("timed_metric_with_metadata", [.msg [("metric", [.msg [("type", [metricLabel m.metric.type]), ("id", [.bytes m.metric.id]),
         ("time_nanos", [.int m.metric.timeNanos]), ("value", [.dbl m.metric.value])]]),
       ("metadata", [.msg (timedMetadata x m.metadata)])]])]

/-- Drop policies are known ones, numbers of forwardings fit 32 bits. -/
def Sane : Spec.Msg.Message → Prop
  | .counter m => ∀ s ∈ m.metadata, ∀ p ∈ s.pipelines, p.drop ≤ 2
  | .batchTimer m => ∀ s ∈ m.metadata, ∀ p ∈ s.pipelines, p.drop ≤ 2
  | .gauge m => ∀ s ∈ m.metadata, ∀ p ∈ s.pipelines, p.drop ≤ 2
  | .forwarded m => -2 ^ 31 ≤ m.metadata.numForwardedTimes ∧ m.metadata.numForwardedTimes < 2 ^ 31
  | .timed _ => True

/-- A stream of messages: for each its size, as a signed varint, and its encoding (protocol of encoding/protobuf). -/
inductive Stream : List Contents → Bytes → Prop
  | nil : Stream [] []
  | cons (c : Contents) (cs : List Contents) (l d r : Bytes) : Num (2 * d.length) l → Encodes .MetricWithMetadatas c d → Stream cs r →
      Stream (c :: cs) (l ++ (d ++ r))

/-! ### Rule sets -/

/-- An operation of a pipeline. -/
def pipelineOp (u : Pipe.OpUnion) : Contents :=
  if u.type = Pipe.AggregationOpType then
    [("type", [.label "AGGREGATION"]), ("aggregation", [.msg [("type", [typeLabel u.aggregation])]]), ("transformation", []),
     ("rollup", [])]
  else if u.type = Pipe.TransformationOpType then
    [("type", [.label "TRANSFORMATION"]), ("aggregation", []),
     ("transformation", [.msg [("type", [transformationLabel u.transformation])]]), ("rollup", [])]
  else
    [("type", [.label "ROLLUP"]), ("aggregation", []), ("transformation", []),
     ("rollup", [.msg [("new_name", [.bytes u.rollup.newName]), ("tags", u.rollup.tags.map .bytes),
       ("aggregation_types", typesOf u.rollup.aggID)]])]

def mappingSnapshot (x : XTime) (s : Rules.MappingSnapshot) : Contents :=
  [("name", [.bytes s.name]), ("tombstoned", [.bool s.tombstoned]), ("cutover_nanos", [.int s.cutoverNanos]),
   ("filter", [.bytes s.rawFilter]), ("policies", []), ("last_updated_at_nanos", [.int s.lastUpdatedAtNanos]),
   ("last_updated_by", [.bytes s.lastUpdatedBy]), ("aggregation_types", typesOf s.aggID),
   ("storage_policies", s.storagePolicies.map fun p => .msg (storagePolicy x p)), ("drop_policy", [dropLabel s.drop])]

def rollupTarget (x : XTime) (t : Rules.RollupTarget) : Contents :=
  [("pipeline", [.msg [("ops", t.pipeline.map fun u => .msg (pipelineOp u))]]),
   ("storage_policies", t.storagePolicies.map fun p => .msg (storagePolicy x p))]

def rollupSnapshot (x : XTime) (s : Rules.RollupSnapshot) : Contents :=
  [("name", [.bytes s.name]), ("tombstoned", [.bool s.tombstoned]), ("cutover_nanos", [.int s.cutoverNanos]),
   ("filter", [.bytes s.rawFilter]), ("targets", []), ("last_updated_at_nanos", [.int s.lastUpdatedAtNanos]),
   ("last_updated_by", [.bytes s.lastUpdatedBy]), ("targets_v2", s.targets.map fun t => .msg (rollupTarget x t))]

/-- A rule with its snapshots. -/
def rule (snapshot : S → Contents) (r : Rules.Rule S) : Contents :=
  [("uuid", [.bytes r.uuid]), ("snapshots", r.snapshots.map fun s => .msg (snapshot s))]

/-- A rule set. -/
def ruleSet (x : XTime) (rs : RuleSet.RuleSet) : Contents :=
  [("uuid", [.bytes rs.uuid]), ("namespace", [.bytes rs.namespace_]), ("created_at_nanos", [.int rs.createdAtNanos]),
   ("last_updated_at_nanos", [.int rs.lastUpdatedAtNanos]), ("tombstoned", [.bool rs.tombstoned]),
   ("cutover_nanos", [.int rs.cutoverNanos]), ("mapping_rules", rs.mappingRules.map fun r => .msg (rule (mappingSnapshot x) r)),
   ("rollup_rules", rs.rollupRules.map fun r => .msg (rule (rollupSnapshot x) r)), ("last_updated_by", [.bytes rs.lastUpdatedBy])]

/-- Namespaces. -/
def namespaces (nss : NS.Namespaces) : Contents :=
  [("namespaces", nss.namespaces.map fun n => .msg [("name", [.bytes n.name]), ("snapshots", n.snaps.map fun s =>
    .msg [("for_ruleset_version", [.int s.forRuleSetVersion]), ("tombstoned", [.bool s.tombstoned]),
      ("last_updated_at_nanos", [.int s.lastUpdatedAtNanos]), ("last_updated_by", [.bytes s.lastUpdatedBy])])])]

end Verif.Spec.Schema
