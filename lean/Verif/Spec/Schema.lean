import Verif.Spec.WireFormat
/-
The messages as the .proto files publish them (generated/proto/*/*.proto), and what bytes are an encoding of a message under such a
declaration, written after the protobuf encoding documentation.  Nothing here is taken from the generated Go code.
-/
namespace Verif.Spec.Schema
open Verif.Spec.WireFormat

/-- The enumerations. -/
inductive Enum where
  | AggregationType | TransformationType | DropPolicy | MetricType | PipelineOpType | AppliedPipelineOpType
  | MetricWithMetadatasType

/-- Their values: aggregation.proto:27-51, transformation.proto:27-31, policy.proto:48-52, metric.proto:27-32, pipeline.proto:46-51,
72-76, composite.proto:63-70. -/
def Enum.values : Enum → List (String × Nat)
  | .AggregationType => [("UNKNOWN", 0), ("LAST", 1), ("MIN", 2), ("MAX", 3), ("MEAN", 4), ("MEDIAN", 5), ("COUNT", 6), ("SUM", 7),
      ("SUMSQ", 8), ("STDEV", 9), ("P10", 10), ("P20", 11), ("P30", 12), ("P40", 13), ("P50", 14), ("P60", 15), ("P70", 16),
      ("P80", 17), ("P90", 18), ("P95", 19), ("P99", 20), ("P999", 21), ("P9999", 22)]
  | .TransformationType => [("UNKNOWN", 0), ("ABSOLUTE", 1), ("PERSECOND", 2)]
  | .DropPolicy => [("NONE", 0), ("DROP_MUST", 1), ("DROP_IF_ONLY_MATCH", 2)]
  | .MetricType => [("UNKNOWN", 0), ("COUNTER", 1), ("TIMER", 2), ("GAUGE", 3)]
  | .PipelineOpType => [("UNKNOWN", 0), ("AGGREGATION", 1), ("TRANSFORMATION", 2), ("ROLLUP", 3)]
  | .AppliedPipelineOpType => [("UNKNOWN", 0), ("TRANSFORMATION", 1), ("ROLLUP", 2)]
  | .MetricWithMetadatasType => [("UNKNOWN", 0), ("COUNTER_WITH_METADATAS", 1), ("BATCH_TIMER_WITH_METADATAS", 2),
      ("GAUGE_WITH_METADATAS", 3), ("FORWARDED_METRIC_WITH_METADATA", 4), ("TIMED_METRIC_WITH_METADATA", 5)]

/-- The messages. -/
inductive Message where
  | AggregationID | Resolution | Retention | StoragePolicy | Policy
  | AggregationOp | TransformationOp | RollupOp | PipelineOp | Pipeline | AppliedRollupOp | AppliedPipelineOp | AppliedPipeline
  | Counter | BatchTimer | Gauge | TimedMetric | ForwardedMetric
  | PipelineMetadata | Metadata | StagedMetadata | StagedMetadatas | ForwardMetadata | TimedMetadata
  | CounterWithMetadatas | BatchTimerWithMetadatas | GaugeWithMetadatas | ForwardedMetricWithMetadata | TimedMetricWithMetadata
  | MetricWithMetadatas
  | MappingRuleSnapshot | MappingRule | RollupTarget | RollupTargetV2 | RollupRuleSnapshot | RollupRule | RuleSet
  | NamespaceSnapshot | Namespace | Namespaces

/-- The types of fields. -/
inductive Ty where
  | int64 | int32 | uint64 | uint32 | bool | double | bytes | string
  | enum (e : Enum)
  | msg (m : Message)

/-- The declaration of a field. -/
structure Decl where
  rep : Bool
  ty : Ty
  name : String
  num : Nat

def single (ty : Ty) (name : String) (num : Nat) : Decl := ⟨false, ty, name, num⟩
def repeated (ty : Ty) (name : String) (num : Nat) : Decl := ⟨true, ty, name, num⟩

/-- Their fields, in the order of the files, which is that of the numbers. -/
def Message.fields : Message → List Decl
  -- aggregation.proto:55-57
  | .AggregationID => [single .uint64 "id" 1]
  -- policy.proto:29-46
  | .Resolution => [single .int64 "window_size" 1, single .int64 "precision" 2]
  | .Retention => [single .int64 "period" 1]
  | .StoragePolicy => [single (.msg .Resolution) "resolution" 1, single (.msg .Retention) "retention" 2]
  | .Policy => [single (.msg .StoragePolicy) "storage_policy" 1, repeated (.enum .AggregationType) "aggregation_types" 2]
  -- pipeline.proto:31-86
  | .AggregationOp => [single (.enum .AggregationType) "type" 1]
  | .TransformationOp => [single (.enum .TransformationType) "type" 1]
  | .RollupOp => [single .string "new_name" 1, repeated .string "tags" 2, repeated (.enum .AggregationType) "aggregation_types" 3]
  | .PipelineOp => [single (.enum .PipelineOpType) "type" 1, single (.msg .AggregationOp) "aggregation" 2,
      single (.msg .TransformationOp) "transformation" 3, single (.msg .RollupOp) "rollup" 4]
  | .Pipeline => [repeated (.msg .PipelineOp) "ops" 1]
  | .AppliedRollupOp => [single .bytes "id" 1, single (.msg .AggregationID) "aggregation_id" 2]
  | .AppliedPipelineOp => [single (.enum .AppliedPipelineOpType) "type" 1, single (.msg .TransformationOp) "transformation" 2,
      single (.msg .AppliedRollupOp) "rollup" 3]
  | .AppliedPipeline => [repeated (.msg .AppliedPipelineOp) "ops" 1]
  -- metric.proto:34-61
  | .Counter => [single .bytes "id" 1, single .int64 "value" 2]
  | .BatchTimer => [single .bytes "id" 1, repeated .double "values" 2]
  | .Gauge => [single .bytes "id" 1, single .double "value" 2]
  | .TimedMetric => [single (.enum .MetricType) "type" 1, single .bytes "id" 2, single .int64 "time_nanos" 3, single .double "value" 4]
  | .ForwardedMetric => [single (.enum .MetricType) "type" 1, single .bytes "id" 2, single .int64 "time_nanos" 3,
      repeated .double "values" 4]
  -- metadata.proto:32-64
  | .PipelineMetadata => [single (.msg .AggregationID) "aggregation_id" 1, repeated (.msg .StoragePolicy) "storage_policies" 2,
      single (.msg .AppliedPipeline) "pipeline" 3, single (.enum .DropPolicy) "drop_policy" 4]
  | .Metadata => [repeated (.msg .PipelineMetadata) "pipelines" 1]
  | .StagedMetadata => [single .int64 "cutover_nanos" 1, single .bool "tombstoned" 2, single (.msg .Metadata) "metadata" 3]
  | .StagedMetadatas => [repeated (.msg .StagedMetadata) "metadatas" 1]
  | .ForwardMetadata => [single (.msg .AggregationID) "aggregation_id" 1, single (.msg .StoragePolicy) "storage_policy" 2,
      single (.msg .AppliedPipeline) "pipeline" 3, single .uint32 "source_id" 4, single .int32 "num_forwarded_times" 5]
  | .TimedMetadata => [single (.msg .AggregationID) "aggregation_id" 1, single (.msg .StoragePolicy) "storage_policy" 2]
  -- composite.proto:31-77
  | .CounterWithMetadatas => [single (.msg .Counter) "counter" 1, single (.msg .StagedMetadatas) "metadatas" 2]
  | .BatchTimerWithMetadatas => [single (.msg .BatchTimer) "batch_timer" 1, single (.msg .StagedMetadatas) "metadatas" 2]
  | .GaugeWithMetadatas => [single (.msg .Gauge) "gauge" 1, single (.msg .StagedMetadatas) "metadatas" 2]
  | .ForwardedMetricWithMetadata => [single (.msg .ForwardedMetric) "metric" 1, single (.msg .ForwardMetadata) "metadata" 2]
  | .TimedMetricWithMetadata => [single (.msg .TimedMetric) "metric" 1, single (.msg .TimedMetadata) "metadata" 2]
  | .MetricWithMetadatas => [single (.enum .MetricWithMetadatasType) "type" 1,
      single (.msg .CounterWithMetadatas) "counter_with_metadatas" 2,
      single (.msg .BatchTimerWithMetadatas) "batch_timer_with_metadatas" 3,
      single (.msg .GaugeWithMetadatas) "gauge_with_metadatas" 4,
      single (.msg .ForwardedMetricWithMetadata) "forwarded_metric_with_metadata" 5,
      single (.msg .TimedMetricWithMetadata) "timed_metric_with_metadata" 6]
  -- rule.proto:31-91
  | .MappingRuleSnapshot => [single .string "name" 1, single .bool "tombstoned" 2, single .int64 "cutover_nanos" 3,
      single .string "filter" 4, repeated (.msg .Policy) "policies" 5, single .int64 "last_updated_at_nanos" 6,
      single .string "last_updated_by" 7, repeated (.enum .AggregationType) "aggregation_types" 8,
      repeated (.msg .StoragePolicy) "storage_policies" 9, single (.enum .DropPolicy) "drop_policy" 10]
  | .MappingRule => [single .string "uuid" 1, repeated (.msg .MappingRuleSnapshot) "snapshots" 2]
  | .RollupTarget => [single .string "name" 1, repeated .string "tags" 2, repeated (.msg .Policy) "policies" 3]
  | .RollupTargetV2 => [single (.msg .Pipeline) "pipeline" 1, repeated (.msg .StoragePolicy) "storage_policies" 2]
  | .RollupRuleSnapshot => [single .string "name" 1, single .bool "tombstoned" 2, single .int64 "cutover_nanos" 3,
      single .string "filter" 4, repeated (.msg .RollupTarget) "targets" 5, single .int64 "last_updated_at_nanos" 6,
      single .string "last_updated_by" 7, repeated (.msg .RollupTargetV2) "targets_v2" 8]
  | .RollupRule => [single .string "uuid" 1, repeated (.msg .RollupRuleSnapshot) "snapshots" 2]
  | .RuleSet => [single .string "uuid" 1, single .string "namespace" 2, single .int64 "created_at_nanos" 3,
      single .int64 "last_updated_at_nanos" 4, single .bool "tombstoned" 5, single .int64 "cutover_nanos" 6,
      repeated (.msg .MappingRule) "mapping_rules" 7, repeated (.msg .RollupRule) "rollup_rules" 8,
      single .string "last_updated_by" 9]
  -- namespace.proto:27-41
  | .NamespaceSnapshot => [single .int32 "for_ruleset_version" 1, single .bool "tombstoned" 2,
      single .int64 "last_updated_at_nanos" 3, single .string "last_updated_by" 4]
  | .Namespace => [single .string "name" 1, repeated (.msg .NamespaceSnapshot) "snapshots" 2]
  | .Namespaces => [repeated (.msg .Namespace) "namespaces" 1]

/-- The contents of a field: a number, the bits of a floating point number, bytes, the name of a value of an enumeration, or for each
field of a message by its name the values it has (none or one, or any number if it is repeated). -/
inductive Val where
  | int (v : Int)
  | bool (b : Bool)
  | dbl (bits : BitVec 64)
  | bytes (b : Bytes)
  | label (l : String)
  | msg (contents : List (String × List Val))

/-- The contents of a message. -/
abbrev Contents := List (String × List Val)

/-- Little endian. -/
def littleEndian : Bytes → Nat
  | [] => 0
  | b :: r => b.toNat + 256 * littleEndian r

/-- `Scalar ty v w d`: `d` is the value `v` of type `ty`, after a key with wire type `w`.  Negative numbers are written as
their 64-bit two's complement. -/
inductive Scalar : Ty → Val → Nat → Bytes → Prop
  | int64 (v : Int) (d : Bytes) : -2 ^ 63 ≤ v → v < 2 ^ 63 → Num (v % 2 ^ 64).toNat d → Scalar .int64 (.int v) 0 d
  | int32 (v : Int) (d : Bytes) : -2 ^ 31 ≤ v → v < 2 ^ 31 → Num (v % 2 ^ 64).toNat d → Scalar .int32 (.int v) 0 d
  | uint64 (n : Nat) (d : Bytes) : n < 2 ^ 64 → Num n d → Scalar .uint64 (.int n) 0 d
  | uint32 (n : Nat) (d : Bytes) : n < 2 ^ 32 → Num n d → Scalar .uint32 (.int n) 0 d
  | bool (b : Bool) (d : Bytes) : Num b.toNat d → Scalar .bool (.bool b) 0 d
  | enum (e : Enum) (l : String) (n : Nat) (d : Bytes) : (l, n) ∈ e.values → Num n d → Scalar (.enum e) (.label l) 0 d
  | double (v : BitVec 64) (d : Bytes) : d.length = 8 → littleEndian d = v.toNat → Scalar .double (.dbl v) 1 d
  | bytes (b l : Bytes) : Num b.length l → Scalar .bytes (.bytes b) 2 (l ++ b)
  | string (b l : Bytes) : Num b.length l → Scalar .string (.bytes b) 2 (l ++ b)

/-- The default, which need not be written. -/
inductive Default : Ty → Val → Prop
  | int64 : Default .int64 (.int 0)
  | int32 : Default .int32 (.int 0)
  | uint64 : Default .uint64 (.int 0)
  | uint32 : Default .uint32 (.int 0)
  | bool : Default .bool (.bool false)
  | enum (e : Enum) (l : String) : (l, 0) ∈ e.values → Default (.enum e) (.label l)
  | double : Default .double (.dbl 0)
  | bytes : Default .bytes (.bytes [])
  | string : Default .string (.bytes [])

/-- Numbers that are written packed if they are repeated. -/
def Ty.packed : Ty → Bool
  | .bytes | .string | .msg _ => false
  | _ => true

/-- Values one after the other. -/
inductive Packed (ty : Ty) : List Val → Bytes → Prop
  | nil : Packed ty [] []
  | cons (v : Val) (vs : List Val) (w : Nat) (d r : Bytes) : Scalar ty v w d → Packed ty vs r → Packed ty (v :: vs) (d ++ r)

/-- `Fields fs c d`: `d` consists of fields declared by `fs`, in this order, with contents `c`. -/
inductive Fields : List Decl → Contents → Bytes → Prop
  /-- No more fields. -/
  | nil : Fields [] [] []
  /-- A field of a scalar type: its key and its value. -/
  | scalar (ty : Ty) (name : String) (num : Nat) (fs : List Decl) (v : Val) (c : Contents) (w : Nat) (k d r : Bytes) :
      Num (num * 8 + w) k → Scalar ty v w d → Fields fs c r → Fields (⟨false, ty, name, num⟩ :: fs) ((name, [v]) :: c) (k ++ (d ++ r))
  /-- One that has its default. -/
  | default (ty : Ty) (name : String) (num : Nat) (fs : List Decl) (v : Val) (c : Contents) (r : Bytes) :
      Default ty v → Fields fs c r → Fields (⟨false, ty, name, num⟩ :: fs) ((name, [v]) :: c) r
  /-- A message: its key, its length and its fields. -/
  | message (m : Message) (name : String) (num : Nat) (fs : List Decl) (c' : Contents) (c : Contents) (k l d r : Bytes) :
      Num (num * 8 + 2) k → Num d.length l → Fields m.fields c' d → Fields fs c r →
      Fields (⟨false, .msg m, name, num⟩ :: fs) ((name, [.msg c']) :: c) (k ++ (l ++ (d ++ r)))
  /-- No values. -/
  | absent (rep : Bool) (ty : Ty) (name : String) (num : Nat) (fs : List Decl) (c : Contents) (r : Bytes) :
      (rep = true ∨ ∃ m, ty = .msg m) → Fields fs c r → Fields (⟨rep, ty, name, num⟩ :: fs) ((name, []) :: c) r
  /-- Packed numbers: the key, the length and the values. -/
  | packed (ty : Ty) (name : String) (num : Nat) (fs : List Decl) (vs : List Val) (c : Contents) (k l d r : Bytes) :
      ty.packed = true → Num (num * 8 + 2) k → Num d.length l → Packed ty vs d → Fields fs c r →
      Fields (⟨true, ty, name, num⟩ :: fs) ((name, vs) :: c) (k ++ (l ++ (d ++ r)))
  /-- The first of several strings or byte arrays. -/
  | more (ty : Ty) (name : String) (num : Nat) (fs : List Decl) (v : Val) (vs : List Val) (c : Contents) (w : Nat) (k d r : Bytes) :
      ty.packed = false → Num (num * 8 + w) k → Scalar ty v w d → Fields (⟨true, ty, name, num⟩ :: fs) ((name, vs) :: c) r →
      Fields (⟨true, ty, name, num⟩ :: fs) ((name, v :: vs) :: c) (k ++ (d ++ r))
  /-- The first of several messages. -/
  | moreMessages (m : Message) (name : String) (num : Nat) (fs : List Decl) (c' : Contents) (vs : List Val) (c : Contents)
      (k l d r : Bytes) :
      Num (num * 8 + 2) k → Num d.length l → Fields m.fields c' d → Fields (⟨true, .msg m, name, num⟩ :: fs) ((name, vs) :: c) r →
      Fields (⟨true, .msg m, name, num⟩ :: fs) ((name, .msg c' :: vs) :: c) (k ++ (l ++ (d ++ r)))

/-- `d` is an encoding of a message with these contents. -/
def Encodes (m : Message) (c : Contents) (d : Bytes) : Prop := Fields m.fields c d

end Verif.Spec.Schema
