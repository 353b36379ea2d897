import Verif.Model.WireMessages
/-
Model of the metrics with their metadata and of their conversions to and from protobuf: metric/types.go,
metric/unaggregated/types.go, metric/aggregated/types.go, encoding/types.go.  As for the other conversions, the previous
contents of the destination are a parameter, and an error is `none`.
-/
namespace Verif.Msg
open Verif.Policy Verif.Meta Verif.Wire

/-- `metric.Type`, metric/types.go:31-40. -/
def CounterType : Int := 1
def TimerType : Int := 2
def GaugeType : Int := 3

/-- `Type.ToProto`, metric/types.go:62-74. -/
def typeToProto (t : Int) : Option Int :=
  if t = CounterType then some 1 else if t = TimerType then some 2 else if t = GaugeType then some 3 else none

/-- `Type.FromProto`, metric/types.go:77-89. -/
def typeFromProto (pb : Int) : Option Int :=
  if pb = 1 then some CounterType else if pb = 2 then some TimerType else if pb = 3 then some GaugeType else none

/-- `Type.String`, metric/types.go:48-59. -/
def typeString (t : Int) : Bytes :=
  if t = CounterType then bs "counter" else if t = TimerType then bs "timer" else if t = GaugeType then bs "gauge"
  else bs "unknown"

/-- `validTypes`, metric/types.go:42-46. -/
def validTypes : List Int := [CounterType, TimerType, GaugeType]

/-- `ParseType`, metric/types.go:92-102. -/
def parseType (s : Bytes) : Option Int := validTypes.find? fun t => s == typeString t

/-- `unaggregated.Counter`, metric/unaggregated/types.go:42-45. -/
structure Counter where
  id : Bytes := []
  value : Int := 0
  deriving DecidableEq

/-- `Counter.ToProto`, metric/unaggregated/types.go:57-60. -/
def Counter.toProto (pb : PBCounter) (c : Counter) : PBCounter := { pb with id := c.id, value := c.value }

/-- `Counter.FromProto`, metric/unaggregated/types.go:63-66. -/
def Counter.fromProto (c : Counter) (pb : PBCounter) : Counter := { c with id := pb.id, value := pb.value }

/-- `unaggregated.BatchTimer`, metric/unaggregated/types.go:69-72. -/
structure BatchTimer where
  id : Bytes := []
  values : List F64 := []
  deriving DecidableEq

/-- `BatchTimer.ToProto`, metric/unaggregated/types.go:84-87. -/
def BatchTimer.toProto (pb : PBBatchTimer) (t : BatchTimer) : PBBatchTimer := { pb with id := t.id, values := t.values }

/-- `BatchTimer.FromProto`, metric/unaggregated/types.go:90-93. -/
def BatchTimer.fromProto (t : BatchTimer) (pb : PBBatchTimer) : BatchTimer := { t with id := pb.id, values := pb.values }

/-- `unaggregated.Gauge`, metric/unaggregated/types.go:96-99. -/
structure Gauge where
  id : Bytes := []
  value : F64 := 0
  deriving DecidableEq

/-- `Gauge.ToProto`, metric/unaggregated/types.go:111-114. -/
def Gauge.toProto (pb : PBGauge) (g : Gauge) : PBGauge := { pb with id := g.id, value := g.value }

/-- `Gauge.FromProto`, metric/unaggregated/types.go:117-120. -/
def Gauge.fromProto (g : Gauge) (pb : PBGauge) : Gauge := { g with id := pb.id, value := pb.value }

/-- `unaggregated.MetricUnion`, metric/unaggregated/types.go:226-233 (without the pool). -/
structure MetricUnion where
  type : Int := 0
  id : Bytes := []
  counterVal : Int := 0
  batchTimerVal : List F64 := []
  gaugeVal : F64 := 0
  deriving DecidableEq

/-- `Counter.ToUnion`, metric/unaggregated/types.go:48-54. -/
def Counter.toUnion (c : Counter) : MetricUnion := { type := CounterType, id := c.id, counterVal := c.value }

/-- `BatchTimer.ToUnion`, metric/unaggregated/types.go:75-81. -/
def BatchTimer.toUnion (t : BatchTimer) : MetricUnion := { type := TimerType, id := t.id, batchTimerVal := t.values }

/-- `Gauge.ToUnion`, metric/unaggregated/types.go:102-108. -/
def Gauge.toUnion (g : Gauge) : MetricUnion := { type := GaugeType, id := g.id, gaugeVal := g.value }

/-- `MetricUnion.Counter`, `BatchTimer` and `Gauge`, metric/unaggregated/types.go:258-264. -/
def MetricUnion.counter (m : MetricUnion) : Counter := { id := m.id, value := m.counterVal }
def MetricUnion.batchTimer (m : MetricUnion) : BatchTimer := { id := m.id, values := m.batchTimerVal }
def MetricUnion.gauge (m : MetricUnion) : Gauge := { id := m.id, value := m.gaugeVal }

/-- `aggregated.Metric`, metric/aggregated/types.go:41-46. -/
structure Metric where
  type : Int := 0
  id : Bytes := []
  timeNanos : Int := 0
  value : F64 := 0
  deriving DecidableEq

/-- `Metric.ToProto`, metric/aggregated/types.go:49-57. -/
def Metric.toProto (pb : PBTimedMetric) (m : Metric) : Option PBTimedMetric :=
  match typeToProto m.type with
  | none => none
  | some t => some { pb with type := t, id := m.id, timeNanos := m.timeNanos, value := m.value }

/-- `Metric.FromProto`, metric/aggregated/types.go:60-68. -/
def Metric.fromProto (m : Metric) (pb : PBTimedMetric) : Option Metric :=
  match typeFromProto pb.type with
  | none => none
  | some t => some { m with type := t, id := pb.id, timeNanos := pb.timeNanos, value := pb.value }

/-- `aggregated.ForwardedMetric`, metric/aggregated/types.go:133-138. -/
structure ForwardedMetric where
  type : Int := 0
  id : Bytes := []
  timeNanos : Int := 0
  values : List F64 := []
  deriving DecidableEq

/-- `ForwardedMetric.ToProto`, metric/aggregated/types.go:141-149. -/
def ForwardedMetric.toProto (pb : PBForwardedMetric) (m : ForwardedMetric) : Option PBForwardedMetric :=
  match typeToProto m.type with
  | none => none
  | some t => some { pb with type := t, id := m.id, timeNanos := m.timeNanos, values := m.values }

/-- `ForwardedMetric.FromProto`, metric/aggregated/types.go:152-160. -/
def ForwardedMetric.fromProto (m : ForwardedMetric) (pb : PBForwardedMetric) : Option ForwardedMetric :=
  match typeFromProto pb.type with
  | none => none
  | some t => some { m with type := t, id := pb.id, timeNanos := pb.timeNanos, values := pb.values }

/-- A metric with its metadata: `CounterWithMetadatas` and the other four. -/
structure With (A B : Type) where
  metric : A
  metadata : B
  deriving DecidableEq

abbrev CounterWithMetadatas := With Counter (List StagedMetadata)
abbrev BatchTimerWithMetadatas := With BatchTimer (List StagedMetadata)
abbrev GaugeWithMetadatas := With Gauge (List StagedMetadata)
abbrev ForwardedMetricWithMetadata := With ForwardedMetric ForwardMetadata
abbrev TimedMetricWithMetadata := With Metric TimedMetadata

/-- `CounterWithMetadatas.ToProto`, metric/unaggregated/types.go:147-153. -/
def counterToProto (x : XTime) (pb : PBCounterWithMetadatas) (m : CounterWithMetadatas) : Option PBCounterWithMetadatas :=
  match stagedToProto x pb.metadata m.metadata with
  | none => none
  | some md => some { metadata := md, metric := m.metric.toProto pb.metric }

/-- `CounterWithMetadatas.FromProto`, metric/unaggregated/types.go:156-165. -/
def counterFromProto (x : XTime) (m : CounterWithMetadatas) : Option PBCounterWithMetadatas → Option CounterWithMetadatas
  | none => none
  | some pb => match stagedFromProto x m.metadata pb.metadata with
    | none => none
    | some md => some { metadata := md, metric := m.metric.fromProto pb.metric }

/-- `BatchTimerWithMetadatas.ToProto`, metric/unaggregated/types.go:174-180. -/
def batchTimerToProto (x : XTime) (pb : PBBatchTimerWithMetadatas) (m : BatchTimerWithMetadatas) : Option PBBatchTimerWithMetadatas :=
  match stagedToProto x pb.metadata m.metadata with
  | none => none
  | some md => some { metadata := md, metric := m.metric.toProto pb.metric }

/-- `BatchTimerWithMetadatas.FromProto`, metric/unaggregated/types.go:183-192. -/
def batchTimerFromProto (x : XTime) (m : BatchTimerWithMetadatas) : Option PBBatchTimerWithMetadatas → Option BatchTimerWithMetadatas
  | none => none
  | some pb => match stagedFromProto x m.metadata pb.metadata with
    | none => none
    | some md => some { metadata := md, metric := m.metric.fromProto pb.metric }

/-- `GaugeWithMetadatas.ToProto`, metric/unaggregated/types.go:201-207. -/
def gaugeToProto (x : XTime) (pb : PBGaugeWithMetadatas) (m : GaugeWithMetadatas) : Option PBGaugeWithMetadatas :=
  match stagedToProto x pb.metadata m.metadata with
  | none => none
  | some md => some { metadata := md, metric := m.metric.toProto pb.metric }

/-- `GaugeWithMetadatas.FromProto`, metric/unaggregated/types.go:210-219. -/
def gaugeFromProto (x : XTime) (m : GaugeWithMetadatas) : Option PBGaugeWithMetadatas → Option GaugeWithMetadatas
  | none => none
  | some pb => match stagedFromProto x m.metadata pb.metadata with
    | none => none
    | some md => some { metadata := md, metric := m.metric.fromProto pb.metric }

/-- `ForwardedMetricWithMetadata.ToProto`, metric/aggregated/types.go:179-184. -/
def forwardedToProto (x : XTime) (pb : PBForwardedMetricWithMetadata) (m : ForwardedMetricWithMetadata) :
    Option PBForwardedMetricWithMetadata :=
  match m.metric.toProto pb.metric with
  | none => none
  | some a => match m.metadata.toProto x pb.metadata with
    | none => none
    | some md => some { metric := a, metadata := md }

/-- `ForwardedMetricWithMetadata.FromProto`, metric/aggregated/types.go:187-195. -/
def forwardedFromProto (x : XTime) (m : ForwardedMetricWithMetadata) :
    Option PBForwardedMetricWithMetadata → Option ForwardedMetricWithMetadata
  | none => none
  | some pb => match m.metric.fromProto pb.metric with
    | none => none
    | some a => match m.metadata.fromProto x pb.metadata with
      | none => none
      | some md => some { metric := a, metadata := md }

/-- `TimedMetricWithMetadata.ToProto`, metric/aggregated/types.go:204-209. -/
def timedToProto (x : XTime) (pb : PBTimedMetricWithMetadata) (m : TimedMetricWithMetadata) :
    Option PBTimedMetricWithMetadata :=
  match m.metric.toProto pb.metric with
  | none => none
  | some a => match m.metadata.toProto x pb.metadata with
    | none => none
    | some md => some { metric := a, metadata := md }

/-- `TimedMetricWithMetadata.FromProto`, metric/aggregated/types.go:212-220. -/
def timedFromProto (x : XTime) (m : TimedMetricWithMetadata) : Option PBTimedMetricWithMetadata → Option TimedMetricWithMetadata
  | none => none
  | some pb => match m.metric.fromProto pb.metric with
    | none => none
    | some a => match m.metadata.fromProto x pb.metadata with
      | none => none
      | some md => some { metric := a, metadata := md }

/-- `encoding.UnaggregatedMessageUnion`, encoding/types.go:33-55; the kinds are numbered from 1, 0 is the unknown kind. -/
structure Union where
  type : Int := 0
  counter : CounterWithMetadatas := ⟨{}, []⟩
  batchTimer : BatchTimerWithMetadatas := ⟨{}, []⟩
  gauge : GaugeWithMetadatas := ⟨{}, []⟩
  forwarded : ForwardedMetricWithMetadata := ⟨{}, {}⟩
  timed : TimedMetricWithMetadata := ⟨{}, {}⟩
  deriving DecidableEq

end Verif.Msg
