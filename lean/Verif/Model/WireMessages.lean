import Verif.Model.Wire
import Verif.Model.Metadata
/-
The messages on the wire, as lists of fields: generated/proto/{aggregationpb,policypb,pipelinepb,metricpb}/*.pb.go.  Messages
with a single field that the other parts of the model represent by that field (`AggregationID`, `TransformationOp`,
`AppliedPipeline`, `Metadata`, `StagedMetadatas`) are represented by it here as well.
-/
namespace Verif.Wire
open Verif.Policy Verif.Meta

/-- `AggregationID`, generated/proto/aggregationpb/aggregation.pb.go:168-179, 190-197, 212-280. -/
def aggregationID : Codec (BitVec 64) := ⟨[uint64Field 1 (fun m => m) (fun _ v => v)], 0⟩

/-- `Resolution`, generated/proto/policypb/policy.pb.go:185-201, 318-328, 383-470. -/
def resolution : Codec PBResolution :=
  ⟨[int64Field 1 (·.windowSize) (fun m v => { m with windowSize := v }),
    int64Field 2 (·.precision) (fun m v => { m with precision := v })], {}⟩

/-- `Retention`, generated/proto/policypb/policy.pb.go:213-224, 330-337, 471-539. -/
def retention : Codec PBRetention := ⟨[int64Field 1 (·.period) (fun m v => { m with period := v })], {}⟩

/-- `StoragePolicy`, generated/proto/policypb/policy.pb.go:236-262, 339-351, 540-655. -/
def storagePolicy : Codec PBStoragePolicy :=
  ⟨[optField 1 resolution (·.resolution) (fun m v => { m with resolution := v }),
    optField 2 retention (·.retention) (fun m v => { m with retention := v })], {}⟩

/-- `TransformationOp`, generated/proto/pipelinepb/pipeline.pb.go:358-369, 633-640, 821-889. -/
def transformationOp : Codec Int := ⟨[int32Field 1 (fun m => m) (fun _ v => v)], 0⟩

/-- `AppliedRollupOp`, generated/proto/pipelinepb/pipeline.pb.go:520-540, 698-708, 1309-1419. -/
def appliedRollupOp : Codec Applied.PBRollupOp :=
  ⟨[bytesField 1 (·.id) (fun m v => { m with id := v }),
    msgField 2 aggregationID (·.aggregationId) (fun m v => { m with aggregationId := v })], {}⟩

/-- `AppliedPipelineOp`, generated/proto/pipelinepb/pipeline.pb.go:552-583, 710-725, 1420-1554. -/
def appliedPipelineOp : Codec Applied.PBOp :=
  ⟨[int32Field 1 (·.type) (fun m v => { m with type := v }),
    optField 2 transformationOp (·.transformation) (fun m v => { m with transformation := v }),
    optField 3 appliedRollupOp (·.rollup) (fun m v => { m with rollup := v })], {}⟩

/-- `AppliedPipeline`, generated/proto/pipelinepb/pipeline.pb.go:595-613, 727-737, 1555-1635. -/
def appliedPipeline : Codec (List Applied.PBOp) := ⟨[repField 1 appliedPipelineOp (fun m => m) (fun _ v => v)], []⟩

/-- `PipelineMetadata`, generated/proto/metricpb/metadata.pb.go:235-274, 472-489, 570-729. -/
def pipelineMetadata : Codec PBPipelineMetadata :=
  ⟨[msgField 1 aggregationID (·.aggregationId) (fun m v => { m with aggregationId := v }),
    repField 2 storagePolicy (·.storagePolicies) (fun m v => { m with storagePolicies := v }),
    msgField 3 appliedPipeline (·.pipeline) (fun m v => { m with pipeline := v }),
    int32Field 4 (·.dropPolicy) (fun m v => { m with dropPolicy := v })], {}⟩

/-- `Metadata`, generated/proto/metricpb/metadata.pb.go:286-304, 491-501, 730-810. -/
def metadata : Codec (List PBPipelineMetadata) := ⟨[repField 1 pipelineMetadata (fun m => m) (fun _ v => v)], []⟩

/-- `StagedMetadata`, generated/proto/metricpb/metadata.pb.go:316-345, 503-515, 811-929. -/
def stagedMetadata : Codec PBStagedMetadata :=
  ⟨[int64Field 1 (·.cutoverNanos) (fun m v => { m with cutoverNanos := v }),
    boolField 2 (·.tombstoned) (fun m v => { m with tombstoned := v }),
    msgField 3 metadata (·.pipelines) (fun m v => { m with pipelines := v })], {}⟩

/-- `StagedMetadatas`, generated/proto/metricpb/metadata.pb.go:357-375, 517-527, 930-1010. -/
def stagedMetadatas : Codec (List PBStagedMetadata) := ⟨[repField 1 stagedMetadata (fun m => m) (fun _ v => v)], []⟩

/-- `ForwardMetadata`, generated/proto/metricpb/metadata.pb.go:387-427, 529-545, 1011-1188. -/
def forwardMetadata : Codec PBForwardMetadata :=
  ⟨[msgField 1 aggregationID (·.aggregationId) (fun m v => { m with aggregationId := v }),
    msgField 2 storagePolicy (·.storagePolicy) (fun m v => { m with storagePolicy := v }),
    msgField 3 appliedPipeline (·.pipeline) (fun m v => { m with pipeline := v }),
    uint32Field 4 (·.sourceId) (fun m v => { m with sourceId := v }),
    int32Field 5 (·.numForwardedTimes) (fun m v => { m with numForwardedTimes := v })], {}⟩

/-- `TimedMetadata`, generated/proto/metricpb/metadata.pb.go:439-461, 547-555, 1189-1298. -/
def timedMetadata : Codec PBTimedMetadata :=
  ⟨[msgField 1 aggregationID (·.aggregationId) (fun m v => { m with aggregationId := v }),
    msgField 2 storagePolicy (·.storagePolicy) (fun m v => { m with storagePolicy := v })], {}⟩

/-- `metricpb.Counter`. -/
structure PBCounter where
  id : Bytes := []
  value : Int := 0
  deriving DecidableEq

/-- `metricpb.BatchTimer`. -/
structure PBBatchTimer where
  id : Bytes := []
  values : List F64 := []
  deriving DecidableEq

/-- `metricpb.Gauge`. -/
structure PBGauge where
  id : Bytes := []
  value : F64 := 0
  deriving DecidableEq

/-- `metricpb.TimedMetric`. -/
structure PBTimedMetric where
  type : Int := 0
  id : Bytes := []
  timeNanos : Int := 0
  value : F64 := 0
  deriving DecidableEq

/-- `metricpb.ForwardedMetric`. -/
structure PBForwardedMetric where
  type : Int := 0
  id : Bytes := []
  timeNanos : Int := 0
  values : List F64 := []
  deriving DecidableEq

/-- `Counter`, generated/proto/metricpb/metric.pb.go:236-253, 412-423, 502-601. -/
def counter : Codec PBCounter :=
  ⟨[bytesField 1 (·.id) (fun m v => { m with id := v }),
    int64Field 2 (·.value) (fun m v => { m with value := v })], {}⟩

/-- `BatchTimer`, generated/proto/metricpb/metric.pb.go:265-287, 425-436, 602-728. -/
def batchTimer : Codec PBBatchTimer :=
  ⟨[bytesField 1 (·.id) (fun m v => { m with id := v }),
    doublesField 2 (·.values) (fun m v => { m with values := v })], {}⟩

/-- `Gauge`, generated/proto/metricpb/metric.pb.go:299-317, 438-449, 729-820. -/
def gauge : Codec PBGauge :=
  ⟨[bytesField 1 (·.id) (fun m v => { m with id := v }),
    doubleField 2 (·.value) (fun m v => { m with value := v })], {}⟩

/-- `TimedMetric`, generated/proto/metricpb/metric.pb.go:329-357, 451-468, 821-950. -/
def timedMetric : Codec PBTimedMetric :=
  ⟨[int32Field 1 (·.type) (fun m v => { m with type := v }),
    bytesField 2 (·.id) (fun m v => { m with id := v }),
    int64Field 3 (·.timeNanos) (fun m v => { m with timeNanos := v }),
    doubleField 4 (·.value) (fun m v => { m with value := v })], {}⟩

/-- `ForwardedMetric`, generated/proto/metricpb/metric.pb.go:369-401, 470-487, 951-1115. -/
def forwardedMetric : Codec PBForwardedMetric :=
  ⟨[int32Field 1 (·.type) (fun m v => { m with type := v }),
    bytesField 2 (·.id) (fun m v => { m with id := v }),
    int64Field 3 (·.timeNanos) (fun m v => { m with timeNanos := v }),
    doublesField 4 (·.values) (fun m v => { m with values := v })], {}⟩

/-- `metricpb.CounterWithMetadatas` and the others: all of the form metric and metadata, both not nullable. -/
structure PBWith (A B : Type) where
  metric : A
  metadata : B
  deriving DecidableEq

/-- A message of a metric, field 1, and its metadata, field 2: generated/proto/metricpb/composite.pb.go:309-467, 551-599,
643-1192. -/
def withMetadata (a : Codec A) (b : Codec B) : Codec (PBWith A B) :=
  ⟨[msgField 1 a (·.metric) (fun m v => { m with metric := v }),
    msgField 2 b (·.metadata) (fun m v => { m with metadata := v })], ⟨a.zero, b.zero⟩⟩

abbrev PBCounterWithMetadatas := PBWith PBCounter (List PBStagedMetadata)
abbrev PBBatchTimerWithMetadatas := PBWith PBBatchTimer (List PBStagedMetadata)
abbrev PBGaugeWithMetadatas := PBWith PBGauge (List PBStagedMetadata)
abbrev PBForwardedMetricWithMetadata := PBWith PBForwardedMetric PBForwardMetadata
abbrev PBTimedMetricWithMetadata := PBWith PBTimedMetric PBTimedMetadata

/-- `metricpb.MetricWithMetadatas`. -/
structure PBMetric where
  type : Int := 0
  counter : Option PBCounterWithMetadatas := none
  batchTimer : Option PBBatchTimerWithMetadatas := none
  gauge : Option PBGaugeWithMetadatas := none
  forwarded : Option PBForwardedMetricWithMetadata := none
  timed : Option PBTimedMetricWithMetadata := none
  deriving DecidableEq

/-- `MetricWithMetadatas`, generated/proto/metricpb/composite.pb.go:479-541, 601-628, 1193-1426. -/
def metricWithMetadatas : Codec PBMetric :=
  ⟨[int32Field 1 (·.type) (fun m v => { m with type := v }),
    optField 2 (withMetadata counter stagedMetadatas) (·.counter) (fun m v => { m with counter := v }),
    optField 3 (withMetadata batchTimer stagedMetadatas) (·.batchTimer) (fun m v => { m with batchTimer := v }),
    optField 4 (withMetadata gauge stagedMetadatas) (·.gauge) (fun m v => { m with gauge := v }),
    optField 5 (withMetadata forwardedMetric forwardMetadata) (·.forwarded) (fun m v => { m with forwarded := v }),
    optField 6 (withMetadata timedMetric timedMetadata) (·.timed) (fun m v => { m with timed := v })], {}⟩

/-- `resetCounterWithMetadatasProto` with `resetCounter` and `resetMetadatas`, encoding/protobuf/reset.go:43-49, 83-89,
127-132. -/
def resetCounter (pb : PBCounterWithMetadatas) : PBCounterWithMetadatas :=
  { pb with metric := { pb.metric with id := pb.metric.id.take 0, value := 0 }, metadata := pb.metadata.take 0 }

/-- `resetBatchTimerWithMetadatasProto`, encoding/protobuf/reset.go:51-57, 91-97. -/
def resetBatchTimer (pb : PBBatchTimerWithMetadatas) : PBBatchTimerWithMetadatas :=
  { pb with metric := { pb.metric with id := pb.metric.id.take 0, values := pb.metric.values.take 0 }, metadata := pb.metadata.take 0 }

/-- `resetGaugeWithMetadatasProto`, encoding/protobuf/reset.go:59-65, 99-105. -/
def resetGauge (pb : PBGaugeWithMetadatas) : PBGaugeWithMetadatas :=
  { pb with metric := { pb.metric with id := pb.metric.id.take 0, value := 0 }, metadata := pb.metadata.take 0 }

/-- `resetForwardedMetricWithMetadataProto`, encoding/protobuf/reset.go:67-73, 107-115, 134-143. -/
def resetForwarded (pb : PBForwardedMetricWithMetadata) : PBForwardedMetricWithMetadata :=
  { pb with
    metric := { pb.metric with type := 0, id := pb.metric.id.take 0, timeNanos := 0, values := pb.metric.values.take 0 }
    metadata := { pb.metadata with aggregationId := 0, storagePolicy := {}, pipeline := pb.metadata.pipeline.take 0, sourceId := 0, numForwardedTimes := 0 } }

/-- `resetTimedMetricWithMetadataProto`, encoding/protobuf/reset.go:75-81, 117-125, 145-151. -/
def resetTimed (pb : PBTimedMetricWithMetadata) : PBTimedMetricWithMetadata :=
  { pb with
    metric := { pb.metric with type := 0, id := pb.metric.id.take 0, timeNanos := 0, value := 0 }
    metadata := { pb.metadata with aggregationId := 0, storagePolicy := {} } }

/-- `resetMetricWithMetadatasProto`, encoding/protobuf/reset.go:31-41: messages that were allocated stay allocated. -/
def resetMetric (pb : PBMetric) : PBMetric :=
  { pb with
    type := 0
    counter := pb.counter.map resetCounter
    batchTimer := pb.batchTimer.map resetBatchTimer
    gauge := pb.gauge.map resetGauge
    forwarded := pb.forwarded.map resetForwarded
    timed := pb.timed.map resetTimed }

end Verif.Wire
