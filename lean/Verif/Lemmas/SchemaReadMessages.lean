import Verif.Lemmas.SchemaRead
/- What the messages of the generated code are made of the contents of the published ones, and that this is what is read. -/
namespace Verif.Wire.Decode
open Verif.Policy Verif.Meta Verif.Wire Verif.Spec.WireFormat Verif.Spec.Schema

/-- Setting the values of a field sets that field. -/
macro "fills" t:ident : tactic => `(tactic| (intros; simp [$t:ident, values_put]))

def aggregationID (c : Contents) : BitVec 64 := BitVec.ofNat 64 (asInt (values c "id")).toNat

theorem aggregationID_reads : Wire.aggregationID.ReadsAs .AggregationID aggregationID :=
  codec_reads aggregationID_ok rfl (.cons (uint64_takes (by fills aggregationID)) .nil)

def resolution (c : Contents) : PBResolution :=
  { windowSize := asInt (values c "window_size"), precision := asInt (values c "precision") }

theorem resolution_reads : Wire.resolution.ReadsAs .Resolution resolution :=
  codec_reads resolution_ok rfl (.cons (int64_takes (by fills resolution)) (.cons (int64_takes (by fills resolution)) .nil))

def retention (c : Contents) : PBRetention := { period := asInt (values c "period") }

theorem retention_reads : Wire.retention.ReadsAs .Retention retention :=
  codec_reads retention_ok rfl (.cons (int64_takes (by fills retention)) .nil)

def storagePolicy (c : Contents) : PBStoragePolicy :=
  { resolution := asOpt Wire.resolution resolution (values c "resolution")
    retention := asOpt Wire.retention retention (values c "retention") }

theorem storagePolicy_reads : Wire.storagePolicy.ReadsAs .StoragePolicy storagePolicy :=
  codec_reads storagePolicy_ok rfl (.cons (opt_takes resolution_reads (by fills storagePolicy) fun _ => rfl)
    (.cons (opt_takes retention_reads (by fills storagePolicy) fun _ => rfl) .nil))

def transformationOp (c : Contents) : Int := asEnum .TransformationType (values c "type")

theorem transformationOp_reads : Wire.transformationOp.ReadsAs .TransformationOp transformationOp :=
  codec_reads transformationOp_ok rfl (.cons (enum_takes (by fills transformationOp)) .nil)

def appliedRollupOp (c : Contents) : Applied.PBRollupOp :=
  { id := asBytes (values c "id"), aggregationId := asMsg Wire.aggregationID aggregationID (values c "aggregation_id") }

theorem appliedRollupOp_reads : Wire.appliedRollupOp.ReadsAs .AppliedRollupOp appliedRollupOp :=
  codec_reads appliedRollupOp_ok rfl (.cons (bytes_takes (by fills appliedRollupOp))
    (.cons (msg_takes aggregationID_reads (by fills appliedRollupOp) fun _ => rfl) .nil))

def appliedPipelineOp (c : Contents) : Applied.PBOp :=
  { type := asEnum .AppliedPipelineOpType (values c "type")
    transformation := asOpt Wire.transformationOp transformationOp (values c "transformation")
    rollup := asOpt Wire.appliedRollupOp appliedRollupOp (values c "rollup") }

theorem appliedPipelineOp_reads : Wire.appliedPipelineOp.ReadsAs .AppliedPipelineOp appliedPipelineOp :=
  codec_reads appliedPipelineOp_ok rfl (.cons (enum_takes (by fills appliedPipelineOp))
    (.cons (opt_takes transformationOp_reads (by fills appliedPipelineOp) fun _ => rfl)
      (.cons (opt_takes appliedRollupOp_reads (by fills appliedPipelineOp) fun _ => rfl) .nil)))

def appliedPipeline (c : Contents) : List Applied.PBOp := (values c "ops").map (msgOf Wire.appliedPipelineOp appliedPipelineOp)

theorem appliedPipeline_reads : Wire.appliedPipeline.ReadsAs .AppliedPipeline appliedPipeline :=
  codec_reads appliedPipeline_ok rfl (.cons (rep_takes appliedPipelineOp_reads (by fills appliedPipeline) fun _ => rfl) .nil)

def pipelineMetadata (c : Contents) : PBPipelineMetadata :=
  { aggregationId := asMsg Wire.aggregationID aggregationID (values c "aggregation_id")
    storagePolicies := (values c "storage_policies").map (msgOf Wire.storagePolicy storagePolicy)
    pipeline := asMsg Wire.appliedPipeline appliedPipeline (values c "pipeline")
    dropPolicy := asEnum .DropPolicy (values c "drop_policy") }

theorem pipelineMetadata_reads : Wire.pipelineMetadata.ReadsAs .PipelineMetadata pipelineMetadata :=
  codec_reads pipelineMetadata_ok rfl (.cons (msg_takes aggregationID_reads (by fills pipelineMetadata) fun _ => rfl)
    (.cons (rep_takes storagePolicy_reads (by fills pipelineMetadata) fun _ => rfl)
      (.cons (msg_takes appliedPipeline_reads (by fills pipelineMetadata) fun _ => rfl)
        (.cons (enum_takes (by fills pipelineMetadata)) .nil))))

def metadata (c : Contents) : List PBPipelineMetadata := (values c "pipelines").map (msgOf Wire.pipelineMetadata pipelineMetadata)

theorem metadata_reads : Wire.metadata.ReadsAs .Metadata metadata :=
  codec_reads metadata_ok rfl (.cons (rep_takes pipelineMetadata_reads (by fills metadata) fun _ => rfl) .nil)

def stagedMetadata (c : Contents) : PBStagedMetadata :=
  { cutoverNanos := asInt (values c "cutover_nanos"), tombstoned := asBool (values c "tombstoned")
    pipelines := asMsg Wire.metadata metadata (values c "metadata") }

theorem stagedMetadata_reads : Wire.stagedMetadata.ReadsAs .StagedMetadata stagedMetadata :=
  codec_reads stagedMetadata_ok rfl (.cons (int64_takes (by fills stagedMetadata)) (.cons (bool_takes (by fills stagedMetadata))
    (.cons (msg_takes metadata_reads (by fills stagedMetadata) fun _ => rfl) .nil)))

def stagedMetadatas (c : Contents) : List PBStagedMetadata := (values c "metadatas").map (msgOf Wire.stagedMetadata stagedMetadata)

theorem stagedMetadatas_reads : Wire.stagedMetadatas.ReadsAs .StagedMetadatas stagedMetadatas :=
  codec_reads stagedMetadatas_ok rfl (.cons (rep_takes stagedMetadata_reads (by fills stagedMetadatas) fun _ => rfl) .nil)

def forwardMetadata (c : Contents) : PBForwardMetadata :=
  { aggregationId := asMsg Wire.aggregationID aggregationID (values c "aggregation_id")
    storagePolicy := asMsg Wire.storagePolicy storagePolicy (values c "storage_policy")
    pipeline := asMsg Wire.appliedPipeline appliedPipeline (values c "pipeline")
    sourceId := BitVec.ofNat 32 (asInt (values c "source_id")).toNat
    numForwardedTimes := asInt (values c "num_forwarded_times") }

theorem forwardMetadata_reads : Wire.forwardMetadata.ReadsAs .ForwardMetadata forwardMetadata :=
  codec_reads forwardMetadata_ok rfl (.cons (msg_takes aggregationID_reads (by fills forwardMetadata) fun _ => rfl)
    (.cons (msg_takes storagePolicy_reads (by fills forwardMetadata) fun _ => rfl)
      (.cons (msg_takes appliedPipeline_reads (by fills forwardMetadata) fun _ => rfl)
        (.cons (uint32_takes (by fills forwardMetadata)) (.cons (int32_takes (by fills forwardMetadata)) .nil)))))

def timedMetadata (c : Contents) : PBTimedMetadata :=
  { aggregationId := asMsg Wire.aggregationID aggregationID (values c "aggregation_id")
    storagePolicy := asMsg Wire.storagePolicy storagePolicy (values c "storage_policy") }

theorem timedMetadata_reads : Wire.timedMetadata.ReadsAs .TimedMetadata timedMetadata :=
  codec_reads timedMetadata_ok rfl (.cons (msg_takes aggregationID_reads (by fills timedMetadata) fun _ => rfl)
    (.cons (msg_takes storagePolicy_reads (by fills timedMetadata) fun _ => rfl) .nil))

def counter (c : Contents) : PBCounter := { id := asBytes (values c "id"), value := asInt (values c "value") }

theorem counter_reads : Wire.counter.ReadsAs .Counter counter :=
  codec_reads counter_ok rfl (.cons (bytes_takes (by fills counter)) (.cons (int64_takes (by fills counter)) .nil))

def batchTimer (c : Contents) : PBBatchTimer := { id := asBytes (values c "id"), values := (values c "values").map dblOf }

theorem batchTimer_reads : Wire.batchTimer.ReadsAs .BatchTimer batchTimer :=
  codec_reads batchTimer_ok rfl (.cons (bytes_takes (by fills batchTimer))
    (.cons (doubles_takes (by fills batchTimer) fun _ => rfl) .nil))

def gauge (c : Contents) : PBGauge := { id := asBytes (values c "id"), value := asDbl (values c "value") }

theorem gauge_reads : Wire.gauge.ReadsAs .Gauge gauge :=
  codec_reads gauge_ok rfl (.cons (bytes_takes (by fills gauge)) (.cons (double_takes (by fills gauge)) .nil))

def timedMetric (c : Contents) : PBTimedMetric :=
  { type := asEnum .MetricType (values c "type"), id := asBytes (values c "id"), timeNanos := asInt (values c "time_nanos")
    value := asDbl (values c "value") }

theorem timedMetric_reads : Wire.timedMetric.ReadsAs .TimedMetric timedMetric :=
  codec_reads timedMetric_ok rfl (.cons (enum_takes (by fills timedMetric)) (.cons (bytes_takes (by fills timedMetric))
    (.cons (int64_takes (by fills timedMetric)) (.cons (double_takes (by fills timedMetric)) .nil))))

def forwardedMetric (c : Contents) : PBForwardedMetric :=
  { type := asEnum .MetricType (values c "type"), id := asBytes (values c "id"), timeNanos := asInt (values c "time_nanos")
    values := (values c "values").map dblOf }

theorem forwardedMetric_reads : Wire.forwardedMetric.ReadsAs .ForwardedMetric forwardedMetric :=
  codec_reads forwardedMetric_ok rfl (.cons (enum_takes (by fills forwardedMetric)) (.cons (bytes_takes (by fills forwardedMetric))
    (.cons (int64_takes (by fills forwardedMetric)) (.cons (doubles_takes (by fills forwardedMetric) fun _ => rfl) .nil))))

/-- A metric with its metadata: `n1` and `n2` are the names of the two fields. -/
def withMetadata (a : Codec A) (b : Codec B) (decA : Contents → A) (decB : Contents → B) (n1 n2 : String) (c : Contents) : PBWith A B :=
  ⟨asMsg a decA (values c n1), asMsg b decB (values c n2)⟩

theorem withMetadata_reads {a : Codec A} {b : Codec B} {decA : Contents → A} {decB : Contents → B} {msg ma mb : Message} {n1 n2 : String}
    (oa : a.OK) (ob : b.OK) (ha : a.ReadsAs ma decA) (hb : b.ReadsAs mb decB) (hn : n1 ≠ n2)
    (hf : msg.fields = [single (.msg ma) n1 1, single (.msg mb) n2 2]) :
    (Wire.withMetadata a b).ReadsAs msg (withMetadata a b decA decB n1 n2) := by
  refine codec_reads (withMetadata_ok oa ob) ?_ ?_
  · simp [Message.empty, hf, withMetadata, values, single, Decl.absent, hn, hn.symm, asMsg, Wire.withMetadata]
  · rw [hf]
    exact .cons (msg_takes ha (by intros; simp [withMetadata, values_put, hn, hn.symm]) fun _ => rfl)
      (.cons (msg_takes hb (by intros; simp [withMetadata, values_put, hn, hn.symm]) fun _ => rfl) .nil)

abbrev counterW := withMetadata Wire.counter Wire.stagedMetadatas counter stagedMetadatas "counter" "metadatas"
abbrev batchTimerW := withMetadata Wire.batchTimer Wire.stagedMetadatas batchTimer stagedMetadatas "batch_timer" "metadatas"
abbrev gaugeW := withMetadata Wire.gauge Wire.stagedMetadatas gauge stagedMetadatas "gauge" "metadatas"
abbrev forwardedW := withMetadata Wire.forwardedMetric Wire.forwardMetadata forwardedMetric forwardMetadata "metric" "metadata"
abbrev timedW := withMetadata Wire.timedMetric Wire.timedMetadata timedMetric timedMetadata "metric" "metadata"

def metricWithMetadatas (c : Contents) : PBMetric :=
  { type := asEnum .MetricWithMetadatasType (values c "type")
    counter := asOpt (Wire.withMetadata Wire.counter Wire.stagedMetadatas) counterW (values c "counter_with_metadatas")
    batchTimer := asOpt (Wire.withMetadata Wire.batchTimer Wire.stagedMetadatas) batchTimerW (values c "batch_timer_with_metadatas")
    gauge := asOpt (Wire.withMetadata Wire.gauge Wire.stagedMetadatas) gaugeW (values c "gauge_with_metadatas")
    forwarded := asOpt (Wire.withMetadata Wire.forwardedMetric Wire.forwardMetadata) forwardedW
      (values c "forwarded_metric_with_metadata")
    timed := asOpt (Wire.withMetadata Wire.timedMetric Wire.timedMetadata) timedW (values c "timed_metric_with_metadata") }

theorem metricWithMetadatas_reads : Wire.metricWithMetadatas.ReadsAs .MetricWithMetadatas metricWithMetadatas :=
  codec_reads metricWithMetadatas_ok rfl (.cons (enum_takes (by fills metricWithMetadatas))
    (.cons (opt_takes (withMetadata_reads (msg := .CounterWithMetadatas) counter_ok stagedMetadatas_ok counter_reads stagedMetadatas_reads
        (by decide) rfl) (by fills metricWithMetadatas) fun _ => rfl)
    (.cons (opt_takes (withMetadata_reads (msg := .BatchTimerWithMetadatas) batchTimer_ok stagedMetadatas_ok batchTimer_reads
        stagedMetadatas_reads (by decide) rfl) (by fills metricWithMetadatas) fun _ => rfl)
    (.cons (opt_takes (withMetadata_reads (msg := .GaugeWithMetadatas) gauge_ok stagedMetadatas_ok gauge_reads stagedMetadatas_reads
        (by decide) rfl) (by fills metricWithMetadatas) fun _ => rfl)
    (.cons (opt_takes (withMetadata_reads (msg := .ForwardedMetricWithMetadata) forwardedMetric_ok forwardMetadata_ok forwardedMetric_reads
        forwardMetadata_reads (by decide) rfl) (by fills metricWithMetadatas) fun _ => rfl)
    (.cons (opt_takes (withMetadata_reads (msg := .TimedMetricWithMetadata) timedMetric_ok timedMetadata_ok timedMetric_reads
        timedMetadata_reads (by decide) rfl) (by fills metricWithMetadatas) fun _ => rfl) .nil))))))

end Verif.Wire.Decode
