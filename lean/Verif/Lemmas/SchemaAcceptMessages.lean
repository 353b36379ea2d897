import Verif.Lemmas.SchemaAccept
import Verif.Lemmas.SchemaReadRules
/- The messages of the generated code take the bytes of the published ones. -/
namespace Verif.Wire.Accept
open Verif.Policy Verif.Meta Verif.Wire Verif.Spec.WireFormat Verif.Spec.Schema

theorem aggregationID_takes : CTakes aggregationID .AggregationID := codec_takes aggregationID_ok (.cons (varint_takes rfl) .nil)

theorem resolution_takes : CTakes resolution .Resolution := codec_takes resolution_ok (.cons (varint_takes rfl) (.cons (varint_takes rfl) .nil))

theorem retention_takes : CTakes retention .Retention := codec_takes retention_ok (.cons (varint_takes rfl) .nil)

theorem storagePolicy_takes : CTakes storagePolicy .StoragePolicy :=
  codec_takes storagePolicy_ok (.cons (opt_takes resolution_takes) (.cons (opt_takes retention_takes) .nil))

theorem transformationOp_takes : CTakes transformationOp .TransformationOp := codec_takes transformationOp_ok (.cons (varint_takes rfl) .nil)

theorem appliedRollupOp_takes : CTakes appliedRollupOp .AppliedRollupOp :=
  codec_takes appliedRollupOp_ok (.cons (bytes_takes (.inl rfl)) (.cons (msg_takes aggregationID_takes) .nil))

theorem appliedPipelineOp_takes : CTakes appliedPipelineOp .AppliedPipelineOp :=
  codec_takes appliedPipelineOp_ok (.cons (varint_takes rfl) (.cons (opt_takes transformationOp_takes)
    (.cons (opt_takes appliedRollupOp_takes) .nil)))

theorem appliedPipeline_takes : CTakes appliedPipeline .AppliedPipeline :=
  codec_takes appliedPipeline_ok (.cons (rep_takes appliedPipelineOp_takes) .nil)

theorem pipelineMetadata_takes : CTakes pipelineMetadata .PipelineMetadata :=
  codec_takes pipelineMetadata_ok (.cons (msg_takes aggregationID_takes) (.cons (rep_takes storagePolicy_takes)
    (.cons (msg_takes appliedPipeline_takes) (.cons (varint_takes rfl) .nil))))

theorem metadata_takes : CTakes metadata .Metadata := codec_takes metadata_ok (.cons (rep_takes pipelineMetadata_takes) .nil)

theorem stagedMetadata_takes : CTakes stagedMetadata .StagedMetadata :=
  codec_takes stagedMetadata_ok (.cons (varint_takes rfl) (.cons (varint_takes rfl) (.cons (msg_takes metadata_takes) .nil)))

theorem stagedMetadatas_takes : CTakes stagedMetadatas .StagedMetadatas :=
  codec_takes stagedMetadatas_ok (.cons (rep_takes stagedMetadata_takes) .nil)

theorem forwardMetadata_takes : CTakes forwardMetadata .ForwardMetadata :=
  codec_takes forwardMetadata_ok (.cons (msg_takes aggregationID_takes) (.cons (msg_takes storagePolicy_takes)
    (.cons (msg_takes appliedPipeline_takes) (.cons (varint_takes rfl) (.cons (varint_takes rfl) .nil)))))

theorem timedMetadata_takes : CTakes timedMetadata .TimedMetadata :=
  codec_takes timedMetadata_ok (.cons (msg_takes aggregationID_takes) (.cons (msg_takes storagePolicy_takes) .nil))

theorem counter_takes : CTakes counter .Counter := codec_takes counter_ok (.cons (bytes_takes (.inl rfl)) (.cons (varint_takes rfl) .nil))

theorem batchTimer_takes : CTakes batchTimer .BatchTimer :=
  codec_takes batchTimer_ok (.cons (bytes_takes (.inl rfl)) (.cons doubles_takes .nil))

theorem gauge_takes : CTakes gauge .Gauge := codec_takes gauge_ok (.cons (bytes_takes (.inl rfl)) (.cons double_takes .nil))

theorem timedMetric_takes : CTakes timedMetric .TimedMetric :=
  codec_takes timedMetric_ok (.cons (varint_takes rfl) (.cons (bytes_takes (.inl rfl)) (.cons (varint_takes rfl) (.cons double_takes .nil))))

theorem forwardedMetric_takes : CTakes forwardedMetric .ForwardedMetric :=
  codec_takes forwardedMetric_ok (.cons (varint_takes rfl) (.cons (bytes_takes (.inl rfl)) (.cons (varint_takes rfl)
    (.cons doubles_takes .nil))))

theorem withMetadata_takes {a : Codec A} {b : Codec B} {msg ma mb : Message} {n1 n2 : String} (oa : a.OK) (ob : b.OK)
    (ha : CTakes a ma) (hb : CTakes b mb) (hf : msg.fields = [single (.msg ma) n1 1, single (.msg mb) n2 2]) :
    CTakes (withMetadata a b) msg := by
  refine codec_takes (withMetadata_ok oa ob) ?_
  rw [hf]
  exact .cons (msg_takes ha) (.cons (msg_takes hb) .nil)

theorem metricWithMetadatas_takes : CTakes metricWithMetadatas .MetricWithMetadatas :=
  codec_takes metricWithMetadatas_ok (.cons (varint_takes rfl)
    (.cons (opt_takes (withMetadata_takes (msg := .CounterWithMetadatas) counter_ok stagedMetadatas_ok counter_takes stagedMetadatas_takes rfl))
    (.cons (opt_takes (withMetadata_takes (msg := .BatchTimerWithMetadatas) batchTimer_ok stagedMetadatas_ok batchTimer_takes
      stagedMetadatas_takes rfl))
    (.cons (opt_takes (withMetadata_takes (msg := .GaugeWithMetadatas) gauge_ok stagedMetadatas_ok gauge_takes stagedMetadatas_takes rfl))
    (.cons (opt_takes (withMetadata_takes (msg := .ForwardedMetricWithMetadata) forwardedMetric_ok forwardMetadata_ok forwardedMetric_takes
      forwardMetadata_takes rfl))
    (.cons (opt_takes (withMetadata_takes (msg := .TimedMetricWithMetadata) timedMetric_ok timedMetadata_ok timedMetric_takes
      timedMetadata_takes rfl)) .nil))))))

/-! ### Stored messages -/

theorem aggregationOp_takes : CTakes aggregationOp .AggregationOp := codec_takes aggregationOp_ok (.cons (varint_takes rfl) .nil)

theorem rollupOp_takes : CTakes rollupOp .RollupOp :=
  codec_takes rollupOp_ok (.cons (bytes_takes (.inr rfl)) (.cons strings_takes (.cons enums_takes .nil)))

theorem pipelineOp_takes : CTakes pipelineOp .PipelineOp :=
  codec_takes pipelineOp_ok (.cons (varint_takes rfl) (.cons (opt_takes aggregationOp_takes) (.cons (opt_takes transformationOp_takes)
    (.cons (opt_takes rollupOp_takes) .nil))))

theorem pipeline_takes : CTakes pipeline .Pipeline := codec_takes pipeline_ok (.cons (rep_takes pipelineOp_takes) .nil)

theorem policy_takes : CTakes policy .Policy := codec_takes policy_ok (.cons (opt_takes storagePolicy_takes) (.cons enums_takes .nil))

theorem mappingRuleSnapshot_takes : CTakes mappingRuleSnapshot .MappingRuleSnapshot :=
  codec_takes mappingRuleSnapshot_ok (.cons (bytes_takes (.inr rfl)) (.cons (varint_takes rfl) (.cons (varint_takes rfl)
    (.cons (bytes_takes (.inr rfl)) (.cons (ptrs_takes policy_takes) (.cons (varint_takes rfl) (.cons (bytes_takes (.inr rfl))
    (.cons enums_takes (.cons (ptrs_takes storagePolicy_takes) (.cons (varint_takes rfl) .nil))))))))))

theorem rule_takes {b : Codec P} {msg sub : Message} (ob : b.OK) (hb : CTakes b sub)
    (hf : msg.fields = [single .string "uuid" 1, repeated (.msg sub) "snapshots" 2]) : CTakes (rule b) msg := by
  refine codec_takes (rule_ok ob) ?_
  rw [hf]
  exact .cons (bytes_takes (.inr rfl)) (.cons (ptrs_takes hb) .nil)

theorem rollupTarget_takes : CTakes rollupTarget .RollupTarget :=
  codec_takes rollupTarget_ok (.cons (bytes_takes (.inr rfl)) (.cons strings_takes (.cons (ptrs_takes policy_takes) .nil)))

theorem rollupTargetV2_takes : CTakes rollupTargetV2 .RollupTargetV2 :=
  codec_takes rollupTargetV2_ok (.cons (opt_takes pipeline_takes) (.cons (ptrs_takes storagePolicy_takes) .nil))

theorem rollupRuleSnapshot_takes : CTakes rollupRuleSnapshot .RollupRuleSnapshot :=
  codec_takes rollupRuleSnapshot_ok (.cons (bytes_takes (.inr rfl)) (.cons (varint_takes rfl) (.cons (varint_takes rfl)
    (.cons (bytes_takes (.inr rfl)) (.cons (ptrs_takes rollupTarget_takes) (.cons (varint_takes rfl) (.cons (bytes_takes (.inr rfl))
    (.cons (ptrs_takes rollupTargetV2_takes) .nil))))))))

theorem ruleSet_takes : CTakes ruleSet .RuleSet :=
  codec_takes ruleSet_ok (.cons (bytes_takes (.inr rfl)) (.cons (bytes_takes (.inr rfl)) (.cons (varint_takes rfl) (.cons (varint_takes rfl)
    (.cons (varint_takes rfl) (.cons (varint_takes rfl)
    (.cons (ptrs_takes (rule_takes (msg := .MappingRule) mappingRuleSnapshot_ok mappingRuleSnapshot_takes rfl))
    (.cons (ptrs_takes (rule_takes (msg := .RollupRule) rollupRuleSnapshot_ok rollupRuleSnapshot_takes rfl))
    (.cons (bytes_takes (.inr rfl)) .nil)))))))))

theorem namespaceSnapshot_takes : CTakes namespaceSnapshot .NamespaceSnapshot :=
  codec_takes namespaceSnapshot_ok (.cons (varint_takes rfl) (.cons (varint_takes rfl) (.cons (varint_takes rfl)
    (.cons (bytes_takes (.inr rfl)) .nil))))

theorem namespaceMsg_takes : CTakes namespaceMsg .Namespace :=
  codec_takes namespaceMsg_ok (.cons (bytes_takes (.inr rfl)) (.cons (ptrs_takes namespaceSnapshot_takes) .nil))

theorem namespacesMsg_takes : CTakes namespacesMsg .Namespaces := codec_takes namespacesMsg_ok (.cons (ptrs_takes namespaceMsg_takes) .nil)

end Verif.Wire.Accept
