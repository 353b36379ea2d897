import Verif.Lemmas.SchemaReadMessages
/- The same for the stored messages. -/
namespace Verif.Wire.Decode
open Verif.Policy Verif.Rules Verif.RuleSet Verif.Wire Verif.Spec.WireFormat Verif.Spec.Schema

def aggregationOp (c : Contents) : Int := asEnum .AggregationType (values c "type")

theorem aggregationOp_reads : Wire.aggregationOp.ReadsAs .AggregationOp aggregationOp :=
  codec_reads aggregationOp_ok rfl (.cons (enum_takes (by fills aggregationOp)) .nil)

def rollupOp (c : Contents) : Pipe.PBRollupOp :=
  { newName := asBytes (values c "new_name"), tags := (values c "tags").map bytesOf
    aggTypes := (values c "aggregation_types").map (enumOf .AggregationType) }

theorem rollupOp_reads : Wire.rollupOp.ReadsAs .RollupOp rollupOp :=
  codec_reads rollupOp_ok rfl (.cons (string_takes (by fills rollupOp)) (.cons (strings_takes (by fills rollupOp) fun _ => rfl)
    (.cons (enums_takes (by fills rollupOp) fun _ => rfl) .nil)))

def pipelineOp (c : Contents) : Pipe.PBOp :=
  { type := asEnum .PipelineOpType (values c "type")
    aggregation := asOpt Wire.aggregationOp aggregationOp (values c "aggregation")
    transformation := asOpt Wire.transformationOp transformationOp (values c "transformation")
    rollup := asOpt Wire.rollupOp rollupOp (values c "rollup") }

theorem pipelineOp_reads : Wire.pipelineOp.ReadsAs .PipelineOp pipelineOp :=
  codec_reads pipelineOp_ok rfl (.cons (enum_takes (by fills pipelineOp))
    (.cons (opt_takes aggregationOp_reads (by fills pipelineOp) fun _ => rfl)
    (.cons (opt_takes transformationOp_reads (by fills pipelineOp) fun _ => rfl)
    (.cons (opt_takes rollupOp_reads (by fills pipelineOp) fun _ => rfl) .nil))))

def pipeline (c : Contents) : List Pipe.PBOp := (values c "ops").map (msgOf Wire.pipelineOp pipelineOp)

theorem pipeline_reads : Wire.pipeline.ReadsAs .Pipeline pipeline :=
  codec_reads pipeline_ok rfl (.cons (rep_takes pipelineOp_reads (by fills pipeline) fun _ => rfl) .nil)

def policy (c : Contents) : PBPolicy :=
  { storagePolicy := asOpt Wire.storagePolicy storagePolicy (values c "storage_policy")
    aggregationTypes := (values c "aggregation_types").map (enumOf .AggregationType) }

theorem policy_reads : Wire.policy.ReadsAs .Policy policy :=
  codec_reads policy_ok rfl (.cons (opt_takes storagePolicy_reads (by fills policy) fun _ => rfl)
    (.cons (enums_takes (by fills policy) fun _ => rfl) .nil))

def mappingRuleSnapshot (c : Contents) : PBMappingSnapshot :=
  { name := asBytes (values c "name"), tombstoned := asBool (values c "tombstoned"), cutoverNanos := asInt (values c "cutover_nanos")
    filter := asBytes (values c "filter")
    policies := (values c "policies").map fun v => some (msgOf Wire.policy policy v)
    lastUpdatedAtNanos := asInt (values c "last_updated_at_nanos"), lastUpdatedBy := asBytes (values c "last_updated_by")
    aggregationTypes := (values c "aggregation_types").map (enumOf .AggregationType)
    storagePolicies := (values c "storage_policies").map fun v => some (msgOf Wire.storagePolicy storagePolicy v)
    dropPolicy := asEnum .DropPolicy (values c "drop_policy") }

theorem mappingRuleSnapshot_reads : Wire.mappingRuleSnapshot.ReadsAs .MappingRuleSnapshot mappingRuleSnapshot :=
  codec_reads mappingRuleSnapshot_ok rfl (.cons (string_takes (by fills mappingRuleSnapshot))
    (.cons (bool_takes (by fills mappingRuleSnapshot)) (.cons (int64_takes (by fills mappingRuleSnapshot))
    (.cons (string_takes (by fills mappingRuleSnapshot))
    (.cons (ptrs_takes policy_reads (by fills mappingRuleSnapshot) fun _ => rfl)
    (.cons (int64_takes (by fills mappingRuleSnapshot)) (.cons (string_takes (by fills mappingRuleSnapshot))
    (.cons (enums_takes (by fills mappingRuleSnapshot) fun _ => rfl)
    (.cons (ptrs_takes storagePolicy_reads (by fills mappingRuleSnapshot) fun _ => rfl)
    (.cons (enum_takes (by fills mappingRuleSnapshot)) .nil))))))))))

def rule (b : Codec P) (dec : Contents → P) (c : Contents) : PBRule P :=
  { uuid := asBytes (values c "uuid"), snapshots := (values c "snapshots").map fun v => some (msgOf b dec v) }

theorem rule_reads {b : Codec P} {dec : Contents → P} {msg sub : Message} (ob : b.OK) (hb : b.ReadsAs sub dec)
    (hf : msg.fields = [single .string "uuid" 1, repeated (.msg sub) "snapshots" 2]) : (Wire.rule b).ReadsAs msg (rule b dec) := by
  refine codec_reads (rule_ok ob) ?_ ?_
  · simp [Message.empty, hf, rule, values, single, repeated, Decl.absent, asBytes, bytesOf, Wire.rule]
  · rw [hf]
    exact .cons (string_takes (by fills rule)) (.cons (ptrs_takes hb (by fills rule) fun _ => rfl) .nil)

def rollupTarget (c : Contents) : PBRollupTargetV1 :=
  { name := asBytes (values c "name"), tags := (values c "tags").map bytesOf
    policies := (values c "policies").map fun v => some (msgOf Wire.policy policy v) }

theorem rollupTarget_reads : Wire.rollupTarget.ReadsAs .RollupTarget rollupTarget :=
  codec_reads rollupTarget_ok rfl (.cons (string_takes (by fills rollupTarget)) (.cons (strings_takes (by fills rollupTarget) fun _ => rfl)
    (.cons (ptrs_takes policy_reads (by fills rollupTarget) fun _ => rfl) .nil)))

def rollupTargetV2 (c : Contents) : PBRollupTargetV2 :=
  { pipeline := asOpt Wire.pipeline pipeline (values c "pipeline")
    storagePolicies := (values c "storage_policies").map fun v => some (msgOf Wire.storagePolicy storagePolicy v) }

theorem rollupTargetV2_reads : Wire.rollupTargetV2.ReadsAs .RollupTargetV2 rollupTargetV2 :=
  codec_reads rollupTargetV2_ok rfl (.cons (opt_takes pipeline_reads (by fills rollupTargetV2) fun _ => rfl)
    (.cons (ptrs_takes storagePolicy_reads (by fills rollupTargetV2) fun _ => rfl) .nil))

def rollupRuleSnapshot (c : Contents) : PBRollupSnapshot :=
  { name := asBytes (values c "name"), tombstoned := asBool (values c "tombstoned"), cutoverNanos := asInt (values c "cutover_nanos")
    filter := asBytes (values c "filter")
    targets := (values c "targets").map fun v => some (msgOf Wire.rollupTarget rollupTarget v)
    lastUpdatedAtNanos := asInt (values c "last_updated_at_nanos"), lastUpdatedBy := asBytes (values c "last_updated_by")
    targetsV2 := (values c "targets_v2").map fun v => some (msgOf Wire.rollupTargetV2 rollupTargetV2 v) }

theorem rollupRuleSnapshot_reads : Wire.rollupRuleSnapshot.ReadsAs .RollupRuleSnapshot rollupRuleSnapshot :=
  codec_reads rollupRuleSnapshot_ok rfl (.cons (string_takes (by fills rollupRuleSnapshot))
    (.cons (bool_takes (by fills rollupRuleSnapshot)) (.cons (int64_takes (by fills rollupRuleSnapshot))
    (.cons (string_takes (by fills rollupRuleSnapshot))
    (.cons (ptrs_takes rollupTarget_reads (by fills rollupRuleSnapshot) fun _ => rfl)
    (.cons (int64_takes (by fills rollupRuleSnapshot)) (.cons (string_takes (by fills rollupRuleSnapshot))
    (.cons (ptrs_takes rollupTargetV2_reads (by fills rollupRuleSnapshot) fun _ => rfl) .nil))))))))

def ruleSet (c : Contents) : PBRuleSet :=
  { uuid := asBytes (values c "uuid"), namespace_ := asBytes (values c "namespace"), createdAtNanos := asInt (values c "created_at_nanos")
    lastUpdatedAtNanos := asInt (values c "last_updated_at_nanos"), tombstoned := asBool (values c "tombstoned")
    cutoverNanos := asInt (values c "cutover_nanos")
    mappingRules := (values c "mapping_rules").map fun v =>
      some (msgOf (Wire.rule Wire.mappingRuleSnapshot) (rule Wire.mappingRuleSnapshot mappingRuleSnapshot) v)
    rollupRules := (values c "rollup_rules").map fun v =>
      some (msgOf (Wire.rule Wire.rollupRuleSnapshot) (rule Wire.rollupRuleSnapshot rollupRuleSnapshot) v)
    lastUpdatedBy := asBytes (values c "last_updated_by") }

theorem ruleSet_reads : Wire.ruleSet.ReadsAs .RuleSet ruleSet :=
  codec_reads ruleSet_ok rfl (.cons (string_takes (by fills ruleSet)) (.cons (string_takes (by fills ruleSet))
    (.cons (int64_takes (by fills ruleSet)) (.cons (int64_takes (by fills ruleSet)) (.cons (bool_takes (by fills ruleSet))
    (.cons (int64_takes (by fills ruleSet))
    (.cons (ptrs_takes (rule_reads (msg := .MappingRule) mappingRuleSnapshot_ok mappingRuleSnapshot_reads rfl) (by fills ruleSet)
      fun _ => rfl)
    (.cons (ptrs_takes (rule_reads (msg := .RollupRule) rollupRuleSnapshot_ok rollupRuleSnapshot_reads rfl) (by fills ruleSet)
      fun _ => rfl)
    (.cons (string_takes (by fills ruleSet)) .nil)))))))))

def namespaceSnapshot (c : Contents) : NS.PBSnapshot :=
  { forRulesetVersion := asInt (values c "for_ruleset_version"), tombstoned := asBool (values c "tombstoned")
    lastUpdatedAtNanos := asInt (values c "last_updated_at_nanos"), lastUpdatedBy := asBytes (values c "last_updated_by") }

theorem namespaceSnapshot_reads : Wire.namespaceSnapshot.ReadsAs .NamespaceSnapshot namespaceSnapshot :=
  codec_reads namespaceSnapshot_ok rfl (.cons (int32_takes (by fills namespaceSnapshot)) (.cons (bool_takes (by fills namespaceSnapshot))
    (.cons (int64_takes (by fills namespaceSnapshot)) (.cons (string_takes (by fills namespaceSnapshot)) .nil))))

def namespaceMsg (c : Contents) : NS.PBNamespace :=
  { name := asBytes (values c "name"), snapshots := (values c "snapshots").map fun v => some (msgOf Wire.namespaceSnapshot namespaceSnapshot v) }

theorem namespaceMsg_reads : Wire.namespaceMsg.ReadsAs .Namespace namespaceMsg :=
  codec_reads namespaceMsg_ok rfl (.cons (string_takes (by fills namespaceMsg))
    (.cons (ptrs_takes namespaceSnapshot_reads (by fills namespaceMsg) fun _ => rfl) .nil))

def namespacesMsg (c : Contents) : NS.PBNamespaces :=
  { namespaces := (values c "namespaces").map fun v => some (msgOf Wire.namespaceMsg namespaceMsg v) }

theorem namespacesMsg_reads : Wire.namespacesMsg.ReadsAs .Namespaces namespacesMsg :=
  codec_reads namespacesMsg_ok rfl (.cons (ptrs_takes namespaceMsg_reads (by fills namespacesMsg) fun _ => rfl) .nil)

end Verif.Wire.Decode
