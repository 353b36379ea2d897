import Verif.Spec.Aggregation
import Verif.Spec.Json
/-
The JSON forms as other programs know them: every member by its name, the types by their words.  Written after the tags in
rules/view/*.go, rules/view/changes/*.go, pipeline/type.go:330-334, 489-493 and policy/staged_policy.go:120-124, without the field
tables of the model.
-/
namespace Verif.Spec.Json
open Verif.Policy Verif.RuleSet Verif.Json
open Verif.Rules (RollupTarget)
open Verif.MP (StagedPolicies)

/-- A duration, `@1` and the precision unless it is the natural one, a colon, a duration. -/
def policyText (x : XTime) (p : StoragePolicy) : Bytes :=
  x.extString p.resolution.window ++
    (if p.resolution.precision = x.maxUnit p.resolution.window then [] else bs "@1" ++ x.unitString p.resolution.precision) ++
    bs ":" ++ x.extString p.retention

/-- The word of an aggregation type. -/
def typeForm (t : Nat) : J := .str (typeWords.getD (t - 1) [])

/-- The words of the types of an ID, ascending. -/
def typesForm (id : BitVec 64) : J := .arr (((List.range 64).filter id.getLsbD).map typeForm)

def policiesForm (x : XTime) (l : List StoragePolicy) : J := .arr (l.map fun p => .str (policyText x p))

/-- An operation: one member, named by its kind. -/
def opForm (u : Pipe.OpUnion) : J :=
  if u.type = 1 then .obj [(bs "aggregation", typeForm u.aggregation.toNat)]
  else if u.type = 2 then .obj [(bs "transformation", .str (if u.transformation = 1 then bs "Absolute" else bs "PerSecond"))]
  else .obj [(bs "rollup", .obj [(bs "newName", .str u.rollup.newName), (bs "tags", .arr (u.rollup.tags.map .str)),
    (bs "aggregation", typesForm u.rollup.aggID)])]

/-- A member that is left out when there is nothing to say. -/
def omitIf (c : Bool) (m : Bytes × J) : List (Bytes × J) := if c then [] else [m]

def mappingForm (x : XTime) (v : MappingView) : J := .obj (
  omitIf (v.id == []) (bs "id", .str v.id) ++
  [(bs "name", .str v.name), (bs "tombstoned", .bool v.tombstoned)] ++
  omitIf (v.cutoverMillis == 0) (bs "cutoverMillis", .num v.cutoverMillis) ++
  [(bs "filter", .str v.filter), (bs "aggregation", typesForm v.aggID), (bs "storagePolicies", policiesForm x v.storagePolicies),
   (bs "dropPolicy", .num v.drop), (bs "lastUpdatedBy", .str v.lastUpdatedBy), (bs "lastUpdatedAtMillis", .num v.lastUpdatedAtMillis)])

def targetForm (x : XTime) (t : RollupTarget) : J :=
  .obj [(bs "pipeline", .arr (t.pipeline.map opForm)), (bs "storagePolicies", policiesForm x t.storagePolicies)]

def rollupForm (x : XTime) (v : RollupView) : J := .obj (
  omitIf (v.id == []) (bs "id", .str v.id) ++
  [(bs "name", .str v.name), (bs "tombstoned", .bool v.tombstoned)] ++
  omitIf (v.cutoverMillis == 0) (bs "cutoverMillis", .num v.cutoverMillis) ++
  [(bs "filter", .str v.filter), (bs "targets", .arr (v.targets.map (targetForm x))), (bs "lastUpdatedBy", .str v.lastUpdatedBy),
   (bs "lastUpdatedAtMillis", .num v.lastUpdatedAtMillis)])

def ruleSetForm (x : XTime) (v : RuleSetView) : J :=
  .obj [(bs "id", .str v.namespace_), (bs "version", .num v.version), (bs "cutoverMillis", .num v.cutoverMillis),
    (bs "mappingRules", .arr (v.mappingRules.map (mappingForm x))), (bs "rollupRules", .arr (v.rollupRules.map (rollupForm x)))]

def namespaceForm (v : NS.NamespaceView) : J :=
  .obj [(bs "id", .str v.id), (bs "forRuleSetVersion", .num v.forRuleSetVersion), (bs "tombstoned", .bool v.tombstoned),
    (bs "lastUpdatedBy", .str v.lastUpdatedBy), (bs "lastUpdatedAtMillis", .num v.lastUpdatedAtMillis)]

def namespacesForm (v : NamespacesView) : J :=
  .obj [(bs "version", .num v.version), (bs "namespaces", .arr (v.namespaces.map namespaceForm))]

def changeForm (form : V → J) (c : ViewChange V) : J := .obj (
  (bs "op", .str c.op) ::
  ((c.ruleID.toList.map fun i => (bs "ruleID", .str i)) ++ (c.ruleData.toList.map fun v => (bs "ruleData", form v))))

def changesForm (x : XTime) (c : ViewChanges) : J :=
  .obj [(bs "namespace", .str c.namespace_), (bs "mappingRuleChanges", .arr (c.mapping.map (changeForm (mappingForm x)))),
    (bs "rollupRuleChanges", .arr (c.rollup.map (changeForm (rollupForm x))))]

/-- The text of a policy: its storage policy, and behind a bar the words of the types unless there are none. -/
def fullPolicyText (x : XTime) (p : Policy) : Bytes :=
  policyText x p.sp ++
    (if p.aggID = 0 then [] else bs "|" ++ typesText (((List.range 64).filter p.aggID.getLsbD).map Int.ofNat))

def stagedForm (x : XTime) (p : StagedPolicies) : J :=
  .obj [(bs "cutoverNanos", .num p.cutoverNanos), (bs "tombstoned", .bool p.tombstoned),
    (bs "policies", .arr (p.policies.map fun q => .str (fullPolicyText x q)))]

end Verif.Spec.Json
