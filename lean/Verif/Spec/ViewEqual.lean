import Verif.Model.ViewEqual
import Verif.Spec.RuleOrder
/- What the comparison of views is about, and what it means for two rule sets to be shown the same way. -/
namespace Verif.Spec.ViewEqual
open Verif.Agg Verif.Policy Verif.Rules Verif.Active Verif.RuleSet Verif.Spec.RuleOrder

/-- Two steps of a rollup pipeline that say the same: the same kind with the same payload of that kind, the tags of a
rollup in any order. -/
def SameOp (u v : Pipe.OpUnion) : Prop :=
  u.type = v.type ∧ (u.type = 1 → u.aggregation = v.aggregation) ∧ (u.type = 2 → u.transformation = v.transformation) ∧
  (u.type = 3 → u.rollup.newName = v.rollup.newName ∧ u.rollup.aggID = v.rollup.aggID ∧ u.rollup.tags.Perm v.rollup.tags)

/-- Two targets that say the same. -/
def SameTarget (t t' : RollupTarget) : Prop :=
  AllPairs SameOp t.pipeline t'.pipeline ∧ t.storagePolicies.Perm t'.storagePolicies

/-- Two mapping rules that say the same, whoever wrote them, whenever they came into force, deleted or not. -/
def SameMapping (m m' : MappingView) : Prop :=
  m.id = m'.id ∧ m.name = m'.name ∧ m.filter = m'.filter ∧ m.aggID = m'.aggID ∧
  m.storagePolicies.Perm m'.storagePolicies ∧ m.drop = m'.drop

/-- Two rollup rules that say the same. -/
def SameRollup (r r' : RollupView) : Prop :=
  r.id = r'.id ∧ r.name = r'.name ∧ r.filter = r'.filter ∧ AllPairs SameTarget r.targets r'.targets

/-- Both absent, or both present and the same. -/
def Opt {α : Type} (R : α → α → Prop) : Option α → Option α → Prop
  | none, none => True
  | some a, some b => R a b
  | _, _ => False

/-- Two mapping rules all of whose versions are shown as equal, came into force at the same times, and were deleted at the
same times. -/
def ShownAlikeM (r r' : MappingRule) : Prop :=
  AllPairs (fun s s' => MappingView.equal (some (mappingSnapView r.uuid s)) (some (mappingSnapView r'.uuid s')) = true ∧
    s.cutoverNanos = s'.cutoverNanos ∧ s.tombstoned = s'.tombstoned) r.snapshots r'.snapshots

/-- The same for rollup rules. -/
def ShownAlikeR (r r' : RollupRule) : Prop :=
  AllPairs (fun s s' => RollupView.equal (some (rollupSnapView r.uuid s)) (some (rollupSnapView r'.uuid s')) = true ∧
    s.cutoverNanos = s'.cutoverNanos ∧ s.tombstoned = s'.tombstoned) r.snapshots r'.snapshots

/-- Rollup identifiers with the same metadata but for the order of pipelines. -/
def SameRolled (a b : IDWithMetadatas) : Prop := a.id = b.id ∧ AllPairs SameStage a.metadatas b.metadatas

end Verif.Spec.ViewEqual
