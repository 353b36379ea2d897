import Verif.Spec.Rules
/- What it means for two match results to say the same. -/
namespace Verif.Spec.RuleOrder
open Verif.Agg Verif.Policy Verif.Meta Verif.Rules Verif.Active

/-- Two steps of an applied pipeline that do the same. -/
def SameStep (u v : Applied.OpUnion) : Prop :=
  u.type = v.type ∧ (u.type = Pipe.TransformationOpType → u.transformation = v.transformation) ∧
  (u.type = Pipe.RollupOpType → u.rollup = v.rollup)

/-- Two lists of the same length, related position by position. -/
def AllPairs {α : Type} (R : α → α → Prop) : List α → List α → Prop
  | [], [] => True
  | a :: l, b :: r => R a b ∧ AllPairs R l r
  | _, _ => False

/-- Two pipelines that do the same: the same aggregations, storage policies (in any order), steps and drop policy. -/
def Alike (p q : PipelineMetadata) : Prop :=
  p.aggID = q.aggID ∧ p.storagePolicies.Perm q.storagePolicies ∧ AllPairs SameStep p.pipeline q.pipeline ∧ p.drop = q.drop

/-- The same sets of pipelines: one can be put in an order in which they are alike one by one. -/
def SamePipelines (a b : List PipelineMetadata) : Prop := ∃ b', b'.Perm b ∧ AllPairs Alike a b'

/-- The same metadata but for the order of the pipelines. -/
def SameStage (a b : StagedMetadata) : Prop :=
  a.cutoverNanos = b.cutoverNanos ∧ a.tombstoned = b.tombstoned ∧ SamePipelines a.pipelines b.pipelines

end Verif.Spec.RuleOrder
