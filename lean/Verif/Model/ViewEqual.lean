import Verif.Model.RuleSet
/-
Model of the comparisons in rules/view/mapping.go and rules/view/rollup.go.
A nil receiver or argument is `none`.
-/
namespace Verif.RuleSet
open Verif.Policy Verif.Rules

/-- `MappingRule.Equal`, rules/view/mapping.go:43-56. -/
def MappingView.equal : (m other : Option MappingView) → Bool
  | none, none => true
  | none, some _ => false
  | some _, none => false
  | some m, some other =>
    m.id == other.id && m.name == other.name && m.filter == other.filter && m.aggID == other.aggID &&
      storagePoliciesEqual m.storagePolicies other.storagePolicies && m.drop == other.drop

/-- `RollupTarget.Equal`, rules/view/rollup.go:35-43. -/
def targetEqual : (t other : Option RollupTarget) → Bool
  | none, none => true
  | none, some _ => false
  | some _, none => false
  | some t, some other =>
    Pipe.pipelineEqual t.pipeline other.pipeline && storagePoliciesEqual t.storagePolicies other.storagePolicies

/-- `rollupTargets.Equal`, rules/view/rollup.go:77-87. -/
def targetsEqual (t other : List RollupTarget) : Bool :=
  listEqualBy (fun a b => targetEqual (some a) (some b)) t other

/-- `RollupRule.Equal`, rules/view/rollup.go:58-69. -/
def RollupView.equal : (r other : Option RollupView) → Bool
  | none, none => true
  | none, some _ => false
  | some _, none => false
  | some r, some other =>
    r.id == other.id && r.name == other.name && r.filter == other.filter && targetsEqual r.targets other.targets

end Verif.RuleSet
