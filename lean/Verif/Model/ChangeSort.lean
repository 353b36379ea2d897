import Verif.Model.Json
/-
Model of the orderings in rules/view/changes/{mapping,rollup,ruleset}.go and rules/view/ruleset.go.
`sort.Sort` is not modelled as an algorithm: it returns some arrangement of the elements in which no element is less than the
one before it, if the given ordering allows one (`Sorts` in Spec/ChangeSort.lean).
-/
namespace Verif.Json
open Verif.RuleSet

/-- `mappingRuleChangesByOpAscNameAscIDAsc.Less`, rules/view/changes/mapping.go:36-53, and
`rollupRuleChangesByOpAscNameAscIDAsc.Less`, rules/view/changes/rollup.go:36-53 (the same but for the type of the data). -/
def changeLess (name : V → Bytes) (a b : ViewChange V) : Bool :=
  if bytesLt a.op b.op then true
  else if bytesLt b.op a.op then false
  else match a.ruleData, b.ruleData with
    | some d, some e => bytesLt (name d) (name e)
    | _, _ => match a.ruleID, b.ruleID with
      | some i, some j => bytesLt i j
      | _, _ => false

/-- `MappingRulesByNameAsc.Less`, rules/view/mapping.go:67, and `RollupRulesByNameAsc.Less`, rules/view/rollup.go:94. -/
def nameLess (name : V → Bytes) (a b : V) : Bool := bytesLt (name a) (name b)

end Verif.Json
