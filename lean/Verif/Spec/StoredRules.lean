import Verif.Model.Namespace
import Verif.Spec.Messages
/- The range of numbers in rule sets and namespaces. -/
namespace Verif.Spec.StoredRules
open Verif.Policy Verif.Rules Verif.RuleSet Verif.NS Verif.Spec.Msg

/-- All numbers of a rule set are in the range of their Go types, which is so for every rule set of the program. -/
structure InRange (x : XTime) (rs : RuleSet) : Prop where
  created : Int64 rs.createdAtNanos
  updated : Int64 rs.lastUpdatedAtNanos
  cutover : Int64 rs.cutoverNanos
  mapping : ∀ r ∈ rs.mappingRules, ∀ s ∈ r.snapshots, Int64 s.cutoverNanos ∧ Int64 s.lastUpdatedAtNanos ∧
    ∀ p ∈ s.storagePolicies, PolicyRange x p
  rollup : ∀ r ∈ rs.rollupRules, ∀ s ∈ r.snapshots, Int64 s.cutoverNanos ∧ Int64 s.lastUpdatedAtNanos ∧
    ∀ t ∈ s.targets, ∀ p ∈ t.storagePolicies, PolicyRange x p

/-- The same for namespaces. -/
def NamespacesInRange (nss : Namespaces) : Prop := ∀ n ∈ nss.namespaces, ∀ s ∈ n.snaps, Int64 s.lastUpdatedAtNanos

end Verif.Spec.StoredRules
