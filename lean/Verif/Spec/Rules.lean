import Verif.Model.ActiveRuleSet
/- Independent specification of which rules apply to a metric at a time. -/
namespace Verif.Spec.Rules
open Verif.Agg Verif.Policy Verif.Meta Verif.Rules Verif.Active

variable {S : Type} [Snap S]

/-- The snapshot in force at time `t`: the last one added among those that have cut over. -/
def inForce (snaps : List S) (t : Int) : Option S :=
  (snaps.filter (fun s => decide (Snap.cutover s ≤ t))).getLast?

/-- The snapshots in force at `t`, one per rule that has one, in rule order. -/
def current (rules : List (Rule S)) (t : Int) : List S := rules.filterMap fun r => inForce r.snapshots t

/-- The mapping rule snapshots that apply to a metric at a time (deleted rules included). -/
def matchingM (env : Env) (rules : List MappingRule) (id : Bytes) (t : Int) : List MappingSnapshot :=
  (current rules t).filter fun s => env.filterMatches s.filter id

/-- The rollup rule snapshots that apply to a metric at a time (deleted rules included). -/
def matchingR (env : Env) (rules : List RollupRule) (id : Bytes) (t : Int) : List RollupSnapshot :=
  (current rules t).filter fun s => env.filterMatches s.filter id

/-- Those not deleted. -/
def live (l : List S) : List S := l.filter fun s => !Snap.tombstoned s

/-- The last of the times, not before 0. -/
def latest (ts : List Int) : Int := ts.foldl max 0

/-- The pipeline a mapping rule asks for. -/
def mappingPipeline (s : MappingSnapshot) : PipelineMetadata :=
  { aggID := s.aggID, storagePolicies := s.storagePolicies, drop := s.drop }

/-- The times at which some rule changes. -/
def IsRuleTime (ms : List MappingRule) (rs : List RollupRule) (c : Int) : Prop :=
  (∃ r ∈ ms, ∃ s ∈ r.snapshots, s.cutoverNanos = c) ∨ (∃ r ∈ rs, ∃ s ∈ r.snapshots, s.cutoverNanos = c)

/-- The history of a rule is in time order. -/
def TimeOrdered (snaps : List S) : Prop := snaps.Pairwise fun a b => Snap.cutover a ≤ Snap.cutover b

end Verif.Spec.Rules
