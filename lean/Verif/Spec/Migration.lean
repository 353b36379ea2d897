import Verif.Model.Msgpack
import Verif.Spec.Messages
/-
Specification of the conversion of policies to metadata, independent of the code.
-/
namespace Verif.Spec.Mig
open Verif.Policy Verif.Meta
open Verif.MP (StagedPolicies Sample)
open Verif.Spec.Msg (Message)

/-- The different elements of a list, in the order in which they first appear. -/
def firsts [DecidableEq α] : List α → List α
  | [] => []
  | a :: l => a :: (firsts l).filter (fun b => decide (b ≠ a))

/-- The storage policies given for an aggregation identifier. -/
def storagesOf (ps : List Policy) (id : Agg.ID) : List StoragePolicy := (ps.filter fun p => decide (p.aggID = id)).map (·.sp)

/-- The pipelines for a list of policies: one for each aggregation identifier, with its storage policies. -/
def grouped (ps : List Policy) : List PipelineMetadata :=
  (firsts (ps.map (·.aggID))).map fun id => { aggID := id, storagePolicies := firsts (storagesOf ps id) }

/-- A stage; one without policies means the default. -/
def staged (s : StagedPolicies) : StagedMetadata :=
  { cutoverNanos := s.cutoverNanos, tombstoned := s.tombstoned, pipelines := if s.policies = [] then [{}] else grouped s.policies }

/-- A metric with policies as a message with metadata. -/
def message (m : Sample) (pl : List StagedPolicies) : Message := match m with
  | .counter c => .counter ⟨c, pl.map staged⟩
  | .timer t => .batchTimer ⟨t, pl.map staged⟩
  | .gauge g => .gauge ⟨g, pl.map staged⟩

end Verif.Spec.Mig
