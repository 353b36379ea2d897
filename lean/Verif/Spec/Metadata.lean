import Verif.Model.Metadata
/- Independent specification of drop policies on metadata (values: 0 none, 1 must drop, 2 drop if it is
the only match). -/
namespace Verif.Spec
open Verif.Meta

/-- The drop policy values that exist. -/
def ValidDrop (m : PipelineMetadata) : Prop := m.drop = 0 ∨ m.drop = 1 ∨ m.drop = 2

/-- The metric is dropped: something says it must be, or everything there is (and there is something)
asks for a drop. -/
def dropEffective (ps : List PipelineMetadata) : Bool :=
  ps.any (fun m => m.drop == 1) || (!ps.isEmpty && ps.all (fun m => m.drop != 0))

/-- What the pipelines become. -/
def resolve (ps : List PipelineMetadata) : List PipelineMetadata :=
  if dropEffective ps then [{ drop := 1 }] else ps.filter (fun m => m.drop == 0)

def resolveStage (s : StagedMetadata) : StagedMetadata := { s with pipelines := resolve s.pipelines }

end Verif.Spec
