import Verif.Model.ActiveRuleSet
/-
Callers that resolve the drop policies of the answers from one match result.

`ForExistingIDAt` returns a part of the slice in the match result, which a cache hands to all its callers, and
`StagedMetadatas.ApplyOrRemoveDropPolicies` works in place (metadata/metadata.go:459-465).  A simplification: the pipelines of each
stage are values here; the code compacts them in place too, in an array which only that stage has.
-/
namespace Verif.Meta

/-- The array behind `sms` after `sms.ApplyOrRemoveDropPolicies()`, metadata/metadata.go:429-478. -/
def stagedArray (sms : List StagedMetadata) : List StagedMetadata :=
  if sms.length = 0 then sms
  else (stagedLoop sms.length { arr := sms, len := sms.length, drops := 0, nonDrops := 0, earliest := {} }).arr

end Verif.Meta

namespace Verif.Active
open Verif.Meta

/-- A caller takes the stages at `t` of a match result, rules/match_result.go:93-95 and 107-117 (the end of its array), and resolves
their drop policies: what the caller gets, and what becomes of the array. -/
def resolveAt (arr : List StagedMetadata) (t : Int) : (List StagedMetadata × DropResult) × List StagedMetadata :=
  let sms := activeStagedMetadatasAt arr t
  (applyStaged sms, arr.take (arr.length - sms.length) ++ stagedArray sms)

/-- Callers one after the other, each at its time. -/
def resolves : List StagedMetadata → List Int → List StagedMetadata
  | arr, [] => arr
  | arr, t :: ts => resolves (resolveAt arr t).2 ts

end Verif.Active
