import Verif.Model.ValidatorConfig
import Verif.Model.Metadata
import Verif.Spec.TagsFilter
/- What a validator configuration permits, written without the options it is turned into. -/
namespace Verif.Spec.ValConfig
open Verif.Val Verif.Policy Verif.Meta

/-- What the configuration lists for a metric type: the last override for the type that lists anything, else the default. -/
def listed (pick : PoliciesConfig → Option (List α)) (c : Config) (t : Int) : List α :=
  ((c.overrides.filterMap fun o => if o.type = t then pick o.allowed else none).getLast?).getD ((pick c.default).getD [])

/-- The types of metrics with several aggregation types; timers if not configured. -/
def multiTypes (c : Config) : List Int := c.multi.getD [2]

/-- An aggregation ID, as the set of the numbers of its types, is permitted. -/
def AggPermitted (c : Config) (t : Int) (types : List Int) (id : BitVec 64) : Prop :=
  (∀ i : Nat, id.getLsbD i = true → (i : Int) ∈ types) ∧
  ∀ i j : Nat, id.getLsbD i = true → id.getLsbD j = true → i ≠ j → t ∈ multiTypes c

/-- A pipeline given to a metric of type `t` is permitted. -/
structure Permitted (c : Config) (t : Int) (p : PipelineMetadata) : Prop where
  storage : ∀ s ∈ p.storagePolicies, s ∈ listed (·.storage) c t
  first : AggPermitted c t (listed (·.first) c t) p.aggID
  later : ∀ op ∈ p.pipeline, op.type = 3 → AggPermitted c t (listed (·.nonFirst) c t) op.rollup.aggID
  level : ∀ op ∈ p.pipeline, op.type = 3 → ((p.pipeline.filter fun op => op.type == 3).length : Int) ≤ c.maxLevels.getD 1

/-- The metric with these tags may be of type `t`: its type tag says so, or it has none. -/
def MayBe (c : Config) (tags : List (Bytes × Bytes)) (t : Int) : Prop :=
  Spec.Id.lookup c.typeTag tags = some (typeString t) ∨ Spec.Id.lookup c.typeTag tags = none

end Verif.Spec.ValConfig
