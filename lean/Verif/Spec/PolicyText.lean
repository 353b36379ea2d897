import Verif.Model.Policy
import Verif.Spec.Aggregation
/-
Specification of the texts of policies, independent of the code that reads them; the durations are those of `XTime`.
-/
namespace Verif.Spec.PolicyText
open Verif.Policy

/-- `d` or `d@p`: a window, and the length of a unit as the precision; without it the precision is the largest unit that fits. -/
def ReadsResolution (x : XTime) (s : Bytes) (r : Resolution) : Prop :=
  (64 ∉ s ∧ x.parseExt s = some r.window ∧ r.precision = x.maxUnit r.window) ∨
    ∃ a b d, s = a ++ bs "@" ++ b ∧ 64 ∉ a ∧ x.parseExt a = some r.window ∧ x.parseExt b = some d ∧
      x.unitFromDuration d = some r.precision

/-- `r:d`: a resolution and a retention, with a single colon. -/
def ReadsStorage (x : XTime) (s : Bytes) (p : StoragePolicy) : Prop :=
  ∃ a b, s = a ++ bs ":" ++ b ∧ 58 ∉ a ∧ 58 ∉ b ∧ ReadsResolution x a p.resolution ∧ x.parseExt b = some p.retention

/-- The identifier has exactly the types. -/
def HasTypes (id : BitVec 64) (ts : List Int) : Prop := ∀ i, id.getLsbD i = true ↔ (i : Int) ∈ ts

/-- A storage policy, or one and, after a bar, the words for at least one aggregation type. -/
def ReadsPolicy (x : XTime) (s : Bytes) (p : Policy) : Prop :=
  (124 ∉ s ∧ ReadsStorage x s p.sp ∧ p.aggID = 0) ∨
    ∃ a ts, s = a ++ bs "|" ++ typesText ts ∧ 124 ∉ a ∧ ReadsStorage x a p.sp ∧ ts ≠ [] ∧ (∀ t ∈ ts, ValidAggType t) ∧ HasTypes p.aggID ts

end Verif.Spec.PolicyText
