import Verif.Base
/- Metric identifiers, independent of the code. -/
namespace Verif.Spec.Id

/-- Text of an identifier with the given name and tags, in that order. -/
def idText (name : Bytes) (tags : List (Bytes × Bytes)) : Bytes :=
  bs "m3+" ++ name ++ bs "+" ++ joinWith 44 (tags.map fun p => p.1 ++ 61 :: p.2)

/-- No separator can be confused: the name has no plus sign, no tag name has an equals sign, no tag value
has a comma. -/
def Clean (name : Bytes) (tags : List (Bytes × Bytes)) : Prop :=
  43 ∉ name ∧ ∀ p ∈ tags, 61 ∉ p.1 ∧ 44 ∉ p.2

/-- The value of the first tag of a name. -/
def lookup (n : Bytes) : List (Bytes × Bytes) → Option Bytes
  | [] => none
  | p :: ps => if p.1 = n then some p.2 else lookup n ps

end Verif.Spec.Id
