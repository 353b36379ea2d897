import Verif.Model.TagsFilter
import Verif.Spec.Id
/- Tag filters, independent of the matching and parsing algorithms. -/
namespace Verif.Spec.TagsFlt
open Verif.Flt Verif.TagsFlt

/-- A filter value accepts a string. -/
def Accepts (fv : FilterValue) (v : Bytes) : Prop :=
  ∃ f, newFilterFromFilterValue fv = .ok f ∧ f.matchesVal v = .ok true

/-- One entry of a tags filter holds for a metric: for the name key the name is accepted, for another key the
first tag of that name exists and its value is accepted. -/
def Holds (nameKey name : Bytes) (tags : List (Bytes × Bytes)) (e : Bytes × FilterValue) : Prop :=
  (e.1 = nameKey ∧ Accepts e.2 name) ∨
  (e.1 ≠ nameKey ∧ ∃ v, Spec.Id.lookup e.1 tags = some v ∧ Accepts e.2 v)

/-- Tags in ascending order of their names. -/
def Ascending (tags : List (Bytes × Bytes)) : Prop := tags.Pairwise fun a b => bytesLt b.1 a.1 = false

/-- The words of a tag filter text: what is between single spaces, without surrounding white space. -/
def tokens (s : Bytes) : List Bytes := ((splitOn 32 s).map trimSpace).filter (fun t => decide (t ≠ []))

/-- Text of an entry. -/
def entryText (e : Bytes × FilterValue) : Bytes := e.1 ++ 58 :: e.2.pattern

/-- Which maps can come out of parsing. -/
def GoodMap (m : TagFilterValueMap) : Prop :=
  (∀ e ∈ m, e.1 ≠ [] ∧ e.2.pattern ≠ [] ∧ 58 ∉ e.1 ∧ 58 ∉ e.2.pattern ∧ e.2.negate = false) ∧
  (m.map (·.1)).Nodup

/-- Which maps can be printed: no space inside, no white space at the outer ends of an entry. -/
def Printable (m : TagFilterValueMap) : Prop :=
  ∀ e ∈ m, 32 ∉ e.1 ∧ 32 ∉ e.2.pattern ∧ (∀ w ∈ spaces, ¬ w <+: e.1) ∧ ∀ w ∈ spaces, ¬ w <:+ e.2.pattern

/-- Printed map. -/
def printMap (m : TagFilterValueMap) : Bytes := joinWith 32 (m.map entryText)

end Verif.Spec.TagsFlt
