import Verif.Model.Pipeline
import Verif.Model.TagsFilter
/-
Vocabulary of C111: the names, tags, identifiers and patterns that do not contain the punctuation of the texts.
-/
namespace Verif.Spec
open Verif.Agg

/-- The aggregation ID stands for a list of types. -/
def KnownID (id : Agg.ID) : Prop := ∃ ts, id.types = some ts

/-- The name has no comma, and the tags are not empty and have neither a comma nor a closing bracket. -/
def PlainRollup (r : Pipe.RollupOp) : Prop :=
  (44 : UInt8) ∉ r.newName ∧ (∀ t ∈ r.tags, t ≠ [] ∧ (44 : UInt8) ∉ t ∧ (93 : UInt8) ∉ t) ∧ KnownID r.aggID

/-- All rollup operations of the pipeline are plain. -/
def PlainPipeline (p : Pipe.Pipeline) : Prop := ∀ u ∈ p, u.type = 3 → PlainRollup u.rollup

/-- The identifiers of the applied pipeline have no closing brace. -/
def PlainApplied (p : Applied.Pipeline) : Prop := ∀ u ∈ p, u.type = 3 → (125 : UInt8) ∉ u.rollup.id ∧ KnownID u.rollup.aggID

/-- The pattern has neither an opening bracket nor a quote. -/
def PlainValue (v : Verif.Flt.FilterValue) : Prop := (91 : UInt8) ∉ v.pattern ∧ (34 : UInt8) ∉ v.pattern

/-- The name has neither a colon nor an opening parenthesis. -/
def PlainName (n : Bytes) : Prop := (58 : UInt8) ∉ n ∧ (40 : UInt8) ∉ n

/-- The names and patterns of the map are plain. -/
def PlainTags (m : List (Bytes × Verif.Flt.FilterValue)) : Prop := ∀ e ∈ m, PlainName e.1 ∧ PlainValue e.2

end Verif.Spec
