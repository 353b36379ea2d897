import Verif.Model.Pipeline
import Verif.Model.Transformation
import Verif.Model.TagsFilter
/-
Model of the `String` methods of pipelines (pipeline/type.go, pipeline/optype_string.go, pipeline/applied/type.go) and of filters
(filters/filter.go, filters/tags_filter.go).  `fmt.Fprintf` with `%s` and `%v` writes the bytes, or what `String` returns.
-/
namespace Verif
open Verif.Agg Verif.Policy

/-- The loops that write the parts of a list and, after all but the last, a separator: e.g. pipeline/type.go:293-298. -/
def joinText (sep : Bytes) : List Bytes → Bytes
  | [] => []
  | [x] => x
  | x :: y :: ys => x ++ sep ++ joinText sep (y :: ys)

namespace Pipe

/-- `_OpType_name` and `_OpType_index`, pipeline/optype_string.go:27-29. -/
def opTypeNameTable : Bytes := bs "UnknownOpTypeAggregationOpTypeTransformationOpTypeRollupOpType"
def opTypeIndexTable : List Nat := [0, 13, 30, 50, 62]

/-- `OpType.String`, pipeline/optype_string.go:31-36. -/
def opTypeString (t : Int) : Bytes :=
  if t < 0 ∨ t ≥ 4 then bs ("OpType(" ++ toString t ++ ")")
  else (opTypeNameTable.drop (opTypeIndexTable.getD t.toNat 0)).take
    (opTypeIndexTable.getD (t.toNat + 1) 0 - opTypeIndexTable.getD t.toNat 0)

/-- `AggregationOp.String`, pipeline/type.go:94-96. -/
def aggregationString (t : Int) : Bytes := Agg.typeString goOutOfRange t

/-- `TransformationOp.String`, pipeline/type.go:157-159, with `Type.String`, transformation/type_string.go:31-36. -/
def transformationString (t : Int) : Bytes := (Tf.typeString t).getD (goOutOfRange t)

/-- `RollupOp.String`, pipeline/type.go:288-302. -/
def RollupOp.string (op : RollupOp) : Bytes :=
  bs "{" ++ (bs "name: " ++ op.newName ++ bs ", ") ++ bs "tags: [" ++ joinText (bs ", ") op.tags ++ bs "], " ++
    (bs "aggregation: " ++ aggIDString op.aggID) ++ bs "}"

/-- `OpUnion.String`, pipeline/type.go:434-449. -/
def OpUnion.string (u : OpUnion) : Bytes :=
  bs "{" ++
    (if u.type = AggregationOpType then bs "aggregation: " ++ aggregationString u.aggregation
     else if u.type = TransformationOpType then bs "transformation: " ++ transformationString u.transformation
     else if u.type = RollupOpType then bs "rollup: " ++ u.rollup.string
     else bs "unknown op type: " ++ opTypeString u.type) ++ bs "}"

/-- `Pipeline.String`, pipeline/type.go:600-611. -/
def pipelineString (p : Pipeline) : Bytes :=
  bs "{operations: [" ++ joinText (bs ", ") (p.map OpUnion.string) ++ bs "]}"

end Pipe

namespace Applied

/-- `RollupOp.String`, pipeline/applied/type.go:60-62. -/
def RollupOp.string (op : RollupOp) : Bytes :=
  bs "{id: " ++ op.id ++ bs ", aggregation: " ++ aggIDString op.aggID ++ bs "}"

/-- `OpUnion.String`, pipeline/applied/type.go:118-131. -/
def OpUnion.string (u : OpUnion) : Bytes :=
  bs "{" ++
    (if u.type = Pipe.TransformationOpType then bs "transformation: " ++ Pipe.transformationString u.transformation
     else if u.type = Pipe.RollupOpType then bs "rollup: " ++ u.rollup.string
     else bs "unknown op type: " ++ Pipe.opTypeString u.type) ++ bs "}"

/-- `Pipeline.String`, pipeline/applied/type.go:216-227. -/
def pipelineString (p : Pipeline) : Bytes :=
  bs "{operations: [" ++ joinText (bs ", ") (p.map OpUnion.string) ++ bs "]}"

end Applied

namespace Flt

/-- The names of the operators, filters/filter.go:44-47. -/
def LogicalOp.string : LogicalOp → Bytes
  | .conjunction => bs "&&"
  | .disjunction => bs "||"

/-- `String` of the chain filters: filters/filter.go:370-372, 399, 456-466, 503-511, 560-562. -/
def ChainFilter.string (f : ChainFilter) : Bytes :=
  match f.kind with
  | .equality p => bs "Equals(\"" ++ p ++ bs "\")"
  | .anyChar => bs "AnyChar"
  | .singleRange ps negate =>
    (if negate then bs "Not(" else []) ++ bs "Range(\"" ++
      joinText (bs " " ++ LogicalOp.disjunction.string ++ bs " ") ps ++ bs "\")" ++ (if negate then bs ")" else [])
  | .singleCharSet p negate =>
    (if negate then bs "Not(" else []) ++ bs "Range(\"" ++ p ++ bs "\")" ++ (if negate then bs ")" else [])
  | .multiCharSequence ps => bs "Range(\"" ++ joinText [cComma] ps ++ bs "\")"

/-- `multiChainFilter.String`, filters/filter.go:594-618. -/
def chainString (filters : List ChainFilter) (seg : Seg) : Bytes :=
  (match seg with
    | .start => bs "StartsWith("
    | .stop => bs "EndsWith("
    | .middle => []) ++ joinText (bs " then ") (filters.map ChainFilter.string) ++
  (match seg with
    | .start => bs ")"
    | .stop => bs ")"
    | .middle => [])

mutual
/-- `String` of the filters: filters/filter.go:248, 261-263, 282-284, 299-301, 319-330, 594-618. -/
def Filter.string : Filter → Bytes
  | .allow => bs "All"
  | .equality p => bs "Equals(\"" ++ p ++ bs "\")"
  | .contains p => bs "Contains(\"" ++ p ++ bs "\")"
  | .negation f => bs "Not(" ++ f.string ++ bs ")"
  | .multi fs op => joinText (bs " " ++ op.string ++ bs " ") (filterStrings fs)
  | .chain fs seg _ => chainString fs seg

/-- The loop filters/filter.go:323-328 over the parts. -/
def filterStrings : List Filter → List Bytes
  | [] => []
  | f :: fs => f.string :: filterStrings fs
end

end Flt

namespace TagsFlt
open Flt

/-- `tagFilter.String`, filters/tags_filter.go:106-108. -/
def TagFilter.string (f : TagFilter) : Bytes := f.name ++ bs ":" ++ f.valueFilter.string

/-- `tagsFilter.String`, filters/tags_filter.go:170-187. -/
def TagsFilter.string (nameTagKey : Bytes) (f : TagsFilter) : Bytes :=
  let separator := bs " " ++ f.op.string ++ bs " "
  (match f.nameFilter with
    | none => []
    | some g => nameTagKey ++ bs ":" ++ g.string ++ (if f.tagFilters.length > 0 then separator else [])) ++
  joinText separator (f.tagFilters.map TagFilter.string)

end TagsFlt
end Verif
