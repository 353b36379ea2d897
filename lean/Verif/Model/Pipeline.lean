import Verif.Model.Policy
/-
Model of packages `pipeline` (type.go), `pipeline/applied` (type.go) and the proto conversion of
`transformation` types (transformation/type.go).
-/
namespace Verif
open Verif.Agg Verif.Policy

/-! ### Generic slice reuse

`if cap(dst) >= n { dst = dst[:n] } else { dst = make([]T, n) }` – the idiom of all `ToProto`/`FromProto`
loops.  `backing` is the whole backing array of the reused slice (all `cap` elements, including stale
ones beyond its length). -/
def reuse (zero : α) (backing : List α) (n : Nat) : List α :=
  if n ≤ backing.length then backing.take n else List.replicate n zero

/-- `for i := 0; i < n; i++ { if err := convert(src[i], &dst[i]); err != nil { return err } }`. -/
def convLoop (conv : δ → σ → Option δ) : List δ → List σ → Option (List δ)
  | d :: ds, s :: ss => match conv d s with
    | none => none
    | some d' => match convLoop conv ds ss with
      | none => none
      | some ds' => some (d' :: ds')
  | _, _ => some []

/-- Element-wise equality loop with a length check (`for i := range a { if !a[i].Equal(b[i]) … }`). -/
def listEqualBy (eq : α → α → Bool) (a b : List α) : Bool :=
  if a.length != b.length then false else go a b
where
  go : List α → List α → Bool
  | x :: xs, y :: ys => if !(eq x y) then false else go xs ys
  | _, _ => true

/-- `Pipeline.SubPipeline`, pipeline/type.go:574-576 and pipeline/applied/type.go:212-214: `operations[start:stop]`.  `array` is what
the array of the operations holds from the first operation on, up to the capacity: Go checks the bounds against the capacity and
not the length.  `none` is the panic. -/
def subPipeline (array : List α) (start stop : Int) : Option (List α) :=
  if 0 ≤ start ∧ start ≤ stop ∧ stop ≤ array.length then some ((array.take stop.toNat).drop start.toNat) else none

namespace Pipe

/-- `transformation.Type`: Unknown 0, Absolute 1, PerSecond 2 (transformation/type.go:36-40).
`Type.ToProto`, transformation/type.go:98-108; the enum values are ABSOLUTE = 1, PERSECOND = 2. -/
def transToProto (t : Int) : Option Int :=
  if t = 1 then some 1 else if t = 2 then some 2 else none

/-- `Type.FromProto`, transformation/type.go:111-121. -/
def transFromProto (pb : Int) : Option Int :=
  if pb = 1 then some 1 else if pb = 2 then some 2 else none

/-- `RollupOp`, pipeline/type.go:199-206. -/
structure RollupOp where
  newName : Bytes := []
  tags : List Bytes := []
  aggID : Agg.ID := 0
  deriving DecidableEq, Repr

/-- Operation types, pipeline/type.go:48-53. -/
def UnknownOpType : Int := 0
def AggregationOpType : Int := 1
def TransformationOpType : Int := 2
def RollupOpType : Int := 3

/-- `OpUnion`, pipeline/type.go:353-358: a tag and all three payloads. -/
structure OpUnion where
  type : Int := 0
  aggregation : Int := 0
  transformation : Int := 0
  rollup : RollupOp := {}
  deriving DecidableEq, Repr

/-- `pipelinepb.RollupOp`. -/
structure PBRollupOp where
  newName : Bytes := []
  tags : List Bytes := []
  aggTypes : List Int := []
  deriving DecidableEq, Repr

/-- `pipelinepb.PipelineOp` (enum: AGGREGATION 1, TRANSFORMATION 2, ROLLUP 3; payloads are pointers). -/
structure PBOp where
  type : Int := 0
  aggregation : Option Int := none
  transformation : Option Int := none
  rollup : Option PBRollupOp := none
  deriving DecidableEq, Repr

/-- `RollupOp.SameTransform`, pipeline/type.go:232-250. -/
def RollupOp.sameTransform (a b : RollupOp) : Bool :=
  if !(a.newName == b.newName) then false
  else if a.tags.length != b.tags.length then false
  else allEq (sortBy bytesLt a.tags) (sortBy bytesLt b.tags)

/-- `RollupOp.Equal`, pipeline/type.go:253-258. -/
def RollupOp.equal (a b : RollupOp) : Bool :=
  if !(a.aggID == b.aggID) then false else a.sameTransform b

/-- `RollupOp.Clone`, pipeline/type.go:261-269 (deep copy; values are immutable here). -/
def RollupOp.clone (op : RollupOp) : RollupOp :=
  { newName := op.newName, tags := op.tags, aggID := op.aggID }

/-- `RollupOp.Proto`, pipeline/type.go:272-286. -/
def RollupOp.proto (op : RollupOp) : Option PBRollupOp :=
  match op.aggID.types with
  | none => none
  | some ts => match typesProto ts with
    | none => none
    | some is => some { newName := op.newName, tags := op.tags, aggTypes := is }

/-- `NewRollupOpFromProto`, pipeline/type.go:210-228: tags are sorted. -/
def newRollupOpFromProto : Option PBRollupOp → Option RollupOp
  | none => none
  | some pb => match newIDFromProto pb.aggTypes with
    | none => none
    | some id => some { newName := pb.newName, tags := sortBy bytesLt pb.tags, aggID := id }

/-- `NewOpUnionFromProto`, pipeline/type.go:361-380 (with the aggregation and transformation
constructors, 62-73 and 130-136, 167-173). On error the Go function also returns a partial value,
which every caller discards. -/
def newOpUnionFromProto (pb : PBOp) : Option OpUnion :=
  if pb.type = 1 then match pb.aggregation with
    | none => none
    | some t => (newTypeFromProto t).map fun t => { type := AggregationOpType, aggregation := t }
  else if pb.type = 2 then match pb.transformation with
    | none => none
    | some t => (transFromProto t).map fun t => { type := TransformationOpType, transformation := t }
  else if pb.type = 3 then
    (newRollupOpFromProto pb.rollup).map fun r => { type := RollupOpType, rollup := r }
  else none

/-- `OpUnion.Equal`, pipeline/type.go:383-396. -/
def OpUnion.equal (u v : OpUnion) : Bool :=
  if !(u.type == v.type) then false
  else if u.type = AggregationOpType then u.aggregation == v.aggregation
  else if u.type = TransformationOpType then u.transformation == v.transformation
  else if u.type = RollupOpType then u.rollup.equal v.rollup
  else true

/-- `OpUnion.Clone`, pipeline/type.go:399-410. -/
def OpUnion.clone (u : OpUnion) : OpUnion :=
  if u.type = AggregationOpType then { type := u.type, aggregation := u.aggregation }
  else if u.type = TransformationOpType then { type := u.type, transformation := u.transformation }
  else if u.type = RollupOpType then { type := u.type, rollup := u.rollup.clone }
  else { type := u.type }

/-- `OpUnion.Proto`, pipeline/type.go:413-432. -/
def OpUnion.proto (u : OpUnion) : Option PBOp :=
  if u.type = AggregationOpType then
    (typeProto u.aggregation).map fun p => { type := 1, aggregation := some p }
  else if u.type = TransformationOpType then
    (transToProto u.transformation).map fun p => { type := 2, transformation := some p }
  else if u.type = RollupOpType then
    u.rollup.proto.map fun p => { type := 3, rollup := some p }
  else none

/-- `Pipeline`, pipeline/type.go:524-527. -/
abbrev Pipeline := List OpUnion

/-- `NewPipelineFromProto`, pipeline/type.go:535-548 (`none` = nil message or error). -/
def newPipelineFromProtoOps : List PBOp → Option Pipeline
  | [] => some []
  | pb :: pbs => match newOpUnionFromProto pb with
    | none => none
    | some op => match newPipelineFromProtoOps pbs with
      | none => none
      | some ops => some (op :: ops)

def newPipelineFromProto : Option (List PBOp) → Option Pipeline
  | none => none
  | some pbs => newPipelineFromProtoOps pbs

/-- `Pipeline.Equal`, pipeline/type.go:560-570. -/
def pipelineEqual (p q : Pipeline) : Bool := listEqualBy OpUnion.equal p q

/-- `Pipeline.Clone`, pipeline/type.go:579-585. -/
def pipelineClone (p : Pipeline) : Pipeline := p.map OpUnion.clone

/-- `Pipeline.Proto`, pipeline/type.go:588-598. -/
def pipelineProto : Pipeline → Option (List PBOp)
  | [] => some []
  | op :: ops => match op.proto with
    | none => none
    | some pb => match pipelineProto ops with
      | none => none
      | some pbs => some (pb :: pbs)

end Pipe

namespace Applied

/-- `applied.RollupOp`, pipeline/applied/type.go:41-46. -/
structure RollupOp where
  id : Bytes := []
  aggID : Agg.ID := 0
  deriving DecidableEq, Repr

/-- `applied.OpUnion`, pipeline/applied/type.go:86-90; tags as in package `pipeline`. -/
structure OpUnion where
  type : Int := 0
  transformation : Int := 0
  rollup : RollupOp := {}
  deriving DecidableEq, Repr

/-- `pipelinepb.AppliedRollupOp`. -/
structure PBRollupOp where
  id : Bytes := []
  aggregationId : BitVec 64 := 0
  deriving DecidableEq, Repr

/-- `pipelinepb.AppliedPipelineOp` (enum: TRANSFORMATION 1, ROLLUP 2; payloads are pointers). -/
structure PBOp where
  type : Int := 0
  transformation : Option Int := none
  rollup : Option PBRollupOp := none
  deriving DecidableEq, Repr

/-- `RollupOp.Equal`, pipeline/applied/type.go:49-51. -/
def RollupOp.equal (a b : RollupOp) : Bool := a.aggID == b.aggID && a.id == b.id

/-- `OpUnion.Equal`, pipeline/applied/type.go:93-104. -/
def OpUnion.equal (u v : OpUnion) : Bool :=
  if !(u.type == v.type) then false
  else if u.type = Pipe.TransformationOpType then u.transformation == v.transformation
  else if u.type = Pipe.RollupOpType then u.rollup.equal v.rollup
  else true

/-- `OpUnion.Clone`, pipeline/applied/type.go:107-116. -/
def OpUnion.clone (u : OpUnion) : OpUnion :=
  if u.type = Pipe.TransformationOpType then { type := u.type, transformation := u.transformation }
  else if u.type = Pipe.RollupOpType then { type := u.type, rollup := u.rollup }
  else { type := u.type }

/-- `OpUnion.ToProto`, pipeline/applied/type.go:134-148. The destination is reset first, then fresh
payload objects are installed; the destination is therefore threaded through `reset`. -/
def PBOp.reset (_pb : PBOp) : PBOp := {}

def OpUnion.toProto (dst : PBOp) (u : OpUnion) : Option PBOp :=
  let pb := dst.reset
  if u.type = Pipe.TransformationOpType then
    (Pipe.transToProto u.transformation).map fun t => { pb with type := 1, transformation := some t }
  else if u.type = Pipe.RollupOpType then
    some { pb with type := 2, rollup := some { id := u.rollup.id, aggregationId := u.rollup.aggID } }
  else none

/-- `OpUnion.Reset`, pipeline/applied/type.go:151. -/
def OpUnion.reset (_u : OpUnion) : OpUnion := {}

/-- `OpUnion.FromProto`, pipeline/applied/type.go:154-166. -/
def OpUnion.fromProto (dst : OpUnion) (pb : PBOp) : Option OpUnion :=
  let u := dst.reset
  if pb.type = 1 then match pb.transformation with
    | none => none
    | some t => (Pipe.transFromProto t).map fun t =>
        { u with type := Pipe.TransformationOpType, transformation := t }
  else if pb.type = 2 then match pb.rollup with
    | none => none
    | some r => some { u with type := Pipe.RollupOpType, rollup := { id := r.id, aggID := r.aggregationId } }
  else none

/-- `applied.Pipeline`, pipeline/applied/type.go:169-172. -/
abbrev Pipeline := List OpUnion

/-- `Pipeline.Equal`, pipeline/applied/type.go:189-199. -/
def pipelineEqual (p q : Pipeline) : Bool := listEqualBy OpUnion.equal p q

/-- `Pipeline.Clone`, pipeline/applied/type.go:202-208. -/
def pipelineClone (p : Pipeline) : Pipeline := p.map OpUnion.clone

/-- `Pipeline.ToProto`, pipeline/applied/type.go:230-243. -/
def pipelineToProto (dst : List PBOp) (p : Pipeline) : Option (List PBOp) :=
  convLoop OpUnion.toProto (reuse {} dst p.length) p

/-- `Pipeline.FromProto`, pipeline/applied/type.go:246-259. -/
def pipelineFromProto (dst : Pipeline) (pb : List PBOp) : Option Pipeline :=
  convLoop OpUnion.fromProto (reuse {} dst pb.length) pb

end Applied
end Verif
