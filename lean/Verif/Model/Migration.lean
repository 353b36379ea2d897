import Verif.Model.Msgpack
import Verif.Model.ProtoIterator
/-
Model of encoding/migration: streams of msgpack and protobuf messages.
-/
namespace Verif.Mig
open Verif.Policy Verif.Meta Verif.Wire Verif.Msg
open Verif.MP (StagedPolicies Lib Units)

/-- The index of the first pipeline with the aggregation identifier, if there is one, encoding/migration/convert.go:96-102. -/
def findPipeline (ps : List PipelineMetadata) (id : Agg.ID) : Option Nat := ps.findIdx? fun p => id == p.aggID

/-- The body of the loop of `toMetadata`, encoding/migration/convert.go:93-129. -/
def addPolicy (ps : List PipelineMetadata) (p : Policy) : List PipelineMetadata :=
  let found := findPipeline ps p.aggID
  let ps := if found.isNone then ps ++ [{ aggID := p.aggID }] else ps
  let i := found.getD (ps.length - 1)
  match ps[i]? with
  | none => ps
  | some m =>
    if m.storagePolicies.any (fun sp => sp == p.sp) then ps
    else ps.set i { m with storagePolicies := m.storagePolicies ++ [p.sp] }

/-- `toMetadata`, encoding/migration/convert.go:91-131: the pipelines of the metadata. -/
def toMetadata (policies : List Policy) : List PipelineMetadata := policies.foldl addPolicy []

/-- `ToStagedMetadatas`, encoding/migration/convert.go:70-88; the policies are the default ones if there are none,
policy/staged_policy.go:62-64, 99-101. -/
def toStagedMetadatas (pl : List StagedPolicies) : List StagedMetadata :=
  pl.map fun sp =>
    { cutoverNanos := sp.cutoverNanos, tombstoned := sp.tombstoned,
      pipelines := if sp.policies.length = 0 then defaultPipelineMetadatas else toMetadata sp.policies }

/-- `toUnaggregatedMessageUnion`, encoding/migration/convert.go:33-66. -/
def toUnion (m : MetricUnion) (pl : List StagedPolicies) : Option Union :=
  let md := toStagedMetadatas pl
  if m.type = CounterType then some { type := 1, counter := ⟨m.counter, md⟩ }
  else if m.type = TimerType then some { type := 2, batchTimer := ⟨m.batchTimer, md⟩ }
  else if m.type = GaugeType then some { type := 3, gauge := ⟨m.gauge, md⟩ }
  else none

/-- Errors: of the iterator itself, or of the two it uses. -/
inductive Err where
  | eof
  | unknownType
  | msgpack (e : MP.Err)
  | protobuf (e : PIter.Err)
  deriving DecidableEq

/-- `unaggregatedIterator`, encoding/migration/unaggregated_iterator.go:46-55.  The reader is shared with the two iterators: the
model gives them the bytes that are left before they are used and takes back what they leave. -/
structure Iter where
  reader : Bytes
  msgpackIt : Option MP.Iter
  protobufIt : Option PIter.Iter
  msg : Union := {}
  closed : Bool := false
  err : Option Err := none

/-- `NewUnaggregatedIterator`, encoding/migration/unaggregated_iterator.go:57-70. -/
def new (reader : Bytes) (ignoreHigherVersion : Bool) (maxMessageSize : Int) (buf : Bytes) : Iter :=
  { reader, msgpackIt := some (MP.new reader ignoreHigherVersion), protobufIt := some (PIter.new reader maxMessageSize buf) }

/-- `Err`, encoding/migration/unaggregated_iterator.go:107-115; a method of a nil interface panics. -/
def Iter.error (it : Iter) : Out (Option Err) :=
  match it.err with
  | some e => .ok (some e)
  | none => match it.msgpackIt with
    | none => .panic
    | some mp => match mp.base.err with
      | some e => .ok (some (.msgpack e))
      | none => match it.protobufIt with
        | none => .panic
        | some pb => .ok (pb.err.map .protobuf)

/-- The protocol of a message by its first byte, encoding/migration/unaggregated_iterator.go:143-154. -/
def isProtobuf (b : UInt8) : Bool := b &&& 1 == 0

/-- The case of msgpack, encoding/migration/unaggregated_iterator.go:80-92. -/
def nextMsgpack (l : Lib) (x : XTime) (u : Units) (it : Iter) : Out (Bool × Iter) :=
  match it.msgpackIt with
  | none => .panic
  | some mp => match MP.next l x u { mp with base := { mp.base with data := it.reader } } with
    | (ok, mp) =>
      let it := { it with reader := mp.base.data, msgpackIt := some mp }
      if ok then match toUnion mp.metric mp.policiesList with
        | none => .ok (false, { it with err := some .unknownType })
        | some m => .ok (true, { it with msg := m })
      else .ok (false, it)

/-- The case of protobuf, encoding/migration/unaggregated_iterator.go:93-98. -/
def nextProtobuf (x : XTime) (fresh : Nat → Bytes) (it : Iter) : Out (Bool × Iter) :=
  match it.protobufIt with
  | none => .panic
  | some pb => match PIter.next x fresh { pb with reader := it.reader } with
    | .panic => .panic
    | .err => .err
    | .ok (ok, pb) =>
      let it := { it with reader := pb.reader, protobufIt := some pb }
      if ok then .ok (true, { it with msg := pb.msg }) else .ok (false, it)

/-- `Next`, encoding/migration/unaggregated_iterator.go:72-103, with `decodeProtocolType`, 130-155: the first byte is read and put
back. -/
def next (l : Lib) (x : XTime) (u : Units) (fresh : Nat → Bytes) (it : Iter) : Out (Bool × Iter) :=
  if it.closed then .ok (false, it)
  else match it.error with
    | .panic => .panic
    | .err => .err
    | .ok (some _) => .ok (false, it)
    | .ok none => match it.reader with
      | [] => .ok (false, { it with err := some .eof })
      | b :: _ => if isProtobuf b then nextProtobuf x fresh it else nextMsgpack l x u it

/-- `Close`, encoding/migration/unaggregated_iterator.go:117-128. -/
def close (it : Iter) : Iter :=
  if it.closed then it else { it with closed := true, msgpackIt := none, protobufIt := none, msg := {}, err := none }

end Verif.Mig
