import Verif.Model.MsgpackAgg
/-
Model of encoding/msgpack: base_encoder.go, unaggregated_encoder.go and aggregated_encoder.go as programs that call a buffered encoder
which may fail.  (Verif.Model.Msgpack and Verif.Model.MsgpackAgg have the bytes they write if it does not.)

A buffered encoder is an interface (encoding/msgpack/types.go:35-73): whether a call of it fails may depend on all calls before.  The
aggregated encoder has a buffered encoder of its own for the raw bytes of a metric, on a `bytes.Buffer`, which does not fail; these bytes
are those of Verif.Model.MsgpackAgg here.  `writeRaw` is only called on that one.
-/
namespace Verif.MP
open Verif.Policy Verif.Meta Verif.Wire Verif.Msg

/-- The calls of a buffered encoder: `EncodeInt64`, `EncodeBool`, `EncodeFloat64`, `EncodeBytes`, `EncodeArrayLen`. -/
inductive Put where
  | int (v : Int)
  | bool (b : Bool)
  | float (v : F64)
  | bytes (b : Option Bytes)
  | arrayLen (n : Nat)
  deriving DecidableEq

/-- `baseEncoder`, encoding/msgpack/base_encoder.go:39-50: the buffered encoder - which of its calls fail, with what error, and the calls
that were made - and the error. -/
structure BaseEnc where
  fails : List Put → Put → Option Nat
  calls : List Put := []
  err : Option Nat := none

/-- `encodeVarintInternal` to `encodeArrayLenInternal`, encoding/msgpack/base_encoder.go:167-210. -/
def BaseEnc.emit (p : Put) (s : BaseEnc) : BaseEnc :=
  if s.err.isSome then s else { s with calls := s.calls ++ [p], err := s.fails s.calls p }

/-- A part of an encoder. -/
abbrev Enc := BaseEnc → BaseEnc

def Enc.all (es : List Enc) : Enc := fun s => es.foldl (fun s e => e s) s

/-- `encodeVarint`, `encodeVersion`, `encodeObjectType`, encoding/msgpack/base_encoder.go:70, 71, 74. -/
def Enc.int (v : Int) : Enc := .emit (.int v)
def Enc.bool (b : Bool) : Enc := .emit (.bool b)
def Enc.float (v : F64) : Enc := .emit (.float v)
def Enc.bytes (b : Option Bytes) : Enc := .emit (.bytes b)

/-- `encodeArrayLen`, encoding/msgpack/base_encoder.go:79. -/
def Enc.arrayLen (n : Nat) : Enc := .emit (.arrayLen n)

/-- `encodeNumObjectFields`, encoding/msgpack/base_encoder.go:72. -/
def Enc.fields (t : Int) : Enc := Enc.arrayLen (numFieldsForType t)

/-- `encodeRawID`, encoding/msgpack/base_encoder.go:73. -/
def Enc.rawID (isNil : Bool) (id : Bytes) : Enc := Enc.bytes (if isNil && id.isEmpty then none else some id)

/-- `encodeCompressedAggregationTypes`, encoding/msgpack/base_encoder.go:101-122. -/
def Enc.aggID (id : Agg.ID) : Enc :=
  if id.isDefault then .all [.fields defaultAggregationID, .int defaultAggregationID]
  else .all [.fields shortAggregationID, .int shortAggregationID, .int id.toInt]

/-- `encodeResolution`, encoding/msgpack/base_encoder.go:130-147. -/
def Enc.resolution (u : Units) (r : Resolution) : Enc := fun s =>
  if s.err.isSome then s
  else match valueFromResolution u r with
    | some v => Enc.all [.fields knownResolutionType, .int knownResolutionType, .int v] s
    | none => Enc.all [.fields unknownResolutionType, .int unknownResolutionType, .int r.window, .int r.precision] s

/-- `encodeRetention`, encoding/msgpack/base_encoder.go:149-165. -/
def Enc.retention (r : Int) : Enc := fun s =>
  if s.err.isSome then s
  else match valueFromRetention r with
    | some v => Enc.all [.fields knownRetentionType, .int knownRetentionType, .int v] s
    | none => Enc.all [.fields unknownRetentionType, .int unknownRetentionType, .int r] s

/-- `encodeStoragePolicyInternal`, encoding/msgpack/base_encoder.go:124-128. -/
def Enc.storagePolicy (u : Units) (p : StoragePolicy) : Enc :=
  .all [.fields storagePolicyType, .resolution u p.resolution, .retention p.retention]

/-- `encodePolicyInternal`, encoding/msgpack/base_encoder.go:95-99. -/
def Enc.policy (u : Units) (p : Policy) : Enc := .all [.fields policyType, .storagePolicy u p.sp, .aggID p.aggID]

/-- `encodeStagedPolicies`, encoding/msgpack/unaggregated_encoder.go:186-195. -/
def Enc.stagedPolicies (u : Units) (p : StagedPolicies) : Enc :=
  .all [.fields stagedPoliciesType, .int p.cutoverNanos, .bool p.tombstoned, .arrayLen p.policies.length, .all (p.policies.map (.policy u))]

/-- `encodePoliciesList`, encoding/msgpack/unaggregated_encoder.go:171-184. -/
def Enc.policiesList (u : Units) (pl : List StagedPolicies) : Enc :=
  if isDefaultList pl then .all [.fields defaultPoliciesListType, .int defaultPoliciesListType]
  else .all [.fields customPoliciesListType, .int customPoliciesListType, .arrayLen pl.length, .all (pl.map (.stagedPolicies u))]

/-- `encodeCounter`, `encodeBatchTimer`, `encodeGauge`, encoding/msgpack/unaggregated_encoder.go:150-169. -/
def Enc.sample (isNil : Bool) : Sample → Enc
  | .counter c => .all [.fields counterType, .rawID isNil c.id, .int c.value]
  | .timer t => .all [.fields timerType, .rawID isNil t.id, .arrayLen t.values.length, .all (t.values.map .float)]
  | .gauge g => .all [.fields gaugeType, .rawID isNil g.id, .float g.value]

/-- `encodeRootObject`, encoding/msgpack/unaggregated_encoder.go:126-130, aggregated_encoder.go:120-124. -/
def Enc.rootObject (t : Int) : Enc := .all [.int 1, .fields rootObjectType, .int t]

/-- The object types of a metric, alone and with its policies. -/
def Sample.type : Sample → Int
  | .counter _ => counterType
  | .timer _ => timerType
  | .gauge _ => gaugeType

def Sample.typeWithPolicies : Sample → Int
  | .counter _ => counterWithPoliciesListType
  | .timer _ => batchTimerWithPoliciesListType
  | .gauge _ => gaugeWithPoliciesListType

/-- The messages of both encoders; of an aggregated metric, the raw bytes. -/
inductive EncMsg where
  | metric (isNil : Bool) (m : Sample)
  | withPolicies (isNil : Bool) (m : Sample) (pl : List StagedPolicies)
  | raw (data : Bytes) (p : StoragePolicy)
  | rawAt (data : Bytes) (p : StoragePolicy) (encodedAt : Int)

/-- What the calls for them do after the check, encoding/msgpack/unaggregated_encoder.go:72-148, aggregated_encoder.go:68-118, 149-171. -/
def EncMsg.enc (u : Units) : EncMsg → Enc
  | .metric isNil m => .all [.rootObject m.type, .sample isNil m]
  | .withPolicies isNil m pl => .all [.rootObject m.typeWithPolicies, .fields m.typeWithPolicies, .sample isNil m, .policiesList u pl]
  | .raw data p => .all [.rootObject rawMetricWithStoragePolicyType, .fields rawMetricWithStoragePolicyType, .bytes (some data), .storagePolicy u p]
  | .rawAt data p t => .all [.rootObject rawMetricWithStoragePolicyAndEncodeTimeType, .fields rawMetricWithStoragePolicyAndEncodeTimeType,
      .bytes (some data), .storagePolicy u p, .int t]

/-- The calls for a message: `EncodeCounter` and so on; the error they return. -/
def BaseEnc.encode (u : Units) (s : BaseEnc) (m : EncMsg) : Option Nat × BaseEnc :=
  if s.err.isSome then (s.err, s)
  else
    let s := m.enc u s
    (s.err, s)

/-- `newBaseEncoder`, encoding/msgpack/base_encoder.go:52-65: the buffered encoder, with the calls that were made of it before. -/
def newEnc (fails : List Put → Put → Option Nat) (calls : List Put) : BaseEnc := { fails, calls }

/-- `Reset` to another buffered encoder, encoding/msgpack/base_encoder.go:83-86. -/
def BaseEnc.reset (s : BaseEnc) (fails : List Put → Put → Option Nat) (calls : List Put) : BaseEnc := { s with fails, calls, err := none }

end Verif.MP
