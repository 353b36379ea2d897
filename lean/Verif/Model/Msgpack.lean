import Verif.Model.Messages
/-
Model of encoding/msgpack: base_encoder.go, base_iterator.go, schema.go, unaggregated_encoder.go, unaggregated_iterator.go.

The library gopkg.in/vmihailenco/msgpack.v2 is not part of the repository: its functions are the parameter `Lib`, and what is
assumed of them is `Laws` (Verif.Spec.Msgpack).  The reader is the list of the bytes it has left.  Writing to a `bytes.Buffer`
does not fail, so that the encoder has no errors.  Slices that are reused by the iterator are values here: what an earlier
message left in them is cut off before use.  Slices that are nil or empty are not distinguished except where noted.
-/
namespace Verif.MP
open Verif.Policy Verif.Meta Verif.Wire Verif.Msg

/-- Errors: `io.EOF` and all others. -/
inductive Err where
  | eof
  | other
  deriving DecidableEq

/-- The functions of msgpack.v2 that are used; on an error the zero value is returned. -/
structure Lib where
  putInt : Int → Bytes
  putBool : Bool → Bytes
  putF64 : F64 → Bytes
  /-- `EncodeBytes`; `none` is a nil slice. -/
  putBytes : Option Bytes → Bytes
  putBytesLen : Nat → Bytes
  putArrayLen : Nat → Bytes
  getInt : Bytes → Except Err (Int × Bytes)
  getBool : Bytes → Except Err (Bool × Bytes)
  getF64 : Bytes → Except Err (F64 × Bytes)
  getBytes : Bytes → Except Err (Bytes × Bytes)
  /-- `DecodeBytesLen`, -1 for nil. -/
  getBytesLen : Bytes → Except Err (Int × Bytes)
  /-- `DecodeArrayLen`, -1 for nil. -/
  getArrayLen : Bytes → Except Err (Int × Bytes)
  skip : Bytes → Except Err Bytes

/-- The units of package m3x/time that occur in the tables of known resolutions. -/
structure Units where
  second : Nat
  minute : Nat

/-! ### Tables -/

def oneSecond : Int := 1000000000
def oneMinute : Int := 60 * oneSecond
def oneHour : Int := 60 * oneMinute

/-- `valuesToResolution`, policy/resolution.go:173-179. -/
def valueToResolution (u : Units) (v : Int) : Option Resolution :=
  if v = 1 then some ⟨oneSecond, u.second⟩
  else if v = 2 then some ⟨10 * oneSecond, u.second⟩
  else if v = 3 then some ⟨oneMinute, u.minute⟩
  else if v = 4 then some ⟨5 * oneMinute, u.minute⟩
  else if v = 5 then some ⟨10 * oneMinute, u.minute⟩
  else none

/-- `ValueFromResolution` with `resolutionToValues`, policy/resolution.go:164-170, 181-188. -/
def valueFromResolution (u : Units) (r : Resolution) : Option Int :=
  [1, 2, 3, 4, 5].find? fun v => valueToResolution u v == some r

/-- `valuesToRetention`, policy/retention.go:131-141. -/
def valueToRetention (v : Int) : Option Int :=
  if v = 1 then some oneHour
  else if v = 2 then some (6 * oneHour)
  else if v = 3 then some (12 * oneHour)
  else if v = 4 then some (24 * oneHour)
  else if v = 5 then some (2 * 24 * oneHour)
  else if v = 6 then some (7 * 24 * oneHour)
  else if v = 7 then some (14 * 24 * oneHour)
  else if v = 8 then some (30 * 24 * oneHour)
  else if v = 9 then some (45 * 24 * oneHour)
  else none

/-- `ValueFromRetention` with `retentionToValues`, policy/retention.go:122-128, 146-150. -/
def valueFromRetention (r : Int) : Option Int :=
  [1, 2, 3, 4, 5, 6, 7, 8, 9].find? fun v => valueToRetention v == some r

/-! Object types, encoding/msgpack/schema.go:37-72. -/
def rootObjectType : Int := 1
def counterWithPoliciesListType : Int := 2
def batchTimerWithPoliciesListType : Int := 3
def gaugeWithPoliciesListType : Int := 4
def rawMetricWithStoragePolicyType : Int := 5
def counterType : Int := 6
def timerType : Int := 7
def gaugeType : Int := 8
def metricType : Int := 9
def defaultPoliciesListType : Int := 10
def customPoliciesListType : Int := 11
def stagedPoliciesType : Int := 12
def storagePolicyType : Int := 13
def knownResolutionType : Int := 14
def unknownResolutionType : Int := 15
def knownRetentionType : Int := 16
def unknownRetentionType : Int := 17
def defaultAggregationID : Int := 18
def shortAggregationID : Int := 19
def longAggregationID : Int := 20
def policyType : Int := 21
def rawMetricWithStoragePolicyAndEncodeTimeType : Int := 22
def numObjectTypes : Int := 22

/-- `numFieldsForType` with the table, encoding/msgpack/schema.go:74-138. The types that are not listed have two fields. -/
def numFieldsForType (t : Int) : Nat :=
  if t = metricType ∨ t = stagedPoliciesType ∨ t = unknownResolutionType ∨ t = rawMetricWithStoragePolicyAndEncodeTimeType then 3
  else if t = defaultPoliciesListType ∨ t = defaultAggregationID then 1
  else 2

/-! ### The base encoder -/

/-- `encodeRawID`, encoding/msgpack/base_encoder.go:73, 191-196; `isNil`: an empty identifier is a nil slice. -/
def encodeRawID (l : Lib) (isNil : Bool) (id : Bytes) : Bytes :=
  l.putBytes (if isNil && id.isEmpty then none else some id)

/-- `encodeChunkedID`, encoding/msgpack/base_encoder.go:88-93. -/
def encodeChunkedID (l : Lib) (pre data suf : Bytes) : Bytes :=
  l.putBytesLen (pre.length + data.length + suf.length) ++ pre ++ data ++ suf

/-- `encodeCompressedAggregationTypes`, encoding/msgpack/base_encoder.go:101-122; an identifier is one word (`IDLen` is 1). -/
def encodeAggID (l : Lib) (id : Agg.ID) : Bytes :=
  if id.isDefault then l.putArrayLen (numFieldsForType defaultAggregationID) ++ l.putInt defaultAggregationID
  else l.putArrayLen (numFieldsForType shortAggregationID) ++ l.putInt shortAggregationID ++ l.putInt id.toInt

/-- `encodeResolution`, encoding/msgpack/base_encoder.go:130-147. -/
def encodeResolution (l : Lib) (u : Units) (r : Resolution) : Bytes :=
  match valueFromResolution u r with
  | some v => l.putArrayLen (numFieldsForType knownResolutionType) ++ l.putInt knownResolutionType ++ l.putInt v
  | none => l.putArrayLen (numFieldsForType unknownResolutionType) ++ l.putInt unknownResolutionType ++ l.putInt r.window ++
      l.putInt r.precision

/-- `encodeRetention`, encoding/msgpack/base_encoder.go:149-165. -/
def encodeRetention (l : Lib) (r : Int) : Bytes :=
  match valueFromRetention r with
  | some v => l.putArrayLen (numFieldsForType knownRetentionType) ++ l.putInt knownRetentionType ++ l.putInt v
  | none => l.putArrayLen (numFieldsForType unknownRetentionType) ++ l.putInt unknownRetentionType ++ l.putInt r

/-- `encodeStoragePolicyInternal`, encoding/msgpack/base_encoder.go:124-128. -/
def encodeStoragePolicy (l : Lib) (u : Units) (p : StoragePolicy) : Bytes :=
  l.putArrayLen (numFieldsForType storagePolicyType) ++ encodeResolution l u p.resolution ++ encodeRetention l p.retention

/-- `encodePolicyInternal`, encoding/msgpack/base_encoder.go:95-99. -/
def encodePolicy (l : Lib) (u : Units) (p : Policy) : Bytes :=
  l.putArrayLen (numFieldsForType policyType) ++ encodeStoragePolicy l u p.sp ++ encodeAggID l p.aggID

/-! ### The unaggregated encoder -/

/-- `StagedPolicies`, policy/staged_policy.go:37-46. -/
structure StagedPolicies where
  cutoverNanos : Int := 0
  tombstoned : Bool := false
  policies : List Policy := []
  deriving DecidableEq

/-- `StagedPolicies.IsDefault`, policy/staged_policy.go:57-59 (policy/policy.go:187-189). -/
def StagedPolicies.isDefault (p : StagedPolicies) : Bool := p.cutoverNanos == 0 && !p.tombstoned && p.policies.length == 0

/-- `StagedPolicies.Equals`, policy/staged_policy.go:67-88 (the loop over the policies is that of `Policies.Equals`). -/
def StagedPolicies.equals (p q : StagedPolicies) : Bool :=
  if p.cutoverNanos != q.cutoverNanos || p.tombstoned != q.tombstoned then false
  else if p.policies.length == 0 && q.policies.length == 0 then true
  else if p.policies.length == 0 || q.policies.length == 0 then false
  else if p.policies.length != q.policies.length then false
  else allEq p.policies q.policies

/-- `PoliciesList.IsDefault`, policy/staged_policy.go:142-144. -/
def isDefaultList : List StagedPolicies → Bool
  | [p] => p.isDefault
  | _ => false

/-- `DefaultPoliciesList`, policy/staged_policy.go:33. -/
def defaultPoliciesList : List StagedPolicies := [{}]

/-- `encodeStagedPolicies`, encoding/msgpack/unaggregated_encoder.go:186-195. -/
def encodeStagedPolicies (l : Lib) (u : Units) (p : StagedPolicies) : Bytes :=
  l.putArrayLen (numFieldsForType stagedPoliciesType) ++ l.putInt p.cutoverNanos ++ l.putBool p.tombstoned ++
    l.putArrayLen p.policies.length ++ p.policies.flatMap (encodePolicy l u)

/-- `encodePoliciesList`, encoding/msgpack/unaggregated_encoder.go:171-184. -/
def encodePoliciesList (l : Lib) (u : Units) (pl : List StagedPolicies) : Bytes :=
  if isDefaultList pl then l.putArrayLen (numFieldsForType defaultPoliciesListType) ++ l.putInt defaultPoliciesListType
  else l.putArrayLen (numFieldsForType customPoliciesListType) ++ l.putInt customPoliciesListType ++ l.putArrayLen pl.length ++
    pl.flatMap (encodeStagedPolicies l u)

/-- `encodeCounter`, encoding/msgpack/unaggregated_encoder.go:150-154. -/
def encodeCounter (l : Lib) (isNil : Bool) (c : Counter) : Bytes :=
  l.putArrayLen (numFieldsForType counterType) ++ encodeRawID l isNil c.id ++ l.putInt c.value

/-- `encodeBatchTimer`, encoding/msgpack/unaggregated_encoder.go:156-163. -/
def encodeBatchTimer (l : Lib) (isNil : Bool) (t : BatchTimer) : Bytes :=
  l.putArrayLen (numFieldsForType timerType) ++ encodeRawID l isNil t.id ++ l.putArrayLen t.values.length ++
    t.values.flatMap l.putF64

/-- `encodeGauge`, encoding/msgpack/unaggregated_encoder.go:165-169. -/
def encodeGauge (l : Lib) (isNil : Bool) (g : Gauge) : Bytes :=
  l.putArrayLen (numFieldsForType gaugeType) ++ encodeRawID l isNil g.id ++ l.putF64 g.value

/-- `encodeRootObject`, encoding/msgpack/unaggregated_encoder.go:126-130, aggregated_encoder.go:125-129 (both versions are 1). -/
def encodeRootObject (l : Lib) (t : Int) : Bytes :=
  l.putInt 1 ++ l.putArrayLen (numFieldsForType rootObjectType) ++ l.putInt t

/-- A message to the encoder: a metric, with its policies list or without. -/
inductive Sample where
  | counter (c : Counter)
  | timer (t : BatchTimer)
  | gauge (g : Gauge)
  deriving DecidableEq

/-- `EncodeCounter`, `EncodeBatchTimer`, `EncodeGauge`, encoding/msgpack/unaggregated_encoder.go:72-97. -/
def encodeMetric (l : Lib) (isNil : Bool) : Sample → Bytes
  | .counter c => encodeRootObject l counterType ++ encodeCounter l isNil c
  | .timer t => encodeRootObject l timerType ++ encodeBatchTimer l isNil t
  | .gauge g => encodeRootObject l gaugeType ++ encodeGauge l isNil g

/-- `EncodeCounterWithPoliciesList` and the other two, encoding/msgpack/unaggregated_encoder.go:99-148. -/
def encodeMetricWithPolicies (l : Lib) (u : Units) (isNil : Bool) (pl : List StagedPolicies) : Sample → Bytes
  | .counter c => encodeRootObject l counterWithPoliciesListType ++ (l.putArrayLen (numFieldsForType counterWithPoliciesListType) ++
      encodeCounter l isNil c ++ encodePoliciesList l u pl)
  | .timer t => encodeRootObject l batchTimerWithPoliciesListType ++ (l.putArrayLen (numFieldsForType batchTimerWithPoliciesListType) ++
      encodeBatchTimer l isNil t ++ encodePoliciesList l u pl)
  | .gauge g => encodeRootObject l gaugeWithPoliciesListType ++ (l.putArrayLen (numFieldsForType gaugeWithPoliciesListType) ++
      encodeGauge l isNil g ++ encodePoliciesList l u pl)

/-! ### The base iterator -/

/-- `baseIterator`, encoding/msgpack/base_iterator.go:43-48: what the reader has left, and the error. -/
structure Base where
  data : Bytes := []
  err : Option Err := none
  deriving DecidableEq

/-- A function that changes a state and returns a value. -/
def D (σ α : Type) := σ → α × σ

instance : Monad (D σ) where
  pure a s := (a, s)
  bind m f s := match m s with
    | (a, s') => f a s'

/-- A call of the library: nothing happens after an error, encoding/msgpack/base_iterator.go:236-288. -/
def call (g : Bytes → Except Err (α × Bytes)) (zero : α) : D Base α := fun s =>
  match s.err with
  | some _ => (zero, s)
  | none => match g s.data with
    | .error e => (zero, { s with err := some e })
    | .ok (a, r) => (a, { s with data := r })

/-- `decodeVarint`, encoding/msgpack/base_iterator.go:236-243. -/
def decodeVarint (l : Lib) : D Base Int := call l.getInt 0

/-- `decodeBool`, encoding/msgpack/base_iterator.go:245-252. -/
def decodeBool (l : Lib) : D Base Bool := call l.getBool false

/-- `decodeFloat64`, encoding/msgpack/base_iterator.go:254-261. -/
def decodeFloat64 (l : Lib) : D Base F64 := call l.getF64 0

/-- `decodeBytes`, encoding/msgpack/base_iterator.go:263-270. -/
def decodeBytes (l : Lib) : D Base Bytes := call l.getBytes []

/-- `decodeBytesLen`, encoding/msgpack/base_iterator.go:272-279. -/
def decodeBytesLen (l : Lib) : D Base Int := call l.getBytesLen 0

/-- `decodeArrayLen` and `decodeNumObjectFields`, encoding/msgpack/base_iterator.go:224-226, 281-288. -/
def decodeArrayLen (l : Lib) : D Base Int := call l.getArrayLen 0

/-- `err`, encoding/msgpack/base_iterator.go:70. -/
def getErr : D Base (Option Err) := fun s => (s.err, s)

/-- `setErr`, encoding/msgpack/base_iterator.go:71. -/
def setErr (e : Option Err) : D Base Unit := fun s => ((), { s with err := e })

/-- The loop of `skip`, encoding/msgpack/base_iterator.go:299-304. -/
def skipLoop (l : Lib) : Nat → D Base Unit
  | 0 => fun s => ((), s)
  | n + 1 => fun s => match l.skip s.data with
    | .error e => ((), { s with err := some e })
    | .ok r => skipLoop l n { s with data := r }

/-- `skip`, encoding/msgpack/base_iterator.go:290-305. -/
def skip (l : Lib) (n : Int) : D Base Unit := fun s =>
  match s.err with
  | some _ => ((), s)
  | none => if n < 0 then ((), { s with err := some .other }) else skipLoop l n.toNat s

/-- `checkExpectedNumFieldsForType`, encoding/msgpack/base_iterator.go:313-326; `none`: not ok. -/
def checkExpected (t : Int) (actual : Int) : D Base (Option Int) := fun s =>
  match s.err with
  | some _ => (none, s)
  | none => if (numFieldsForType t : Int) > actual then (none, { s with err := some .other })
    else (some (numFieldsForType t), s)

/-- `checkNumFieldsForType`, encoding/msgpack/base_iterator.go:307-311: the difference of the numbers of fields. -/
def checkNumFields (l : Lib) (t : Int) : D Base (Option Int) := do
  let actual ← decodeArrayLen l
  let expected ← checkExpected t actual
  return expected.map fun e => actual - e

/-- `decodeObjectType`, encoding/msgpack/base_iterator.go:212-222, schema.go:98-100. -/
def decodeObjectType (l : Lib) : D Base Int := do
  let ot ← decodeVarint l
  match ← getErr with
  | some _ => return 0
  | none =>
    if ot > 0 ∧ ot ≤ numObjectTypes then return ot
    else do
      setErr (some .other)
      return 0

/-- The number of fields and the type of an object that has its type as its first field: the type and the number of fields
to skip. encoding/msgpack/base_iterator.go:86-94, 133-141, 175-183. -/
def decodeTyped (l : Lib) : D Base (Option (Int × Int)) := do
  let actual ← decodeArrayLen l
  let t ← decodeObjectType l
  let expected ← checkExpected t actual
  return expected.map fun e => (t, actual - e)

/-- Repeat and collect. -/
def repeatD (m : D σ α) : Nat → D σ (List α)
  | 0 => return []
  | n + 1 => do
    let a ← m
    let r ← repeatD m n
    return a :: r

/-- `decodeCompressedAggregationTypes`, encoding/msgpack/base_iterator.go:85-118. -/
def decodeAggID (l : Lib) : D Base Agg.ID := do
  match ← decodeTyped l with
  | none => return 0
  | some (t, extra) =>
    if t = defaultAggregationID then do
      skip l extra
      return 0
    else if t = shortAggregationID then do
      let v ← decodeVarint l
      skip l extra
      return BitVec.ofInt 64 v
    else if t = longAggregationID then do
      let n ← decodeArrayLen l
      if n > 1 then do
        setErr (some .other)
        return 0
      else do
        let vs ← repeatD (decodeVarint l) n.toNat
        skip l extra
        return BitVec.ofInt 64 (vs.headD 0)
    else do
      setErr (some .other)
      return 0

/-- `decodeResolution`, encoding/msgpack/base_iterator.go:132-172; `xtime.Unit` is a byte. -/
def decodeResolution (l : Lib) (x : XTime) (u : Units) : D Base Resolution := do
  match ← decodeTyped l with
  | none => return ⟨0, 0⟩
  | some (t, extra) =>
    if t = knownResolutionType then do
      let v ← decodeVarint l
      match valueToResolution u v with
      | none => do
        setErr (some .other)
        return ⟨0, 0⟩
      | some r => do
        skip l extra
        match ← getErr with
        | some _ => return ⟨0, 0⟩
        | none => return r
    else if t = unknownResolutionType then do
      let window ← decodeVarint l
      let p ← decodeVarint l
      match ← getErr with
      | some _ => return ⟨0, 0⟩
      | none =>
        let precision := (p % 256).toNat
        match x.unitValue precision with
        | none => do
          setErr (some .other)
          return ⟨0, 0⟩
        | some _ => do
          skip l extra
          return ⟨window, precision⟩
    else do
      setErr (some .other)
      return ⟨0, 0⟩

/-- `decodeRetention`, encoding/msgpack/base_iterator.go:174-206. -/
def decodeRetention (l : Lib) : D Base Int := do
  match ← decodeTyped l with
  | none => return 0
  | some (t, extra) =>
    if t = knownRetentionType then do
      let v ← decodeVarint l
      match valueToRetention v with
      | none => do
        setErr (some .other)
        return 0
      | some r => do
        skip l extra
        match ← getErr with
        | some _ => return 0
        | none => return r
    else if t = unknownRetentionType then do
      let r ← decodeVarint l
      skip l extra
      return r
    else do
      setErr (some .other)
      return 0

/-- `decodeStoragePolicy`, encoding/msgpack/base_iterator.go:120-130. -/
def decodeStoragePolicy (l : Lib) (x : XTime) (u : Units) : D Base StoragePolicy := do
  match ← checkNumFields l storagePolicyType with
  | none => return EmptyStoragePolicy
  | some extra =>
    let resolution ← decodeResolution l x u
    let retention ← decodeRetention l
    skip l extra
    return ⟨resolution, retention⟩

/-- `decodePolicy`, encoding/msgpack/base_iterator.go:74-83. -/
def decodePolicy (l : Lib) (x : XTime) (u : Units) : D Base Policy := do
  match ← checkNumFields l policyType with
  | none => return ⟨EmptyStoragePolicy, 0⟩
  | some extra =>
    let sp ← decodeStoragePolicy l x u
    let aggID ← decodeAggID l
    skip l extra
    return ⟨sp, aggID⟩

/-- `decodeStagedPolicies`, encoding/msgpack/unaggregated_iterator.go:285-304. -/
def decodeStagedPolicies (l : Lib) (x : XTime) (u : Units) : D Base StagedPolicies := do
  match ← checkNumFields l stagedPoliciesType with
  | none => return {}
  | some extra =>
    let cutoverNanos ← decodeVarint l
    let tombstoned ← decodeBool l
    let n ← decodeArrayLen l
    let policies ← repeatD (decodePolicy l x u) n.toNat
    skip l extra
    return { cutoverNanos, tombstoned, policies }

/-- `decodeID`, encoding/msgpack/unaggregated_iterator.go:306-326, with `io.ReadFull`. Lengths other than -1 that are negative do
not occur (`Laws`). -/
def decodeID (l : Lib) : D Base Bytes := fun s =>
  match decodeBytesLen l s with
  | (n, s) => match s.err with
    | some _ => ([], s)
    | none =>
      if n = -1 then ([], s)
      else if n.toNat ≤ s.data.length then (s.data.take n.toNat, { s with data := s.data.drop n.toNat })
      else ([], { s with data := [], err := some (if s.data.isEmpty then .eof else .other) })

/-! ### The unaggregated iterator -/

/-- `unaggregatedIterator`, encoding/msgpack/unaggregated_iterator.go:41-56, without the pools and the slices it reuses. -/
structure Iter where
  base : Base := {}
  ignoreHigherVersion : Bool := false
  closed : Bool := false
  metric : MetricUnion := {}
  policiesList : List StagedPolicies := []
  deriving DecidableEq

/-- Use of the base iterator. -/
def onBase (m : D Base α) : D Iter α := fun it => match m it.base with
  | (a, s) => (a, { it with base := s })

def setMetric (f : MetricUnion → MetricUnion) : D Iter Unit := fun it => ((), { it with metric := f it.metric })
def setPolicies (pl : List StagedPolicies) : D Iter Unit := fun it => ((), { it with policiesList := pl })

/-- `NewUnaggregatedIterator`, encoding/msgpack/unaggregated_iterator.go:59-72. -/
def new (reader : Bytes) (ignoreHigherVersion : Bool) : Iter := { base := { data := reader }, ignoreHigherVersion }

/-- `Reset`, encoding/msgpack/unaggregated_iterator.go:76-80, base_iterator.go:63-68. -/
def Iter.reset (it : Iter) (reader : Bytes) : Iter := { it with closed := false, metric := {}, base := { data := reader } }

/-- `Close`, encoding/msgpack/unaggregated_iterator.go:102-115, without the pool of iterators. -/
def Iter.close (it : Iter) : Iter :=
  if it.closed then it else { it with closed := true, base := {}, metric := {}, policiesList := [] }

/-- `decodeCounter`, encoding/msgpack/unaggregated_iterator.go:187-196. -/
def decodeCounter (l : Lib) : D Iter Unit := do
  match ← onBase (checkNumFields l counterType) with
  | none => return ()
  | some extra =>
    setMetric fun m => { m with type := CounterType }
    let id ← onBase (decodeID l)
    setMetric fun m => { m with id := id }
    let v ← onBase (decodeVarint l)
    setMetric fun m => { m with counterVal := v }
    onBase (skip l extra)

/-- `decodeBatchTimer`, encoding/msgpack/unaggregated_iterator.go:198-232; wherever the slice for the values comes from, it is
empty at first. -/
def decodeBatchTimer (l : Lib) : D Iter Unit := do
  match ← onBase (checkNumFields l timerType) with
  | none => return ()
  | some extra =>
    setMetric fun m => { m with type := TimerType }
    let id ← onBase (decodeID l)
    setMetric fun m => { m with id := id }
    let n ← onBase (decodeArrayLen l)
    let vs ← onBase (repeatD (decodeFloat64 l) n.toNat)
    setMetric fun m => { m with batchTimerVal := vs }
    onBase (skip l extra)

/-- `decodeGauge`, encoding/msgpack/unaggregated_iterator.go:234-243. -/
def decodeGauge (l : Lib) : D Iter Unit := do
  match ← onBase (checkNumFields l gaugeType) with
  | none => return ()
  | some extra =>
    setMetric fun m => { m with type := GaugeType }
    let id ← onBase (decodeID l)
    setMetric fun m => { m with id := id }
    let v ← onBase (decodeFloat64 l)
    setMetric fun m => { m with gaugeVal := v }
    onBase (skip l extra)

/-- `decodePoliciesList`, encoding/msgpack/unaggregated_iterator.go:245-280. -/
def decodePoliciesList (l : Lib) (x : XTime) (u : Units) : D Iter Unit := do
  match ← onBase (decodeTyped l) with
  | none => return ()
  | some (t, extra) =>
    if t = defaultPoliciesListType then do
      setPolicies defaultPoliciesList
      onBase (skip l extra)
    else if t = customPoliciesListType then do
      let n ← onBase (decodeArrayLen l)
      let pl ← onBase (repeatD (decodeStagedPolicies l x u) n.toNat)
      setPolicies pl
      onBase (skip l extra)
    else do
      onBase (setErr (some .other))
      onBase (skip l extra)

/-- The metric of an object type, encoding/msgpack/unaggregated_iterator.go:154-165, 172-182. -/
def decodeKind (l : Lib) (t : Int) : D Iter Unit :=
  if t = counterType ∨ t = counterWithPoliciesListType then decodeCounter l
  else if t = timerType ∨ t = batchTimerWithPoliciesListType then decodeBatchTimer l
  else decodeGauge l

/-- `decodeMetricWithPoliciesList`, encoding/msgpack/unaggregated_iterator.go:167-185. -/
def decodeMetricWithPolicies (l : Lib) (x : XTime) (u : Units) (t : Int) : D Iter Unit := do
  match ← onBase (checkNumFields l t) with
  | none => return ()
  | some extra =>
    decodeKind l t
    decodePoliciesList l x u
    onBase (skip l extra)

/-- The body of `decodeRootObject` for versions that are supported, encoding/msgpack/unaggregated_iterator.go:133-151. -/
def decodeBody (l : Lib) (x : XTime) (u : Units) : D Iter Bool := do
  match ← onBase (checkNumFields l rootObjectType) with
  | none => return false
  | some extra =>
    let t ← onBase (decodeObjectType l)
    match ← onBase getErr with
    | some _ => return false
    | none =>
      if t = counterType ∨ t = timerType ∨ t = gaugeType then decodeKind l t
      else if t = counterWithPoliciesListType ∨ t = batchTimerWithPoliciesListType ∨ t = gaugeWithPoliciesListType then
        decodeMetricWithPolicies l x u t
      else onBase (setErr (some .other))
      onBase (skip l extra)
      let e ← onBase getErr
      return e.isNone

/-- `Next` and `decodeRootObject`, encoding/msgpack/unaggregated_iterator.go:90-100, 117-131: messages of higher versions are
skipped by a recursive call (every call reads at least a byte: the fuel is enough). -/
def nextLoop (l : Lib) (x : XTime) (u : Units) : Nat → D Iter Bool
  | 0 => fun it => (false, { it with base := { it.base with err := some .other } })
  | f + 1 => fun it =>
    if it.base.err.isSome || it.closed then (false, it)
    else
      let it := { it with metric := { it.metric with batchTimerVal := [] } }
      match onBase (decodeVarint l) it with
      | (version, it) =>
        if it.base.err.isSome then (false, it)
        else if version > 1 then
          if it.ignoreHigherVersion then
            match onBase (decodeArrayLen l) it with
            | (n, it) => match onBase (skip l n) it with
              | (_, it) => nextLoop l x u f it
          else (false, { it with base := { it.base with err := some .other } })
        else decodeBody l x u it

/-- `Next`, encoding/msgpack/unaggregated_iterator.go:90-100. -/
def next (l : Lib) (x : XTime) (u : Units) : D Iter Bool := fun it => nextLoop l x u (it.base.data.length + 2) it

end Verif.MP
