import Verif.Model.Msgpack
/-
Model of encoding/msgpack: aggregated_encoder.go, aggregated_iterator.go, raw_metric.go.
-/
namespace Verif.MP
open Verif.Policy Verif.Meta Verif.Wire Verif.Msg

/-- The fields of `aggregated.Metric` that are written, metric/aggregated/types.go:41-46; the type is not. -/
structure Point where
  id : Bytes := []
  timeNanos : Int := 0
  value : F64 := 0
  deriving DecidableEq

/-! ### The encoder -/

/-- `encodeMetricAsRaw` with `encodeMetricProlog`, encoding/msgpack/aggregated_encoder.go:126-133, 144-147. -/
def encodeMetricAsRaw (l : Lib) (isNil : Bool) (m : Point) : Bytes :=
  l.putInt 1 ++ l.putArrayLen (numFieldsForType metricType) ++ encodeRawID l isNil m.id ++ l.putInt m.timeNanos ++ l.putF64 m.value

/-- `encodeChunkedMetricAsRaw`, encoding/msgpack/aggregated_encoder.go:135-142. -/
def encodeChunkedMetricAsRaw (l : Lib) (pre data suf : Bytes) (time : Int) (value : F64) : Bytes :=
  l.putInt 1 ++ l.putArrayLen (numFieldsForType metricType) ++ encodeChunkedID l pre data suf ++ l.putInt time ++ l.putF64 value

/-- `EncodeMetricWithStoragePolicy` and `EncodeChunkedMetricWithStoragePolicy` after the raw bytes of the metric,
encoding/msgpack/aggregated_encoder.go:70-80, 95-105, 149-156, 169-171. The bytes are never nil: there is at least a version. -/
def encodeWithPolicy (l : Lib) (u : Units) (raw : Bytes) (p : StoragePolicy) : Bytes :=
  encodeRootObject l rawMetricWithStoragePolicyType ++
    (l.putArrayLen (numFieldsForType rawMetricWithStoragePolicyType) ++ l.putBytes (some raw) ++ encodeStoragePolicy l u p)

/-- `EncodeMetricWithStoragePolicyAndEncodeTime` and `EncodeChunkedMetricWithStoragePolicyAndEncodeTime`,
encoding/msgpack/aggregated_encoder.go:82-93, 107-118, 158-171. -/
def encodeWithPolicyAndTime (l : Lib) (u : Units) (raw : Bytes) (p : StoragePolicy) (encodedAt : Int) : Bytes :=
  encodeRootObject l rawMetricWithStoragePolicyAndEncodeTimeType ++
    (l.putArrayLen (numFieldsForType rawMetricWithStoragePolicyAndEncodeTimeType) ++ l.putBytes (some raw) ++
      encodeStoragePolicy l u p ++ l.putInt encodedAt)

/-! ### The raw metric -/

/-- `rawMetric`, encoding/msgpack/raw_metric.go:39-47. -/
structure Raw where
  data : Bytes := []
  base : Base := {}
  metric : Point := {}
  idDecoded : Bool := false
  timeDecoded : Bool := false
  valueDecoded : Bool := false
  deriving DecidableEq

/-- `NewRawMetric`, encoding/msgpack/raw_metric.go:50-58. -/
def newRaw (data : Bytes) : Raw := { data, base := { data } }

/-- `Reset`, encoding/msgpack/raw_metric.go:101-109. -/
def Raw.reset (m : Raw) (data : Bytes) : Raw :=
  { m with metric := {}, idDecoded := false, timeDecoded := false, valueDecoded := false, data := data, base := { data } }

def onRaw (f : D Base α) : D Raw α := fun m => match f m.base with
  | (a, s) => (a, { m with base := s })

/-- `readBytes`, encoding/msgpack/raw_metric.go:178-192. -/
def readBytes (start n : Int) : D Raw Bytes := fun m =>
  if n < 0 ∨ start < 0 ∨ start + n > m.data.length then ([], { m with base := { m.base with err := some .other } })
  else ((m.data.drop start.toNat).take n.toNat, { m with base := { m.base with data := m.base.data.drop n.toNat } })

/-- `decodeID`, encoding/msgpack/raw_metric.go:115-148. -/
def Raw.decodeID (l : Lib) (m : Raw) : Raw :=
  if m.base.err.isSome || m.idDecoded then m
  else match onRaw (decodeVarint l) m with
    | (version, m) =>
      if m.base.err.isSome then m
      else if version > 1 then { m with base := { m.base with err := some .other } }
      else match onRaw (checkNumFields l metricType) m with
        | (none, m) => m
        | (some _, m) => match onRaw (decodeBytesLen l) m with
          | (idLen, m) =>
            if m.base.err.isSome then m
            else if idLen = -1 then { m with metric := { m.metric with id := [] }, idDecoded := true }
            else match readBytes ((m.data.length : Int) - m.base.data.length) idLen m with
              | (id, m) =>
                let m := { m with metric := { m.metric with id := id } }
                if m.base.err.isSome then m else { m with idDecoded := true }

/-- `decodeTime`, encoding/msgpack/raw_metric.go:150-160. -/
def Raw.decodeTime (l : Lib) (m : Raw) : Raw :=
  if m.base.err.isSome || m.timeDecoded then m
  else match onRaw (decodeVarint l) m with
    | (t, m) => if m.base.err.isSome then m else { m with metric := { m.metric with timeNanos := t }, timeDecoded := true }

/-- `decodeValue`, encoding/msgpack/raw_metric.go:162-172. -/
def Raw.decodeValue (l : Lib) (m : Raw) : Raw :=
  if m.base.err.isSome || m.valueDecoded then m
  else match onRaw (decodeFloat64 l) m with
    | (v, m) => if m.base.err.isSome then m else { m with metric := { m.metric with value := v }, valueDecoded := true }

/-- The accessors. -/
inductive Acc where
  | id
  | time
  | value
  | metric
  | bytes
  deriving DecidableEq

/-- Their answers; errors are not told apart. -/
inductive Ans where
  | id (v : Bytes)
  | time (v : Int)
  | value (v : F64)
  | metric (v : Point)
  | bytes (v : Bytes)
  | err
  deriving DecidableEq

/-- `ID`, `TimeNanos`, `Value`, `Metric`, `Bytes`, encoding/msgpack/raw_metric.go:60-99. -/
def Raw.call (l : Lib) (m : Raw) : Acc → Ans × Raw
  | .id =>
    let m := m.decodeID l
    if m.base.err.isSome then (.err, m) else (.id m.metric.id, m)
  | .time =>
    let m := (m.decodeID l).decodeTime l
    if m.base.err.isSome then (.err, m) else (.time m.metric.timeNanos, m)
  | .value =>
    let m := ((m.decodeID l).decodeTime l).decodeValue l
    if m.base.err.isSome then (.err, m) else (.value m.metric.value, m)
  | .metric =>
    let m := ((m.decodeID l).decodeTime l).decodeValue l
    if m.base.err.isSome then (.err, m) else (.metric m.metric, m)
  | .bytes => (.bytes m.data, m)

/-! ### The iterator -/

/-- `aggregatedIterator`, encoding/msgpack/aggregated_iterator.go:32-41. -/
structure AIter where
  base : Base := {}
  ignoreHigherVersion : Bool := false
  closed : Bool := false
  metric : Raw := {}
  storagePolicy : StoragePolicy := EmptyStoragePolicy
  encodedAtNanos : Int := 0
  deriving DecidableEq

/-- `NewAggregatedIterator`, encoding/msgpack/aggregated_iterator.go:44-55. -/
def newAgg (reader : Bytes) (ignoreHigherVersion : Bool) : AIter :=
  { base := { data := reader }, ignoreHigherVersion, metric := newRaw [] }

/-- `Reset`, encoding/msgpack/aggregated_iterator.go:59-62. -/
def AIter.reset (it : AIter) (reader : Bytes) : AIter := { it with closed := false, base := { data := reader } }

/-- `Close`, encoding/msgpack/aggregated_iterator.go:75-85, without the pool of iterators. -/
def AIter.close (it : AIter) : AIter :=
  if it.closed then it else { it with closed := true, base := {}, metric := it.metric.reset [] }

def onABase (m : D Base α) : D AIter α := fun it => match m it.base with
  | (a, s) => (a, { it with base := s })

def setRaw (data : Bytes) : D AIter Unit := fun it => ((), { it with metric := it.metric.reset data })
def setStorage (p : StoragePolicy) : D AIter Unit := fun it => ((), { it with storagePolicy := p })
def setEncodedAt (t : Int) : D AIter Unit := fun it => ((), { it with encodedAtNanos := t })

/-- `decodeRawMetricWithStoragePolicy`, encoding/msgpack/aggregated_iterator.go:124-133. -/
def decodeRawWithPolicy (l : Lib) (x : XTime) (u : Units) : D AIter Unit := do
  match ← onABase (checkNumFields l rawMetricWithStoragePolicyType) with
  | none => return ()
  | some extra =>
    let data ← onABase (decodeBytes l)
    setRaw data
    let p ← onABase (decodeStoragePolicy l x u)
    setStorage p
    setEncodedAt 0
    onABase (skip l extra)

/-- `decodeRawMetricWithStoragePolicyAndEncodeTime`, encoding/msgpack/aggregated_iterator.go:135-144. -/
def decodeRawWithPolicyAndTime (l : Lib) (x : XTime) (u : Units) : D AIter Unit := do
  match ← onABase (checkNumFields l rawMetricWithStoragePolicyAndEncodeTimeType) with
  | none => return ()
  | some extra =>
    let data ← onABase (decodeBytes l)
    setRaw data
    let p ← onABase (decodeStoragePolicy l x u)
    setStorage p
    let t ← onABase (decodeVarint l)
    setEncodedAt t
    onABase (skip l extra)

/-- The body of `decodeRootObject`, encoding/msgpack/aggregated_iterator.go:102-121. -/
def decodeABody (l : Lib) (x : XTime) (u : Units) : D AIter Bool := do
  match ← onABase (checkNumFields l rootObjectType) with
  | none => return false
  | some extra =>
    let t ← onABase (decodeObjectType l)
    match ← onABase getErr with
    | some _ => return false
    | none =>
      if t = rawMetricWithStoragePolicyType then decodeRawWithPolicy l x u
      else if t = rawMetricWithStoragePolicyAndEncodeTimeType then decodeRawWithPolicyAndTime l x u
      else onABase (setErr (some .other))
      onABase (skip l extra)
      let e ← onABase getErr
      return e.isNone

/-- `Next` and `decodeRootObject`, encoding/msgpack/aggregated_iterator.go:68-73, 87-101. -/
def nextALoop (l : Lib) (x : XTime) (u : Units) : Nat → D AIter Bool
  | 0 => fun it => (false, { it with base := { it.base with err := some .other } })
  | f + 1 => fun it =>
    if it.base.err.isSome || it.closed then (false, it)
    else match onABase (decodeVarint l) it with
      | (version, it) =>
        if it.base.err.isSome then (false, it)
        else if version > 1 then
          if it.ignoreHigherVersion then
            match onABase (decodeArrayLen l) it with
            | (n, it) => match onABase (skip l n) it with
              | (_, it) => nextALoop l x u f it
          else (false, { it with base := { it.base with err := some .other } })
        else decodeABody l x u it

/-- `Next`, encoding/msgpack/aggregated_iterator.go:68-73. -/
def nextAgg (l : Lib) (x : XTime) (u : Units) : D AIter Bool := fun it => nextALoop l x u (it.base.data.length + 2) it

end Verif.MP
