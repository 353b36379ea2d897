import Verif.Model.ProtoIterator
/-
Model of encoding/protobuf/{buffer.go,unaggregated_encoder.go} and of the buffer of the iterator: several encoders and
iterators that share one pool of byte slices, the buffers the encoders gave away, and other users of the pool.  Byte arrays
have identities (naturals); a slice in use is the whole array, `allocate` extends it to its capacity.

The pool (m3x/pool) is external: `Get n` returns some array the pool holds or a new one, of capacity at least `n`; `Put` gives
the array back.  Which one `Get` returns is a parameter (`Choice`) of every call that may allocate; `none` as the result of a
call means that the choice is impossible.  `int(math.Max(float64(a), float64(b)))` is exact below 2^53: `max` here.
-/
namespace Verif.PBuf
open Verif.Policy Verif.Meta Verif.Wire Verif.Msg Verif.PIter

/-- An array the pool returns: one it holds or a new one with the given contents. -/
inductive Choice where
  | held (i : Nat)
  | fresh (contents : Bytes)

/-- `unaggregatedEncoder`, encoding/protobuf/unaggregated_encoder.go:61-76. The protobuf messages it reuses are a parameter of
`encode`. -/
structure Enc where
  pooled : Bool
  initBufSize : Nat
  maxMessageSize : Int
  buf : Option Nat := none
  used : Nat := 0

/-- `Buffer`, encoding/protobuf/buffer.go:30-34: the array and the length of the slice. -/
structure Buffer where
  buf : Option Nat
  len : Nat
  pooled : Bool
  closed : Bool := false

/-- The buffer of an iterator, encoding/protobuf/unaggregated_iterator.go:48-58. -/
structure ItBuf where
  buf : Option Nat
  pooled : Bool
  closed : Bool := false

/-- Everything that has to do with the pool. Arrays from `next` on do not exist yet. -/
structure St where
  heap : Nat → Bytes := fun _ => []
  next : Nat := 0
  pool : List Nat := []
  encs : List Enc := []
  bufs : List Buffer := []
  its : List ItBuf := []
  others : List Nat := []

/-- Write an array. -/
def St.write (s : St) (i : Nat) (d : Bytes) : St := { s with heap := fun j => if j = i then d else s.heap j }

/-- `make([]byte, n)` and `pool.Get` of a new array. -/
def St.newArray (s : St) (d : Bytes) : Nat × St := (s.next, { s.write s.next d with next := s.next + 1 })

/-- `allocate`, encoding/protobuf/buffer.go:93-99. -/
def allocate (s : St) (pooled : Bool) (n : Nat) (c : Choice) : Option (Nat × St) :=
  if pooled then match c with
    | .held i => if i ∈ s.pool ∧ n ≤ (s.heap i).length then some (i, { s with pool := s.pool.erase i }) else none
    | .fresh d => if n ≤ d.length then some (s.newArray d) else none
  else some (s.newArray (List.replicate n 0))

/-- `if pool != nil && buf != nil { pool.Put(buf) }`. -/
def put (s : St) (pooled : Bool) (buf : Option Nat) : St :=
  match buf with
  | none => s
  | some i => if pooled then { s with pool := i :: s.pool } else s

/-- `len(buf)`. -/
def bufLen (s : St) : Option Nat → Nat
  | none => 0
  | some i => (s.heap i).length

/-- The contents of a slice. -/
def bufBytes (s : St) : Option Nat → Bytes
  | none => []
  | some i => s.heap i

/-- `ensureBufferSize`, encoding/protobuf/buffer.go:71-90: the buffer to go on with. -/
def ensureBufferSize (s : St) (buf : Option Nat) (pooled : Bool) (target : Int) (copyData : Bool) (c : Choice) :
    Option (Option Nat × St) :=
  if (bufLen s buf : Int) ≥ target then some (buf, s)
  else match allocate s pooled (max target.toNat (bufLen s buf * 2)) c with
    | none => none
    | some (i, s') =>
      let old := bufBytes s' buf
      let s' := if copyData then s'.write i (old ++ (s'.heap i).drop old.length) else s'
      some (some i, put s' pooled buf)

/-- What a call returns. -/
inductive Res where
  | ok
  | err
  | panic
  deriving DecidableEq

def St.setEnc (s : St) (k : Nat) (e : Enc) : St := { s with encs := s.encs.set k e }

/-- `Reset`, encoding/protobuf/unaggregated_encoder.go:93-101. -/
def reset (s : St) (k : Nat) (e : Enc) (initData : Bytes) (c : Choice) : Option St :=
  let s := put s e.pooled e.buf
  match allocate s e.pooled (max e.initBufSize initData.length) c with
  | none => none
  | some (i, s) =>
    let s := s.write i (initData ++ (s.heap i).drop initData.length)
    some (s.setEnc k { e with buf := some i, used := initData.length })

/-- `NewUnaggregatedEncoder`, encoding/protobuf/unaggregated_encoder.go:79-89. -/
def newEncoder (s : St) (pooled : Bool) (initBufSize : Nat) (maxMessageSize : Int) (c : Choice) : Option St :=
  let e : Enc := { pooled, initBufSize, maxMessageSize }
  reset { s with encs := s.encs ++ [e] } s.encs.length e [] c

/-- `Truncate`, encoding/protobuf/unaggregated_encoder.go:103-109. -/
def truncate (s : St) (k : Nat) (e : Enc) (n : Int) : Res × St :=
  if n < 0 ∨ n > e.used then (.err, s) else (.ok, s.setEnc k { e with used := n.toNat })

/-- `Relinquish`, encoding/protobuf/unaggregated_encoder.go:111-116: the new buffer is the last one. -/
def relinquish (s : St) (k : Nat) (e : Enc) : St :=
  { s.setEnc k { e with buf := none, used := 0 } with
    bufs := s.bufs ++ [{ buf := e.buf, len := e.used, pooled := e.pooled }] }

/-- The protobuf messages of an encoder, reused for every message. -/
structure Protos where
  cm : PBCounterWithMetadatas
  bm : PBBatchTimerWithMetadatas
  gm : PBGaugeWithMetadatas
  fm : PBForwardedMetricWithMetadata
  tm : PBTimedMetricWithMetadata

/-- The conversions in `EncodeMessage` and the functions it calls, encoding/protobuf/unaggregated_encoder.go:118-188; `none` is
an error. -/
def toPB (x : XTime) (p : Protos) (m : Union) : Option PBMetric :=
  if m.type = 1 then (counterToProto x p.cm m.counter).map fun v => { type := 1, counter := some v }
  else if m.type = 2 then (batchTimerToProto x p.bm m.batchTimer).map fun v => { type := 2, batchTimer := some v }
  else if m.type = 3 then (gaugeToProto x p.gm m.gauge).map fun v => { type := 3, gauge := some v }
  else if m.type = 4 then (forwardedToProto x p.fm m.forwarded).map fun v => { type := 4, forwarded := some v }
  else if m.type = 5 then (timedToProto x p.tm m.timed).map fun v => { type := 5, timed := some v }
  else none

/-- Writing at an offset into an array; `none`: it does not fit, a panic. `copy` does not panic when it is short, the generated
code does on its next access; not distinguished here. -/
def writeAt (a : Bytes) (off : Nat) (d : Bytes) : Option Bytes :=
  if off + d.length ≤ a.length then some (a.take off ++ d ++ a.drop (off + d.length)) else none

/-- `encodeMetricWithMetadatas`, `encodeMessageSize` and `encodeMessage`,
encoding/protobuf/unaggregated_encoder.go:190-218; the generated `MarshalTo` returns no errors. -/
def encodePB (s : St) (k : Nat) (e : Enc) (pb : PBMetric) (c : Choice) : Option (Res × St) :=
  let msgSize := metricWithMetadatas.size pb
  if (msgSize : Int) > e.maxMessageSize then some (.err, s)
  else match ensureBufferSize s e.buf e.pooled (e.used + (5 + msgSize) : Nat) true c with
    | none => none
    | some (none, s) => some (.panic, s)
    | some (some i, s) =>
      let e := { e with buf := some i }
      match writeAt (s.heap i) e.used (putVarint msgSize) with
      | none => some (.panic, s)
      | some a =>
        let s := s.write i a
        let e := { e with used := e.used + (putVarint msgSize).length }
        match writeAt (s.heap i) e.used (metricWithMetadatas.marshal pb) with
        | none => some (.panic, s)
        | some a => some (.ok, (s.write i a).setEnc k { e with used := e.used + (metricWithMetadatas.marshal pb).length })

/-- `EncodeMessage`, encoding/protobuf/unaggregated_encoder.go:118-188; `p` is what the reused messages contain before the
call, anything at all. -/
def encode (x : XTime) (s : St) (k : Nat) (e : Enc) (p : Protos) (m : Union) (c : Choice) : Option (Res × St) :=
  match toPB x p m with
  | none => some (.err, s)
  | some pb => encodePB s k e pb c

/-- `Buffer.Truncate`, encoding/protobuf/buffer.go:45: may also extend the slice, up to its capacity. -/
def bufTruncate (s : St) (k : Nat) (b : Buffer) (n : Nat) : Res × St :=
  if n ≤ bufLen s b.buf then (.ok, { s with bufs := s.bufs.set k { b with len := n } }) else (.panic, s)

/-- `Buffer.Close`, encoding/protobuf/buffer.go:48-58. -/
def bufClose (s : St) (k : Nat) (b : Buffer) : St :=
  if b.closed then s
  else
    let s := put s b.pooled b.buf
    { s with bufs := s.bufs.set k { buf := none, len := 0, pooled := false, closed := true } }

/-- `NewUnaggregatedIterator`, encoding/protobuf/unaggregated_iterator.go:61-72. -/
def newIter (s : St) (pooled : Bool) (initBufSize : Nat) (c : Choice) : Option St :=
  match allocate s pooled initBufSize c with
  | none => none
  | some (i, s) => some { s with its := s.its ++ [{ buf := some i, pooled := pooled }] }

/-- The part of `Next` that has to do with the buffer, encoding/protobuf/unaggregated_iterator.go:93-123, 126: the message read
goes to the front of the buffer. -/
def itRead (s : St) (k : Nat) (t : ItBuf) (d : Bytes) (c : Choice) : Option St :=
  if t.closed then some s
  else match ensureBufferSize s t.buf t.pooled d.length false c with
    | none => none
    | some (none, s) => some s
    | some (some i, s) =>
      let s := s.write i (d ++ (s.heap i).drop d.length)
      some { s with its := s.its.set k { t with buf := some i } }

/-- `Close`, encoding/protobuf/unaggregated_iterator.go:74-88. -/
def itClose (s : St) (k : Nat) (t : ItBuf) : St :=
  if t.closed then s
  else
    let s := put s t.pooled t.buf
    { s with its := s.its.set k { buf := none, pooled := false, closed := true } }

/-- What can happen. `otherNew`, `otherGet`, `otherWrite` and `otherPut` are other users of the pool, `bufWrite` the owner of a buffer that
was given away. -/
inductive Op where
  | newEncoder (pooled : Bool) (initBufSize : Nat) (maxMessageSize : Int) (c : Choice)
  | reset (k : Nat) (initData : Bytes) (c : Choice)
  | truncate (k : Nat) (n : Int)
  | relinquish (k : Nat)
  | encode (k : Nat) (p : Protos) (m : Union) (c : Choice)
  | bufTruncate (k n : Nat)
  | bufWrite (k : Nat) (d : Bytes)
  | bufClose (k : Nat)
  | newIter (pooled : Bool) (initBufSize : Nat) (c : Choice)
  | itRead (k : Nat) (d : Bytes) (c : Choice)
  | itClose (k : Nat)
  | otherNew (d : Bytes)
  | otherGet (i : Nat)
  | otherWrite (i : Nat) (d : Bytes)
  | otherPut (i : Nat)

/-- One step; `none`: it is not possible. -/
def step (x : XTime) (s : St) : Op → Option (Res × St)
  | .newEncoder pooled n m c => (newEncoder s pooled n m c).map fun s => (.ok, s)
  | .reset k d c => match s.encs[k]? with
    | none => none
    | some e => (reset s k e d c).map fun s => (.ok, s)
  | .truncate k n => match s.encs[k]? with
    | none => none
    | some e => some (truncate s k e n)
  | .relinquish k => match s.encs[k]? with
    | none => none
    | some e => some (.ok, relinquish s k e)
  | .encode k p m c => match s.encs[k]? with
    | none => none
    | some e => encode x s k e p m c
  | .bufTruncate k n => match s.bufs[k]? with
    | none => none
    | some b => some (bufTruncate s k b n)
  | .bufWrite k d => match s.bufs[k]? with
    | none => none
    | some b => match b.buf with
      | none => none
      | some i => if d.length = (s.heap i).length then some (.ok, s.write i d) else none
  | .bufClose k => match s.bufs[k]? with
    | none => none
    | some b => some (.ok, bufClose s k b)
  | .newIter pooled n c => (newIter s pooled n c).map fun s => (.ok, s)
  | .itRead k d c => match s.its[k]? with
    | none => none
    | some t => (itRead s k t d c).map fun s => (.ok, s)
  | .itClose k => match s.its[k]? with
    | none => none
    | some t => some (.ok, itClose s k t)
  | .otherNew d => some (.ok, { (s.newArray d).2 with others := s.next :: s.others })
  | .otherGet i => if i ∈ s.pool then some (.ok, { s with pool := s.pool.erase i, others := i :: s.others }) else none
  | .otherWrite i d => if i ∈ s.others ∧ d.length = (s.heap i).length then some (.ok, s.write i d) else none
  | .otherPut i => if i ∈ s.others then some (.ok, { s with pool := i :: s.pool, others := s.others.erase i }) else none

/-- The states that can be reached, without panics. -/
inductive Reach (x : XTime) : St → Prop
  | init : Reach x {}
  | step {s s' : St} {op : Op} {r : Res} : Reach x s → step x s op = some (r, s') → r ≠ .panic → Reach x s'

end Verif.PBuf
