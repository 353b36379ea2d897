import Verif.Model.Messages
/-
Model of encoding/protobuf/unaggregated_iterator.go.  The reader is the list of the bytes it has left; it returns `io.EOF` at
its end and no other error.  Package encoding/binary and `io.ReadFull` are standard library and modelled from their
documentation and source (Go 1.10; later versions only return other error values when the input ends inside a number).  The
arithmetic on buffer sizes goes through `float64`, exact below 2^53: naturals here.
-/
namespace Verif.PIter
open Verif.Policy Verif.Meta Verif.Wire Verif.Msg

/-- `binary.PutVarint` of an `int64`: zigzag, then a varint. -/
def zigzag (n : Int) : Nat := if n < 0 then (-2 * n - 1).toNat else (2 * n).toNat

/-- The inverse, in `binary.ReadVarint`. -/
def unzigzag (u : Nat) : Int := if u % 2 = 1 then -(u / 2 : Nat) - 1 else (u / 2 : Nat)

/-- `binary.PutVarint`. -/
def putVarint (n : Int) : Bytes := encodeVarint (zigzag n)

/-- Errors the iterator records. -/
inductive Err where
  | eof
  | unexpectedEOF
  | overflow
  | tooLarge
  | unmarshal
  | convert
  | unknownType
  deriving DecidableEq

/-- The loop of `binary.ReadUvarint`: `i` bytes have been read. Numbers that need more than 64 bits are refused when their
last byte has been read. -/
def uvarintLoop (i acc : Nat) : Bytes → Except (Err × Bytes) (Nat × Bytes)
  | [] => .error (.eof, [])
  | b :: r =>
    if b.toNat < 128 then
      if i > 9 ∨ (i = 9 ∧ b.toNat > 1) then .error (.overflow, r) else .ok (acc + b.toNat * 2 ^ (7 * i), r)
    else uvarintLoop (i + 1) (acc + b.toNat % 128 * 2 ^ (7 * i)) r

/-- `binary.ReadVarint`. -/
def readZigzag (r : Bytes) : Except (Err × Bytes) (Int × Bytes) :=
  match uvarintLoop 0 0 r with
  | .error e => .error e
  | .ok (u, r') => .ok (unzigzag u, r')

/-- `io.ReadFull` of `n` bytes: the bytes, or `io.EOF` if there are none, or `io.ErrUnexpectedEOF` if there are too few; what
was read is gone. -/
def readFull (n : Nat) (r : Bytes) : Except (Err × Bytes) (Bytes × Bytes) :=
  if n ≤ r.length then .ok (r.take n, r.drop n)
  else if r.isEmpty then .error (.eof, []) else .error (.unexpectedEOF, [])

/-- `unaggregatedIterator`, encoding/protobuf/unaggregated_iterator.go:48-58. The pool is in `Verif.PBuf`. -/
structure Iter where
  reader : Bytes := []
  maxMessageSize : Int := 0
  closed : Bool := false
  pb : PBMetric := {}
  msg : Union := {}
  buf : Bytes := []
  err : Option Err := none

/-- `NewUnaggregatedIterator`, encoding/protobuf/unaggregated_iterator.go:61-72; the buffer comes from the pool with unknown
contents. -/
def new (reader : Bytes) (maxMessageSize : Int) (buf : Bytes) : Iter := { reader, maxMessageSize, buf }

/-- `Close`, encoding/protobuf/unaggregated_iterator.go:74-88. -/
def close (it : Iter) : Iter :=
  if it.closed then it else { it with closed := true, reader := [], pb := {}, msg := {}, buf := [], err := none }

/-- `ensureBufferSize` without copying, encoding/protobuf/buffer.go:71-90: the buffer has at least the target size; `fresh` is
what the pool returns for a size. -/
def ensureBufferSize (fresh : Nat → Bytes) (buf : Bytes) (target : Int) : Bytes :=
  if (buf.length : Int) ≥ target then buf else fresh (max target.toNat (buf.length * 2))

/-- The switch on the kind of message, encoding/protobuf/unaggregated_iterator.go:136-154, and its error. -/
def convert (x : XTime) (pb : PBMetric) (msg : Union) : Union × Option Err :=
  if pb.type = 1 then match counterFromProto x msg.counter pb.counter with
    | none => ({ msg with type := 1 }, some .convert)
    | some m => ({ msg with type := 1, counter := m }, none)
  else if pb.type = 2 then match batchTimerFromProto x msg.batchTimer pb.batchTimer with
    | none => ({ msg with type := 2 }, some .convert)
    | some m => ({ msg with type := 2, batchTimer := m }, none)
  else if pb.type = 3 then match gaugeFromProto x msg.gauge pb.gauge with
    | none => ({ msg with type := 3 }, some .convert)
    | some m => ({ msg with type := 3, gauge := m }, none)
  else if pb.type = 4 then match forwardedFromProto x msg.forwarded pb.forwarded with
    | none => ({ msg with type := 4 }, some .convert)
    | some m => ({ msg with type := 4, forwarded := m }, none)
  else if pb.type = 5 then match timedFromProto x msg.timed pb.timed with
    | none => ({ msg with type := 5 }, some .convert)
    | some m => ({ msg with type := 5, timed := m }, none)
  else (msg, some .unknownType)

/-- `decodeMessage`, encoding/protobuf/unaggregated_iterator.go:125-156. What the failed conversions leave in the message and
a failed `Unmarshal` in `pb` is not modelled: after an error `Next` does nothing, and `Close` clears them. -/
def decodeMessage (x : XTime) (it : Iter) (size : Int) : Out (Bool × Iter) :=
  if size < 0 ∨ (it.buf.length : Int) < size then .panic
  else match readFull size.toNat it.reader with
    | .error (e, r) => .ok (false, { it with reader := r, err := some e })
    | .ok (d, r) =>
      let it := { it with reader := r, buf := d ++ it.buf.drop size.toNat, pb := resetMetric it.pb }
      match metricWithMetadatas.unmarshal (it.buf.take size.toNat) it.pb with
      | .panic => .panic
      | .err => .ok (false, { it with err := some .unmarshal })
      | .ok pb =>
        let res := convert x pb it.msg
        .ok (res.2.isNone, { it with pb := pb, msg := res.1, err := res.2 })

/-- `Next`, encoding/protobuf/unaggregated_iterator.go:93-123. -/
def next (x : XTime) (fresh : Nat → Bytes) (it : Iter) : Out (Bool × Iter) :=
  if it.err.isSome ∨ it.closed then .ok (false, it)
  else match readZigzag it.reader with
    | .error (e, r) => .ok (false, { it with reader := r, err := some e })
    | .ok (size, r) =>
      let it := { it with reader := r }
      if size > it.maxMessageSize then .ok (false, { it with err := some .tooLarge })
      else decodeMessage x { it with buf := ensureBufferSize fresh it.buf size } size

end Verif.PIter
