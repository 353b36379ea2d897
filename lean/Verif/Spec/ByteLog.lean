import Verif.Lemmas.ProtoStream
/-
Specification of the protobuf encoder (C19): a list of bytes with a limit on the size of a message.  Buffers, the pool and the
choices it makes do not occur.
-/
namespace Verif.Spec.ByteLog
open Verif.Policy Verif.Meta Verif.Wire Verif.Msg Verif.PIter Verif.PBuf

structure Log where
  max : Int
  bytes : Bytes
  deriving DecidableEq

/-- Protobuf messages nobody has used. -/
def blank : Protos := ⟨⟨{}, []⟩, ⟨{}, []⟩, ⟨{}, []⟩, ⟨{}, {}⟩, ⟨{}, {}⟩⟩

/-- The frame of a message, unless it cannot be converted or is too large. -/
def message (x : XTime) (max : Int) (m : Union) : Option Bytes :=
  match toPB x blank m with
  | none => none
  | some pb => if (metricWithMetadatas.marshal pb).length ≤ max then some (frame pb) else none

/-- What a call does to the encoder it is made on. -/
def Log.call (x : XTime) (l : Log) : Op → Res × Log
  | .reset _ d _ => (.ok, { l with bytes := d })
  | .truncate _ n => if 0 ≤ n ∧ n ≤ l.bytes.length then (.ok, { l with bytes := l.bytes.take n.toNat }) else (.err, l)
  | .relinquish _ => (.ok, { l with bytes := [] })
  | .encode _ _ m _ => match message x l.max m with
    | none => (.err, l)
    | some f => (.ok, { l with bytes := l.bytes ++ f })
  | _ => (.ok, l)

/-- The encoder a call is made on. -/
def onEncoder : Op → Option Nat
  | .reset k _ _ => some k
  | .truncate k _ => some k
  | .relinquish k => some k
  | .encode k _ _ _ => some k
  | _ => none

/-- The encoders after a step. -/
def logStep (x : XTime) (logs : List Log) (op : Op) : List Log :=
  match op with
  | .newEncoder _ _ m _ => logs ++ [⟨m, []⟩]
  | op => match onEncoder op with
    | none => logs
    | some k => match logs[k]? with
      | none => logs
      | some l => logs.set k (l.call x op).2

/-- The limits are such that a size fits into the five bytes reserved for it. -/
def small : Op → Prop
  | .newEncoder _ _ m _ => m < 17179869184
  | _ => True

/-- The buffer that was given away a call is made on. -/
def onBuffer : Op → Option Nat
  | .bufTruncate k _ => some k
  | .bufWrite k _ => some k
  | .bufClose k => some k
  | _ => none

end Verif.Spec.ByteLog
