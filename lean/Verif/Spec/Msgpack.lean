import Verif.Model.Msgpack
import Verif.Spec.Messages
/-
What is assumed of the msgpack library, and what the bytes of a message look like, as relations between values and bytes.  The
relations allow everything a newer writer may do: every object may have further fields after those this version knows.
-/
namespace Verif.Spec.MP
open Verif.MP Verif.Policy Verif.Msg Verif.Wire
open Verif.Spec.Msg (Int64)

/-- Lengths the format has room for. -/
def Len (n : Nat) : Prop := n < 4294967296

mutual
/-- The bytes are one value. -/
inductive Value (l : Lib) : Bytes → Prop
  | int (v : Int) : Int64 v → Value l (l.putInt v)
  | bool (v : Bool) : Value l (l.putBool v)
  | f64 (v : F64) : Value l (l.putF64 v)
  | bytes (v : Option Bytes) : (∀ b, v = some b → Len b.length) → Value l (l.putBytes v)
  | chunked (v : Bytes) : Len v.length → Value l (l.putBytesLen v.length ++ v)
  | array (n : Nat) (b : Bytes) : Len n → Values l n b → Value l (l.putArrayLen n ++ b)
/-- The bytes are `n` values. -/
inductive Values (l : Lib) : Nat → Bytes → Prop
  | nil : Values l 0 []
  | cons (n : Nat) (b c : Bytes) : Value l b → Values l n c → Values l (n + 1) (b ++ c)
end

/-- What is assumed of the library: decoding gives back what was encoded, within the ranges of the format; a byte slice is its
length and then its bytes; integers below 128 are a byte; reading an integer takes at least a byte and fails with `io.EOF` at
the end; values are skipped as a whole. -/
structure Laws (l : Lib) : Prop where
  int : ∀ v r, Int64 v → l.getInt (l.putInt v ++ r) = .ok (v, r)
  bool : ∀ v r, l.getBool (l.putBool v ++ r) = .ok (v, r)
  f64 : ∀ v r, l.getF64 (l.putF64 v ++ r) = .ok (v, r)
  bytes : ∀ b r, Len b.length → l.getBytes (l.putBytes (some b) ++ r) = .ok (b, r)
  bytesForm : ∀ b, Len b.length → l.putBytes (some b) = l.putBytesLen b.length ++ b
  nilLen : ∀ r, l.getBytesLen (l.putBytes none ++ r) = .ok (-1, r)
  chunkedLen : ∀ n r, Len n → l.getBytesLen (l.putBytesLen n ++ r) = .ok ((n : Int), r)
  arrayLen : ∀ n r, Len n → l.getArrayLen (l.putArrayLen n ++ r) = .ok ((n : Int), r)
  intEnd : l.getInt [] = .error .eof
  intSmall : ∀ n : Nat, n < 128 → l.putInt n = [UInt8.ofNat n]
  intReads : ∀ d v r, l.getInt d = .ok (v, r) → r.length < d.length
  skip : ∀ b r, Value l b → l.skip (b ++ r) = .ok r

/-- The bytes of an object with `n` fields that this version knows, and any number of further ones. -/
def Obj (l : Lib) (n : Nat) (fields b : Bytes) : Prop :=
  ∃ k extra, Values l k extra ∧ Len (n + k) ∧ b = l.putArrayLen (n + k) ++ (fields ++ extra)

/-- The bytes of an aggregation identifier: default, short, or long. -/
def WAggID (l : Lib) (id : Agg.ID) (b : Bytes) : Prop :=
  (id = 0 ∧ Obj l 1 (l.putInt 18) b) ∨ Obj l 2 (l.putInt 19 ++ l.putInt id.toInt) b ∨
    Obj l 2 (l.putInt 20 ++ (l.putArrayLen 1 ++ l.putInt id.toInt)) b

/-- The known resolutions. -/
def KnownResolution (u : Units) : List (Int × Resolution) :=
  [(1, ⟨1000000000, u.second⟩), (2, ⟨10000000000, u.second⟩), (3, ⟨60000000000, u.minute⟩), (4, ⟨300000000000, u.minute⟩),
   (5, ⟨600000000000, u.minute⟩)]

/-- The known retentions, in hours. -/
def KnownRetention : List (Int × Int) := [(1, 1), (2, 6), (3, 12), (4, 24), (5, 48), (6, 168), (7, 336), (8, 720), (9, 1080)]

/-- A precision that can be written: a unit that is known, in a byte. -/
def ValidPrecision (x : XTime) (p : Nat) : Prop := p < 256 ∧ (x.unitValue p).isSome

/-- The bytes of a resolution. -/
def WResolution (l : Lib) (x : XTime) (u : Units) (r : Resolution) (b : Bytes) : Prop :=
  (∃ v, (v, r) ∈ KnownResolution u ∧ Obj l 2 (l.putInt 14 ++ l.putInt v) b) ∨
    (Int64 r.window ∧ ValidPrecision x r.precision ∧ Obj l 3 (l.putInt 15 ++ (l.putInt r.window ++ l.putInt r.precision)) b)

/-- The bytes of a retention. -/
def WRetention (l : Lib) (r : Int) (b : Bytes) : Prop :=
  (∃ v h, (v, h) ∈ KnownRetention ∧ r = h * 3600000000000 ∧ Obj l 2 (l.putInt 16 ++ l.putInt v) b) ∨
    (Int64 r ∧ Obj l 2 (l.putInt 17 ++ l.putInt r) b)

/-- The bytes of a storage policy. -/
def WStoragePolicy (l : Lib) (x : XTime) (u : Units) (p : StoragePolicy) (b : Bytes) : Prop :=
  ∃ rb tb, WResolution l x u p.resolution rb ∧ WRetention l p.retention tb ∧ Obj l 2 (rb ++ tb) b

/-- The bytes of a policy. -/
def WPolicy (l : Lib) (x : XTime) (u : Units) (p : Policy) (b : Bytes) : Prop :=
  ∃ sb ab, WStoragePolicy l x u p.sp sb ∧ WAggID l p.aggID ab ∧ Obj l 2 (sb ++ ab) b

/-- The bytes of a list are those of its elements, one after the other. -/
def WList (w : α → Bytes → Prop) : List α → Bytes → Prop
  | [], b => b = []
  | a :: as, b => ∃ ab rest, w a ab ∧ WList w as rest ∧ b = ab ++ rest

/-- The bytes of staged policies. -/
def WStaged (l : Lib) (x : XTime) (u : Units) (p : StagedPolicies) (b : Bytes) : Prop :=
  Int64 p.cutoverNanos ∧ Len p.policies.length ∧ ∃ pb, WList (WPolicy l x u) p.policies pb ∧
    Obj l 3 (l.putInt p.cutoverNanos ++ (l.putBool p.tombstoned ++ (l.putArrayLen p.policies.length ++ pb))) b

/-- The bytes of a policies list. -/
def WPolicies (l : Lib) (x : XTime) (u : Units) (pl : List StagedPolicies) (b : Bytes) : Prop :=
  (pl = [{}] ∧ Obj l 1 (l.putInt 10) b) ∨
    (Len pl.length ∧ ∃ pb, WList (WStaged l x u) pl pb ∧ Obj l 2 (l.putInt 11 ++ (l.putArrayLen pl.length ++ pb)) b)

/-- The bytes of an identifier: nil, a slice, or a length with the bytes after it. -/
def WId (l : Lib) (id b : Bytes) : Prop :=
  Len id.length ∧ ((id = [] ∧ b = l.putBytes none) ∨ b = l.putBytes (some id) ∨ b = l.putBytesLen id.length ++ id)

/-- The bytes of a metric of each type. -/
def WMetric (l : Lib) : Sample → Bytes → Prop
  | .counter c, b => Int64 c.value ∧ ∃ ib, WId l c.id ib ∧ Obj l 2 (ib ++ l.putInt c.value) b
  | .timer t, b => Len t.values.length ∧ ∃ ib, WId l t.id ib ∧
      Obj l 2 (ib ++ (l.putArrayLen t.values.length ++ t.values.flatMap l.putF64)) b
  | .gauge g, b => ∃ ib, WId l g.id ib ∧ Obj l 2 (ib ++ l.putF64 g.value) b

/-- The number of the message type. -/
def number : Sample → Bool → Int
  | .counter _, false => 6
  | .timer _, false => 7
  | .gauge _, false => 8
  | .counter _, true => 2
  | .timer _, true => 3
  | .gauge _, true => 4

/-- A message in a stream. -/
inductive Item where
  /-- a metric without policies -/
  | bare (m : Sample)
  /-- a metric with its policies list -/
  | policies (m : Sample) (pl : List StagedPolicies)
  /-- a message of a higher version -/
  | higher (v : Int)

/-- The bytes of a message. -/
def WItem (l : Lib) (x : XTime) (u : Units) : Item → Bytes → Prop
  | .bare m, b => ∃ mb body, WMetric l m mb ∧ Obj l 2 (l.putInt (number m false) ++ mb) body ∧ b = l.putInt 1 ++ body
  | .policies m pl, b => ∃ mb pb ob body, WMetric l m mb ∧ WPolicies l x u pl pb ∧ Obj l 2 (mb ++ pb) ob ∧
      Obj l 2 (l.putInt (number m true) ++ ob) body ∧ b = l.putInt 1 ++ body
  | .higher v, b => 1 < v ∧ Int64 v ∧ ∃ n body, Len n ∧ Values l n body ∧ b = l.putInt v ++ (l.putArrayLen n ++ body)

/-- What a user sees of a metric: the one its type says. -/
def view (m : MetricUnion) : Option Sample :=
  if m.type = CounterType then some (.counter m.counter)
  else if m.type = TimerType then some (.timer m.batchTimer)
  else if m.type = GaugeType then some (.gauge m.gauge)
  else none

/-- What can be written: sizes and numbers in their ranges. -/
def Writable : Sample → Prop
  | .counter c => Len c.id.length ∧ Int64 c.value
  | .timer t => Len t.id.length ∧ Len t.values.length
  | .gauge g => Len g.id.length

def WritableStorage (x : XTime) (u : Units) (p : StoragePolicy) : Prop :=
  (Int64 p.resolution.window ∧ ValidPrecision x p.resolution.precision ∨ ∃ v, (v, p.resolution) ∈ KnownResolution u) ∧
    Int64 p.retention

def WritablePolicies (x : XTime) (u : Units) (pl : List StagedPolicies) : Prop :=
  Len pl.length ∧ ∀ s ∈ pl, Int64 s.cutoverNanos ∧ Len s.policies.length ∧ ∀ p ∈ s.policies, WritableStorage x u p.sp

end Verif.Spec.MP
