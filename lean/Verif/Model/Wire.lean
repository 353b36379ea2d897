import Verif.Model.Filter
/-
Model of the code gogoprotobuf generated for the messages on the wire, generated/proto/*/*.pb.go: `MarshalTo`, `Size`,
`Unmarshal`, `skipX`, `encodeVarintX` and `sovX`.  All of it is written out by one template per kind of field, so the template
is modelled once, as a function of the list of fields of a message, and the messages are given by their lists of fields
(`Verif.Model.WireMessages`).  The citations here are to generated/proto/metricpb/metric.pb.go, where each kind of field except
those for embedded messages occurs, and to generated/proto/metricpb/metadata.pb.go and composite.pb.go for these.

`int` has 64 bits.  Unsigned numbers are naturals below 2^64 (`|` of disjoint bits is addition), a `float64` is its bit pattern.
A slice that is nil and one that is empty are not distinguished.  A position in the data is given by what is left of it; the
index is the length of the data less what is left, and index arithmetic that overflows is modelled.
-/
namespace Verif.Wire

/-- The bits of a `float64`. -/
abbrev F64 := BitVec 64

/-- `m.Value != 0` on floats is false for both zeros. -/
def F64.isZero (v : F64) : Bool := v == 0 || v == 0x8000000000000000

/-- Conversion of an `int64` or `int32` to `uint64`. -/
def toU64 (v : Int) : Nat := (v % 18446744073709551616).toNat

/-- `int64` accumulated from 64 bits. -/
def toI64 (n : Nat) : Int := if n % 18446744073709551616 < 9223372036854775808 then (n % 18446744073709551616 : Nat) else ((n % 18446744073709551616 : Nat) : Int) - 18446744073709551616

/-- `int32` accumulated from 64 bits. -/
def toI32 (n : Nat) : Int := if n % 4294967296 < 2147483648 then (n % 4294967296 : Nat) else ((n % 4294967296 : Nat) : Int) - 4294967296

/-- The loop of `sovMetric`, metric.pb.go:489-498; at most ten rounds for 64 bits. -/
def sovLoop : Nat → Nat → Nat
  | 0, _ => 0
  | f + 1, x => if x / 128 = 0 then 1 else 1 + sovLoop f (x / 128)

/-- `sovMetric`, metric.pb.go:489-498. -/
def sov (x : Nat) : Nat := sovLoop 10 x

/-- The loop of `encodeVarintMetric`, metric.pb.go:403-411. -/
def encLoop : Nat → Nat → Bytes
  | 0, _ => []
  | f + 1, v => if v ≥ 128 then UInt8.ofNat (v % 128 + 128) :: encLoop f (v / 128) else [UInt8.ofNat v]

/-- `encodeVarintMetric`, metric.pb.go:403-411. -/
def encodeVarint (v : Nat) : Bytes := encLoop 10 v

/-- The loop that reads a varint, e.g. metric.pb.go:508-521, from `shift` on; `none`: overflow or unexpected end. -/
def readLoop (shift acc : Nat) : Bytes → Option (Nat × Bytes)
  | [] => none
  | b :: r =>
    if shift ≥ 64 then none
    else
      let acc := (acc + b.toNat % 128 * 2 ^ shift) % 18446744073709551616
      if b.toNat < 128 then some (acc, r) else readLoop (shift + 7) acc r

/-- Reading a varint: the value and what is left. -/
def readVarint (d : Bytes) : Option (Nat × Bytes) := readLoop 0 0 d

/-- Index arithmetic: an `int` past the largest one is negative; which negative number it is makes no difference here. -/
def wrap (n : Int) : Int := if n ≥ 9223372036854775808 then -1 else n

mutual
/-- `skipMetric`, metric.pb.go:1116-1215: the number of bytes to skip (negative after an overflow). -/
def skip : Nat → Bytes → Out Int
  | 0, _ => .err
  | f + 1, d => match d with
    | [] => .panic
    | _ :: _ => match readVarint d with
      | none => .err
      | some (wire, r) =>
        let i := d.length - r.length
        if wire % 8 = 0 then match readVarint r with
          | none => .err
          | some (_, r') => .ok ((d.length - r'.length : Nat) : Int)
        else if wire % 8 = 1 then .ok ((i + 8 : Nat) : Int)
        else if wire % 8 = 2 then match readVarint r with
          | none => .err
          | some (n, r') =>
            if n ≥ 9223372036854775808 then .err else .ok (wrap ((d.length - r'.length + n : Nat) : Int))
        else if wire % 8 = 3 then skipGroup f d.length r
        else if wire % 8 = 4 then .ok (i : Int)
        else if wire % 8 = 5 then .ok ((i + 4 : Nat) : Int)
        else .err

/-- The loop over the contents of a group, metric.pb.go:1170-1200; `l` is the length of the data, `r` what is left of it. -/
def skipGroup : Nat → Nat → Bytes → Out Int
  | 0, _, _ => .err
  | f + 1, l, r => match readVarint r with
    | none => .err
    | some (wire, r') =>
      if wire % 8 = 4 then .ok ((l - r'.length : Nat) : Int)
      else match skip f r with
        | .err => .err
        | .panic => .panic
        | .ok next =>
          if next < 0 ∨ ((l - r.length : Nat) : Int) + next ≥ 9223372036854775808 then .panic
          else skipGroup f l (r.drop next.toNat)
end

/-- A field of a message of type `M`: its number, its part of `Size`, of `MarshalTo`, and its case in `Unmarshal`, which gets
the length of the data, the wire type and what is left of the data. -/
structure Field (M : Type) where
  num : Nat
  size : M → Nat
  marshal : M → Bytes
  unmarshal : Nat → Nat → Bytes → M → Out (M × Bytes)

/-- The byte before a field of number less than 16. -/
def tag (num wt : Nat) : UInt8 := UInt8.ofNat (num * 8 + wt)

/-- A message: its fields in the order of their numbers, and the empty message. -/
structure Codec (M : Type) where
  fields : List (Field M)
  zero : M

/-- `MarshalTo`, e.g. metric.pb.go:236-253. -/
def Codec.marshal (c : Codec M) (m : M) : Bytes := c.fields.flatMap fun f => f.marshal m

/-- `Size`, e.g. metric.pb.go:412-423. -/
def Codec.size (c : Codec M) (m : M) : Nat := (c.fields.map fun f => f.size m).sum

/-- The loop of `Unmarshal`, e.g. metric.pb.go:505-596: `l` is the length of the data. -/
def unmarshalLoop (fs : List (Field M)) (l : Nat) : Nat → Bytes → M → Out M
  | 0, _, _ => .err
  | f + 1, d, m => match d with
    | [] => .ok m
    | _ :: _ => match readVarint d with
      | none => .err
      | some (wire, r) =>
        if wire % 8 = 4 then .err
        else if toI32 (wire / 8) ≤ 0 then .err
        else match fs.find? (fun fd => (fd.num : Int) == toI32 (wire / 8)) with
          | some fd => match fd.unmarshal l (wire % 8) r m with
            | .err => .err
            | .panic => .panic
            | .ok (m', r') => unmarshalLoop fs l f r' m'
          | none => match skip (d.length + 1) d with
            | .err => .err
            | .panic => .panic
            | .ok n =>
              if n < 0 then .err
              else if ((l - d.length : Nat) : Int) + n ≥ 9223372036854775808 then .panic
              else if n > d.length then .err
              else unmarshalLoop fs l f (d.drop n.toNat) m

/-- `Unmarshal`, e.g. metric.pb.go:502-601, into a message that may have contents. -/
def Codec.unmarshal (c : Codec M) (d : Bytes) (m : M) : Out M := unmarshalLoop c.fields d.length (d.length + 1) d m

/-! ### The kinds of fields -/

/-- A number as a varint: `put` is the conversion to `uint64`, `take` the accumulation in the type of the field.
metric.pb.go:246-250 (MarshalTo), 419-421 (Size), 564-583 (Unmarshal). -/
def varintField (num : Nat) (put : A → Nat) (take : Nat → A) (get : M → A) (set : M → A → M) : Field M where
  num := num
  size m := if put (get m) ≠ 0 then 1 + sov (put (get m)) else 0
  marshal m := if put (get m) ≠ 0 then tag num 0 :: encodeVarint (put (get m)) else []
  unmarshal _ wt r m := if wt ≠ 0 then .err else match readVarint r with
    | none => .err
    | some (n, r') => .ok (set m (take n), r')

/-- `int64`. -/
def int64Field (num : Nat) (get : M → Int) (set : M → Int → M) : Field M := varintField num toU64 toI64 get set

/-- `int32` and enumerations. -/
def int32Field (num : Nat) (get : M → Int) (set : M → Int → M) : Field M := varintField num toU64 toI32 get set

/-- `uint64`. -/
def uint64Field (num : Nat) (get : M → BitVec 64) (set : M → BitVec 64 → M) : Field M :=
  varintField num BitVec.toNat (BitVec.ofNat 64) get set

/-- `uint32`. -/
def uint32Field (num : Nat) (get : M → BitVec 32) (set : M → BitVec 32 → M) : Field M :=
  varintField num BitVec.toNat (BitVec.ofNat 32) get set

/-- `bool`: metadata.pb.go:327-335 (MarshalTo), 509-511 (Size), 857-876 (Unmarshal). -/
def boolField (num : Nat) (get : M → Bool) (set : M → Bool → M) : Field M :=
  varintField num Bool.toNat (fun n => n != 0) get set

/-- Little endian, `k` bytes. -/
def putLE : Nat → Nat → Bytes
  | 0, _ => []
  | k + 1, v => UInt8.ofNat (v % 256) :: putLE k (v / 256)

def getLE : Bytes → Nat
  | [] => 0
  | b :: r => b.toNat + 256 * getLE r

/-- Eight bytes as a `float64`. -/
def readF64 (r : Bytes) : Option (F64 × Bytes) :=
  if r.length < 8 then none else some (BitVec.ofNat 64 (getLE (r.take 8)), r.drop 8)

/-- `double`: metric.pb.go:310-315 (MarshalTo), 445-447 (Size), 784-794 (Unmarshal). -/
def doubleField (num : Nat) (get : M → F64) (set : M → F64 → M) : Field M where
  num := num
  size m := if (get m).isZero then 0 else 9
  marshal m := if (get m).isZero then [] else tag num 1 :: putLE 8 (get m).toNat
  unmarshal _ wt r m := if wt ≠ 1 then .err else match readF64 r with
    | none => .err
    | some (v, r') => .ok (set m v, r')

/-- The length before bytes, packed numbers or a message; negative ones are refused. metric.pb.go:535-551. -/
def readLen (r : Bytes) : Option (Nat × Bytes) := match readVarint r with
  | none => none
  | some (n, r') => if n ≥ 9223372036854775808 then none else some (n, r')

/-- `dAtA[iNdEx:postIndex]`, metric.pb.go:552-560: if the addition overflows then `postIndex` is negative, passes the
comparison with the length, and slicing panics. -/
def slice (l : Nat) (r : Bytes) (n : Nat) : Out (Bytes × Bytes) :=
  if l - r.length + n ≥ 9223372036854775808 then .panic
  else if n > r.length then .err
  else .ok (r.take n, r.drop n)

/-- A length and that many bytes. -/
def readSlice (l : Nat) (r : Bytes) : Out (Bytes × Bytes) := match readLen r with
  | none => .err
  | some (n, r') => slice l r' n

/-- `bytes`: metric.pb.go:241-246 (MarshalTo), 415-418 (Size), 530-563 (Unmarshal). -/
def bytesField (num : Nat) (get : M → Bytes) (set : M → Bytes → M) : Field M where
  num := num
  size m := if (get m).length > 0 then 1 + (get m).length + sov (get m).length else 0
  marshal m := if (get m).length > 0 then tag num 2 :: encodeVarint (get m).length ++ get m else []
  unmarshal l wt r m := if wt ≠ 2 then .err else match readSlice l r with
    | .err => .err
    | .panic => .panic
    | .ok (x, r') => .ok (set m x, r')

/-- The loop over packed doubles, metric.pb.go:688-698: it goes on while fewer than `n` bytes are consumed, and reads past
`postIndex` if `n` is not a multiple of eight. -/
def packedLoop : Nat → Nat → Bytes → List F64 → Option (List F64 × Bytes)
  | 0, _, _, _ => none
  | f + 1, n, r, acc =>
    if n = 0 then some (acc, r)
    else match readF64 r with
      | none => none
      | some (v, r') => packedLoop f (n - 8) r' (acc ++ [v])

/-- `repeated double`: metric.pb.go:275-285 (MarshalTo), 432-434 (Size), 656-702 (Unmarshal: one value with wire type 1,
packed values with wire type 2; an overflow of `postIndex` leaves the loop at once). -/
def doublesField (num : Nat) (get : M → List F64) (set : M → List F64 → M) : Field M where
  num := num
  size m := if (get m).length > 0 then 1 + sov ((get m).length * 8) + (get m).length * 8 else 0
  marshal m := if (get m).length > 0
    then tag num 2 :: encodeVarint ((get m).length * 8) ++ (get m).flatMap (fun v => putLE 8 v.toNat) else []
  unmarshal l wt r m :=
    if wt = 1 then match readF64 r with
      | none => .err
      | some (v, r') => .ok (set m (get m ++ [v]), r')
    else if wt = 2 then match readLen r with
      | none => .err
      | some (n, r') =>
        if l - r'.length + n ≥ 9223372036854775808 then .ok (m, r')
        else if n > r'.length then .err
        else match packedLoop (n + 1) n r' (get m) with
          | none => .err
          | some (vs, r'') => .ok (set m vs, r'')
    else .err

/-- An embedded message as it is written: its size and its bytes. -/
def marshalMsg (num : Nat) (c : Codec A) (a : A) : Bytes := tag num 2 :: encodeVarint (c.size a) ++ c.marshal a

/-- The size of an embedded message with its length and tag. -/
def sizeMsg (c : Codec A) (a : A) : Nat := 1 + c.size a + sov (c.size a)

/-- Unmarshalling an embedded message into one that may have contents. -/
def unmarshalMsg (c : Codec A) (l : Nat) (r : Bytes) (a : A) : Out (A × Bytes) := match readSlice l r with
  | .err => .err
  | .panic => .panic
  | .ok (x, r') => match c.unmarshal x a with
    | .err => .err
    | .panic => .panic
    | .ok a' => .ok (a', r')

/-- An embedded message that is not nullable: metadata.pb.go:240-247 (MarshalTo), 475-476 (Size), 599-628 (Unmarshal: merged
into the contents). -/
def msgField (num : Nat) (c : Codec A) (get : M → A) (set : M → A → M) : Field M where
  num := num
  size m := sizeMsg c (get m)
  marshal m := marshalMsg num c (get m)
  unmarshal l wt r m := if wt ≠ 2 then .err else match unmarshalMsg c l r (get m) with
    | .err => .err
    | .panic => .panic
    | .ok (a, r') => .ok (set m a, r')

/-- An embedded message behind a pointer: composite.pb.go:489-498 (MarshalTo), 607-610 (Size), 1246-1278 (Unmarshal: merged
into the contents, or into a new message if the pointer is nil). -/
def optField (num : Nat) (c : Codec A) (get : M → Option A) (set : M → Option A → M) : Field M where
  num := num
  size m := match get m with
    | none => 0
    | some a => sizeMsg c a
  marshal m := match get m with
    | none => []
    | some a => marshalMsg num c a
  unmarshal l wt r m := if wt ≠ 2 then .err else match unmarshalMsg c l r ((get m).getD c.zero) with
    | .err => .err
    | .panic => .panic
    | .ok (a, r') => .ok (set m (some a), r')

/-- Repeated embedded messages: metadata.pb.go:248-259 (MarshalTo), 477-482 (Size), 629-659 (Unmarshal: into a new element at
the end). -/
def repField (num : Nat) (c : Codec A) (get : M → List A) (set : M → List A → M) : Field M where
  num := num
  size m := ((get m).map (sizeMsg c)).sum
  marshal m := (get m).flatMap (marshalMsg num c)
  unmarshal l wt r m := if wt ≠ 2 then .err else match unmarshalMsg c l r c.zero with
    | .err => .err
    | .panic => .panic
    | .ok (a, r') => .ok (set m (get m ++ [a]), r')

end Verif.Wire
