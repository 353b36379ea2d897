import Verif.Base
/- The protobuf wire format, written after the protobuf encoding documentation. -/
namespace Verif.Spec.WireFormat

/-- A varint: seven bits per byte, the least significant first, all bytes but the last with the high bit set.  Need not
be the shortest one. -/
inductive Varint : Nat → Bytes → Prop
  | last (b : UInt8) : b.toNat < 128 → Varint b.toNat [b]
  | more (b : UInt8) (n : Nat) (r : Bytes) : 128 ≤ b.toNat → Varint n r → Varint (b.toNat - 128 + 128 * n) (b :: r)

/-- A varint of at most ten bytes. -/
def Num (n : Nat) (d : Bytes) : Prop := Varint n d ∧ d.length ≤ 10

/-- A field number. -/
def FieldNumber (n : Nat) : Prop := 0 < n ∧ n < 536870912

/-- `Chunk (some n) d`: `d` is one field of number `n`, of any wire type.  `Chunk none d`: `d` is any number of fields. -/
inductive Chunk : Option Nat → Bytes → Prop
  | varint (n v : Nat) (k d : Bytes) : FieldNumber n → Num (n * 8) k → Num v d → Chunk (some n) (k ++ d)
  | fixed64 (n : Nat) (k d : Bytes) : FieldNumber n → Num (n * 8 + 1) k → d.length = 8 → Chunk (some n) (k ++ d)
  | bytes (n : Nat) (k l d : Bytes) : FieldNumber n → Num (n * 8 + 2) k → Num d.length l → Chunk (some n) (k ++ (l ++ d))
  | group (n : Nat) (k d e : Bytes) : FieldNumber n → Num (n * 8 + 3) k → Chunk none d → Num (n * 8 + 4) e →
      Chunk (some n) (k ++ (d ++ e))
  | fixed32 (n : Nat) (k d : Bytes) : FieldNumber n → Num (n * 8 + 5) k → d.length = 4 → Chunk (some n) (k ++ d)
  | nil : Chunk none []
  | cons (n : Nat) (d r : Bytes) : Chunk (some n) d → Chunk none r → Chunk none (d ++ r)

/-- Any number of fields, none of them with one of the numbers `known`. -/
inductive Unknown (known : List Nat) : Bytes → Prop
  | nil : Unknown known []
  | cons (n : Nat) (d r : Bytes) : n ∉ known → Chunk (some n) d → Unknown known r → Unknown known (d ++ r)

end Verif.Spec.WireFormat
