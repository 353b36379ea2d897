import Verif.Spec.SchemaRead
/-
Which bytes are taken for a message of the published .proto files.  Where a reader goes beyond the encoding documentation the rule
says so; `Verif.Spec.SchemaRead` is the documentation.
-/
namespace Verif.Spec.Schema
open Verif.Spec.WireFormat

/-- `Low n d`: a varint of at most ten bytes, of which the lowest 64 bits are `n`.  Beyond the documentation: the other bits, up to
six of them, may be set. -/
def Low (n : Nat) (d : Bytes) : Prop := ∃ v, Num v d ∧ n = v % 2 ^ 64

/-- `Key n w k`: the key of a field of number `n` and wire type `w`.  Beyond the documentation: of the number the lowest 32 bits count. -/
def Key (n w : Nat) (k : Bytes) : Prop := ∃ t, Low t k ∧ w = t % 8 ∧ n = t / 8 % 2 ^ 32

/-- `Passed (some n) d`: one field of number `n`, to be passed over.  `Passed none d`: what comes after the key of a group.  Beyond
the documentation: fields in a group may have number zero, and the number at the end of a group need not be that of the group. -/
inductive Passed : Option Nat → Bytes → Prop
  | varint (n v : Nat) (k d : Bytes) : Key n 0 k → Num v d → Passed (some n) (k ++ d)
  | fixed64 (n : Nat) (k d : Bytes) : Key n 1 k → d.length = 8 → Passed (some n) (k ++ d)
  | bytes (n : Nat) (k l d : Bytes) : Key n 2 k → Low d.length l → Passed (some n) (k ++ (l ++ d))
  | group (n : Nat) (k d : Bytes) : Key n 3 k → Passed none d → Passed (some n) (k ++ d)
  | fixed32 (n : Nat) (k d : Bytes) : Key n 5 k → d.length = 4 → Passed (some n) (k ++ d)
  | close (n : Nat) (e : Bytes) : Key n 4 e → Passed none e
  | cons (n : Nat) (d r : Bytes) : Passed (some n) d → Passed none r → Passed none (d ++ r)

/-- The wire type of the values of a type. -/
def Ty.wire : Ty → Nat
  | .int64 | .int32 | .uint64 | .uint32 | .bool | .enum _ => 0
  | .double => 1
  | .bytes | .string | .msg _ => 2

/-- `Pack w n d`: values of wire type `w`, as many as it takes for `n` bytes.  Beyond the documentation: the last one may end later. -/
inductive Pack (w : Nat) : Nat → Bytes → Prop
  | nil : Pack w 0 []
  | number (n v : Nat) (d r : Bytes) : w = 0 → 0 < n → Num v d → Pack w (n - d.length) r → Pack w n (d ++ r)
  | double (n : Nat) (d r : Bytes) : w = 1 → 0 < n → d.length = 8 → Pack w (n - 8) r → Pack w n (d ++ r)

/-- `Accepted m l d`: `d` is taken for the end of a message of `l` bytes. -/
inductive Accepted : Message → Nat → Bytes → Prop
  | done (m : Message) (l : Nat) : Accepted m l []
  /-- A number, of any size and whether or not it is a value of an enumeration. -/
  | number (m : Message) (l : Nat) (x : Decl) (v : Nat) (k d r : Bytes) :
      x ∈ m.fields → x.ty.wire = 0 → Key x.num 0 k → Num v d → Accepted m l r → Accepted m l (k ++ (d ++ r))
  | double (m : Message) (l : Nat) (x : Decl) (k d r : Bytes) :
      x ∈ m.fields → x.ty.wire = 1 → Key x.num 1 k → d.length = 8 → Accepted m l r → Accepted m l (k ++ (d ++ r))
  /-- A string or byte array; whether a string is UTF-8 is not checked. -/
  | bytes (m : Message) (l : Nat) (x : Decl) (k s d r : Bytes) :
      x ∈ m.fields → x.ty = .bytes ∨ x.ty = .string → Key x.num 2 k → Low d.length s → Accepted m l r →
      Accepted m l (k ++ (s ++ (d ++ r)))
  | message (m : Message) (l : Nat) (x : Decl) (sub : Message) (k s d r : Bytes) :
      x ∈ m.fields → x.ty = .msg sub → Key x.num 2 k → Low d.length s → Accepted sub d.length d → Accepted m l r →
      Accepted m l (k ++ (s ++ (d ++ r)))
  /-- Packed numbers: their size is at most what is left. -/
  | packed (m : Message) (l : Nat) (x : Decl) (n : Nat) (k s d r : Bytes) :
      x ∈ m.fields → x.rep = true → x.ty.packed = true → Key x.num 2 k → Low n s → n ≤ (d ++ r).length → Pack x.ty.wire n d →
      Accepted m l r → Accepted m l (k ++ (s ++ (d ++ r)))
  /-- Beyond the documentation: packed numbers of a size below 2^63 such that their end is not below 2^63 are taken for none. -/
  | overflow (m : Message) (l : Nat) (x : Decl) (n : Nat) (k s r : Bytes) :
      x ∈ m.fields → x.rep = true → x.ty.packed = true → Key x.num 2 k → Low n s → n < 2 ^ 63 → 2 ^ 63 ≤ l - r.length + n →
      Accepted m l r → Accepted m l (k ++ (s ++ r))
  /-- A field that is not declared, of a number below 2^31. -/
  | unknown (m : Message) (l : Nat) (n : Nat) (d r : Bytes) :
      0 < n → n < 2 ^ 31 → n ∉ m.fields.map (·.num) → Passed (some n) d → Accepted m l r → Accepted m l (d ++ r)

/-- `d` is taken for a message. -/
def Acceptable (m : Message) (d : Bytes) : Prop := Accepted m d.length d

end Verif.Spec.Schema
