import Verif.Spec.SchemaAccept
/-
The liberties that a reader may take with the encoding documentation, one by one: what is taken for a message by a reader that takes
some of them.
-/
namespace Verif.Spec.Schema
open Verif.Spec.WireFormat

/-- The liberties. -/
inductive Liberty where
  /-- Bits of a varint from the 64th on are dropped. -/
  | bits
  /-- Bits of a field number from the 32nd on are dropped. -/
  | number
  /-- A field to be passed over may have a number that is none: zero, or 2^29 and more. -/
  | range
  /-- The number at the end of a group is not compared with that at its start. -/
  | close
  /-- A number may be none of the values of the enumeration. -/
  | enum
  /-- The last of packed numbers may end after their size. -/
  | tail
  /-- Packed numbers with a size such that their end is not below 2^63 are none. -/
  | overflow

/-- A varint of which the lowest 64 bits are `n`. -/
def LowBy (S : Liberty → Prop) (n : Nat) (d : Bytes) : Prop := ∃ v, Num v d ∧ n = v % 2 ^ 64 ∧ (v < 2 ^ 64 ∨ S .bits)

/-- The key of a field. -/
def KeyBy (S : Liberty → Prop) (n w : Nat) (k : Bytes) : Prop :=
  ∃ t, LowBy S t k ∧ w = t % 8 ∧ n = t / 8 % 2 ^ 32 ∧ (t / 8 < 2 ^ 32 ∨ S .number)

/-- `PassedBy S false n d`: one field of number `n`, to be passed over.  `PassedBy S true n d`: what comes after the key of a group of
number `n`. -/
inductive PassedBy (S : Liberty → Prop) : Bool → Nat → Bytes → Prop
  | varint (n v : Nat) (k d : Bytes) : FieldNumber n ∨ S .range → KeyBy S n 0 k → Num v d → PassedBy S false n (k ++ d)
  | fixed64 (n : Nat) (k d : Bytes) : FieldNumber n ∨ S .range → KeyBy S n 1 k → d.length = 8 → PassedBy S false n (k ++ d)
  | bytes (n : Nat) (k l d : Bytes) : FieldNumber n ∨ S .range → KeyBy S n 2 k → LowBy S d.length l → PassedBy S false n (k ++ (l ++ d))
  | group (n : Nat) (k d : Bytes) : FieldNumber n ∨ S .range → KeyBy S n 3 k → PassedBy S true n d → PassedBy S false n (k ++ d)
  | fixed32 (n : Nat) (k d : Bytes) : FieldNumber n ∨ S .range → KeyBy S n 5 k → d.length = 4 → PassedBy S false n (k ++ d)
  | close (g n : Nat) (e : Bytes) : n = g ∨ S .close → KeyBy S n 4 e → PassedBy S true g e
  | cons (g n : Nat) (d r : Bytes) : PassedBy S false n d → PassedBy S true g r → PassedBy S true g (d ++ r)

/-- The number is a value of the type: it has at most 64 bits and is one of the values if these are given. -/
def NumberBy (S : Liberty → Prop) (ty : Ty) (v : Nat) : Prop :=
  (v < 2 ^ 64 ∨ S .bits) ∧ ((∀ e, ty = .enum e → v ∈ e.values.map (·.2)) ∨ S .enum)

/-- Packed values of a size of `n` bytes. -/
inductive PackBy (S : Liberty → Prop) (ty : Ty) : Nat → Bytes → Prop
  | nil : PackBy S ty 0 []
  | number (n v : Nat) (d r : Bytes) : ty.wire = 0 → 0 < n → Num v d → NumberBy S ty v → d.length ≤ n ∨ S .tail →
      PackBy S ty (n - d.length) r → PackBy S ty n (d ++ r)
  | double (n : Nat) (d r : Bytes) : ty.wire = 1 → 0 < n → d.length = 8 → 8 ≤ n ∨ S .tail → PackBy S ty (n - 8) r → PackBy S ty n (d ++ r)

/-- `AcceptedBy S m l d`: `d` is taken for the end of a message of `l` bytes by a reader that takes the liberties `S`. -/
inductive AcceptedBy (S : Liberty → Prop) : Message → Nat → Bytes → Prop
  | done (m : Message) (l : Nat) : AcceptedBy S m l []
  | number (m : Message) (l : Nat) (x : Decl) (v : Nat) (k d r : Bytes) :
      x ∈ m.fields → x.ty.wire = 0 → KeyBy S x.num 0 k → Num v d → NumberBy S x.ty v → AcceptedBy S m l r →
      AcceptedBy S m l (k ++ (d ++ r))
  | double (m : Message) (l : Nat) (x : Decl) (k d r : Bytes) :
      x ∈ m.fields → x.ty.wire = 1 → KeyBy S x.num 1 k → d.length = 8 → AcceptedBy S m l r → AcceptedBy S m l (k ++ (d ++ r))
  | bytes (m : Message) (l : Nat) (x : Decl) (k s d r : Bytes) :
      x ∈ m.fields → x.ty = .bytes ∨ x.ty = .string → KeyBy S x.num 2 k → LowBy S d.length s → AcceptedBy S m l r →
      AcceptedBy S m l (k ++ (s ++ (d ++ r)))
  | message (m : Message) (l : Nat) (x : Decl) (sub : Message) (k s d r : Bytes) :
      x ∈ m.fields → x.ty = .msg sub → KeyBy S x.num 2 k → LowBy S d.length s → AcceptedBy S sub d.length d → AcceptedBy S m l r →
      AcceptedBy S m l (k ++ (s ++ (d ++ r)))
  | packed (m : Message) (l : Nat) (x : Decl) (n : Nat) (k s d r : Bytes) :
      x ∈ m.fields → x.rep = true → x.ty.packed = true → KeyBy S x.num 2 k → LowBy S n s → n ≤ (d ++ r).length → PackBy S x.ty n d →
      AcceptedBy S m l r → AcceptedBy S m l (k ++ (s ++ (d ++ r)))
  | overflow (m : Message) (l : Nat) (x : Decl) (n : Nat) (k s r : Bytes) :
      x ∈ m.fields → x.rep = true → x.ty.packed = true → KeyBy S x.num 2 k → LowBy S n s → n < 2 ^ 63 → 2 ^ 63 ≤ l - r.length + n →
      S .overflow → AcceptedBy S m l r → AcceptedBy S m l (k ++ (s ++ r))
  | unknown (m : Message) (l : Nat) (n : Nat) (d r : Bytes) :
      0 < n → n < 2 ^ 31 → n ∉ m.fields.map (·.num) → PassedBy S false n d → AcceptedBy S m l r → AcceptedBy S m l (d ++ r)

end Verif.Spec.Schema
