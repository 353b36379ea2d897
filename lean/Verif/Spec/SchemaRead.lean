import Verif.Spec.SchemaContents
/-
How the bytes of a message are read, written after the protobuf encoding documentation: fields may come in any order and any number of
times, numbers need not be written in the shortest way, of a field that is not repeated the last value counts, parts of an embedded
message are put together, numbers of another type are converted, repeated numbers may be packed or not, and fields that are not declared are passed over.
-/
namespace Verif.Spec.Schema
open Verif.Spec.WireFormat

/-- The values of a field. -/
def values : Contents → String → List Val
  | [], _ => []
  | f :: c, name => if f.1 = name then f.2 else values c name

/-- The contents with other values of a field. -/
def put : Contents → String → List Val → Contents
  | [], name, vs => [(name, vs)]
  | f :: c, name, vs => if f.1 = name then (name, vs) :: c else f :: put c name vs

/-- What a field contains that does not occur: its default if it is a single number, string or byte array. -/
def Decl.absent (d : Decl) : List Val :=
  if d.rep then [] else match d.ty with
    | .int64 | .int32 | .uint64 | .uint32 => [.int 0]
    | .bool => [.bool false]
    | .double => [.dbl 0]
    | .bytes | .string => [.bytes []]
    | .enum e => (e.values.filter (·.2 = 0)).map fun v => .label v.1
    | .msg _ => []

/-- The contents of a message of no bytes. -/
def Message.empty (m : Message) : Contents := m.fields.map fun d => (d.name, d.absent)

/-- `Cast ty n v`: the number `n`, written for another type of numbers, is `v` for this type, as if cast in C++. -/
inductive Cast : Ty → Nat → Val → Prop
  | bool (n : Nat) : Cast .bool n (.bool (n != 0))
  | int32 (n : Nat) : Cast .int32 n (.int ((n : Int).bmod (2 ^ 32)))
  | uint32 (n : Nat) : Cast .uint32 n (.int (n % 2 ^ 32 : Nat))

/-- `Reads m c d c'`: a message with contents `c`, after which `d` is read, has contents `c'`. -/
inductive Reads : Message → Contents → Bytes → Contents → Prop
  /-- Nothing more. -/
  | done (m : Message) (c : Contents) : Reads m c [] c
  /-- A number, string or byte array: it replaces what there was. -/
  | scalar (m : Message) (c : Contents) (ty : Ty) (name : String) (num : Nat) (v : Val) (w : Nat) (k d r : Bytes) (c' : Contents) :
      ⟨false, ty, name, num⟩ ∈ m.fields → Num (num * 8 + w) k → Scalar ty v w d → Reads m (put c name [v]) r c' →
      Reads m c (k ++ (d ++ r)) c'
  /-- A number that was written for another type. -/
  | cast (m : Message) (c : Contents) (ty : Ty) (name : String) (num : Nat) (n : Nat) (v : Val) (k d r : Bytes) (c' : Contents) :
      ⟨false, ty, name, num⟩ ∈ m.fields → Num (num * 8) k → n < 2 ^ 64 → Num n d → Cast ty n v → Reads m (put c name [v]) r c' →
      Reads m c (k ++ (d ++ r)) c'
  /-- The first part of an embedded message. -/
  | message (m : Message) (c : Contents) (sub : Message) (name : String) (num : Nat) (new : Contents) (k l d r : Bytes)
      (c' : Contents) :
      ⟨false, .msg sub, name, num⟩ ∈ m.fields → values c name = [] → Num (num * 8 + 2) k → Num d.length l →
      Reads sub sub.empty d new → Reads m (put c name [.msg new]) r c' → Reads m c (k ++ (l ++ (d ++ r))) c'
  /-- A further part of it. -/
  | merge (m : Message) (c : Contents) (sub : Message) (name : String) (num : Nat) (old new : Contents) (k l d r : Bytes)
      (c' : Contents) :
      ⟨false, .msg sub, name, num⟩ ∈ m.fields → values c name = [.msg old] → Num (num * 8 + 2) k → Num d.length l →
      Reads sub old d new → Reads m (put c name [.msg new]) r c' → Reads m c (k ++ (l ++ (d ++ r))) c'
  /-- One of the values of a repeated field. -/
  | one (m : Message) (c : Contents) (ty : Ty) (name : String) (num : Nat) (v : Val) (w : Nat) (k d r : Bytes) (c' : Contents) :
      ⟨true, ty, name, num⟩ ∈ m.fields → Num (num * 8 + w) k → Scalar ty v w d → Reads m (put c name (values c name ++ [v])) r c' →
      Reads m c (k ++ (d ++ r)) c'
  /-- Packed numbers. -/
  | packed (m : Message) (c : Contents) (ty : Ty) (name : String) (num : Nat) (vs : List Val) (k l d r : Bytes) (c' : Contents) :
      ⟨true, ty, name, num⟩ ∈ m.fields → ty.packed = true → Num (num * 8 + 2) k → Num d.length l → Packed ty vs d →
      Reads m (put c name (values c name ++ vs)) r c' → Reads m c (k ++ (l ++ (d ++ r))) c'
  /-- One of several embedded messages. -/
  | element (m : Message) (c : Contents) (sub : Message) (name : String) (num : Nat) (new : Contents) (k l d r : Bytes)
      (c' : Contents) :
      ⟨true, .msg sub, name, num⟩ ∈ m.fields → Num (num * 8 + 2) k → Num d.length l → Reads sub sub.empty d new →
      Reads m (put c name (values c name ++ [.msg new])) r c' → Reads m c (k ++ (l ++ (d ++ r))) c'
  /-- A field that is not declared. -/
  | unknown (m : Message) (c : Contents) (n : Nat) (d r : Bytes) (c' : Contents) :
      n ∉ m.fields.map (·.num) → Chunk (some n) d → Reads m c r c' → Reads m c (d ++ r) c'

/-- `d` is read as a message with these contents. -/
def ReadAs (m : Message) (c : Contents) (d : Bytes) : Prop := Reads m m.empty d c

/-- A stream of messages that are read so, each after its size, which is at most `max`. -/
inductive StreamAs (max : Int) : List Contents → Bytes → Prop
  | nil : StreamAs max [] []
  | cons (c : Contents) (cs : List Contents) (l d r : Bytes) : Num (2 * d.length) l → d.length ≤ max → ReadAs .MetricWithMetadatas c d →
      StreamAs max cs r → StreamAs max (c :: cs) (l ++ (d ++ r))

end Verif.Spec.Schema
