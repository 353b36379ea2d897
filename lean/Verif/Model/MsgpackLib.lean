import Verif.Model.Msgpack
/-
A msgpack library, written from the specification of the format (github.com/msgpack/msgpack/spec.md) and what is known of
gopkg.in/vmihailenco/msgpack.v2, which is not part of the repository: the smallest encoding of each number and length, and for
decoding all encodings except those of the extension types.  It is an instance of `Lib`, for which the laws assumed of the
library are proved (Verif.Lemmas.MsgpackLib), and it serves for concrete cases.
-/
namespace Verif.MP
open Verif.Wire

/-- The last bytes first. -/
def putBE (k v : Nat) : Bytes := (putLE k v).reverse
def getBE (b : Bytes) : Nat := getLE b.reverse

/-- Take `k` bytes from the reader (`io.ReadFull`). -/
def takeN (k : Nat) (d : Bytes) : Except Err (Bytes × Bytes) :=
  if d.length < k then .error (if d.isEmpty then .eof else .other) else .ok (d.take k, d.drop k)

def readBE (k : Nat) (d : Bytes) : Except Err (Nat × Bytes) :=
  match takeN k d with
  | .error e => .error e
  | .ok (b, r) => .ok (getBE b, r)

/-- Two's complement of `k` bits. -/
def signed (k v : Nat) : Int := if v < 2 ^ (k - 1) then (v : Int) else (v : Int) - 2 ^ k

def stdPutInt (v : Int) : Bytes :=
  if 0 ≤ v then
    if v < 128 then [UInt8.ofNat v.toNat]
    else if v < 256 then 0xcc :: putBE 1 v.toNat
    else if v < 65536 then 0xcd :: putBE 2 v.toNat
    else if v < 4294967296 then 0xce :: putBE 4 v.toNat
    else 0xcf :: putBE 8 v.toNat
  else if -32 ≤ v then [UInt8.ofNat (v + 256).toNat]
  else if -128 ≤ v then 0xd0 :: putBE 1 (v + 256).toNat
  else if -32768 ≤ v then 0xd1 :: putBE 2 (v + 65536).toNat
  else if -2147483648 ≤ v then 0xd2 :: putBE 4 (v + 4294967296).toNat
  else 0xd3 :: putBE 8 (v + 18446744073709551616).toNat

/-- An unsigned or a signed number of `k` bytes. -/
def stdUint (k : Nat) (d : Bytes) : Except Err (Int × Bytes) :=
  match readBE k d with
  | .error e => .error e
  | .ok (n, r) => .ok (toI64 n, r)

def stdSint (k : Nat) (d : Bytes) : Except Err (Int × Bytes) :=
  match readBE k d with
  | .error e => .error e
  | .ok (n, r) => .ok (signed (8 * k) n, r)

def stdGetInt : Bytes → Except Err (Int × Bytes)
  | [] => .error .eof
  | c :: r =>
    let c := c.toNat
    if c < 0x80 then .ok ((c : Int), r)
    else if 0xe0 ≤ c then .ok ((c : Int) - 256, r)
    else if c = 0xc0 then .ok (0, r)
    else if c = 0xcc then stdUint 1 r
    else if c = 0xcd then stdUint 2 r
    else if c = 0xce then stdUint 4 r
    else if c = 0xcf then stdUint 8 r
    else if c = 0xd0 then stdSint 1 r
    else if c = 0xd1 then stdSint 2 r
    else if c = 0xd2 then stdSint 4 r
    else if c = 0xd3 then stdSint 8 r
    else .error .other

def stdGetBool : Bytes → Except Err (Bool × Bytes)
  | [] => .error .eof
  | c :: r => if c = 0xc3 then .ok (true, r) else if c = 0xc2 then .ok (false, r) else .error .other

/-- Only doubles (floats of 32 bits are not written). -/
def stdGetF64 : Bytes → Except Err (F64 × Bytes)
  | [] => .error .eof
  | c :: r => if c = 0xcb then
      match readBE 8 r with
      | .error e => .error e
      | .ok (n, r) => .ok (BitVec.ofNat 64 n, r)
    else .error .other

def stdPutBytesLen (n : Nat) : Bytes :=
  if n < 256 then 0xc4 :: putBE 1 n
  else if n < 65536 then 0xc5 :: putBE 2 n
  else 0xc6 :: putBE 4 n

def stdPutBytes : Option Bytes → Bytes
  | none => [0xc0]
  | some b => stdPutBytesLen b.length ++ b

def stdLen (k : Nat) (d : Bytes) : Except Err (Int × Bytes) :=
  match readBE k d with
  | .error e => .error e
  | .ok (n, r) => .ok ((n : Int), r)

def stdGetBytesLen : Bytes → Except Err (Int × Bytes)
  | [] => .error .eof
  | c :: r =>
    let c := c.toNat
    if c = 0xc0 then .ok (-1, r)
    else if 0xa0 ≤ c ∧ c < 0xc0 then .ok ((c : Int) - 0xa0, r)
    else if c = 0xc4 ∨ c = 0xd9 then stdLen 1 r
    else if c = 0xc5 ∨ c = 0xda then stdLen 2 r
    else if c = 0xc6 ∨ c = 0xdb then stdLen 4 r
    else .error .other

def stdGetBytes (d : Bytes) : Except Err (Bytes × Bytes) :=
  match stdGetBytesLen d with
  | .error e => .error e
  | .ok (n, r) => if n = -1 then .ok ([], r) else takeN n.toNat r

def stdPutArrayLen (n : Nat) : Bytes :=
  if n < 16 then [UInt8.ofNat (0x90 + n)]
  else if n < 65536 then 0xdc :: putBE 2 n
  else 0xdd :: putBE 4 n

def stdGetArrayLen : Bytes → Except Err (Int × Bytes)
  | [] => .error .eof
  | c :: r =>
    let c := c.toNat
    if c = 0xc0 then .ok (-1, r)
    else if 0x90 ≤ c ∧ c < 0xa0 then .ok ((c : Int) - 0x90, r)
    else if c = 0xdc then stdLen 2 r
    else if c = 0xdd then stdLen 4 r
    else .error .other

/-- Leave out `k` bytes. -/
def pass (k : Nat) (d : Bytes) : Except Err (Nat × Bytes) :=
  match takeN k d with
  | .error e => .error e
  | .ok (_, r) => .ok (0, r)

/-- Leave out as many bytes as a number of `k` bytes says. -/
def passLen (k : Nat) (d : Bytes) : Except Err (Nat × Bytes) :=
  match readBE k d with
  | .error e => .error e
  | .ok (n, r) => pass n r

/-- A number of `k` bytes, times `m`: the number of values inside. -/
def inside (k m : Nat) (d : Bytes) : Except Err (Nat × Bytes) :=
  match readBE k d with
  | .error e => .error e
  | .ok (n, r) => .ok (m * n, r)

/-- The head of a value with everything that is not a value itself: the number of values inside it, and what comes after. -/
def header : Bytes → Except Err (Nat × Bytes)
  | [] => .error .eof
  | c :: r =>
    let c := c.toNat
    if c < 0x80 ∨ 0xe0 ≤ c ∨ c = 0xc0 ∨ c = 0xc2 ∨ c = 0xc3 then .ok (0, r)
    else if c < 0x90 then .ok (2 * (c - 0x80), r)
    else if c < 0xa0 then .ok (c - 0x90, r)
    else if c < 0xc0 then pass (c - 0xa0) r
    else if c = 0xc4 ∨ c = 0xd9 then passLen 1 r
    else if c = 0xc5 ∨ c = 0xda then passLen 2 r
    else if c = 0xc6 ∨ c = 0xdb then passLen 4 r
    else if c = 0xcc ∨ c = 0xd0 then pass 1 r
    else if c = 0xcd ∨ c = 0xd1 then pass 2 r
    else if c = 0xca ∨ c = 0xce ∨ c = 0xd2 then pass 4 r
    else if c = 0xcb ∨ c = 0xcf ∨ c = 0xd3 then pass 8 r
    else if c = 0xdc then inside 2 1 r
    else if c = 0xdd then inside 4 1 r
    else if c = 0xde then inside 2 2 r
    else if c = 0xdf then inside 4 2 r
    else .error .other

/-- Skip `n` values. -/
def skipN : Nat → Nat → Bytes → Except Err Bytes
  | 0, _, _ => .error .other
  | _ + 1, 0, d => .ok d
  | f + 1, n + 1, d => match header d with
    | .error e => .error e
    | .ok (k, r) => skipN f (n + k) r

/-- The library. -/
def std : Lib where
  putInt := stdPutInt
  putBool b := if b then [0xc3] else [0xc2]
  putF64 v := 0xcb :: putBE 8 v.toNat
  putBytes := stdPutBytes
  putBytesLen := stdPutBytesLen
  putArrayLen := stdPutArrayLen
  getInt := stdGetInt
  getBool := stdGetBool
  getF64 := stdGetF64
  getBytes := stdGetBytes
  getBytesLen := stdGetBytesLen
  getArrayLen := stdGetArrayLen
  skip d := skipN (d.length + 2) 1 d

end Verif.MP
