import Verif.Model.Aggregation
/-
IEEE 754 binary64, as far as Go's `float64` needs it here: values, comparison, and subtraction, multiplication, division and
conversion from integers with rounding to nearest, ties to even.  This is a specification of the environment (Go spec,
"Numeric types" and "Arithmetic operators"), not of code in the repository.

All finite values are integer multiples of 2^-1074, so that a finite value is a sign and a number of such units; subnormal
numbers need no special treatment.  NaN payloads are not modelled.
-/
namespace Verif.F

/-- A `float64`: not a number, infinite, or a sign and a magnitude in units of 2^-1074. -/
inductive F64 where
  | nan
  | inf (neg : Bool)
  | fin (neg : Bool) (mag : Nat)
  deriving DecidableEq, Repr

/-- One, in units. -/
def one : Nat := 2 ^ 1074

/-- The least magnitude that is too large. -/
def limit : Nat := 2 ^ 2098

/-- The spacing of floating point numbers at `q` units: 53 significant bits. -/
def spacing (q : Nat) : Nat := 2 ^ (q.log2 + 1 - 53)

/-- The fraction `n/d` rounded to the nearest multiple of the spacing, ties to even. -/
def rnd (n d : Nat) : Nat :=
  let u := spacing (n / d)
  let q := n / (d * u)
  let r := n % (d * u)
  (if d * u < 2 * r ∨ (2 * r = d * u ∧ q % 2 = 1) then q + 1 else q) * u

/-- A rounded magnitude, infinite if too large. -/
def F64.of (neg : Bool) (mag : Nat) : F64 := if limit ≤ mag then .inf neg else .fin neg mag

/-- The signed number of units. -/
def signed (neg : Bool) (mag : Nat) : Int := if neg then -(mag : Int) else mag

/-- The value with these 64 bits. -/
def ofBits (b : BitVec 64) : F64 :=
  let neg := b.getLsbD 63
  let e := b.toNat / 2 ^ 52 % 2 ^ 11
  let f := b.toNat % 2 ^ 52
  if e = 2047 then if f = 0 then .inf neg else .nan
  else if e = 0 then .fin neg f
  else .fin neg ((2 ^ 52 + f) * 2 ^ (e - 1))

def F64.isNaN : F64 → Bool
  | .nan => true
  | _ => false

/-- `x < y`. -/
def F64.lt : F64 → F64 → Bool
  | .nan, _ => false
  | _, .nan => false
  | .inf s, .inf t => s && !t
  | .inf s, .fin _ _ => s
  | .fin _ _, .inf t => !t
  | .fin s a, .fin t b => decide (signed s a < signed t b)

/-- `x - y`. -/
def F64.sub : F64 → F64 → F64
  | .nan, _ => .nan
  | _, .nan => .nan
  | .inf s, .inf t => if s = t then .nan else .inf s
  | .inf s, .fin _ _ => .inf s
  | .fin _ _, .inf t => .inf (!t)
  | .fin s a, .fin t b =>
    let z := signed s a - signed t b
    if z = 0 then .fin (a == 0 && s && !t) 0
    else .of (decide (z < 0)) (rnd z.natAbs 1)

/-- `x * y`. -/
def F64.mul : F64 → F64 → F64
  | .nan, _ => .nan
  | _, .nan => .nan
  | .inf s, .inf t => .inf (s ^^ t)
  | .inf s, .fin t b => if b = 0 then .nan else .inf (s ^^ t)
  | .fin s a, .inf t => if a = 0 then .nan else .inf (s ^^ t)
  | .fin s a, .fin t b => .of (s ^^ t) (rnd (a * b) one)

/-- `x / y`. -/
def F64.div : F64 → F64 → F64
  | .nan, _ => .nan
  | _, .nan => .nan
  | .inf _, .inf _ => .nan
  | .inf s, .fin t _ => .inf (s ^^ t)
  | .fin s _, .inf t => .fin (s ^^ t) 0
  | .fin s a, .fin t b =>
    if b = 0 then (if a = 0 then .nan else .inf (s ^^ t))
    else .of (s ^^ t) (rnd (a * one) b)

/-- `float64(z)` for an integer. -/
def ofInt (z : Int) : F64 := .of (decide (z < 0)) (rnd (z.natAbs * one) 1)

/-- `math.Abs`. -/
def F64.abs : F64 → F64
  | .nan => .nan
  | .inf _ => .inf false
  | .fin _ a => .fin false a

/-- `int64` arithmetic wraps. -/
def wrap64 (z : Int) : Int := z.bmod (2 ^ 64)

end Verif.F
