import Verif.Model.Aggregation
import Verif.Model.Float
/-
Model of aggregation/type_config.go, of the default quantile names (aggregation/types_options.go:392-399) and of the checks of lists of
types for a metric type (aggregation/type.go:303-331).

Simplifications: the pools of a configuration are left out; a configuration is the Go structure, and of reading it from YAML only
`UnmarshalYAML` of the repository is modelled.
-/
namespace Verif.Agg
open Verif.F (F64 rnd one)

/-! ### Default names of quantiles -/

/-- The float64 of a constant of `Type.Quantile` (aggregation/type.go:161-192), given in ten-thousandths. -/
def quantileFloat (q : Nat) : F64 := .of false (rnd (q * one) 10000)

/-- The decimal digits of a number, at least `k` of them, with fuel. -/
def digits : Nat → Nat → Bytes
  | 0, _ => []
  | fuel + 1, n => if n < 10 then [UInt8.ofNat (48 + n)] else digits fuel (n / 10) ++ [UInt8.ofNat (48 + n % 10)]

def padded (k n : Nat) : Bytes := let d := digits 400 n; List.replicate (k - d.length) 48 ++ d

/-- The least number of decimals, from `k` on, with which a decimal number is read as this magnitude, and the number. -/
def decimals (mag : Nat) : Nat → Nat → Option (Nat × Nat)
  | 0, _ => none
  | fuel + 1, k =>
    let n := (2 * mag * 10 ^ k + one) / (2 * one)
    if rnd (n * one) (10 ^ k) = mag then some (k, n) else decimals mag fuel (k + 1)

/-- `strconv.FormatFloat(v, 'f', -1, 64)`: the shortest decimal number that is read as `v` (the Go
documentation of strconv; for numbers of at least one, as here, the shortest is the one with the fewest decimals). -/
def formatFloat : F64 → Bytes
  | .fin neg mag => match decimals mag 20 0 with
    | none => []
    | some (k, n) => (if neg then [45] else []) ++ (if k = 0 then digits 400 n else digits 400 (n / 10 ^ k) ++ 46 :: padded k (n % 10 ^ k))
  | _ => []

/-- The text without its first dot, aggregation/types_options.go:394-397. -/
def dropDot : Bytes → Bytes
  | [] => []
  | b :: r => if b = 46 then r else b :: dropDot r

/-- `defaultQuantileTypeStringFn`, aggregation/types_options.go:392-399. -/
def defaultQuantileFn (q : Nat) : Bytes := bs "p" ++ dropDot (formatFloat ((quantileFloat q).mul (F.ofInt 100)))

/-! ### Configuration -/

/-- `NoOpTransform`, `EmptyTransform`, `SuffixTransform`, aggregation/types_options.go:402-409. -/
def noOpTransform (b : Bytes) : Bytes := b
def emptyTransform (_ : Bytes) : Bytes := []
def suffixTransform (b : Bytes) : Bytes := bs "." ++ b

/-- `transformFnType.TransformFn`, aggregation/type_config.go:145-156. -/
def transformFn (t : Bytes) : Option (Bytes → Bytes) :=
  if t = bs "noop" then some noOpTransform
  else if t = bs "empty" then some emptyTransform
  else if t = bs "suffix" then some suffixTransform
  else none

/-- `transformFnType.UnmarshalYAML`, aggregation/type_config.go:127-143, after the text has been read. -/
def readTransform (s : Bytes) : Option Bytes := [bs "noop", bs "empty", bs "suffix"].find? (· == s)

/-- `TypesConfiguration`, aggregation/type_config.go:31-55, without the pools. -/
structure TypesConfiguration where
  defaultCounter : Option (List AType) := none
  defaultTimer : Option (List AType) := none
  defaultGauge : Option (List AType) := none
  counterFn : Option Bytes := none
  timerFn : Option Bytes := none
  gaugeFn : Option Bytes := none

/-- One `if c.X != nil { opts = opts.SetX(*c.X) }`. -/
def setTypes (v : Option (List AType)) (set : List AType → Setter) (o : Options) : Options :=
  match v with
  | none => o
  | some ts => o.apply (set ts)

/-- One `if c.X != nil { fn, err := c.X.TransformFn(); … }`. -/
def setFn (v : Option Bytes) (set : (Bytes → Bytes) → Setter) (o : Option Options) : Option Options :=
  match o with
  | none => none
  | some o => match v with
    | none => some o
    | some t => match transformFn t with
      | none => none
      | some f => some (o.apply (set f))

/-- `TypesConfiguration.NewOptions`, aggregation/type_config.go:58-111. -/
def TypesConfiguration.newOptions (c : TypesConfiguration) : Option Options :=
  let o := newTypesOptions defaultQuantileFn
  let o := setTypes c.defaultCounter .defaultCounter o
  let o := setTypes c.defaultGauge .defaultGauge o
  let o := setTypes c.defaultTimer .defaultTimer o
  let o := setFn c.counterFn .counterFn (some o)
  let o := setFn c.timerFn .timerFn o
  let o := setFn c.gaugeFn .gaugeFn o
  o.map fun o => (o.apply .setPool).apply .setPool

/-! ### Lists of types -/

/-- `Types.IsValidForGauge`, `IsValidForCounter`, `IsValidForTimer`, aggregation/type.go:304-331: one loop each. -/
def typesValidForGauge : List AType → Bool
  | [] => true
  | t :: ts => if !isValidForGauge t then false else typesValidForGauge ts

def typesValidForCounter : List AType → Bool
  | [] => true
  | t :: ts => if !isValidForCounter t then false else typesValidForCounter ts

def typesValidForTimer : List AType → Bool
  | [] => true
  | t :: ts => if !isValidForTimer t then false else typesValidForTimer ts

end Verif.Agg
