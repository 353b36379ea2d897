import Verif.Spec.Aggregation
/- The names of aggregation types, as documented. -/
namespace Verif.Spec

/-- The names of the 22 types. -/
def typeNames : List Bytes :=
  [bs "last", bs "lower", bs "upper", bs "mean", bs "median", bs "count", bs "sum", bs "sum_sq", bs "stdev", bs "p10", bs "p20",
   bs "p30", bs "p40", bs "p50", bs "p60", bs "p70", bs "p80", bs "p90", bs "p95", bs "p99", bs "p999", bs "p9999"]

/-- The name of a type. -/
def typeName (t : Int) : Bytes := typeNames.getD (t.toNat - 1) []

/-- What the configured kind of transformation makes of a name. -/
def configured (kind : Option Bytes) (name : Bytes) : Bytes :=
  if kind = some (bs "empty") then [] else if kind = some (bs "suffix") then 46 :: name else name

/-- The configured kind is one of the three, or none is configured. -/
def KnownKind (kind : Option Bytes) : Prop :=
  kind = none ∨ kind = some (bs "noop") ∨ kind = some (bs "empty") ∨ kind = some (bs "suffix")

instance (kind : Option Bytes) : Decidable (KnownKind kind) := by unfold KnownKind; infer_instance

/-- The types that make sense for a counter: all but the last value and the quantiles. -/
def ForCounter (t : Int) : Prop := 2 ≤ t ∧ t ≤ 9 ∧ t ≠ 5

/-- The types that make sense for a gauge: also the last value. -/
def ForGauge (t : Int) : Prop := 1 ≤ t ∧ t ≤ 9 ∧ t ≠ 5

/-- The types that make sense for a timer: all but the last value. -/
def ForTimer (t : Int) : Prop := 2 ≤ t ∧ t ≤ 22

end Verif.Spec
