import Verif.Base
/-
Specifications for the aggregation properties, written without the model's helpers.
-/
namespace Verif.Spec

/-- The documented aggregation types are numbered 1 to 22. -/
def ValidAggType (t : Int) : Prop := 1 ≤ t ∧ t ≤ 22

instance (t : Int) : Decidable (ValidAggType t) := inferInstanceAs (Decidable (1 ≤ t ∧ t ≤ 22))

/-- The words for the types in the text form of policies. -/
def typeWords : List Bytes :=
  [bs "Last", bs "Min", bs "Max", bs "Mean", bs "Median", bs "Count", bs "Sum", bs "SumSq", bs "Stdev", bs "P10", bs "P20", bs "P30",
   bs "P40", bs "P50", bs "P60", bs "P70", bs "P80", bs "P90", bs "P95", bs "P99", bs "P999", bs "P9999"]

/-- The words for a list of types, with commas between them. -/
def typesText : List Int → Bytes
  | [] => []
  | [t] => typeWords.getD (t.toNat - 1) []
  | t :: u :: ts => typeWords.getD (t.toNat - 1) [] ++ bs "," ++ typesText (u :: ts)

/-- `l` lists exactly the members of `ts`, each once, ascending. -/
def AscendingDistinct (l ts : List Int) : Prop :=
  l.Pairwise (· < ·) ∧ ∀ t, t ∈ l ↔ t ∈ ts

/-- Keep the first occurrence of every element not in `seen`. -/
def dedupFrom (seen : List Nat) : List Nat → List Nat
  | [] => []
  | q :: qs => if q ∈ seen then dedupFrom seen qs else q :: dedupFrom (q :: seen) qs

/-- The quantile (in ten-thousandths) a documented aggregation type stands for. -/
def quantileOf : Int → Option Nat
  | 5 => some 5000
  | 10 => some 1000 | 11 => some 2000 | 12 => some 3000 | 13 => some 4000 | 14 => some 5000
  | 15 => some 6000 | 16 => some 7000 | 17 => some 8000 | 18 => some 9000
  | 19 => some 9500 | 20 => some 9900 | 21 => some 9990 | 22 => some 9999
  | _ => none

/-- The untransformed type string of a documented aggregation type: a fixed name for the simple
aggregations and the quantile printer for quantiles. -/
def baseTypeString (quantileFn : Nat → Bytes) : Int → Bytes
  | 1 => bs "last" | 2 => bs "lower" | 3 => bs "upper" | 4 => bs "mean" | 5 => bs "median"
  | 6 => bs "count" | 7 => bs "sum" | 8 => bs "sum_sq" | 9 => bs "stdev"
  | t => match quantileOf t with
    | some q => quantileFn q
    | none => []

end Verif.Spec
