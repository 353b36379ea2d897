import Verif.Model.OptionsHeap
/-
What options are to hold, without pointers: every call returns a value of its own.
-/
namespace Verif.Spec.OptionsHeap
open Verif.Opts

/-- The values a program has after one more call. -/
def valuesStep (new : α) (apply : σ → α → α) (vals : List α) : Call σ → List α
  | .new => vals ++ [new]
  | .set i s => match vals[i]? with
    | none => vals
    | some o => vals ++ [apply s o]

/-- The values a program has got by its calls. -/
def values (new : α) (apply : σ → α → α) (cs : List (Call σ)) : List α := cs.foldl (valuesStep new apply) []

/-- The options a program has called setters on. -/
def used (cs : List (Call σ)) : List Nat := cs.filterMap fun
  | .new => none
  | .set i _ => some i

end Verif.Spec.OptionsHeap
