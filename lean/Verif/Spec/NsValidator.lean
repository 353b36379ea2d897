import Verif.Model.NsValidator
/- What is in force at a namespace validator, from the events alone. -/
namespace Verif.Spec.NsVal
open Verif.NsVal

variable {V : Type}

/-- The value published last. -/
def published (v : V) : List (Step V) → V
  | [] => v
  | .publish w :: ss => published w ss
  | _ :: ss => published v ss

/-- The values the validator has read, in order: each is the one published last at that time. -/
def reads (v : V) : List (Step V) → List V
  | [] => []
  | .publish w :: ss => reads w ss
  | .read :: ss => v :: reads v ss
  | _ :: ss => reads v ss

/-- The names of the last value that could be parsed, or else the defaults. -/
def lastGood (parse : V → Option (List Bytes)) (defaults : List Bytes) : List V → List Bytes
  | [] => defaults
  | v :: vs => lastGood parse ((parse v).getD defaults) vs

/-- A value has been announced. -/
def Announced (pending : Bool) (ss : List (Step V)) : Prop := pending = true ∨ ∃ v, Step.publish v ∈ ss

end Verif.Spec.NsVal
