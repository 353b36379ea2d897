import Verif.Model.Configured
/- What C103 says of options made from a configuration. -/
namespace Verif.Spec.Configured
open Verif.Configured

/-- A number that was given, or the default for none. -/
def given (v dflt : Int) : Int := if v = 0 then dflt else v

/-- Nothing that the options keep a reference to is given other contents: the format of the keys of rule sets in the configuration of a
matcher, the array of the allowed metric types in that of a validator, the arrays of the default types in that of aggregation types. -/
def Untouched (s : St) : Built → List Act → Prop
  | .matcher o, after => ∀ p c d, o.keyFn = .ofConfig p → .setMatcherConfig p c ∈ after → s.matchers[p]? = some d →
      c.ruleSetKeyFmt = d.ruleSetKeyFmt
  | .cache _, _ => True
  | .validator _ _ a, after => ∀ l, .setArray a l ∈ after → some l = s.arrays[a]?
  | .types _ c t g, after => ∀ a l, some a ∈ [c, t, g] → .setArray a l ∈ after → some l = s.arrays[a]?

/-- The options answer the same in both states. -/
def Same (s s' : St) : Built → Prop
  | .matcher o => ∀ ns, ruleSetKey s o ns = ruleSetKey s' o ns
  | .cache _ => True
  | .validator o tag a => validatorNow s o tag a = validatorNow s' o tag a
  | .types o c t g => typesNow s o c t g = typesNow s' o c t g

/-- The contents of the array `a` after a program, if they were `l` before: what was assigned last. -/
def lastArray (a : Nat) (l : List Int) : List Act → List Int
  | [] => l
  | .setArray b l' :: after => if b = a then lastArray a l' after else lastArray a l after
  | _ :: after => lastArray a l after

/-- The format of the keys of rule sets in the configuration `p` after a program, if it was `f` before. -/
def lastFormat (p : Nat) (f : Bytes) : List Act → Bytes
  | [] => f
  | .setMatcherConfig q c :: after => if q = p then lastFormat p c.ruleSetKeyFmt after else lastFormat p f after
  | _ :: after => lastFormat p f after

end Verif.Spec.Configured
