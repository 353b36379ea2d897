import Verif.Model.StoreBytes
import Verif.Model.Matcher
/-
What the matcher makes of the values under its keys: matcher/ruleset.go and matcher/namespaces.go.  The keys, the time units and the key
of the name tag are those of the store (`Options`); the matcher's are configured apart from them (matcher/config.go:53-91), and are
taken to agree.
-/
namespace Verif.Deploy
open Verif.Meta Verif.RuleSet Verif.Rules Verif.NS Verif.Store Verif.Wire

/-- `toRuleSet`, matcher/ruleset.go:186-198, of the bytes of a value and its version; `ok none` is an error.  The message is reset
before `Unmarshal` (matcher/ruleset.go:193). -/
def toRuleSet (o : Options) (version : Int) (b : Bytes) : Out (Option RuleSet) :=
  match Wire.ruleSet.unmarshal b Wire.ruleSet.zero with
  | .panic => .panic
  | .err => .ok none
  | .ok p => .ok (newRuleSetFromProto o.x o.filterKey version (some p))

/-- `toNamespaces`, matcher/namespaces.go:228-240. -/
def toNamespaces (version : Int) (b : Bytes) : Out (Option Namespaces) :=
  match namespacesMsg.unmarshal b namespacesMsg.zero with
  | .panic => .panic
  | .err => .ok none
  | .ok p => .ok (newNamespaces version (some p))

end Verif.Deploy
