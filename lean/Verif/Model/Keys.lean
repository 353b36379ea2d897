import Verif.Model.Store
import Verif.Model.TypesConfig
/-
The keys under which rules are stored and watched: rules/store/kv/store.go:137-139, matcher/config.go:126-129 and
matcher/options.go:302-304.

`fmt.Sprintf` (Go's fmt) is modelled for formats with the verbs `%s` and `%%` only, and one argument, a string or a byte slice; for
others the result is `none`.
-/
namespace Verif.Keys
open Verif.Store Verif.RuleSet Verif.Policy

/-- The loop of `Sprintf`: whether the argument was used, and the rest of the format.  `arg` is the argument as `%s` prints it,
`extra` what is appended if it was not used. -/
def sprintfLoop (arg extra : Bytes) : Bool → Bytes → Option Bytes
  | used, [] => some (if used then [] else extra)
  | used, c :: r =>
    if c = 37 then match r with
      | [] => some (bs "%!(NOVERB)" ++ if used then [] else extra)
      | d :: r' =>
        if d = 115 then (sprintfLoop arg extra true r').map ((if used then bs "%!s(MISSING)" else arg) ++ ·)
        else if d = 37 then (sprintfLoop arg extra used r').map (37 :: ·)
        else none
    else (sprintfLoop arg extra used r).map (c :: ·)

/-- A byte slice as `%v` prints it: `[1 2 3]`. -/
def showBytes (b : Bytes) : Bytes := bs "[" ++ ((b.map fun x => Agg.digits 3 x.toNat).intersperse [32]).flatten ++ bs "]"

/-- `fmt.Sprintf(format, s)` of a string `s`. -/
def sprintfString (format s : Bytes) : Option Bytes := sprintfLoop s (bs "%!(EXTRA string=" ++ s ++ bs ")") false format

/-- `fmt.Sprintf(format, b)` of a byte slice `b`. -/
def sprintfBytes (format b : Bytes) : Option Bytes := sprintfLoop b (bs "%!(EXTRA []uint8=" ++ showBytes b ++ bs ")") false format

/-- `ruleSetKey` of the store, rules/store/kv/store.go:137-139. -/
def storeKey (format ns : Bytes) : Option Bytes := sprintfString format ns

/-- `ruleSetKeyFn` of a configured matcher, matcher/config.go:126-129, and `defaultRuleSetKeyFn`, matcher/options.go:302-304. -/
def matcherKey (format ns : Bytes) : Option Bytes := sprintfBytes format ns

/-- `defaultNamespacesKey` and `defaultRuleSetKeyFormat`, matcher/options.go:37-38. -/
def defaultNamespacesKey : Bytes := bs "/namespaces"
def defaultRuleSetKeyFormat : Bytes := bs "/ruleset/%s"

/-- `NewStoreOptions`, rules/store/kv/options.go:35-45. -/
def storeOptions (namespacesKey format : Bytes) (validator : Option (RuleSet → Bool)) (x : XTime) (filterKey : Bytes) : Options :=
  { namespacesKey := namespacesKey, ruleSetKey := fun ns => (storeKey format ns).getD [], validator := validator, x := x, filterKey := filterKey }

end Verif.Keys
