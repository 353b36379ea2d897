import Verif.Model.Store
import Verif.Model.WireRules
/-
Model of rules/store/kv/store.go as in `Verif.Model.Store`, on a key-value store that holds bytes: `Commit` stores what `Marshal` of
the message returns, `value.Unmarshal` is `Unmarshal` of the stored bytes into an empty message (m3cluster, not in the repository).
-/
namespace Verif.Store
open Verif.Meta Verif.RuleSet Verif.Rules Verif.NS Verif.Policy Verif.Wire

/-- `Marshal` of a message, e.g. generated/proto/rulepb/rule.pb.go:743-751. -/
def Value.bytes : Value → Bytes
  | .namespaces p => Wire.namespacesMsg.marshal p
  | .ruleSet p => Wire.ruleSet.marshal p

/-- The bytes set for each key so far, oldest first. -/
abbrev BKV := Bytes → List Bytes

/-- The version of a key. -/
def BKV.version (kv : BKV) (k : Bytes) : Int := (kv k).length

/-- `kv.TxnStore.Commit`, as `KV.commit`. -/
def BKV.commit (kv : BKV) (conds : List (Bytes × Int)) (ops : List (Bytes × Value)) : Option BKV :=
  if conds.all fun c => kv.version c.1 = c.2 then
    some (ops.foldl (fun kv o => fun k => if k = o.1 then kv k ++ [o.2.bytes] else kv k) kv)
  else none

/-- `ReadNamespaces`, rules/store/kv/store.go:48-65; a panic in `Unmarshal` is the outer case. -/
def readNamespacesB (o : Options) (kv : BKV) : Out (Read Namespaces) :=
  match (kv o.namespacesKey).getLast? with
  | none => .ok .notFound
  | some b => match namespacesMsg.unmarshal b namespacesMsg.zero with
    | .panic => .panic
    | .err => .ok .err
    | .ok p => match newNamespaces (kv.version o.namespacesKey) (some p) with
      | none => .ok .err
      | some nss => .ok (.ok nss)

/-- `ReadRuleSet`, rules/store/kv/store.go:67-85. -/
def readRuleSetB (o : Options) (kv : BKV) (name : Bytes) : Out (Read RuleSet) :=
  match (kv (o.ruleSetKey name)).getLast? with
  | none => .ok .notFound
  | some b => match Wire.ruleSet.unmarshal b Wire.ruleSet.zero with
    | .panic => .panic
    | .err => .ok .err
    | .ok p => match newRuleSetFromProto o.x o.filterKey (kv.version (o.ruleSetKey name)) (some p) with
      | none => .ok .err
      | some rs => .ok (.ok rs)

/-- `Commit` followed by `wrapWriteError`, rules/store/kv/store.go:180-188. -/
def commitWriteB (kv : BKV) (conds : List (Bytes × Int)) (ops : List (Bytes × Value)) : BKV × Write :=
  match kv.commit conds ops with
  | none => (kv, .stale)
  | some kv' => (kv', .ok)

/-- `WriteRuleSet`, rules/store/kv/store.go:87-100. -/
def writeRuleSetB (o : Options) (kv : BKV) (rs : RuleSet) : BKV × Write :=
  if !accepted o rs then (kv, .err)
  else match ruleSetTransaction o rs with
    | none => (kv, .err)
    | some t => commitWriteB kv [t.1] [t.2]

/-- `WriteAll`, rules/store/kv/store.go:102-128. -/
def writeAllB (o : Options) (kv : BKV) (nss : Namespaces) (rs : RuleSet) : BKV × Write :=
  if !accepted o rs then (kv, .err)
  else match ruleSetTransaction o rs with
    | none => (kv, .err)
    | some t => match namespacesTransaction o nss with
      | none => (kv, .err)
      | some u => commitWriteB kv ([t.1] ++ [u.1]) ([t.2] ++ [u.2])

end Verif.Store
