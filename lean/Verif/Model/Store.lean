import Verif.Model.Namespace
/-
Model of rules/store/kv/store.go on top of the transactional key-value store of m3cluster.

The key-value store is an external dependency; what is assumed of it is: a key holds the values set so far, one after
the other; the version of a key is the number of values set (`kv.UninitializedVersion` = 0 for a key never set); `Get`
returns the last value and the version; `Commit` checks that all conditions hold and then sets all values, in one
atomic step, or reports `ErrConditionCheckFailed` and sets nothing.  Marshalling and unmarshalling of messages is
lossless (proved as C79), and bytes of one kind of message are not read as the other kind.  Nil arguments are not modelled.
-/
namespace Verif.Store
open Verif.Meta Verif.RuleSet Verif.Rules Verif.NS Verif.Policy

/-- A stored message. -/
inductive Value where
  | namespaces (p : PBNamespaces)
  | ruleSet (p : PBRuleSet)

/-- The values set for each key so far, oldest first. -/
abbrev KV := Bytes → List Value

/-- The version of a key. -/
def KV.version (kv : KV) (k : Bytes) : Int := (kv k).length

/-- `kv.TxnStore.Commit` with conditions on versions (`CompareEqual`, `TargetVersion`) and set operations. -/
def KV.commit (kv : KV) (conds : List (Bytes × Int)) (ops : List (Bytes × Value)) : Option KV :=
  if conds.all fun c => kv.version c.1 = c.2 then
    some (ops.foldl (fun kv o => fun k => if k = o.1 then kv k ++ [o.2] else kv k) kv)
  else none

/-- `StoreOptions`, rules/store/kv/options.go; `ruleSetKey` is `fmt.Sprintf(RuleSetKeyFmt, ·)` (rules/store/kv/store.go:
137-139), the validator says whether a rule set is accepted.  `x` and `filterKey` are what reading and writing rules
depends on. -/
structure Options where
  namespacesKey : Bytes
  ruleSetKey : Bytes → Bytes
  validator : Option (RuleSet → Bool)
  x : XTime
  filterKey : Bytes

/-- Outcome of a read: `merrors.NotFoundError` or another error. -/
inductive Read (α : Type) where
  | ok (a : α)
  | notFound
  | err

/-- Outcome of a write: success, `merrors.StaleDataError`, or another error. -/
inductive Write where
  | ok
  | stale
  | err
  deriving DecidableEq

/-- `ReadNamespaces`, rules/store/kv/store.go:48-65. -/
def readNamespaces (o : Options) (kv : KV) : Read Namespaces :=
  match (kv o.namespacesKey).getLast? with
  | none => .notFound
  | some (.ruleSet _) => .err
  | some (.namespaces p) => match newNamespaces (kv.version o.namespacesKey) (some p) with
    | none => .err
    | some nss => .ok nss

/-- `ReadRuleSet`, rules/store/kv/store.go:67-85. -/
def readRuleSet (o : Options) (kv : KV) (name : Bytes) : Read RuleSet :=
  match (kv (o.ruleSetKey name)).getLast? with
  | none => .notFound
  | some (.namespaces _) => .err
  | some (.ruleSet p) => match newRuleSetFromProto o.x o.filterKey (kv.version (o.ruleSetKey name)) (some p) with
    | none => .err
    | some rs => .ok rs

/-- `ruleSetTransaction`, rules/store/kv/store.go:141-159: the condition and the operation. -/
def ruleSetTransaction (o : Options) (rs : RuleSet) : Option ((Bytes × Int) × (Bytes × Value)) :=
  match rs.proto o.x with
  | none => none
  | some p => some ((o.ruleSetKey rs.namespace_, rs.version), (o.ruleSetKey rs.namespace_, .ruleSet p))

/-- `namespacesTransaction`, rules/store/kv/store.go:161-178. -/
def namespacesTransaction (o : Options) (nss : Namespaces) : Option ((Bytes × Int) × (Bytes × Value)) :=
  match nss.proto with
  | none => none
  | some p => some ((o.namespacesKey, nss.version), (o.namespacesKey, .namespaces p))

/-- The check by the validator, rules/store/kv/store.go:88-92. -/
def accepted (o : Options) (rs : RuleSet) : Bool := match o.validator with
  | none => true
  | some v => v rs

/-- `Commit` followed by `wrapWriteError`, rules/store/kv/store.go:180-188. -/
def commitWrite (kv : KV) (conds : List (Bytes × Int)) (ops : List (Bytes × Value)) : KV × Write :=
  match kv.commit conds ops with
  | none => (kv, .stale)
  | some kv' => (kv', .ok)

/-- `WriteRuleSet`, rules/store/kv/store.go:87-100. -/
def writeRuleSet (o : Options) (kv : KV) (rs : RuleSet) : KV × Write :=
  if !accepted o rs then (kv, .err)
  else match ruleSetTransaction o rs with
    | none => (kv, .err)
    | some t => commitWrite kv [t.1] [t.2]

/-- `WriteAll`, rules/store/kv/store.go:102-128. -/
def writeAll (o : Options) (kv : KV) (nss : Namespaces) (rs : RuleSet) : KV × Write :=
  if !accepted o rs then (kv, .err)
  else match ruleSetTransaction o rs with
    | none => (kv, .err)
    | some t => match namespacesTransaction o nss with
      | none => (kv, .err)
      | some u => commitWrite kv ([t.1] ++ [u.1]) ([t.2] ++ [u.2])

end Verif.Store
