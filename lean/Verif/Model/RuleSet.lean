import Verif.Model.ActiveRuleSet
/-
Model of rules/ruleset.go (the mutable rule set: edits, batches of changes, views, stored form), of the view types
of rules/view and of rules/view/changes.

Edits return the rule set afterwards together with the outcome, so that effects of failed edits are visible.
Rules are pointers in Go; each is referenced by one entry of one rule set, so an edit through the pointer is an
update of that entry (`List.set`).  Sharing between a rule set and its clone or an active set is the subject of
`Model/RuleHeap.lean`.  The identifier `uuid.New()` draws for a new rule is a parameter of the edit.
-/
namespace Verif.RuleSet
open Verif.Agg Verif.Policy Verif.Meta Verif.Rules Verif.Active Verif.Flt

/-- `ruleSet`, rules/ruleset.go:134-148, without the options for matching. -/
structure RuleSet where
  uuid : Bytes
  version : Int
  namespace_ : Bytes
  createdAtNanos : Int
  lastUpdatedAtNanos : Int
  lastUpdatedBy : Bytes
  tombstoned : Bool
  cutoverNanos : Int
  mappingRules : List MappingRule
  rollupRules : List RollupRule

/-- `updateMetadata`, rules/ruleset.go:513-517. -/
def RuleSet.updateMetadata (rs : RuleSet) (m : UpdateMeta) : RuleSet :=
  { rs with cutoverNanos := m.cutoverNanos, lastUpdatedAtNanos := m.updatedAtNanos, lastUpdatedBy := m.updatedBy }

/-- `NewEmptyRuleSet`, rules/ruleset.go:190-201; `kv.UninitializedVersion` is 0. -/
def newEmptyRuleSet (uuid namespaceName : Bytes) (m : UpdateMeta) : RuleSet :=
  RuleSet.updateMetadata
    { uuid := uuid, version := 0, namespace_ := namespaceName, createdAtNanos := 0, lastUpdatedAtNanos := 0,
      lastUpdatedBy := [], tombstoned := false, cutoverNanos := 0, mappingRules := [], rollupRules := [] } m

/-- `ActiveSet`, rules/ruleset.go:211-230. -/
def RuleSet.activeSet (rs : RuleSet) (t : Int) : ActiveRuleSet := Active.activeSet rs.version rs.mappingRules rs.rollupRules t

section Generic
variable {S : Type} [Snap S] {D : Type}

/-- `getMappingRuleByName`, rules/ruleset.go:519-531 (`strict = false`: a rule without snapshots is passed over);
`getRollupRuleByName`, rules/ruleset.go:542-554 (`strict = true`: such a rule is an error).
`none` is an error other than "not found", `some none` is "not found", otherwise the position of the rule. -/
def getRuleByName (strict : Bool) (name : Bytes) : List (Rule S) → Option (Option Nat)
  | [] => some none
  | r :: rs => match r.name with
    | none => if strict then none else (getRuleByName strict name rs).map (Option.map (· + 1))
    | some n => if n = name then some (some 0) else (getRuleByName strict name rs).map (Option.map (· + 1))

/-- `getMappingRuleByID`, rules/ruleset.go:533-540; `getRollupRuleByID`, rules/ruleset.go:556-563. -/
def getRuleByID (id : Bytes) : List (Rule S) → Option Nat
  | [] => none
  | r :: rs => if r.uuid = id then some 0 else (getRuleByID id rs).map (· + 1)

/-- What a kind of rule brings to the edits: how its rules are looked up by name, what the edit says, how a snapshot
is added and how a deleted one looks. -/
structure Kit (S D : Type) where
  strict : Bool
  nameOf : D → Bytes
  add : Rule S → D → UpdateMeta → Rule S × Bool
  tomb : S → UpdateMeta → S

/-- The rules after `AddMappingRule` and `AddRollupRule` (rules/ruleset.go:344-376, 410-439) and the identifier
returned, or none on error. -/
def addRule (k : Kit S D) (rules : List (Rule S)) (fresh : Bytes) (d : D) (m : UpdateMeta) : List (Rule S) × Option Bytes :=
  match getRuleByName k.strict (k.nameOf d) rules with
  | none => (rules, none)
  | some none =>
    let r := k.add { uuid := fresh, snapshots := [] } d m
    if r.2 then (rules ++ [r.1], some fresh) else (rules, none)
  | some (some i) => match rules[i]? with
    | none => (rules, none)
    | some r =>
      let r' := revive k.add r d m
      (rules.set i r'.1, if r'.2 then some r.uuid else none)

/-- The rules after `UpdateMappingRule` and `UpdateRollupRule` (rules/ruleset.go:378-395, 441-457). -/
def updateRule (k : Kit S D) (rules : List (Rule S)) (id : Bytes) (d : D) (m : UpdateMeta) : List (Rule S) × Bool :=
  match getRuleByID id rules with
  | none => (rules, false)
  | some i => match rules[i]? with
    | none => (rules, false)
    | some r =>
      let r' := k.add r d m
      (rules.set i r'.1, r'.2)

/-- The rules after `DeleteMappingRule` and `DeleteRollupRule` (rules/ruleset.go:397-408, 459-470). -/
def deleteRule (k : Kit S D) (rules : List (Rule S)) (id : Bytes) (m : UpdateMeta) : List (Rule S) × Bool :=
  match getRuleByID id rules with
  | none => (rules, false)
  | some i => match rules[i]? with
    | none => (rules, false)
    | some r =>
      let r' := markTombstoned k.tomb r m
      (rules.set i r'.1, r'.2)

/-- The loops of `Delete`, rules/ruleset.go:481-491. -/
def deleteAll (k : Kit S D) (rules : List (Rule S)) (m : UpdateMeta) : List (Rule S) :=
  rules.map fun r => if !r.tombstoned then (markTombstoned k.tomb r m).1 else r

end Generic

/-- Mapping rules. -/
def mappingKit : Kit MappingSnapshot MappingData :=
  { strict := false, nameOf := fun d => d.name, add := addMappingSnapshot, tomb := mappingTombstone }

/-- Rollup rules. -/
def rollupKit : Kit RollupSnapshot RollupData :=
  { strict := true, nameOf := fun d => d.name, add := addRollupSnapshot, tomb := rollupTombstone }

/-- `AddMappingRule`, rules/ruleset.go:344-376. -/
def RuleSet.addMappingRule (rs : RuleSet) (fresh : Bytes) (d : MappingData) (m : UpdateMeta) : RuleSet × Option Bytes :=
  let r := addRule mappingKit rs.mappingRules fresh d m
  let rs' := { rs with mappingRules := r.1 }
  (if r.2.isSome then rs'.updateMetadata m else rs', r.2)

/-- `UpdateMappingRule`, rules/ruleset.go:378-395. -/
def RuleSet.updateMappingRule (rs : RuleSet) (id : Bytes) (d : MappingData) (m : UpdateMeta) : RuleSet × Bool :=
  let r := updateRule mappingKit rs.mappingRules id d m
  let rs' := { rs with mappingRules := r.1 }
  (if r.2 then rs'.updateMetadata m else rs', r.2)

/-- `DeleteMappingRule`, rules/ruleset.go:397-408. -/
def RuleSet.deleteMappingRule (rs : RuleSet) (id : Bytes) (m : UpdateMeta) : RuleSet × Bool :=
  let r := deleteRule mappingKit rs.mappingRules id m
  let rs' := { rs with mappingRules := r.1 }
  (if r.2 then rs'.updateMetadata m else rs', r.2)

/-- `AddRollupRule`, rules/ruleset.go:410-439. -/
def RuleSet.addRollupRule (rs : RuleSet) (fresh : Bytes) (d : RollupData) (m : UpdateMeta) : RuleSet × Option Bytes :=
  let r := addRule rollupKit rs.rollupRules fresh d m
  let rs' := { rs with rollupRules := r.1 }
  (if r.2.isSome then rs'.updateMetadata m else rs', r.2)

/-- `UpdateRollupRule`, rules/ruleset.go:441-457. -/
def RuleSet.updateRollupRule (rs : RuleSet) (id : Bytes) (d : RollupData) (m : UpdateMeta) : RuleSet × Bool :=
  let r := updateRule rollupKit rs.rollupRules id d m
  let rs' := { rs with rollupRules := r.1 }
  (if r.2 then rs'.updateMetadata m else rs', r.2)

/-- `DeleteRollupRule`, rules/ruleset.go:459-470. -/
def RuleSet.deleteRollupRule (rs : RuleSet) (id : Bytes) (m : UpdateMeta) : RuleSet × Bool :=
  let r := deleteRule rollupKit rs.rollupRules id m
  let rs' := { rs with rollupRules := r.1 }
  (if r.2 then rs'.updateMetadata m else rs', r.2)

/-- `Delete`, rules/ruleset.go:472-494. -/
def RuleSet.delete (rs : RuleSet) (m : UpdateMeta) : RuleSet × Bool :=
  if rs.tombstoned then (rs, false)
  else
    let rs := RuleSet.updateMetadata { rs with tombstoned := true } m
    ({ rs with mappingRules := deleteAll mappingKit rs.mappingRules m,
               rollupRules := deleteAll rollupKit rs.rollupRules m }, true)

/-- `Revive`, rules/ruleset.go:503-511. -/
def RuleSet.revive (rs : RuleSet) (m : UpdateMeta) : RuleSet × Bool :=
  if !rs.tombstoned then (rs, false)
  else (RuleSet.updateMetadata { rs with tombstoned := false } m, true)

/-! ### Batches of changes -/

/-- `changes.MappingRuleChange` and `changes.RollupRuleChange` (rules/view/changes/mapping.go:26-30, rollup.go:26-30);
`data` is the pair of the rule's ID and the rest of the view.  `fresh` is the identifier drawn should the change
create a rule. -/
structure Change (D : Type) where
  op : Bytes
  ruleID : Option Bytes
  ruleData : Option (Bytes × D)
  fresh : Bytes

/-- One mapping rule change, rules/ruleset.go:599-614; dereferencing a nil pointer panics. -/
def RuleSet.mappingChange (rs : RuleSet) (c : Change MappingData) (m : UpdateMeta) : RuleSet × Out Unit :=
  if c.op = bs "add" then match c.ruleData with
    | none => (rs, .panic)
    | some d => let r := rs.addMappingRule c.fresh d.2 m; (r.1, if r.2.isSome then .ok () else .err)
  else if c.op = bs "change" then match c.ruleData with
    | none => (rs, .panic)
    | some d => let r := rs.updateMappingRule d.1 d.2 m; (r.1, if r.2 then .ok () else .err)
  else if c.op = bs "delete" then match c.ruleID with
    | none => (rs, .panic)
    | some id => let r := rs.deleteMappingRule id m; (r.1, if r.2 then .ok () else .err)
  else (rs, .err)

/-- One rollup rule change, rules/ruleset.go:622-637. -/
def RuleSet.rollupChange (rs : RuleSet) (c : Change RollupData) (m : UpdateMeta) : RuleSet × Out Unit :=
  if c.op = bs "add" then match c.ruleData with
    | none => (rs, .panic)
    | some d => let r := rs.addRollupRule c.fresh d.2 m; (r.1, if r.2.isSome then .ok () else .err)
  else if c.op = bs "change" then match c.ruleData with
    | none => (rs, .panic)
    | some d => let r := rs.updateRollupRule d.1 d.2 m; (r.1, if r.2 then .ok () else .err)
  else if c.op = bs "delete" then match c.ruleID with
    | none => (rs, .panic)
    | some id => let r := rs.deleteRollupRule id m; (r.1, if r.2 then .ok () else .err)
  else (rs, .err)

/-- The loops of `applyMappingRuleChanges` and `applyRollupRuleChanges`, rules/ruleset.go:597-641. -/
def applyLoop (f : RuleSet → C → UpdateMeta → RuleSet × Out Unit) (m : UpdateMeta) : List C → RuleSet → RuleSet × Out Unit
  | [], rs => (rs, .ok ())
  | c :: cs, rs => match f rs c m with
    | (rs', .ok _) => applyLoop f m cs rs'
    | (rs', e) => (rs', e)

/-- `ApplyRuleSetChanges`, rules/ruleset.go:496-501. -/
def RuleSet.applyChanges (rs : RuleSet) (ms : List (Change MappingData)) (rr : List (Change RollupData)) (m : UpdateMeta) :
    RuleSet × Out Unit :=
  match applyLoop RuleSet.mappingChange m ms rs with
  | (rs', .ok _) => applyLoop RuleSet.rollupChange m rr rs'
  | (rs', e) => (rs', e)

/-! ### Views -/

/-- `view.MappingRule`, rules/view/mapping.go:29-40. -/
structure MappingView where
  id : Bytes
  name : Bytes
  tombstoned : Bool
  cutoverMillis : Int
  filter : Bytes
  aggID : Agg.ID
  storagePolicies : List StoragePolicy
  drop : DropPolicy
  lastUpdatedBy : Bytes
  lastUpdatedAtMillis : Int
  deriving DecidableEq

/-- `view.RollupRule`, rules/view/rollup.go:46-55; a view target has the fields of a target. -/
structure RollupView where
  id : Bytes
  name : Bytes
  tombstoned : Bool
  cutoverMillis : Int
  filter : Bytes
  targets : List RollupTarget
  lastUpdatedBy : Bytes
  lastUpdatedAtMillis : Int
  deriving DecidableEq

/-- `nanos / nanosPerMilli`: Go division truncates. -/
def toMillis (nanos : Int) : Int := nanos.tdiv 1000000

/-- The view built by `mappingRuleView`, rules/mapping.go:437-449. -/
def mappingSnapView (uuid : Bytes) (s : MappingSnapshot) : MappingView :=
  { id := uuid, name := s.name, tombstoned := s.tombstoned, cutoverMillis := toMillis s.cutoverNanos,
    filter := s.rawFilter, aggID := s.aggID, storagePolicies := s.storagePolicies, drop := s.drop,
    lastUpdatedBy := s.lastUpdatedBy, lastUpdatedAtMillis := toMillis s.lastUpdatedAtNanos }

/-- The view built by `rollupRuleView`, rules/rollup.go:388-404. -/
def rollupSnapView (uuid : Bytes) (s : RollupSnapshot) : RollupView :=
  { id := uuid, name := s.name, tombstoned := s.tombstoned, cutoverMillis := toMillis s.cutoverNanos,
    filter := s.rawFilter, targets := s.targets.map cloneTarget, lastUpdatedBy := s.lastUpdatedBy,
    lastUpdatedAtMillis := toMillis s.lastUpdatedAtNanos }

/-- The bounds check of `mappingRuleView`, rules/mapping.go:432-435, and `rollupRuleView`, rules/rollup.go:384-387. -/
def ruleView (f : Bytes → S → V) (r : Rule S) (i : Int) : Option V :=
  if i < 0 then none else (r.snapshots[i.toNat]?).map (f r.uuid)

/-- The loop of `history`, rules/mapping.go:417-429, rules/rollup.go:370-382, from index `i` on (`n` rounds left). -/
def historyLoop (f : Bytes → S → V) (r : Rule S) : Nat → Nat → Option (List V)
  | 0, _ => some []
  | n + 1, i => match ruleView f r ((r.snapshots.length : Int) - 1 - i) with
    | none => none
    | some v => (historyLoop f r n (i + 1)).map (v :: ·)

/-- `history`. -/
def history (f : Bytes → S → V) (r : Rule S) : Option (List V) := historyLoop f r r.snapshots.length 0

/-- Assignment `m[key] = v` to a Go map (a list of entries with distinct keys). -/
def mapPut (m : List (Bytes × V)) (key : Bytes) (v : V) : List (Bytes × V) :=
  m.filter (fun e => !(e.1 == key)) ++ [(key, v)]

/-- The loops of `MappingRules` and `RollupRules`, rules/ruleset.go:267-289. -/
def histories (f : Bytes → S → V) : List (Rule S) → List (Bytes × List V) → Option (List (Bytes × List V))
  | [], m => some m
  | r :: rs, m => match history f r with
    | none => none
    | some h => histories f rs (mapPut m r.uuid h)

/-- `MappingRules`, rules/ruleset.go:267-277. -/
def RuleSet.mappingViews (rs : RuleSet) : Option (List (Bytes × List MappingView)) := histories mappingSnapView rs.mappingRules []

/-- `RollupRules`, rules/ruleset.go:279-289. -/
def RuleSet.rollupViews (rs : RuleSet) : Option (List (Bytes × List RollupView)) := histories rollupSnapView rs.rollupRules []

/-- The loop of `latestMappingRules` and `latestRollupRules` (rules/ruleset.go:570-576, 586-592) over the entries in the
order in which the map yields them. -/
def latestOf (tombstoned : V → Bool) (entries : List (Bytes × List V)) : List V :=
  entries.filterMap fun e => match e.2 with
    | [] => none
    | v :: _ => if !tombstoned v then some v else none

/-- `view.RuleSet`, rules/view/ruleset.go:28-34. -/
structure RuleSetView where
  namespace_ : Bytes
  version : Int
  cutoverMillis : Int
  mappingRules : List MappingView
  rollupRules : List RollupView
  deriving DecidableEq

/-- `Latest`, rules/ruleset.go:291-307, for given iteration orders of the two maps.  The sorts are by name
(rules/view/mapping.go:67, rules/view/rollup.go:94). -/
def RuleSet.latestWith (rs : RuleSet) (ms : List (Bytes × List MappingView)) (rr : List (Bytes × List RollupView)) : RuleSetView :=
  { namespace_ := rs.namespace_, version := rs.version, cutoverMillis := toMillis rs.cutoverNanos,
    mappingRules := sortBy (fun a b => bytesLt a.name b.name) (latestOf (·.tombstoned) ms),
    rollupRules := sortBy (fun a b => bytesLt a.name b.name) (latestOf (·.tombstoned) rr) }

/-- `Latest` with the maps in insertion order. -/
def RuleSet.latest (rs : RuleSet) : Option RuleSetView :=
  match rs.mappingViews with
  | none => none
  | some ms => match rs.rollupViews with
    | none => none
    | some rr => some (rs.latestWith ms rr)

/-! ### Stored form -/

/-- `rulepb.RuleSet`. -/
structure PBRuleSet where
  uuid : Bytes := []
  namespace_ : Bytes := []
  createdAtNanos : Int := 0
  lastUpdatedAtNanos : Int := 0
  tombstoned : Bool := false
  cutoverNanos : Int := 0
  mappingRules : List (Option (PBRule PBMappingSnapshot)) := []
  rollupRules : List (Option (PBRule PBRollupSnapshot)) := []
  lastUpdatedBy : Bytes := []

/-- `Proto`, rules/ruleset.go:233-265. -/
def RuleSet.proto (x : XTime) (rs : RuleSet) : Option PBRuleSet :=
  match mapM' (ruleProto (mappingSnapshotProto x)) rs.mappingRules with
  | none => none
  | some ms => match mapM' (ruleProto (rollupSnapshotProto x)) rs.rollupRules with
    | none => none
    | some rr => some
      { uuid := rs.uuid, namespace_ := rs.namespace_, createdAtNanos := rs.createdAtNanos,
        lastUpdatedAtNanos := rs.lastUpdatedAtNanos, lastUpdatedBy := rs.lastUpdatedBy, tombstoned := rs.tombstoned,
        cutoverNanos := rs.cutoverNanos, mappingRules := ms.map some, rollupRules := rr.map some }

/-- `NewRuleSetFromProto`, rules/ruleset.go:151-187; `key` is the name tag key of the tags filter options. -/
def newRuleSetFromProto (x : XTime) (key : Bytes) (version : Int) : Option PBRuleSet → Option RuleSet
  | none => none
  | some rs => match mapM' (newRuleFromProto (newMappingSnapshotFromProto x key)) rs.mappingRules with
    | none => none
    | some ms => match mapM' (newRuleFromProto (newRollupSnapshotFromProto x key)) rs.rollupRules with
      | none => none
      | some rr => some
        { uuid := rs.uuid, version := version, namespace_ := rs.namespace_, createdAtNanos := rs.createdAtNanos,
          lastUpdatedAtNanos := rs.lastUpdatedAtNanos, lastUpdatedBy := rs.lastUpdatedBy, tombstoned := rs.tombstoned,
          cutoverNanos := rs.cutoverNanos, mappingRules := ms, rollupRules := rr }

/-! ### Copies -/

/-- `rollupRuleSnapshot.clone`, rules/rollup.go:156-176 (filters are immutable, filters/filter.go:667). -/
def cloneRollupSnapshot (s : RollupSnapshot) : RollupSnapshot := { s with targets := s.targets.map cloneTarget }

/-- `mappingRuleSnapshot.clone`, rules/mapping.go:192-210. -/
def cloneMappingSnapshot (s : MappingSnapshot) : MappingSnapshot := s

/-- `clone` of a rule, rules/mapping.go:270-280, rules/rollup.go:232-242. -/
def cloneRule (f : S → S) (r : Rule S) : Rule S := { uuid := r.uuid, snapshots := r.snapshots.map f }

/-- `Clone`, rules/ruleset.go:309-342 (as a value). -/
def RuleSet.clone (rs : RuleSet) : RuleSet :=
  { rs with mappingRules := rs.mappingRules.map (cloneRule cloneMappingSnapshot),
            rollupRules := rs.rollupRules.map (cloneRule cloneRollupSnapshot) }

end Verif.RuleSet
