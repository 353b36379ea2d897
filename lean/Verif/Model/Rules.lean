import Verif.Model.Metadata
import Verif.Model.TagsFilter
/-
Model of rules/mapping.go, rules/rollup.go, rules/rollup_target.go and rules/convert.go.

Mapping rules and rollup rules are separate Go types with textually identical methods for the handling of
snapshots (`activeSnapshot`, `activeRule`, `activeIndex`, `name`, `tombstoned`); these are modelled once for a
rule over any kind of snapshot, with both places cited.  Times are `Int` nanoseconds.
-/
namespace Verif.Rules
open Verif.Agg Verif.Policy Verif.Meta Verif.TagsFlt

/-- `mappingRuleSnapshot`, rules/mapping.go:54-65.  `filter` is `none` for a nil filter: snapshots made by edits
have none until the ruleset is stored and loaded again. -/
structure MappingSnapshot where
  name : Bytes
  tombstoned : Bool
  cutoverNanos : Int
  filter : Option TagsFilter
  rawFilter : Bytes
  aggID : Agg.ID
  storagePolicies : List StoragePolicy
  drop : DropPolicy
  lastUpdatedAtNanos : Int
  lastUpdatedBy : Bytes

/-- `rollupTarget`, rules/rollup_target.go:44-47. -/
structure RollupTarget where
  pipeline : Pipe.Pipeline
  storagePolicies : List StoragePolicy
  deriving DecidableEq

/-- `rollupRuleSnapshot`, rules/rollup.go:44-53. -/
structure RollupSnapshot where
  name : Bytes
  tombstoned : Bool
  cutoverNanos : Int
  filter : Option TagsFilter
  targets : List RollupTarget
  rawFilter : Bytes
  lastUpdatedAtNanos : Int
  lastUpdatedBy : Bytes

/-- The fields the shared methods read. -/
class Snap (S : Type) where
  name : S → Bytes
  tombstoned : S → Bool
  cutover : S → Int

instance : Snap MappingSnapshot := ⟨fun s => s.name, fun s => s.tombstoned, fun s => s.cutoverNanos⟩
instance : Snap RollupSnapshot := ⟨fun s => s.name, fun s => s.tombstoned, fun s => s.cutoverNanos⟩

/-- `mappingRule`, rules/mapping.go:240-243; `rollupRule`, rules/rollup.go:202-205. -/
structure Rule (S : Type) where
  uuid : Bytes
  snapshots : List S

abbrev MappingRule := Rule MappingSnapshot
abbrev RollupRule := Rule RollupSnapshot

variable {S : Type} [Snap S]

/-- Loop of `activeIndex`, rules/mapping.go:409-415, rules/rollup.go:283-289.  The argument and the result are the
Go index plus one (0 stands for -1). -/
def activeIndexLoop (snaps : List S) (t : Int) : Nat → Nat
  | 0 => 0
  | k + 1 => match snaps[k]? with
    | none => 0
    | some s => if Snap.cutover s > t then activeIndexLoop snaps t k else k + 1

/-- `activeIndex` plus one. -/
def Rule.activeIndex (r : Rule S) (t : Int) : Nat := activeIndexLoop r.snapshots t r.snapshots.length

/-- `activeSnapshot`, rules/mapping.go:301-307, rules/rollup.go:263-269. -/
def Rule.activeSnapshot (r : Rule S) (t : Int) : Option S :=
  match r.activeIndex t with
  | 0 => none
  | k + 1 => r.snapshots[k]?

/-- `activeRule`, rules/mapping.go:311-322, rules/rollup.go:273-281. -/
def Rule.activeRule (r : Rule S) (t : Int) : Rule S :=
  match r.activeIndex t with
  | 0 => r
  | k + 1 => { uuid := r.uuid, snapshots := r.snapshots.drop k }

/-- `name`, rules/mapping.go:324-330, rules/rollup.go:291-297. -/
def Rule.name (r : Rule S) : Option Bytes := r.snapshots.getLast?.map Snap.name

/-- `tombstoned`, rules/mapping.go:332-338, rules/rollup.go:299-306. -/
def Rule.tombstoned (r : Rule S) : Bool :=
  match r.snapshots.getLast? with
  | none => true
  | some s => Snap.tombstoned s

/-- `UpdateMetadata`, rules/ruleset.go:655-659. -/
structure UpdateMeta where
  cutoverNanos : Int
  updatedAtNanos : Int
  updatedBy : Bytes

/-- `NewUpdateMetadata`, rules/ruleset.go:662-665. -/
def newUpdateMetadata (propagationDelay updateTime : Int) (by' : Bytes) : UpdateMeta :=
  { cutoverNanos := updateTime + propagationDelay, updatedAtNanos := updateTime, updatedBy := by' }

/-- `filters.ValidateTagsFilter(rawFilter)` succeeded (rules/mapping.go:147-149, rules/rollup.go:117-119). -/
def filterValid (raw : Bytes) : Bool :=
  match validateTagsFilter raw with
  | .ok _ => true
  | _ => false

/-- What an edit says about a mapping rule (the fields of `view.MappingRule` that edits read). -/
structure MappingData where
  name : Bytes
  filter : Bytes
  aggID : Agg.ID
  storagePolicies : List StoragePolicy
  drop : DropPolicy

/-- What an edit says about a rollup rule (the fields of `view.RollupRule` that edits read). -/
structure RollupData where
  name : Bytes
  filter : Bytes
  targets : List RollupTarget

/-- The snapshot built by `newMappingRuleSnapshotFromFields`, rules/mapping.go:136-162 and 166-190, with the nil filter that
`addSnapshot` passes. -/
def mappingSnapshotOf (d : MappingData) (m : UpdateMeta) : MappingSnapshot :=
  { name := d.name, tombstoned := false, cutoverNanos := m.cutoverNanos, filter := none, rawFilter := d.filter,
    aggID := d.aggID, storagePolicies := d.storagePolicies, drop := d.drop,
    lastUpdatedAtNanos := m.updatedAtNanos, lastUpdatedBy := m.updatedBy }

/-- Same for rollup rules, rules/rollup.go:108-154. -/
def rollupSnapshotOf (d : RollupData) (m : UpdateMeta) : RollupSnapshot :=
  { name := d.name, tombstoned := false, cutoverNanos := m.cutoverNanos, filter := none, targets := d.targets,
    rawFilter := d.filter, lastUpdatedAtNanos := m.updatedAtNanos, lastUpdatedBy := m.updatedBy }

/-- `addSnapshot`, rules/mapping.go:340-364.  Edits return the rule afterwards and whether they succeeded. -/
def addMappingSnapshot (r : MappingRule) (d : MappingData) (m : UpdateMeta) : MappingRule × Bool :=
  if filterValid d.filter then ({ r with snapshots := r.snapshots ++ [mappingSnapshotOf d m] }, true)
  else (r, false)

/-- `addSnapshot`, rules/rollup.go:308-328. -/
def addRollupSnapshot (r : RollupRule) (d : RollupData) (m : UpdateMeta) : RollupRule × Bool :=
  if filterValid d.filter then ({ r with snapshots := r.snapshots ++ [rollupSnapshotOf d m] }, true)
  else (r, false)

/-- The tombstone snapshot, rules/mapping.go:378-385. -/
def mappingTombstone (s : MappingSnapshot) (m : UpdateMeta) : MappingSnapshot :=
  { s with tombstoned := true, cutoverNanos := m.cutoverNanos, lastUpdatedAtNanos := m.updatedAtNanos,
           lastUpdatedBy := m.updatedBy, aggID := DefaultID, storagePolicies := [], drop := 0 }

/-- The tombstone snapshot, rules/rollup.go:344-349. -/
def rollupTombstone (s : RollupSnapshot) (m : UpdateMeta) : RollupSnapshot :=
  { s with tombstoned := true, cutoverNanos := m.cutoverNanos, lastUpdatedAtNanos := m.updatedAtNanos,
           lastUpdatedBy := m.updatedBy, targets := [] }

/-- `markTombstoned`, rules/mapping.go:366-388, rules/rollup.go:330-352. -/
def markTombstoned (tomb : S → UpdateMeta → S) (r : Rule S) (m : UpdateMeta) : Rule S × Bool :=
  match r.name with
  | none => (r, false)
  | some _ =>
    if r.tombstoned then (r, false)
    else match r.snapshots.getLast? with
      | none => (r, false)
      | some s => ({ r with snapshots := r.snapshots ++ [tomb s m] }, true)

/-- `revive`, rules/mapping.go:390-407, rules/rollup.go:354-368. -/
def revive (add : Rule S → D → UpdateMeta → Rule S × Bool) (r : Rule S) (d : D) (m : UpdateMeta) : Rule S × Bool :=
  match r.name with
  | none => (r, false)
  | some _ => if !r.tombstoned then (r, false) else add r d m

/-! ### Stored form -/

/-- `rulepb.MappingRuleSnapshot`; repeated message fields are slices of pointers, hence `Option`. -/
structure PBMappingSnapshot where
  name : Bytes := []
  tombstoned : Bool := false
  cutoverNanos : Int := 0
  filter : Bytes := []
  policies : List (Option PBPolicy) := []
  lastUpdatedAtNanos : Int := 0
  lastUpdatedBy : Bytes := []
  aggregationTypes : List Int := []
  storagePolicies : List (Option PBStoragePolicy) := []
  dropPolicy : Int := 0

/-- `rulepb.RollupTarget` (v1). -/
structure PBRollupTargetV1 where
  name : Bytes := []
  tags : List Bytes := []
  policies : List (Option PBPolicy) := []

/-- `rulepb.RollupTargetV2`. -/
structure PBRollupTargetV2 where
  pipeline : Option (List Pipe.PBOp) := none
  storagePolicies : List (Option PBStoragePolicy) := []

/-- `rulepb.RollupRuleSnapshot`. -/
structure PBRollupSnapshot where
  name : Bytes := []
  tombstoned : Bool := false
  cutoverNanos : Int := 0
  filter : Bytes := []
  targets : List (Option PBRollupTargetV1) := []
  lastUpdatedAtNanos : Int := 0
  lastUpdatedBy : Bytes := []
  targetsV2 : List (Option PBRollupTargetV2) := []

/-- `rulepb.MappingRule`, `rulepb.RollupRule`. -/
structure PBRule (P : Type) where
  uuid : Bytes := []
  snapshots : List (Option P) := []

/-- Loop of `toAggregationIDAndStoragePolicies`, rules/convert.go:49-68.  The first-time flag and the aggregation
ID are one optional value; the set of storage policies is a list without repetition. -/
def convertLoop (x : XTime) : List (Option PBPolicy) → Option Agg.ID → List StoragePolicy →
    Option (Agg.ID × List StoragePolicy)
  | [], agg, sps => some (agg.getD DefaultID, sps)
  | none :: _, _, _ => none
  | some p :: ps, agg, sps =>
    match newStoragePolicyFromProto x p.storagePolicy with
    | none => none
    | some sp => match newIDFromProto p.aggregationTypes with
      | none => none
      | some new =>
        let sps' := if sps.contains sp then sps else sps ++ [sp]
        match agg with
        | none => convertLoop x ps (some new) sps'
        | some a => if !(a == new) then none else convertLoop x ps (some a) sps'

/-- `toAggregationIDAndStoragePolicies`, rules/convert.go:41-76. -/
def toAggIDAndStoragePolicies (x : XTime) (ps : List (Option PBPolicy)) :
    Option (Agg.ID × List StoragePolicy) :=
  (convertLoop x ps none []).map fun r => (r.1, sortBy spLess r.2)

/-- The tags filter built from a stored filter text, rules/mapping.go:113-120, rules/rollup.go:87-94.  The second
error source, a panic, cannot happen (`compileFilter_no_panic`). -/
def compileFilter (nameTagKey : Bytes) (raw : Bytes) : Option TagsFilter :=
  match parseTagFilterValueMap raw with
  | none => none
  | some m => match newTagsFilter nameTagKey m .conjunction with
    | .ok f => some f
    | _ => none

/-- The aggregation ID and storage policies of a stored mapping snapshot, rules/mapping.go:80-96. -/
def pbMappingPolicies (x : XTime) (r : PBMappingSnapshot) : Option (Agg.ID × List StoragePolicy) :=
  if r.policies.length > 0 then toAggIDAndStoragePolicies x r.policies
  else if r.storagePolicies.length > 0 then
    match newIDFromProto r.aggregationTypes with
    | none => none
    | some id => match newStoragePoliciesFromProto x r.storagePolicies with
      | none => none
      | some sps => some (id, sps)
  else some (DefaultID, [])

/-- The drop policy of a stored mapping snapshot, rules/mapping.go:98-103. -/
def pbDropPolicy (d : Int) : Option DropPolicy :=
  if d ≠ 0 then
    let p := dropFromProto d
    if !dropIsValid p then none else some p
  else some DropNone

/-- `newMappingRuleSnapshotFromProto`, rules/mapping.go:67-134. -/
def newMappingSnapshotFromProto (x : XTime) (key : Bytes) : Option PBMappingSnapshot → Option MappingSnapshot
  | none => none
  | some r => match pbMappingPolicies x r with
    | none => none
    | some (aggID, sps) => match pbDropPolicy r.dropPolicy with
      | none => none
      | some drop =>
        if !r.tombstoned && sps.length == 0 && drop == DropNone then none
        else if decide (sps.length > 0) && !(drop == DropNone) then none
        else match compileFilter key r.filter with
          | none => none
          | some f => some
            { name := r.name, tombstoned := r.tombstoned, cutoverNanos := r.cutoverNanos, filter := some f,
              rawFilter := r.filter, aggID := aggID, storagePolicies := sps, drop := dropFromProto r.dropPolicy,
              lastUpdatedAtNanos := r.lastUpdatedAtNanos, lastUpdatedBy := r.lastUpdatedBy }

/-- `mappingRuleSnapshot.proto`, rules/mapping.go:212-237. -/
def mappingSnapshotProto (x : XTime) (s : MappingSnapshot) : Option PBMappingSnapshot :=
  match s.aggID.types with
  | none => none
  | some ts => match typesProto ts with
    | none => none
    | some aggTypes => match storagePoliciesProto x s.storagePolicies with
      | none => none
      | some sps => some
        { name := s.name, tombstoned := s.tombstoned, cutoverNanos := s.cutoverNanos, filter := s.rawFilter,
          lastUpdatedAtNanos := s.lastUpdatedAtNanos, lastUpdatedBy := s.lastUpdatedBy,
          aggregationTypes := aggTypes, storagePolicies := sps, dropPolicy := dropToProto s.drop }

/-- `newRollupTargetFromV1Proto`, rules/rollup_target.go:51-75. -/
def newRollupTargetFromV1Proto (x : XTime) : Option PBRollupTargetV1 → Option RollupTarget
  | none => none
  | some pb => match toAggIDAndStoragePolicies x pb.policies with
    | none => none
    | some (aggID, sps) => some
      { pipeline := [{ type := Pipe.RollupOpType,
                       rollup := { newName := pb.name, tags := sortBy bytesLt pb.tags, aggID := aggID } }]
        storagePolicies := sps }

/-- `newRollupTargetFromV2Proto`, rules/rollup_target.go:78-94. -/
def newRollupTargetFromV2Proto (x : XTime) : Option PBRollupTargetV2 → Option RollupTarget
  | none => none
  | some pb => match Pipe.newPipelineFromProto pb.pipeline with
    | none => none
    | some p => match newStoragePoliciesFromProto x pb.storagePolicies with
      | none => none
      | some sps => some { pipeline := p, storagePolicies := sps }

/-- `rollupTarget.proto`, rules/rollup_target.go:119-132. -/
def rollupTargetProto (x : XTime) (t : RollupTarget) : Option PBRollupTargetV2 :=
  match Pipe.pipelineProto t.pipeline with
  | none => none
  | some p => match storagePoliciesProto x t.storagePolicies with
    | none => none
    | some sps => some { pipeline := some p, storagePolicies := sps }

/-- Go loop `for … { y, err := f(x); if err != nil { return nil, err }; ys = append(ys, y) }`. -/
def mapM' (f : α → Option β) : List α → Option (List β)
  | [] => some []
  | a :: as => match f a with
    | none => none
    | some b => match mapM' f as with
      | none => none
      | some bs => some (b :: bs)

/-- The targets of a stored rollup snapshot, rules/rollup.go:62-85. -/
def pbRollupTargets (x : XTime) (r : PBRollupSnapshot) : Option (List RollupTarget) :=
  if r.targets.length > 0 then mapM' (newRollupTargetFromV1Proto x) r.targets
  else if r.targetsV2.length > 0 then mapM' (newRollupTargetFromV2Proto x) r.targetsV2
  else if !r.tombstoned then none
  else some []

/-- `newRollupRuleSnapshotFromProto`, rules/rollup.go:55-106. -/
def newRollupSnapshotFromProto (x : XTime) (key : Bytes) : Option PBRollupSnapshot → Option RollupSnapshot
  | none => none
  | some r => match pbRollupTargets x r with
    | none => none
    | some targets => match compileFilter key r.filter with
      | none => none
      | some f => some
        { name := r.name, tombstoned := r.tombstoned, cutoverNanos := r.cutoverNanos, filter := some f,
          targets := targets, rawFilter := r.filter, lastUpdatedAtNanos := r.lastUpdatedAtNanos,
          lastUpdatedBy := r.lastUpdatedBy }

/-- `rollupRuleSnapshot.proto`, rules/rollup.go:178-199. -/
def rollupSnapshotProto (x : XTime) (s : RollupSnapshot) : Option PBRollupSnapshot :=
  match mapM' (rollupTargetProto x) s.targets with
  | none => none
  | some ts => some
    { name := s.name, tombstoned := s.tombstoned, cutoverNanos := s.cutoverNanos, filter := s.rawFilter,
      lastUpdatedAtNanos := s.lastUpdatedAtNanos, lastUpdatedBy := s.lastUpdatedBy, targetsV2 := ts.map some }

/-- `newMappingRuleFromProto`, rules/mapping.go:249-268; `newRollupRuleFromProto`, rules/rollup.go:211-230. -/
def newRuleFromProto (f : Option P → Option S) : Option (PBRule P) → Option (Rule S)
  | none => none
  | some r => match mapM' f r.snapshots with
    | none => none
    | some ss => some { uuid := r.uuid, snapshots := ss }

/-- `mappingRule.proto`, rules/mapping.go:283-297; `rollupRule.proto`, rules/rollup.go:245-259. -/
def ruleProto (f : S → Option P) (r : Rule S) : Option (PBRule P) :=
  match mapM' f r.snapshots with
  | none => none
  | some ss => some { uuid := r.uuid, snapshots := ss.map some }

end Verif.Rules
