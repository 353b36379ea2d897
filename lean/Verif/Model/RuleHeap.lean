import Verif.Lemmas.RuleOps
/-
Model of rules/ruleset.go, rules/mapping.go and rules/rollup.go with the rules as objects in memory: a rule set holds
pointers to rules (`[]*mappingRule`, `[]*rollupRule`, rules/ruleset.go:143-144) and edits change the rules they point to.
Rule sets, their clones and the active sets taken from them live in one memory, so that sharing is visible.

Memory has one area per kind of rule; a pointer is an index into it.  Simplification: a rule's slice of snapshots is a
value.  Its backing array is shared with the slices that `activeRule` takes of it (rules/mapping.go:318-321), but these
are never appended to, and `append` to the rule's own slice writes behind their length.  Snapshots themselves are never
written after construction (`markTombstoned` works on a copy, rules/mapping.go:378-386).
-/
namespace Verif.RuleHeap
open Verif.Agg Verif.Policy Verif.Meta Verif.Rules Verif.Active Verif.RuleSet

section Generic
variable {S : Type} [Snap S] {D : Type}

omit [Snap S] in
/-- The rules behind pointers; pointers always point to a rule. -/
def deref (cells : List (Rule S)) (ptrs : List Nat) : List (Rule S) := ptrs.filterMap fun a => cells[a]?

/-- Apply a method that changes the rule behind the pointer at position `i`. -/
def through (cells : List (Rule S)) (ptrs : List Nat) (i : Nat) (f : Rule S → Rule S × Bool) :
    List (Rule S) × List Nat × Option Bytes :=
  match ptrs[i]? with
  | none => (cells, ptrs, none)
  | some a => match cells[a]? with
    | none => (cells, ptrs, none)
    | some r => (cells.set a (f r).1, ptrs, if (f r).2 then some r.uuid else none)

/-- `AddMappingRule`, `AddRollupRule`, rules/ruleset.go:344-376, 410-439: a new object, or the one found. -/
def addRule (k : Kit S D) (cells : List (Rule S)) (ptrs : List Nat) (fresh : Bytes) (d : D) (m : UpdateMeta) :
    List (Rule S) × List Nat × Option Bytes :=
  match getRuleByName k.strict (k.nameOf d) (deref cells ptrs) with
  | none => (cells, ptrs, none)
  | some none =>
    let r := k.add { uuid := fresh, snapshots := [] } d m
    if r.2 then (cells ++ [r.1], ptrs ++ [cells.length], some fresh) else (cells, ptrs, none)
  | some (some i) => through cells ptrs i fun r => revive k.add r d m

/-- `UpdateMappingRule`, `UpdateRollupRule`, rules/ruleset.go:378-395, 441-457. -/
def updateRule (k : Kit S D) (cells : List (Rule S)) (ptrs : List Nat) (id : Bytes) (d : D) (m : UpdateMeta) :
    List (Rule S) × List Nat × Option Bytes :=
  match getRuleByID id (deref cells ptrs) with
  | none => (cells, ptrs, none)
  | some i => through cells ptrs i fun r => k.add r d m

/-- `DeleteMappingRule`, `DeleteRollupRule`, rules/ruleset.go:397-408, 459-470. -/
def deleteRule (k : Kit S D) (cells : List (Rule S)) (ptrs : List Nat) (id : Bytes) (m : UpdateMeta) :
    List (Rule S) × List Nat × Option Bytes :=
  match getRuleByID id (deref cells ptrs) with
  | none => (cells, ptrs, none)
  | some i => through cells ptrs i fun r => markTombstoned k.tomb r m

/-- The loops of `Delete`, rules/ruleset.go:481-491. -/
def deleteAll (k : Kit S D) (cells : List (Rule S)) (ptrs : List Nat) (m : UpdateMeta) : List (Rule S) :=
  ptrs.foldl (fun cells a => match cells[a]? with
    | none => cells
    | some r => if !r.tombstoned then cells.set a (markTombstoned k.tomb r m).1 else cells) cells

/-- The loops of `ActiveSet`, rules/ruleset.go:212-221, with `activeRule` (rules/mapping.go:311-322,
rules/rollup.go:273-281): the same object when no snapshot is in effect, else a new one. -/
def activeRules (t : Int) : List Nat → List (Rule S) → List (Rule S) × List Nat
  | [], cells => (cells, [])
  | a :: ptrs, cells => match cells[a]? with
    | none => activeRules t ptrs cells
    | some r => match r.activeIndex t with
      | 0 => let q := activeRules t ptrs cells; (q.1, a :: q.2)
      | k + 1 =>
        let q := activeRules t ptrs (cells ++ [{ uuid := r.uuid, snapshots := r.snapshots.drop k }])
        (q.1, cells.length :: q.2)

/-- The loops of `Clone`, rules/ruleset.go:313-323. -/
def cloneRules (f : S → S) : List Nat → List (Rule S) → List (Rule S) × List Nat
  | [], cells => (cells, [])
  | a :: ptrs, cells => match cells[a]? with
    | none => cloneRules f ptrs cells
    | some r =>
      let q := cloneRules f ptrs (cells ++ [RuleSet.cloneRule f r])
      (q.1, cells.length :: q.2)

end Generic

/-- The memory. -/
structure Heap where
  mapping : List MappingRule
  rollup : List RollupRule

/-- `ruleSet`, rules/ruleset.go:134-148, as a record with pointers. -/
structure Obj where
  uuid : Bytes
  version : Int
  namespace_ : Bytes
  createdAtNanos : Int
  lastUpdatedAtNanos : Int
  lastUpdatedBy : Bytes
  tombstoned : Bool
  cutoverNanos : Int
  mappingRules : List Nat
  rollupRules : List Nat

/-- `updateMetadata`, rules/ruleset.go:513-517. -/
def Obj.updateMetadata (rs : Obj) (m : UpdateMeta) : Obj :=
  { rs with cutoverNanos := m.cutoverNanos, lastUpdatedAtNanos := m.updatedAtNanos, lastUpdatedBy := m.updatedBy }

/-- The part of a mapping edit after the rules have been changed. -/
def finishM (h : Heap) (rs : Obj) (m : UpdateMeta) (r : List MappingRule × List Nat × Option Bytes) : Heap × Obj × Bool :=
  let rs' := { rs with mappingRules := r.2.1 }
  ({ h with mapping := r.1 }, if r.2.2.isSome then rs'.updateMetadata m else rs', r.2.2.isSome)

def finishR (h : Heap) (rs : Obj) (m : UpdateMeta) (r : List RollupRule × List Nat × Option Bytes) : Heap × Obj × Bool :=
  let rs' := { rs with rollupRules := r.2.1 }
  ({ h with rollup := r.1 }, if r.2.2.isSome then rs'.updateMetadata m else rs', r.2.2.isSome)

/-- The edits, rules/ruleset.go:344-494, 503-511. -/
def edit (h : Heap) (rs : Obj) (m : UpdateMeta) : Edit → Heap × Obj × Bool
  | .addMapping f d => finishM h rs m (addRule mappingKit h.mapping rs.mappingRules f d m)
  | .updateMapping id d => finishM h rs m (updateRule mappingKit h.mapping rs.mappingRules id d m)
  | .deleteMapping id => finishM h rs m (deleteRule mappingKit h.mapping rs.mappingRules id m)
  | .addRollup f d => finishR h rs m (addRule rollupKit h.rollup rs.rollupRules f d m)
  | .updateRollup id d => finishR h rs m (updateRule rollupKit h.rollup rs.rollupRules id d m)
  | .deleteRollup id => finishR h rs m (deleteRule rollupKit h.rollup rs.rollupRules id m)
  | .delete =>
    if rs.tombstoned then (h, rs, false)
    else ({ mapping := deleteAll mappingKit h.mapping rs.mappingRules m, rollup := deleteAll rollupKit h.rollup rs.rollupRules m },
      Obj.updateMetadata { rs with tombstoned := true } m, true)
  | .revive =>
    if !rs.tombstoned then (h, rs, false) else (h, Obj.updateMetadata { rs with tombstoned := false } m, true)

/-- `Clone`, rules/ruleset.go:309-342. -/
def clone (h : Heap) (rs : Obj) : Heap × Obj :=
  let q := cloneRules cloneMappingSnapshot rs.mappingRules h.mapping
  let p := cloneRules cloneRollupSnapshot rs.rollupRules h.rollup
  ({ mapping := q.1, rollup := p.1 }, { rs with mappingRules := q.2, rollupRules := p.2 })

/-- `activeRuleSet`, rules/active_ruleset.go:55-63: pointers to rules, the cutover times computed on creation. -/
structure ActiveObj where
  version : Int
  mappingRules : List Nat
  rollupRules : List Nat
  cutoverTimesAsc : List Int

/-- `ActiveSet`, rules/ruleset.go:211-230, with `newActiveRuleSet`, rules/active_ruleset.go:65-100. -/
def activeSet (h : Heap) (rs : Obj) (t : Int) : Heap × ActiveObj :=
  let q := activeRules t rs.mappingRules h.mapping
  let p := activeRules t rs.rollupRules h.rollup
  ({ mapping := q.1, rollup := p.1 },
    { version := rs.version, mappingRules := q.2, rollupRules := p.2,
      cutoverTimesAsc := (newActiveRuleSet rs.version (deref q.1 q.2) (deref p.1 p.2)).cutoverTimesAsc })

/-- The rule set as a value, read from memory. -/
def Obj.read (h : Heap) (rs : Obj) : RuleSet :=
  { uuid := rs.uuid, version := rs.version, namespace_ := rs.namespace_, createdAtNanos := rs.createdAtNanos,
    lastUpdatedAtNanos := rs.lastUpdatedAtNanos, lastUpdatedBy := rs.lastUpdatedBy, tombstoned := rs.tombstoned,
    cutoverNanos := rs.cutoverNanos, mappingRules := deref h.mapping rs.mappingRules, rollupRules := deref h.rollup rs.rollupRules }

/-- What a matcher reads. -/
def ActiveObj.read (h : Heap) (as : ActiveObj) : ActiveRuleSet :=
  { version := as.version, mappingRules := deref h.mapping as.mappingRules, rollupRules := deref h.rollup as.rollupRules,
    cutoverTimesAsc := as.cutoverTimesAsc }

end Verif.RuleHeap
