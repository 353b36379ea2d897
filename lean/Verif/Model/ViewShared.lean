import Verif.Lemmas.RuleOps
/-
Model of rules/ruleset.go, rules/mapping.go, rules/rollup.go and rules/rollup_target.go with the arrays that snapshots of rules hold:
of storage policies and of the operations of pipelines.  `AddMappingRule` and the like keep the slices of the view they are given
(rules/ruleset.go:344-457, rules/rollup_target.go:96-101), so the caller and the rule set, or two rule sets, may hold one array.

Memory has one area per kind of array; a slice is the number of its array, or none if it is nil, and is all of the array.  Rules are
values here; that rule sets do not share them is the subject of `Model/RuleHeap.lean`.  Another simplification: the name and the tags
inside an operation are values.
-/
namespace Verif.Shared
open Verif.Agg Verif.Policy Verif.Meta Verif.Rules Verif.Active Verif.RuleSet

structure Mem where
  policies : List (List StoragePolicy)
  ops : List (List Pipe.OpUnion)

def Mem.policiesAt (h : Mem) : Option Nat → List StoragePolicy
  | none => []
  | some a => (h.policies[a]?).getD []

def Mem.opsAt (h : Mem) : Option Nat → List Pipe.OpUnion
  | none => []
  | some a => (h.ops[a]?).getD []

/-- `mappingRuleSnapshot`, rules/mapping.go:54-65; the policies in `fields` do not count. -/
structure MSnap where
  fields : MappingSnapshot
  policies : Option Nat

/-- `rollupTarget`, rules/rollup_target.go:44-47, and `view.RollupTarget`, rules/view/rollup.go:29-32. -/
structure Target where
  pipeline : Option Nat
  policies : Option Nat
  deriving DecidableEq

/-- `rollupRuleSnapshot`, rules/rollup.go:44-53; the targets in `fields` do not count. -/
structure RSnap where
  fields : RollupSnapshot
  targets : List Target

instance : Snap MSnap := ⟨fun s => s.fields.name, fun s => s.fields.tombstoned, fun s => s.fields.cutoverNanos⟩
instance : Snap RSnap := ⟨fun s => s.fields.name, fun s => s.fields.tombstoned, fun s => s.fields.cutoverNanos⟩

/-- What an edit says, with the arrays of the view. -/
structure MData where
  fields : MappingData
  policies : Option Nat

structure RData where
  fields : RollupData
  targets : List Target

/-- `addSnapshot`, rules/mapping.go:340-364: the slice is kept. -/
def addM (r : Rule MSnap) (d : MData) (m : UpdateMeta) : Rule MSnap × Bool :=
  if filterValid d.fields.filter then ({ r with snapshots := r.snapshots ++ [⟨mappingSnapshotOf d.fields m, d.policies⟩] }, true)
  else (r, false)

/-- `addSnapshot`, rules/rollup.go:308-328, of the targets made by `newRollupTargetFromView`, rules/rollup_target.go:96-101. -/
def addR (r : Rule RSnap) (d : RData) (m : UpdateMeta) : Rule RSnap × Bool :=
  if filterValid d.fields.filter then ({ r with snapshots := r.snapshots ++ [⟨rollupSnapshotOf d.fields m, d.targets⟩] }, true)
  else (r, false)

/-- The tombstone snapshot, rules/mapping.go:378-385. -/
def tombM (s : MSnap) (m : UpdateMeta) : MSnap := ⟨mappingTombstone s.fields m, none⟩

/-- The tombstone snapshot, rules/rollup.go:344-349. -/
def tombR (s : RSnap) (m : UpdateMeta) : RSnap := ⟨rollupTombstone s.fields m, []⟩

def kitM : Kit MSnap MData := { strict := false, nameOf := fun d => d.fields.name, add := addM, tomb := tombM }
def kitR : Kit RSnap RData := { strict := true, nameOf := fun d => d.fields.name, add := addR, tomb := tombR }

/-- `ruleSet`, rules/ruleset.go:134-148; the rules in `fields` do not count. -/
structure Set where
  fields : RuleSet
  mapping : List (Rule MSnap)
  rollup : List (Rule RSnap)

inductive Edit where
  | addMapping (fresh : Bytes) (d : MData)
  | updateMapping (id : Bytes) (d : MData)
  | deleteMapping (id : Bytes)
  | addRollup (fresh : Bytes) (d : RData)
  | updateRollup (id : Bytes) (d : RData)
  | deleteRollup (id : Bytes)
  | delete
  | revive

def Set.finish (s : Set) (m : UpdateMeta) (ok : Bool) : Set × Bool :=
  (if ok then { s with fields := s.fields.updateMetadata m } else s, ok)

/-- The edits, rules/ruleset.go:344-494, 503-511. -/
def Set.edit (s : Set) (m : UpdateMeta) : Edit → Set × Bool
  | .addMapping f d => let r := addRule kitM s.mapping f d m; { s with mapping := r.1 }.finish m r.2.isSome
  | .updateMapping id d => let r := updateRule kitM s.mapping id d m; { s with mapping := r.1 }.finish m r.2
  | .deleteMapping id => let r := deleteRule kitM s.mapping id m; { s with mapping := r.1 }.finish m r.2
  | .addRollup f d => let r := addRule kitR s.rollup f d m; { s with rollup := r.1 }.finish m r.2.isSome
  | .updateRollup id d => let r := updateRule kitR s.rollup id d m; { s with rollup := r.1 }.finish m r.2
  | .deleteRollup id => let r := deleteRule kitR s.rollup id m; { s with rollup := r.1 }.finish m r.2
  | .delete =>
    if s.fields.tombstoned then (s, false)
    else ({ fields := { s.fields with tombstoned := true }, mapping := deleteAll kitM s.mapping m, rollup := deleteAll kitR s.rollup m : Set }.finish m true)
  | .revive =>
    if !s.fields.tombstoned then (s, false) else { s with fields := { s.fields with tombstoned := false } }.finish m true

/-- A loop over a list that allocates. -/
def through {α β : Type} (f : Mem → α → Mem × β) : Mem → List α → Mem × List β
  | h, [] => (h, [])
  | h, x :: xs =>
    let r := f h x
    let q := through f r.1 xs
    (q.1, r.2 :: q.2)

/-- `StoragePolicies.Clone`, policy/storage_policy.go:238-242. -/
def clonePolicies (h : Mem) (a : Option Nat) : Mem × Option Nat :=
  ({ h with policies := h.policies ++ [h.policiesAt a] }, some h.policies.length)

/-- `Pipeline.Clone`, pipeline/type.go:579-585. -/
def clonePipeline (h : Mem) (a : Option Nat) : Mem × Option Nat :=
  ({ h with ops := h.ops ++ [Pipe.pipelineClone (h.opsAt a)] }, some h.ops.length)

/-- `rollupTarget.clone`, rules/rollup_target.go:111-116. -/
def cloneT (h : Mem) (t : Target) : Mem × Target :=
  let q := clonePipeline h t.pipeline
  let r := clonePolicies q.1 t.policies
  (r.1, ⟨q.2, r.2⟩)

/-- `mappingRuleSnapshot.clone`, rules/mapping.go:192-210. -/
def cloneM (h : Mem) (s : MSnap) : Mem × MSnap :=
  let r := clonePolicies h s.policies
  (r.1, ⟨s.fields, r.2⟩)

/-- `rollupRuleSnapshot.clone`, rules/rollup.go:156-176. -/
def cloneR (h : Mem) (s : RSnap) : Mem × RSnap :=
  let r := through cloneT h s.targets
  (r.1, ⟨s.fields, r.2⟩)

/-- `clone` of a rule, rules/mapping.go:270-280, rules/rollup.go:232-242. -/
def cloneRule {S : Type} (f : Mem → S → Mem × S) (h : Mem) (r : Rule S) : Mem × Rule S :=
  let q := through f h r.snapshots
  (q.1, ⟨r.uuid, q.2⟩)

/-- `Clone`, rules/ruleset.go:309-342.  Views too are made from clones of the snapshots (rules/mapping.go:436 and 444,
rules/rollup.go:388-392), one for each snapshot (rules/mapping.go:417-429, rules/rollup.go:370-382): the arrays that `MappingRules`,
`RollupRules` and `Latest` show are those of such a clone. -/
def clone (h : Mem) (s : Set) : Mem × Set :=
  let q := through (cloneRule cloneM) h s.mapping
  let p := through (cloneRule cloneR) q.1 s.rollup
  (p.1, ⟨s.fields, q.2, p.2⟩)

structure World where
  mem : Mem
  sets : List Set

/-- What a program does. -/
inductive Act where
  /-- it makes an array -/
  | allocPolicies (l : List StoragePolicy)
  | allocOps (l : List Pipe.OpUnion)
  /-- it assigns to an element of an array -/
  | setPolicy (a i : Nat) (p : StoragePolicy)
  | setOp (a i : Nat) (o : Pipe.OpUnion)
  /-- it edits, clones or looks at a rule set -/
  | edit (i : Nat) (e : Edit) (m : UpdateMeta)
  | clone (i : Nat)
  | views (i : Nat)

def World.step (w : World) : Act → World
  | .allocPolicies l => { w with mem := { w.mem with policies := w.mem.policies ++ [l] } }
  | .allocOps l => { w with mem := { w.mem with ops := w.mem.ops ++ [l] } }
  | .setPolicy a i p => { w with mem := { w.mem with policies := w.mem.policies.modify a (·.set i p) } }
  | .setOp a i o => { w with mem := { w.mem with ops := w.mem.ops.modify a (·.set i o) } }
  | .edit i e m => match w.sets[i]? with
    | none => w
    | some s => { w with sets := w.sets.set i (s.edit m e).1 }
  | .clone i => match w.sets[i]? with
    | none => w
    | some s => { mem := (Shared.clone w.mem s).1, sets := w.sets ++ [(Shared.clone w.mem s).2] }
  | .views i => match w.sets[i]? with
    | none => w
    | some s => { w with mem := (Shared.clone w.mem s).1 }

def World.run (w : World) (acts : List Act) : World := acts.foldl World.step w

end Verif.Shared
