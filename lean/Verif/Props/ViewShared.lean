import Verif.Model.ViewShared
import Verif.Props.RuleSetEdits
/-
C96: what a rule set is told and what it shows is its own.
-/
namespace Verif.Shared
open Verif.Agg Verif.Policy Verif.Meta Verif.Rules Verif.Active Verif.RuleSet

/-! ### What is in memory, as values -/

def MSnap.read (h : Mem) (s : MSnap) : MappingSnapshot := { s.fields with storagePolicies := h.policiesAt s.policies }
def Target.read (h : Mem) (t : Target) : RollupTarget := ⟨h.opsAt t.pipeline, h.policiesAt t.policies⟩
def RSnap.read (h : Mem) (s : RSnap) : RollupSnapshot := { s.fields with targets := s.targets.map (Target.read h) }
def MData.read (h : Mem) (d : MData) : MappingData := { d.fields with storagePolicies := h.policiesAt d.policies }
def RData.read (h : Mem) (d : RData) : RollupData := { d.fields with targets := d.targets.map (Target.read h) }

def mapRule {S T : Type} (f : S → T) (r : Rule S) : Rule T := ⟨r.uuid, r.snapshots.map f⟩

/-- The rule set as a value. -/
def Set.read (h : Mem) (s : Set) : RuleSet :=
  { s.fields with mappingRules := s.mapping.map (mapRule (MSnap.read h)), rollupRules := s.rollup.map (mapRule (RSnap.read h)) }

/-- What an edit says, at the time at which it is made. -/
def Edit.read (h : Mem) : Edit → RuleSet.Edit
  | .addMapping f d => .addMapping f (d.read h)
  | .updateMapping id d => .updateMapping id (d.read h)
  | .deleteMapping id => .deleteMapping id
  | .addRollup f d => .addRollup f (d.read h)
  | .updateRollup id d => .updateRollup id (d.read h)
  | .deleteRollup id => .deleteRollup id
  | .delete => .delete
  | .revive => .revive

/-- The rule set has the array of policies. -/
def Set.HasPolicies (s : Set) (a : Nat) : Prop :=
  (∃ r ∈ s.mapping, ∃ x ∈ r.snapshots, x.policies = some a) ∨
    (∃ r ∈ s.rollup, ∃ x ∈ r.snapshots, ∃ t ∈ x.targets, t.policies = some a)

/-- It has the array of operations. -/
def Set.HasOps (s : Set) (a : Nat) : Prop := ∃ r ∈ s.rollup, ∃ x ∈ r.snapshots, ∃ t ∈ x.targets, t.pipeline = some a

/-- The arrays of the data of an edit. -/
def Edit.HasPolicies (a : Nat) : Edit → Prop
  | .addMapping _ d => d.policies = some a
  | .updateMapping _ d => d.policies = some a
  | .addRollup _ d => ∃ t ∈ d.targets, t.policies = some a
  | .updateRollup _ d => ∃ t ∈ d.targets, t.policies = some a
  | _ => False

def Edit.HasOps (a : Nat) : Edit → Prop
  | .addRollup _ d => ∃ t ∈ d.targets, t.pipeline = some a
  | .updateRollup _ d => ∃ t ∈ d.targets, t.pipeline = some a
  | _ => False

/-- The arrays exist. -/
def Set.OK (h : Mem) (s : Set) : Prop := (∀ a, s.HasPolicies a → a < h.policies.length) ∧ (∀ a, s.HasOps a → a < h.ops.length)
def Edit.OK (h : Mem) (e : Edit) : Prop := (∀ a, e.HasPolicies a → a < h.policies.length) ∧ (∀ a, e.HasOps a → a < h.ops.length)
def World.OK (w : World) : Prop := ∀ s ∈ w.sets, s.OK w.mem

/-! ### Specification -/

/-- The rule sets of a program as values: each changes only by the edits made to it, with the data as they are when it is made. -/
def idealStep (h : Mem) (v : List RuleSet) : Act → List RuleSet
  | .edit i e m => match v[i]? with
    | none => v
    | some rs => v.set i (rs.edit m (e.read h)).1
  | .clone i => match v[i]? with
    | none => v
    | some rs => v ++ [rs.clone]
  | _ => v

/-- The world is used for nothing but the data. -/
def ideal : World → List RuleSet → List Act → List RuleSet
  | _, v, [] => v
  | w, v, act :: acts => ideal (w.step act) (idealStep w.mem v act) acts

/-- The arrays that edits mention exist. -/
def Valid : World → List Act → Prop
  | _, [] => True
  | w, act :: acts => (match act with | .edit _ e _ => e.OK w.mem | _ => True) ∧ Valid (w.step act) acts

/-- The program assigns to no array that a rule set has been given. -/
def Careful : World → List Act → Prop
  | _, [] => True
  | w, act :: acts => (match act with
      | .setPolicy a _ _ => ∀ s ∈ w.sets, ¬ s.HasPolicies a
      | .setOp a _ _ => ∀ s ∈ w.sets, ¬ s.HasOps a
      | _ => True) ∧ Careful (w.step act) acts

/-! ### Edits -/

section Kits
variable {S S' D D' : Type} [Snap S] [Snap S']

/-- The edits of one kind of rule are those of another, read. -/
structure KitMap (k : Kit S D) (k' : Kit S' D') (f : S → S') (g : D → D') : Prop where
  strict : k'.strict = k.strict
  name : ∀ s, Snap.name (f s) = Snap.name s
  dead : ∀ s, Snap.tombstoned (f s) = Snap.tombstoned s
  nameOf : ∀ d, k'.nameOf (g d) = k.nameOf d
  add : ∀ r d m, k'.add (mapRule f r) (g d) m = (mapRule f (k.add r d m).1, (k.add r d m).2)
  tomb : ∀ s m, k'.tomb (f s) m = f (k.tomb s m)

variable {k : Kit S D} {k' : Kit S' D'} {f : S → S'} {g : D → D'}

theorem name_map (q : KitMap k k' f g) (r : Rule S) : (mapRule f r).name = r.name := by
  simp only [Rule.name, mapRule, List.getLast?_map]
  cases r.snapshots.getLast? <;> simp [q.name]

theorem dead_map (q : KitMap k k' f g) (r : Rule S) : (mapRule f r).tombstoned = r.tombstoned := by
  simp only [Rule.tombstoned, mapRule, List.getLast?_map]
  cases r.snapshots.getLast? <;> simp [q.dead]

theorem byName_map (q : KitMap k k' f g) (n : Bytes) : ∀ rules : List (Rule S),
    getRuleByName k'.strict n (rules.map (mapRule f)) = getRuleByName k.strict n rules
  | [] => rfl
  | r :: rs => by
    have ih := byName_map q n rs
    rw [q.strict] at ih ⊢
    simp only [List.map_cons, getRuleByName, name_map q, ih]

omit [Snap S] [Snap S'] in
theorem byID_map (id : Bytes) : ∀ rules : List (Rule S), getRuleByID id (rules.map (mapRule f)) = getRuleByID id rules
  | [] => rfl
  | r :: rs => by simp only [List.map_cons, getRuleByID, byID_map id rs]; rfl

theorem revive_map (q : KitMap k k' f g) (r : Rule S) (d : D) (m : UpdateMeta) :
    Rules.revive k'.add (mapRule f r) (g d) m = (mapRule f (Rules.revive k.add r d m).1, (Rules.revive k.add r d m).2) := by
  simp only [Rules.revive, name_map q, dead_map q, q.add]
  cases r.name with
  | none => rfl
  | some n => cases r.tombstoned <;> rfl

theorem mark_map (q : KitMap k k' f g) (r : Rule S) (m : UpdateMeta) :
    markTombstoned k'.tomb (mapRule f r) m = (mapRule f (markTombstoned k.tomb r m).1, (markTombstoned k.tomb r m).2) := by
  simp only [markTombstoned, name_map q, dead_map q]
  cases r.name with
  | none => rfl
  | some n =>
    cases r.tombstoned with
    | true => rfl
    | false =>
      simp only [mapRule, List.getLast?_map]
      cases r.snapshots.getLast? <;> simp [q.tomb]

theorem addRule_map (q : KitMap k k' f g) (rules : List (Rule S)) (fresh : Bytes) (d : D) (m : UpdateMeta) :
    addRule k' (rules.map (mapRule f)) fresh (g d) m = ((addRule k rules fresh d m).1.map (mapRule f), (addRule k rules fresh d m).2) := by
  simp only [addRule, q.nameOf, byName_map q]
  cases getRuleByName k.strict (k.nameOf d) rules with
  | none => rfl
  | some o => cases o with
    | none =>
      have h := q.add ⟨fresh, []⟩ d m
      simp only [mapRule, List.map_nil] at h
      simp only [h]
      cases (k.add ⟨fresh, []⟩ d m).2 <;> simp [mapRule]
    | some i =>
      simp only [List.getElem?_map]
      cases rules[i]? with
      | none => rfl
      | some r =>
        simp only [Option.map_some, revive_map q, List.map_set]
        rfl

theorem updateRule_map (q : KitMap k k' f g) (rules : List (Rule S)) (id : Bytes) (d : D) (m : UpdateMeta) :
    updateRule k' (rules.map (mapRule f)) id (g d) m = ((updateRule k rules id d m).1.map (mapRule f), (updateRule k rules id d m).2) := by
  simp only [updateRule, byID_map]
  cases getRuleByID id rules with
  | none => rfl
  | some i =>
    simp only [List.getElem?_map]
    cases rules[i]? with
    | none => rfl
    | some r => simp [q.add, List.map_set]

theorem deleteRule_map (q : KitMap k k' f g) (rules : List (Rule S)) (id : Bytes) (m : UpdateMeta) :
    deleteRule k' (rules.map (mapRule f)) id m = ((deleteRule k rules id m).1.map (mapRule f), (deleteRule k rules id m).2) := by
  simp only [deleteRule, byID_map]
  cases getRuleByID id rules with
  | none => rfl
  | some i =>
    simp only [List.getElem?_map]
    cases rules[i]? with
    | none => rfl
    | some r => simp [mark_map q, List.map_set]

theorem deleteAll_map (q : KitMap k k' f g) (rules : List (Rule S)) (m : UpdateMeta) :
    deleteAll k' (rules.map (mapRule f)) m = (deleteAll k rules m).map (mapRule f) := by
  simp only [deleteAll, List.map_map]
  apply List.map_congr_left
  intro r _
  simp only [Function.comp, dead_map q, mark_map q]
  cases r.tombstoned <;> rfl

end Kits

theorem kitM_map (h : Mem) : KitMap kitM mappingKit (MSnap.read h) (MData.read h) where
  strict := rfl
  name _ := rfl
  dead _ := rfl
  nameOf _ := rfl
  add r d m := by
    simp only [mappingKit, kitM, addMappingSnapshot, addM, MData.read]
    cases filterValid d.fields.filter <;> simp [mapRule, MSnap.read, mappingSnapshotOf]
  tomb _ _ := rfl

theorem kitR_map (h : Mem) : KitMap kitR rollupKit (RSnap.read h) (RData.read h) where
  strict := rfl
  name _ := rfl
  dead _ := rfl
  nameOf _ := rfl
  add r d m := by
    simp only [rollupKit, kitR, addRollupSnapshot, addR, RData.read]
    cases filterValid d.fields.filter <;> simp [mapRule, RSnap.read, rollupSnapshotOf]
  tomb _ _ := rfl

/-- An edit in memory is the edit of the value with the data as they are. -/
theorem read_edit (h : Mem) (s : Set) (m : UpdateMeta) (e : Edit) :
    ((s.edit m e).1.read h, (s.edit m e).2) = (s.read h).edit m (e.read h) := by
  cases e with
  | addMapping f d =>
    have := addRule_map (kitM_map h) s.mapping f d m
    simp only [Set.edit, Edit.read, RuleSet.RuleSet.edit, RuleSet.addMappingRule, Set.finish, Set.read, this]
    cases (addRule kitM s.mapping f d m).2 <;> rfl
  | updateMapping id d =>
    have := updateRule_map (kitM_map h) s.mapping id d m
    simp only [Set.edit, Edit.read, RuleSet.RuleSet.edit, RuleSet.updateMappingRule, Set.finish, Set.read, this]
    cases (updateRule kitM s.mapping id d m).2 <;> rfl
  | deleteMapping id =>
    have := deleteRule_map (kitM_map h) s.mapping id m
    simp only [Set.edit, Edit.read, RuleSet.RuleSet.edit, RuleSet.deleteMappingRule, Set.finish, Set.read, this]
    cases (deleteRule kitM s.mapping id m).2 <;> rfl
  | addRollup f d =>
    have := addRule_map (kitR_map h) s.rollup f d m
    simp only [Set.edit, Edit.read, RuleSet.RuleSet.edit, RuleSet.addRollupRule, Set.finish, Set.read, this]
    cases (addRule kitR s.rollup f d m).2 <;> rfl
  | updateRollup id d =>
    have := updateRule_map (kitR_map h) s.rollup id d m
    simp only [Set.edit, Edit.read, RuleSet.RuleSet.edit, RuleSet.updateRollupRule, Set.finish, Set.read, this]
    cases (updateRule kitR s.rollup id d m).2 <;> rfl
  | deleteRollup id =>
    have := deleteRule_map (kitR_map h) s.rollup id m
    simp only [Set.edit, Edit.read, RuleSet.RuleSet.edit, RuleSet.deleteRollupRule, Set.finish, Set.read, this]
    cases (deleteRule kitR s.rollup id m).2 <;> rfl
  | delete =>
    have h1 := deleteAll_map (kitM_map h) s.mapping m
    have h2 := deleteAll_map (kitR_map h) s.rollup m
    cases hd : s.fields.tombstoned
    · simp [Set.edit, Edit.read, RuleSet.RuleSet.edit, RuleSet.delete, Set.finish, Set.read, RuleSet.updateMetadata, hd, h1, h2]
    · simp [Set.edit, Edit.read, RuleSet.RuleSet.edit, RuleSet.delete, Set.read, hd]
  | revive =>
    cases hd : s.fields.tombstoned <;>
      simp [Set.edit, Edit.read, RuleSet.RuleSet.edit, RuleSet.revive, Set.finish, Set.read, RuleSet.updateMetadata, hd]


/-! ### Arrays -/

/-- Something in memory: the arrays it has, and what it is as a value, which depends on nothing but them. -/
structure View (A V : Type) where
  policies : A → List Nat
  ops : A → List Nat
  read : Mem → A → V
  congr : ∀ {h h' : Mem} {a : A}, (∀ i ∈ policies a, h.policies[i]? = h'.policies[i]?) → (∀ i ∈ ops a, h.ops[i]? = h'.ops[i]?) →
    read h a = read h' a

def View.In {A V : Type} (K : View A V) (h : Mem) (a : A) : Prop :=
  (∀ i ∈ K.policies a, i < h.policies.length) ∧ (∀ i ∈ K.ops a, i < h.ops.length)

def policiesView : View (Option Nat) (List StoragePolicy) where
  policies := Option.toList
  ops _ := []
  read := Mem.policiesAt
  congr {h h' a} hp _ := by
    cases a with
    | none => rfl
    | some i => simp only [Mem.policiesAt, hp i (by simp)]

def opsView : View (Option Nat) (List Pipe.OpUnion) where
  policies _ := []
  ops := Option.toList
  read := Mem.opsAt
  congr {h h' a} _ ho := by
    cases a with
    | none => rfl
    | some i => simp only [Mem.opsAt, ho i (by simp)]

def targetView : View Target RollupTarget where
  policies t := t.policies.toList
  ops t := t.pipeline.toList
  read := Target.read
  congr {h h' t} hp ho := by
    have h1 := policiesView.congr (a := t.policies) hp (by simp [policiesView])
    have h2 := opsView.congr (a := t.pipeline) (by simp [opsView]) ho
    simp only [policiesView, opsView] at h1 h2
    simp only [Target.read, h1, h2]

def listView {A V : Type} (K : View A V) : View (List A) (List V) where
  policies l := l.flatMap K.policies
  ops l := l.flatMap K.ops
  read h l := l.map (K.read h)
  congr {h h' l} hp ho := List.map_congr_left fun a ha =>
    K.congr (fun i hi => hp i (List.mem_flatMap.mpr ⟨a, ha, hi⟩)) (fun i hi => ho i (List.mem_flatMap.mpr ⟨a, ha, hi⟩))

def msnapView : View MSnap MappingSnapshot where
  policies s := s.policies.toList
  ops _ := []
  read := MSnap.read
  congr {h h' s} hp _ := by
    have h1 := policiesView.congr (a := s.policies) hp (by simp [policiesView])
    simp only [policiesView] at h1
    simp only [MSnap.read, h1]

def rsnapView : View RSnap RollupSnapshot where
  policies s := (listView targetView).policies s.targets
  ops s := (listView targetView).ops s.targets
  read := RSnap.read
  congr {h h' s} hp ho := by
    have h1 := (listView targetView).congr (a := s.targets) hp ho
    simp only [listView, targetView] at h1
    simp only [RSnap.read, h1]

def ruleViewOf {S V : Type} (K : View S V) : View (Rule S) (Rule V) where
  policies r := (listView K).policies r.snapshots
  ops r := (listView K).ops r.snapshots
  read h := mapRule (K.read h)
  congr {h h' r} hp ho := by
    have h1 := (listView K).congr (a := r.snapshots) hp ho
    simp only [listView] at h1
    simp only [mapRule, h1]

def setView : View Set RuleSet where
  policies s := (listView (ruleViewOf msnapView)).policies s.mapping ++ (listView (ruleViewOf rsnapView)).policies s.rollup
  ops s := (listView (ruleViewOf msnapView)).ops s.mapping ++ (listView (ruleViewOf rsnapView)).ops s.rollup
  read := Set.read
  congr {h h' s} hp ho := by
    have h1 := (listView (ruleViewOf msnapView)).congr (a := s.mapping)
      (fun i hi => hp i (List.mem_append_left _ hi)) (fun i hi => ho i (List.mem_append_left _ hi))
    have h2 := (listView (ruleViewOf rsnapView)).congr (a := s.rollup)
      (fun i hi => hp i (List.mem_append_right _ hi)) (fun i hi => ho i (List.mem_append_right _ hi))
    simp only [listView, ruleViewOf, msnapView, rsnapView] at h1 h2
    simp only [Set.read, h1, h2]

theorem mem_policies (s : Set) (a : Nat) : a ∈ setView.policies s ↔ s.HasPolicies a := by
  simp [setView, listView, ruleViewOf, msnapView, rsnapView, targetView, Set.HasPolicies]

theorem mem_ops (s : Set) (a : Nat) : a ∈ setView.ops s ↔ s.HasOps a := by
  simp [setView, listView, ruleViewOf, msnapView, rsnapView, targetView, Set.HasOps]

theorem in_iff (h : Mem) (s : Set) : setView.In h s ↔ s.OK h := by
  simp only [View.In, Set.OK, mem_policies, mem_ops]

/-! ### Copies -/

/-- Memory has grown. -/
def Ext (h h' : Mem) : Prop := (∃ p, h'.policies = h.policies ++ p) ∧ (∃ o, h'.ops = h.ops ++ o)

theorem Ext.refl (h : Mem) : Ext h h := ⟨⟨[], by simp⟩, ⟨[], by simp⟩⟩

theorem Ext.trans {a b c : Mem} (h1 : Ext a b) (h2 : Ext b c) : Ext a c := by
  obtain ⟨⟨p, hp⟩, ⟨o, ho⟩⟩ := h1
  obtain ⟨⟨p', hp'⟩, ⟨o', ho'⟩⟩ := h2
  exact ⟨⟨p ++ p', by rw [hp', hp, List.append_assoc]⟩, ⟨o ++ o', by rw [ho', ho, List.append_assoc]⟩⟩

theorem Ext.le {h h' : Mem} (e : Ext h h') : h.policies.length ≤ h'.policies.length ∧ h.ops.length ≤ h'.ops.length := by
  obtain ⟨⟨p, hp⟩, ⟨o, ho⟩⟩ := e
  rw [hp, ho]
  simp

theorem Ext.read {A V : Type} {K : View A V} {h h' : Mem} {a : A} (e : Ext h h') (ha : K.In h a) : K.read h' a = K.read h a := by
  obtain ⟨⟨p, hp⟩, ⟨o, ho⟩⟩ := e
  refine K.congr (fun i hi => ?_) (fun i hi => ?_)
  · rw [hp, List.getElem?_append_left (ha.1 i hi)]
  · rw [ho, List.getElem?_append_left (ha.2 i hi)]

theorem Ext.in {A V : Type} {K : View A V} {h h' : Mem} {a : A} (e : Ext h h') (ha : K.In h a) : K.In h' a :=
  ⟨fun i hi => Nat.lt_of_lt_of_le (ha.1 i hi) e.le.1, fun i hi => Nat.lt_of_lt_of_le (ha.2 i hi) e.le.2⟩

/-- The arrays of `a` are not in `h`. -/
def View.New {A V : Type} (K : View A V) (h : Mem) (a : A) : Prop :=
  (∀ i ∈ K.policies a, h.policies.length ≤ i) ∧ (∀ i ∈ K.ops a, h.ops.length ≤ i)

theorem New.older {A V : Type} {K : View A V} {h h' : Mem} {a : A} (e : Ext h h') (ha : K.New h' a) : K.New h a :=
  ⟨fun i hi => Nat.le_trans e.le.1 (ha.1 i hi), fun i hi => Nat.le_trans e.le.2 (ha.2 i hi)⟩

/-- `f` makes copies in new arrays. -/
def Clones {A V : Type} (K : View A V) (f : Mem → A → Mem × A) (g : V → V) : Prop := ∀ h a, K.In h a →
  Ext h (f h a).1 ∧ K.read (f h a).1 (f h a).2 = g (K.read h a) ∧ K.In (f h a).1 (f h a).2 ∧ K.New h (f h a).2

theorem clones_policies : Clones policiesView clonePolicies id := by
  intro h a _
  refine ⟨⟨⟨_, rfl⟩, ⟨[], by simp [clonePolicies]⟩⟩, ?_, ⟨?_, ?_⟩, ⟨?_, ?_⟩⟩ <;>
    simp [clonePolicies, policiesView, Mem.policiesAt]

theorem clones_pipeline : Clones opsView clonePipeline Pipe.pipelineClone := by
  intro h a _
  refine ⟨⟨⟨[], by simp [clonePipeline]⟩, ⟨_, rfl⟩⟩, ?_, ⟨?_, ?_⟩, ⟨?_, ?_⟩⟩ <;>
    simp [clonePipeline, opsView, Mem.opsAt]

theorem clones_target : Clones targetView cloneT cloneTarget := by
  intro h t ht
  have h1 : opsView.In h t.pipeline := ⟨by simp [opsView], ht.2⟩
  obtain ⟨e1, r1, i1, n1⟩ := clones_pipeline h t.pipeline h1
  have h2 : policiesView.In (clonePipeline h t.pipeline).1 t.policies :=
    ⟨fun i hi => Nat.lt_of_lt_of_le (ht.1 i hi) e1.le.1, by simp [policiesView]⟩
  obtain ⟨e2, r2, i2, n2⟩ := clones_policies (clonePipeline h t.pipeline).1 t.policies h2
  have r1' := e2.read i1
  rw [r1] at r1'
  have h3 : policiesView.In h t.policies := ⟨ht.1, by simp [policiesView]⟩
  have r2' := e1.read h3
  rw [r2'] at r2
  refine ⟨e1.trans e2, ?_, ⟨i2.1, (e2.in i1).2⟩, ⟨(New.older e1 n2).1, n1.2⟩⟩
  simp only [opsView, policiesView, id_eq] at r1' r2
  simp only [targetView, Target.read, cloneT, cloneTarget, r1', r2]

theorem clones_list {A V : Type} {K : View A V} {f : Mem → A → Mem × A} {g : V → V} (hf : Clones K f g) :
    Clones (listView K) (through f) (List.map g) := by
  intro h l
  induction l generalizing h with
  | nil => exact fun _ => ⟨Ext.refl _, rfl, ⟨by simp [listView, through], by simp [listView, through]⟩,
      ⟨by simp [listView, through], by simp [listView, through]⟩⟩
  | cons x xs ih =>
    intro hl
    have hx : K.In h x := ⟨fun i hi => hl.1 i (by simp [listView, hi]), fun i hi => hl.2 i (by simp [listView, hi])⟩
    have hxs : (listView K).In h xs := ⟨fun i hi => hl.1 i (by simp only [listView, List.flatMap_cons]; exact List.mem_append_right _ hi),
      fun i hi => hl.2 i (by simp only [listView, List.flatMap_cons]; exact List.mem_append_right _ hi)⟩
    obtain ⟨e1, r1, i1, n1⟩ := hf h x hx
    obtain ⟨e2, r2, i2, n2⟩ := ih (f h x).1 (e1.in hxs)
    rw [e1.read hxs] at r2
    have r1' := e2.read i1
    rw [r1] at r1'
    have i1' := e2.in i1
    have n2' := New.older e1 n2
    refine ⟨e1.trans e2, ?_, ⟨?_, ?_⟩, ⟨?_, ?_⟩⟩
    · simp only [listView] at r2
      simp only [listView, through, List.map_cons, r1', r2]
    all_goals
      simp only [listView, through, List.flatMap_cons]
      intro i hi
      rcases List.mem_append.mp hi with hi | hi
    · exact i1'.1 i hi
    · exact i2.1 i hi
    · exact i1'.2 i hi
    · exact i2.2 i hi
    · exact n1.1 i hi
    · exact n2'.1 i hi
    · exact n1.2 i hi
    · exact n2'.2 i hi

theorem clones_msnap : Clones msnapView cloneM cloneMappingSnapshot := by
  intro h s hs
  obtain ⟨e, r, i, n⟩ := clones_policies h s.policies ⟨hs.1, by simp [policiesView]⟩
  refine ⟨e, ?_, ⟨i.1, by simp [msnapView]⟩, ⟨n.1, by simp [msnapView]⟩⟩
  simp only [policiesView, id_eq] at r
  simp only [msnapView, MSnap.read, cloneM, cloneMappingSnapshot, r]

theorem clones_rsnap : Clones rsnapView cloneR cloneRollupSnapshot := by
  intro h s hs
  obtain ⟨e, r, i, n⟩ := clones_list clones_target h s.targets hs
  refine ⟨e, ?_, i, n⟩
  simp only [listView, targetView] at r
  simp only [rsnapView, RSnap.read, cloneR, cloneRollupSnapshot, r]

theorem clones_rule {S : Type} {V : Type} {K : View S V} {f : Mem → S → Mem × S} {g : V → V} (hf : Clones K f g) :
    Clones (ruleViewOf K) (cloneRule f) (RuleSet.cloneRule g) := by
  intro h x hx
  obtain ⟨e, r, i, n⟩ := clones_list hf h x.snapshots hx
  refine ⟨e, ?_, i, n⟩
  simp only [listView] at r
  simp only [ruleViewOf, mapRule, cloneRule, RuleSet.cloneRule, r]

theorem clones_set : Clones setView clone RuleSet.clone := by
  intro h s hs
  have h1 : (listView (ruleViewOf msnapView)).In h s.mapping :=
    ⟨fun i hi => hs.1 i (List.mem_append_left _ hi), fun i hi => hs.2 i (List.mem_append_left _ hi)⟩
  have h2 : (listView (ruleViewOf rsnapView)).In h s.rollup :=
    ⟨fun i hi => hs.1 i (List.mem_append_right _ hi), fun i hi => hs.2 i (List.mem_append_right _ hi)⟩
  obtain ⟨e1, r1, i1, n1⟩ := clones_list (clones_rule clones_msnap) h s.mapping h1
  obtain ⟨e2, r2, i2, n2⟩ := clones_list (clones_rule clones_rsnap) (through (cloneRule cloneM) h s.mapping).1 s.rollup (e1.in h2)
  rw [e1.read h2] at r2
  have r1' := e2.read i1
  rw [r1] at r1'
  have i1' := e2.in i1
  have n2' := New.older e1 n2
  refine ⟨e1.trans e2, ?_, ⟨?_, ?_⟩, ⟨?_, ?_⟩⟩
  · simp only [listView, ruleViewOf, msnapView, rsnapView] at r1' r2
    simp only [setView, Set.read, clone, RuleSet.clone, r1', r2]
  all_goals
    simp only [setView, clone]
    intro i hi
    rcases List.mem_append.mp hi with hi | hi
  · exact i1'.1 i hi
  · exact i2.1 i hi
  · exact i1'.2 i hi
  · exact i2.2 i hi
  · exact n1.1 i hi
  · exact n2'.1 i hi
  · exact n1.2 i hi
  · exact n2'.2 i hi

/-! ### What edits hold on to -/

section All
variable {S D : Type} [Snap S]

def All (P : S → Prop) (rules : List (Rule S)) : Prop := ∀ r ∈ rules, ∀ x ∈ r.snapshots, P x

omit [Snap S] in
theorem all_set {P : S → Prop} {rules : List (Rule S)} (h : All P rules) {r : Rule S} (hr : ∀ x ∈ r.snapshots, P x) (i : Nat) :
    All P (rules.set i r) := by
  intro q hq
  rcases List.mem_or_eq_of_mem_set hq with hq | rfl
  · exact h q hq
  · exact hr

theorem all_mark {P : S → Prop} {tomb : S → UpdateMeta → S} {m : UpdateMeta} {r : Rule S} (ht : ∀ s, P s → P (tomb s m))
    (h : ∀ x ∈ r.snapshots, P x) : ∀ x ∈ (markTombstoned tomb r m).1.snapshots, P x := by
  unfold markTombstoned
  cases r.name with
  | none => exact h
  | some n =>
    simp only
    split
    · exact h
    · cases hl : r.snapshots.getLast? with
      | none => exact h
      | some s =>
        intro x hx
        simp only [List.mem_append, List.mem_singleton] at hx
        rcases hx with hx | rfl
        · exact h x hx
        · exact ht s (h s (List.mem_of_getLast? hl))

theorem all_add {P : S → Prop} {k : Kit S D} {d : D} {m : UpdateMeta}
    (ha : ∀ r, (∀ x ∈ r.snapshots, P x) → ∀ x ∈ (k.add r d m).1.snapshots, P x) {rules : List (Rule S)} (h : All P rules) (fresh : Bytes) :
    All P (addRule k rules fresh d m).1 := by
  unfold addRule
  cases getRuleByName k.strict (k.nameOf d) rules with
  | none => exact h
  | some o => cases o with
    | none =>
      simp only
      split
      · intro r hr
        rcases List.mem_append.mp hr with hr | hr
        · exact h r hr
        · rw [List.mem_singleton] at hr
          subst hr
          exact ha _ (by simp)
      · exact h
    | some i =>
      simp only
      cases hr : rules[i]? with
      | none => exact h
      | some r =>
        refine all_set h ?_ i
        unfold Rules.revive
        have hp := h r (List.mem_of_getElem? hr)
        cases r.name with
        | none => exact hp
        | some n =>
          simp only
          split
          · exact hp
          · exact ha r hp

omit [Snap S] in
theorem all_update {P : S → Prop} {k : Kit S D} {d : D} {m : UpdateMeta}
    (ha : ∀ r, (∀ x ∈ r.snapshots, P x) → ∀ x ∈ (k.add r d m).1.snapshots, P x) {rules : List (Rule S)} (h : All P rules) (id : Bytes) :
    All P (updateRule k rules id d m).1 := by
  unfold updateRule
  cases getRuleByID id rules with
  | none => exact h
  | some i =>
    simp only
    cases hr : rules[i]? with
    | none => exact h
    | some r => exact all_set h (ha r (h r (List.mem_of_getElem? hr))) i

theorem all_delete {P : S → Prop} {k : Kit S D} {m : UpdateMeta} (ht : ∀ s, P s → P (k.tomb s m)) {rules : List (Rule S)}
    (h : All P rules) (id : Bytes) : All P (deleteRule k rules id m).1 := by
  unfold deleteRule
  cases getRuleByID id rules with
  | none => exact h
  | some i =>
    simp only
    cases hr : rules[i]? with
    | none => exact h
    | some r => exact all_set h (all_mark ht (h r (List.mem_of_getElem? hr))) i

theorem all_deleteAll {P : S → Prop} {k : Kit S D} {m : UpdateMeta} (ht : ∀ s, P s → P (k.tomb s m)) {rules : List (Rule S)}
    (h : All P rules) : All P (deleteAll k rules m) := by
  intro r hr
  obtain ⟨q, hq, rfl⟩ := List.mem_map.mp hr
  split
  · exact all_mark ht (h q hq)
  · exact h q hq

end All

theorem all_addM {P : MSnap → Prop} {d : MData} {m : UpdateMeta} (hd : P ⟨mappingSnapshotOf d.fields m, d.policies⟩) (r : Rule MSnap)
    (h : ∀ x ∈ r.snapshots, P x) : ∀ x ∈ (kitM.add r d m).1.snapshots, P x := by
  simp only [kitM, addM]
  split
  · intro x hx
    simp only [List.mem_append, List.mem_singleton] at hx
    rcases hx with hx | rfl
    · exact h x hx
    · exact hd
  · exact h

theorem all_addR {P : RSnap → Prop} {d : RData} {m : UpdateMeta} (hd : P ⟨rollupSnapshotOf d.fields m, d.targets⟩) (r : Rule RSnap)
    (h : ∀ x ∈ r.snapshots, P x) : ∀ x ∈ (kitR.add r d m).1.snapshots, P x := by
  simp only [kitR, addR]
  split
  · intro x hx
    simp only [List.mem_append, List.mem_singleton] at hx
    rcases hx with hx | rfl
    · exact h x hx
    · exact hd
  · exact h

theorem finish_mapping (s : Set) (m : UpdateMeta) (ok : Bool) : (s.finish m ok).1.mapping = s.mapping ∧ (s.finish m ok).1.rollup = s.rollup := by
  cases ok <;> exact ⟨rfl, rfl⟩

/-- An edit adds no snapshots but of its data, and tombstones, which have no arrays. -/
theorem all_edit {P : MSnap → Prop} {Q : RSnap → Prop} {s : Set} {m : UpdateMeta} {e : Edit}
    (hP : All P s.mapping) (hQ : All Q s.rollup) (tP : ∀ x : MSnap, x.policies = none → P x) (tQ : ∀ x : RSnap, x.targets = [] → Q x)
    (dP : ∀ d : MData, (∃ f, e = .addMapping f d ∨ e = .updateMapping f d) → P ⟨mappingSnapshotOf d.fields m, d.policies⟩)
    (dQ : ∀ d : RData, (∃ f, e = .addRollup f d ∨ e = .updateRollup f d) → Q ⟨rollupSnapshotOf d.fields m, d.targets⟩) :
    All P (s.edit m e).1.mapping ∧ All Q (s.edit m e).1.rollup := by
  have kP : ∀ x, P x → P (kitM.tomb x m) := fun x _ => tP _ rfl
  have kQ : ∀ x, Q x → Q (kitR.tomb x m) := fun x _ => tQ _ rfl
  cases e with
  | addMapping f d =>
    simp only [Set.edit, finish_mapping]
    exact ⟨all_add (all_addM (dP d ⟨f, .inl rfl⟩)) hP f, hQ⟩
  | updateMapping f d =>
    simp only [Set.edit, finish_mapping]
    exact ⟨all_update (all_addM (dP d ⟨f, .inr rfl⟩)) hP f, hQ⟩
  | deleteMapping id =>
    simp only [Set.edit, finish_mapping]
    exact ⟨all_delete kP hP id, hQ⟩
  | addRollup f d =>
    simp only [Set.edit, finish_mapping]
    exact ⟨hP, all_add (all_addR (dQ d ⟨f, .inl rfl⟩)) hQ f⟩
  | updateRollup f d =>
    simp only [Set.edit, finish_mapping]
    exact ⟨hP, all_update (all_addR (dQ d ⟨f, .inr rfl⟩)) hQ f⟩
  | deleteRollup id =>
    simp only [Set.edit, finish_mapping]
    exact ⟨hP, all_delete kQ hQ id⟩
  | delete =>
    simp only [Set.edit]
    split
    · exact ⟨hP, hQ⟩
    · simp only [finish_mapping]
      exact ⟨all_deleteAll kP hP, all_deleteAll kQ hQ⟩
  | revive =>
    simp only [Set.edit]
    split
    · exact ⟨hP, hQ⟩
    · simp only [finish_mapping]
      exact ⟨hP, hQ⟩

/-- After an edit a rule set has no arrays but those it had and those of the data. -/
theorem edit_has {s : Set} {m : UpdateMeta} {e : Edit} {a : Nat} :
    ((s.edit m e).1.HasPolicies a → s.HasPolicies a ∨ e.HasPolicies a) ∧ ((s.edit m e).1.HasOps a → s.HasOps a ∨ e.HasOps a) := by
  constructor
  · intro h
    have := all_edit (s := s) (m := m) (e := e) (P := fun x => x.policies = some a → s.HasPolicies a ∨ e.HasPolicies a)
      (Q := fun x => (∃ t ∈ x.targets, t.policies = some a) → s.HasPolicies a ∨ e.HasPolicies a)
      (fun r hr x hx hp => .inl (.inl ⟨r, hr, x, hx, hp⟩)) (fun r hr x hx hp => .inl (.inr ⟨r, hr, x, hx, hp⟩))
      (fun x hx hp => by rw [hx] at hp; cases hp) (fun x hx hp => by rw [hx] at hp; simp at hp)
      (by rintro d ⟨f, rfl | rfl⟩ hp <;> exact .inr hp) (by rintro d ⟨f, rfl | rfl⟩ hp <;> exact .inr hp)
    rcases h with ⟨r, hr, x, hx, hp⟩ | ⟨r, hr, x, hx, hp⟩
    · exact this.1 r hr x hx hp
    · exact this.2 r hr x hx hp
  · rintro ⟨r, hr, x, hx, hp⟩
    have := all_edit (s := s) (m := m) (e := e) (P := fun _ => True)
      (Q := fun x => (∃ t ∈ x.targets, t.pipeline = some a) → s.HasOps a ∨ e.HasOps a)
      (fun _ _ _ _ => trivial) (fun r hr x hx hp => .inl ⟨r, hr, x, hx, hp⟩)
      (fun _ _ => trivial) (fun x hx hp => by rw [hx] at hp; simp at hp)
      (fun _ _ => trivial) (by rintro d ⟨f, rfl | rfl⟩ hp <;> exact .inr hp)
    exact this.2 r hr x hx hp

theorem edit_ok {h : Mem} {s : Set} {m : UpdateMeta} {e : Edit} (hs : s.OK h) (he : e.OK h) : (s.edit m e).1.OK h := by
  constructor
  · intro a ha
    rcases edit_has.1 ha with h' | h'
    · exact hs.1 a h'
    · exact he.1 a h'
  · intro a ha
    rcases edit_has.2 ha with h' | h'
    · exact hs.2 a h'
    · exact he.2 a h'

/-! ### C96 -/

/-- The rule sets as values. -/
def World.sets' (w : World) : List RuleSet := w.sets.map (Set.read w.mem)

theorem ext_sets {w : World} (ok : w.OK) {h : Mem} (e : Ext w.mem h) : w.sets.map (Set.read h) = w.sets' ∧ ∀ s ∈ w.sets, s.OK h :=
  ⟨List.map_congr_left fun s hs => e.read (K := setView) ((in_iff _ _).mpr (ok s hs)),
    fun s hs => (in_iff _ _).mp (e.in (K := setView) ((in_iff _ _).mpr (ok s hs)))⟩

/-- C96: the arrays of a clone, and of the views that a rule set shows, are new: no rule set has them; and they hold what the rule set
holds. -/
theorem C96_new (w : World) (ok : w.OK) (s : Set) (hs : s ∈ w.sets) :
    (∀ a, (clone w.mem s).2.HasPolicies a → ∀ t ∈ w.sets, ¬ t.HasPolicies a) ∧
      (∀ a, (clone w.mem s).2.HasOps a → ∀ t ∈ w.sets, ¬ t.HasOps a) ∧
      (clone w.mem s).2.read (clone w.mem s).1 = (s.read w.mem).clone ∧ (∀ t ∈ w.sets, t.read (clone w.mem s).1 = t.read w.mem) := by
  obtain ⟨e, r, _, n⟩ := clones_set w.mem s ((in_iff _ _).mpr (ok s hs))
  refine ⟨fun a ha t ht h => ?_, fun a ha t ht h => ?_, r, fun t ht => e.read (K := setView) ((in_iff _ _).mpr (ok t ht))⟩
  · exact absurd (n.1 a ((mem_policies _ _).mpr ha)) (Nat.not_le.mpr ((ok t ht).1 a h))
  · exact absurd (n.2 a ((mem_ops _ _).mpr ha)) (Nat.not_le.mpr ((ok t ht).2 a h))

/-- An assignment to an element of an array of policies changes a rule set only if it has that array. -/
theorem unchanged_policy {h : Mem} {s : Set} {a i : Nat} {p : StoragePolicy} (hs : ¬ s.HasPolicies a) :
    s.read { h with policies := h.policies.modify a (·.set i p) } = s.read h := by
  refine setView.congr (fun j hj => ?_) (fun j _ => rfl)
  have : a ≠ j := fun he => hs ((mem_policies _ _).mp (he ▸ hj))
  simp [this]

theorem unchanged_op {h : Mem} {s : Set} {a i : Nat} {o : Pipe.OpUnion} (hs : ¬ s.HasOps a) :
    s.read { h with ops := h.ops.modify a (·.set i o) } = s.read h := by
  refine setView.congr (fun j _ => rfl) (fun j hj => ?_)
  have : a ≠ j := fun he => hs ((mem_ops _ _).mp (he ▸ hj))
  simp [this]

theorem World.OK.step {w : World} (ok : w.OK) {act : Act} (hv : match act with | .edit _ e _ => e.OK w.mem | _ => True) :
    (w.step act).OK := by
  cases act with
  | allocPolicies l => exact (ext_sets ok (h := (w.step (.allocPolicies l)).mem) ⟨⟨[l], rfl⟩, ⟨[], by simp [World.step]⟩⟩).2
  | allocOps l => exact (ext_sets ok (h := (w.step (.allocOps l)).mem) ⟨⟨[], by simp [World.step]⟩, ⟨[l], rfl⟩⟩).2
  | setPolicy a i p => intro s hs; exact ⟨fun b hb => by simpa [World.step] using (ok s hs).1 b hb, (ok s hs).2⟩
  | setOp a i o => intro s hs; exact ⟨(ok s hs).1, fun b hb => by simpa [World.step] using (ok s hs).2 b hb⟩
  | edit i e m =>
    simp only [World.step]
    cases hi : w.sets[i]? with
    | none => exact ok
    | some s =>
      intro t ht
      rcases List.mem_or_eq_of_mem_set ht with ht | rfl
      · exact ok t ht
      · exact edit_ok (ok s (List.mem_of_getElem? hi)) hv
  | clone i =>
    simp only [World.step]
    cases hi : w.sets[i]? with
    | none => exact ok
    | some s =>
      obtain ⟨e, _, n, _⟩ := clones_set w.mem s ((in_iff _ _).mpr (ok s (List.mem_of_getElem? hi)))
      intro t ht
      rcases List.mem_append.mp ht with ht | ht
      · exact (ext_sets ok e).2 t ht
      · rw [List.mem_singleton] at ht
        subst ht
        exact (in_iff _ _).mp n
  | views i =>
    simp only [World.step]
    cases hi : w.sets[i]? with
    | none => exact ok
    | some s =>
      obtain ⟨e, _, _, _⟩ := clones_set w.mem s ((in_iff _ _).mpr (ok s (List.mem_of_getElem? hi)))
      exact (ext_sets ok e).2

/-- C96, in part: if a program assigns to no array that a rule set has been given and still has, then each rule set changes only by the
edits made to it, and records in them the data as they were when the edit was made; this includes programs that change clones and
views in place.  Missing: assignments to arrays that were given to a rule set, see `C96_violated`. -/
theorem C96_partial : ∀ (acts : List Act) {w : World}, w.OK → Valid w acts → Careful w acts → (w.run acts).sets' = ideal w w.sets' acts
  | [], _, _, _, _ => rfl
  | act :: acts, w, ok, hv, hc => by
    have ih := C96_partial acts (ok.step hv.1) hv.2 hc.2
    rw [World.run, List.foldl_cons, ← World.run, ih, ideal]
    congr 1
    have hc := hc.1
    clear ih hv
    cases act with
    | allocPolicies l => exact (ext_sets ok (h := (w.step (.allocPolicies l)).mem) ⟨⟨[l], rfl⟩, ⟨[], by simp [World.step]⟩⟩).1
    | allocOps l => exact (ext_sets ok (h := (w.step (.allocOps l)).mem) ⟨⟨[], by simp [World.step]⟩, ⟨[l], rfl⟩⟩).1
    | setPolicy a i p => exact List.map_congr_left fun s hs => unchanged_policy (hc s hs)
    | setOp a i o => exact List.map_congr_left fun s hs => unchanged_op (hc s hs)
    | edit i e m =>
      simp only [World.step, World.sets', idealStep, List.getElem?_map]
      cases hi : w.sets[i]? with
      | none => rfl
      | some s =>
        simp only [Option.map_some, List.map_set]
        have := congrArg Prod.fst (read_edit w.mem s m e)
        simp only at this
        rw [this]
    | clone i =>
      simp only [World.step, World.sets', idealStep, List.getElem?_map]
      cases hi : w.sets[i]? with
      | none => rfl
      | some s =>
        obtain ⟨_, _, h1, h2⟩ := C96_new w ok s (List.mem_of_getElem? hi)
        simp only [Option.map_some, List.map_append, List.map_cons, List.map_nil, h1]
        congr 1
        exact List.map_congr_left h2
    | views i =>
      simp only [World.step]
      cases hi : w.sets[i]? with
      | none => rfl
      | some s => exact List.map_congr_left (C96_new w ok s (List.mem_of_getElem? hi)).2.2.2

theorem map_inj_at {α β : Type} {f g : α → β} {l : List α} (h : l.map f = l.map g) : ∀ x ∈ l, f x = g x := List.map_inj_left.mp h

/-- C96, exactly: assigning another policy to an element of an array changes a rule set if and only if it has the array. -/
theorem C96_iff (h : Mem) (s : Set) (a i : Nat) (p : StoragePolicy) (l : List StoragePolicy) (ha : h.policies[a]? = some l)
    (hi : i < l.length) (hp : l[i]? ≠ some p) :
    s.read { h with policies := h.policies.modify a (·.set i p) } ≠ s.read h ↔ s.HasPolicies a := by
  constructor
  · intro hne
    apply Classical.byContradiction
    intro hn
    exact hne (unchanged_policy hn)
  · intro hs he
    have hat : ({ h with policies := h.policies.modify a (·.set i p) } : Mem).policiesAt (some a) ≠ h.policiesAt (some a) := by
      simp only [Mem.policiesAt, List.getElem?_modify, if_true, ha, Option.map_some, Option.getD_some]
      intro h2
      apply hp
      have h3 : l.set i p = l := h2
      rw [← h3, List.getElem?_set_self hi]
    have e1 := congrArg RuleSet.mappingRules he
    have e2 := congrArg RuleSet.rollupRules he
    simp only [Set.read] at e1 e2
    rcases hs with ⟨r, hr, x, hx, hpx⟩ | ⟨r, hr, x, hx, t, ht, hpt⟩
    · have h1 := congrArg Rule.snapshots (map_inj_at e1 r hr)
      have h2 := congrArg MappingSnapshot.storagePolicies (map_inj_at h1 x hx)
      simp only [MSnap.read, hpx] at h2
      exact hat h2
    · have h1 := congrArg Rule.snapshots (map_inj_at e2 r hr)
      have h2 := congrArg RollupSnapshot.targets (map_inj_at h1 x hx)
      have h3 := congrArg RollupTarget.storagePolicies (map_inj_at h2 t ht)
      simp only [Target.read, hpt] at h3
      exact hat h3


/-! ### Examples -/

def exPol (s : Int) : StoragePolicy := ⟨⟨s * 1000000000, 1⟩, 3600000000000⟩

def exTold : MData := ⟨{ exData "a" "city:sf" with drop := 0 }, some 0⟩

/-- A program that adds a rule with the policies of its array 0, changes the array and then updates the rule with it. -/
def exAgain : List Act :=
  [.allocPolicies [exPol 10], .edit 0 (.addMapping (bs "1") exTold) (exMeta 10), .setPolicy 0 0 (exPol 60),
   .edit 0 (.updateMapping (bs "1") exTold) (exMeta 20)]

def exWorld : World := ⟨⟨[], []⟩, [⟨exEmpty, [], []⟩]⟩

theorem exWorld_ok : exWorld.OK := by
  intro s hs
  simp only [exWorld, List.mem_singleton] at hs
  subst hs
  constructor
  · rintro a (⟨r, hr, _⟩ | ⟨r, hr, _⟩) <;> cases hr
  · rintro a ⟨r, hr, _⟩; cases hr

/-- What the rule sets record: for each snapshot its cutover and policies. -/
def recorded (v : List RuleSet) : List (List (Int × List StoragePolicy)) :=
  v.flatMap fun rs => rs.mappingRules.map fun r => r.snapshots.map fun s => (s.cutoverNanos, s.storagePolicies)

/-- C96 is violated: the array was given with the rule at 10; changing it before the update at 20 changes what the rule set records for
10, too. -/
theorem C96_violated : ∃ w acts, w.OK ∧ Valid w acts ∧
    recorded (ideal w w.sets' acts) = [[(10, [exPol 10]), (20, [exPol 60])]] ∧
    recorded (w.run acts).sets' = [[(10, [exPol 60]), (20, [exPol 60])]] := by
  refine ⟨exWorld, exAgain, exWorld_ok, ⟨trivial, ⟨?_, ?_⟩, trivial, ⟨?_, ?_⟩, trivial⟩, by decide +kernel, by decide +kernel⟩
  all_goals
    intro a ha
    first
      | exact ha.elim
      | (have h : some 0 = some a := ha
         cases h
         decide)

/-- A program that adds the rule, looks at the rule set (which makes array 1), changes the view and updates the rule with it; and clones
the rule set in between. -/
def exCareful : List Act :=
  [.allocPolicies [exPol 10], .edit 0 (.addMapping (bs "1") exTold) (exMeta 10), .views 0, .setPolicy 1 0 (exPol 60), .clone 0,
   .edit 0 (.updateMapping (bs "1") ⟨exTold.fields, some 1⟩) (exMeta 20)]

/-- The hypotheses of `C96_partial` are met. -/
example : exWorld.OK ∧ Valid exWorld exCareful ∧ Careful exWorld exCareful ∧
    recorded (exWorld.run exCareful).sets' = [[(10, [exPol 10]), (20, [exPol 60])], [(10, [exPol 10])]] := by
  refine ⟨exWorld_ok, ⟨trivial, ⟨?_, ?_⟩, trivial, trivial, trivial, ⟨?_, ?_⟩, trivial⟩, ⟨trivial, trivial, trivial, ?_, trivial, trivial, trivial⟩, by decide +kernel⟩
  · intro a ha
    have h : some 0 = some a := ha
    cases h
    decide
  · intro a ha
    exact ha.elim
  · intro a ha
    have h : some 1 = some a := ha
    cases h
    decide +kernel
  · intro a ha
    exact ha.elim
  · intro s hs
    simp only [← mem_policies]
    revert s
    decide +kernel

/-- The case of `C96_iff`: array 0 before and after the rule was added. -/
example : ¬ (exWorld.sets.any fun s => (setView.policies s).contains 0) ∧
    ((exWorld.run (exAgain.take 2)).sets.any fun s => (setView.policies s).contains 0) := by decide +kernel

end Verif.Shared
