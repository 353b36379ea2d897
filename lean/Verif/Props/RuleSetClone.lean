import Verif.Props.RuleHeap
import Verif.Props.RuleSetViews
import Verif.Props.ReverseMatch
/-
C69 (equality of clones): a clone cannot be told from the original: it matches alike, shows and stores the same, and
goes on doing so under the same edits.
-/
namespace Verif.RuleSet
open Verif.Agg Verif.Policy Verif.Meta Verif.Rules Verif.Active

variable {S : Type} [Snap S] {D : Type}

/-! ### Edits and clones -/

/-- The copying of snapshots keeps what edits look at. -/
structure Kit.Copies (k : Kit S D) (f : S → S) : Prop where
  idem : ∀ s, f (f s) = f s
  name : ∀ s, Snap.name (f s) = Snap.name s
  tombstoned : ∀ s, Snap.tombstoned (f s) = Snap.tombstoned s
  add : ∀ r d m, (k.add (cloneRule f r) d m).2 = (k.add r d m).2 ∧ cloneRule f (k.add (cloneRule f r) d m).1 = cloneRule f (k.add r d m).1
  tomb : ∀ s m, f (k.tomb (f s) m) = f (k.tomb s m)

omit [Snap S] in
theorem map_comp_idem {f : S → S} (hf : ∀ s, f (f s) = f s) (l : List S) : (l.map f).map f = l.map f := by
  rw [List.map_map]
  exact List.map_congr_left fun s _ => hf s

theorem cloneTarget_idem (t : RollupTarget) : cloneTarget (cloneTarget t) = cloneTarget t := by
  unfold cloneTarget Pipe.pipelineClone
  congr 1
  refine map_comp_idem (fun u => ?_) t.pipeline
  unfold Pipe.OpUnion.clone Pipe.RollupOp.clone
  by_cases h1 : u.type = 1
  · simp [h1, Pipe.AggregationOpType]
  · by_cases h2 : u.type = 2
    · simp [h2, Pipe.AggregationOpType, Pipe.TransformationOpType]
    · by_cases h3 : u.type = 3
      · simp [h3, Pipe.AggregationOpType, Pipe.TransformationOpType, Pipe.RollupOpType]
      · simp [h1, h2, h3, Pipe.AggregationOpType, Pipe.TransformationOpType, Pipe.RollupOpType]

theorem mapping_copies : mappingKit.Copies cloneMappingSnapshot where
  idem _ := rfl
  name _ := rfl
  tombstoned _ := rfl
  add r d m := by
    have : cloneRule cloneMappingSnapshot r = r := by
      unfold cloneRule cloneMappingSnapshot
      rw [List.map_id']
    rw [this]
    exact ⟨rfl, rfl⟩
  tomb _ _ := rfl

theorem cloneRollupSnapshot_idem (s : RollupSnapshot) : cloneRollupSnapshot (cloneRollupSnapshot s) = cloneRollupSnapshot s := by
  simp only [cloneRollupSnapshot, map_comp_idem cloneTarget_idem]

theorem rollup_copies : rollupKit.Copies cloneRollupSnapshot where
  idem := cloneRollupSnapshot_idem
  name _ := rfl
  tombstoned _ := rfl
  add r d m := by
    simp only [rollupKit, addRollupSnapshot]
    split
    · simp only [cloneRule, List.map_append, map_comp_idem cloneRollupSnapshot_idem, and_self]
    · simp only [cloneRule, map_comp_idem cloneRollupSnapshot_idem, and_self]
  tomb _ _ := rfl

section
variable {k : Kit S D} {f : S → S}

theorem clone_rule_name (hc : k.Copies f) (r : Rule S) : (cloneRule f r).name = r.name := by
  simp only [cloneRule, Rule.name, List.getLast?_map, Option.map_map]
  cases r.snapshots.getLast? with
  | none => rfl
  | some s => simp [hc.name]

theorem clone_rule_tombstoned (hc : k.Copies f) (r : Rule S) : (cloneRule f r).tombstoned = r.tombstoned := by
  simp only [cloneRule, Rule.tombstoned, List.getLast?_map]
  cases r.snapshots.getLast? with
  | none => rfl
  | some s => simp [hc.tombstoned]

theorem clone_rule_idem (hc : k.Copies f) (r : Rule S) : cloneRule f (cloneRule f r) = cloneRule f r := by
  simp only [cloneRule, map_comp_idem hc.idem]

theorem clone_byName (hc : k.Copies f) (strict : Bool) (name : Bytes) : ∀ rules : List (Rule S),
    getRuleByName strict name (rules.map (cloneRule f)) = getRuleByName strict name rules
  | [] => rfl
  | r :: rules => by
    simp only [List.map_cons, getRuleByName, clone_rule_name hc, clone_byName hc strict name rules]

omit [Snap S] in
theorem clone_byID (id : Bytes) : ∀ rules : List (Rule S), getRuleByID id (rules.map (cloneRule f)) = getRuleByID id rules
  | [] => rfl
  | r :: rules => by
    simp only [List.map_cons, getRuleByID, clone_byID id rules]
    rfl

theorem clone_mark (hc : k.Copies f) (r : Rule S) (m : UpdateMeta) :
    (markTombstoned k.tomb (cloneRule f r) m).2 = (markTombstoned k.tomb r m).2 ∧
    cloneRule f (markTombstoned k.tomb (cloneRule f r) m).1 = cloneRule f (markTombstoned k.tomb r m).1 := by
  unfold markTombstoned
  rw [clone_rule_name hc, clone_rule_tombstoned hc]
  cases r.name with
  | none => exact ⟨rfl, clone_rule_idem hc r⟩
  | some n =>
    cases r.tombstoned with
    | true => exact ⟨rfl, clone_rule_idem hc r⟩
    | false =>
      simp only [Bool.false_eq_true, if_false]
      have : (cloneRule f r).snapshots.getLast? = r.snapshots.getLast?.map f := by simp [cloneRule, List.getLast?_map]
      rw [this]
      cases r.snapshots.getLast? with
      | none => exact ⟨rfl, clone_rule_idem hc r⟩
      | some s =>
        refine ⟨rfl, ?_⟩
        simp only [Option.map_some, cloneRule, List.map_append, map_comp_idem hc.idem, List.map_cons, List.map_nil, hc.tomb]

theorem clone_revive (hc : k.Copies f) (r : Rule S) (d : D) (m : UpdateMeta) :
    (Rules.revive k.add (cloneRule f r) d m).2 = (Rules.revive k.add r d m).2 ∧
    cloneRule f (Rules.revive k.add (cloneRule f r) d m).1 = cloneRule f (Rules.revive k.add r d m).1 := by
  unfold Rules.revive
  rw [clone_rule_name hc, clone_rule_tombstoned hc]
  cases r.name with
  | none => exact ⟨rfl, clone_rule_idem hc r⟩
  | some n =>
    cases r.tombstoned with
    | false => exact ⟨rfl, clone_rule_idem hc r⟩
    | true => exact hc.add r d m

theorem map_clone_idem (hc : k.Copies f) (rules : List (Rule S)) :
    (rules.map (cloneRule f)).map (cloneRule f) = rules.map (cloneRule f) := by
  rw [List.map_map]
  exact List.map_congr_left fun r _ => clone_rule_idem hc r

theorem clone_addRule (hc : k.Copies f) (rules : List (Rule S)) (fresh : Bytes) (d : D) (m : UpdateMeta) :
    (addRule k (rules.map (cloneRule f)) fresh d m).2 = (addRule k rules fresh d m).2 ∧
    (addRule k (rules.map (cloneRule f)) fresh d m).1.map (cloneRule f) = (addRule k rules fresh d m).1.map (cloneRule f) := by
  unfold addRule
  rw [clone_byName hc]
  cases getRuleByName k.strict (k.nameOf d) rules with
  | none => exact ⟨rfl, map_clone_idem hc rules⟩
  | some o =>
    cases o with
    | none =>
      simp only
      split
      · exact ⟨rfl, by simp only [List.map_append, map_clone_idem hc]⟩
      · exact ⟨rfl, map_clone_idem hc rules⟩
    | some i =>
      simp only [List.getElem?_map]
      cases rules[i]? with
      | none => exact ⟨rfl, map_clone_idem hc rules⟩
      | some r =>
        obtain ⟨h1, h2⟩ := clone_revive hc r d m
        simp only [Option.map_some, h1]
        exact ⟨rfl, by rw [List.map_set, List.map_set, h2, map_clone_idem hc]⟩

theorem clone_updateRule (hc : k.Copies f) (rules : List (Rule S)) (id : Bytes) (d : D) (m : UpdateMeta) :
    (updateRule k (rules.map (cloneRule f)) id d m).2 = (updateRule k rules id d m).2 ∧
    (updateRule k (rules.map (cloneRule f)) id d m).1.map (cloneRule f) = (updateRule k rules id d m).1.map (cloneRule f) := by
  unfold updateRule
  rw [clone_byID]
  cases getRuleByID id rules with
  | none => exact ⟨rfl, map_clone_idem hc rules⟩
  | some i =>
    simp only [List.getElem?_map]
    cases rules[i]? with
    | none => exact ⟨rfl, map_clone_idem hc rules⟩
    | some r =>
      obtain ⟨h1, h2⟩ := hc.add r d m
      simp only [Option.map_some, h1]
      exact ⟨trivial, by rw [List.map_set, List.map_set, h2, map_clone_idem hc]⟩

theorem clone_deleteRule (hc : k.Copies f) (rules : List (Rule S)) (id : Bytes) (m : UpdateMeta) :
    (deleteRule k (rules.map (cloneRule f)) id m).2 = (deleteRule k rules id m).2 ∧
    (deleteRule k (rules.map (cloneRule f)) id m).1.map (cloneRule f) = (deleteRule k rules id m).1.map (cloneRule f) := by
  unfold deleteRule
  rw [clone_byID]
  cases getRuleByID id rules with
  | none => exact ⟨rfl, map_clone_idem hc rules⟩
  | some i =>
    simp only [List.getElem?_map]
    cases rules[i]? with
    | none => exact ⟨rfl, map_clone_idem hc rules⟩
    | some r =>
      obtain ⟨h1, h2⟩ := clone_mark hc r m
      simp only [Option.map_some, h1]
      exact ⟨trivial, by rw [List.map_set, List.map_set, h2, map_clone_idem hc]⟩

theorem clone_deleteAll (hc : k.Copies f) (rules : List (Rule S)) (m : UpdateMeta) :
    (deleteAll k (rules.map (cloneRule f)) m).map (cloneRule f) = (deleteAll k rules m).map (cloneRule f) := by
  unfold deleteAll
  rw [List.map_map, List.map_map, List.map_map]
  refine List.map_congr_left fun r _ => ?_
  simp only [Function.comp_apply, clone_rule_tombstoned hc]
  split
  · exact (clone_mark hc r m).2
  · exact clone_rule_idem hc r
end

/-- The same edit on a clone succeeds alike and leaves a clone. -/
theorem clone_edit (rs : RuleSet) (m : UpdateMeta) (e : Edit) :
    (rs.clone.edit m e).2 = (rs.edit m e).2 ∧ (rs.clone.edit m e).1.clone = (rs.edit m e).1.clone := by
  have im := map_clone_idem mapping_copies rs.mappingRules
  have ir := map_clone_idem rollup_copies rs.rollupRules
  cases e with
  | addMapping fr d =>
    obtain ⟨h1, h2⟩ := clone_addRule mapping_copies rs.mappingRules fr d m
    simp only [RuleSet.edit, RuleSet.addMappingRule, RuleSet.clone, h1]
    split <;> simp only [RuleSet.updateMetadata, h2, ir, and_self]
  | updateMapping id d =>
    obtain ⟨h1, h2⟩ := clone_updateRule mapping_copies rs.mappingRules id d m
    simp only [RuleSet.edit, RuleSet.updateMappingRule, RuleSet.clone, h1]
    split <;> simp only [RuleSet.updateMetadata, h2, ir, and_self]
  | deleteMapping id =>
    obtain ⟨h1, h2⟩ := clone_deleteRule mapping_copies rs.mappingRules id m
    simp only [RuleSet.edit, RuleSet.deleteMappingRule, RuleSet.clone, h1]
    split <;> simp only [RuleSet.updateMetadata, h2, ir, and_self]
  | addRollup fr d =>
    obtain ⟨h1, h2⟩ := clone_addRule rollup_copies rs.rollupRules fr d m
    simp only [RuleSet.edit, RuleSet.addRollupRule, RuleSet.clone, h1]
    split <;> simp only [RuleSet.updateMetadata, h2, im, and_self]
  | updateRollup id d =>
    obtain ⟨h1, h2⟩ := clone_updateRule rollup_copies rs.rollupRules id d m
    simp only [RuleSet.edit, RuleSet.updateRollupRule, RuleSet.clone, h1]
    split <;> simp only [RuleSet.updateMetadata, h2, im, and_self]
  | deleteRollup id =>
    obtain ⟨h1, h2⟩ := clone_deleteRule rollup_copies rs.rollupRules id m
    simp only [RuleSet.edit, RuleSet.deleteRollupRule, RuleSet.clone, h1]
    split <;> simp only [RuleSet.updateMetadata, h2, im, and_self]
  | delete =>
    have h1 := clone_deleteAll mapping_copies rs.mappingRules m
    have h2 := clone_deleteAll rollup_copies rs.rollupRules m
    have e0 : rs.clone.tombstoned = rs.tombstoned := rfl
    simp only [RuleSet.edit, RuleSet.delete, e0]
    by_cases ht : rs.tombstoned = true
    · simp only [if_pos ht, RuleSet.clone, im, ir, and_self]
    · simp only [if_neg ht, RuleSet.clone, RuleSet.updateMetadata, h1, h2, and_self]
  | revive =>
    have e0 : rs.clone.tombstoned = rs.tombstoned := rfl
    simp only [RuleSet.edit, RuleSet.revive, e0]
    by_cases ht : (!rs.tombstoned) = true
    · simp only [if_pos ht, RuleSet.clone, im, ir, and_self]
    · simp only [if_neg ht, RuleSet.clone, RuleSet.updateMetadata, im, ir, and_self]

theorem edit_alike {rs rs' : RuleSet} (h : rs.clone = rs'.clone) (m : UpdateMeta) (e : Edit) :
    (rs.edit m e).2 = (rs'.edit m e).2 ∧ (rs.edit m e).1.clone = (rs'.edit m e).1.clone := by
  rw [← (clone_edit rs m e).1, ← (clone_edit rs m e).2, h, (clone_edit rs' m e).1, (clone_edit rs' m e).2]
  exact ⟨rfl, rfl⟩

/-! ### What can be seen of a rule set -/

/-- The observations: metadata, views, stored form, and the results of matching. -/
structure Alike (a b : RuleSet) : Prop where
  fields : a.uuid = b.uuid ∧ a.version = b.version ∧ a.namespace_ = b.namespace_ ∧ a.createdAtNanos = b.createdAtNanos ∧
    a.lastUpdatedAtNanos = b.lastUpdatedAtNanos ∧ a.lastUpdatedBy = b.lastUpdatedBy ∧ a.tombstoned = b.tombstoned ∧
    a.cutoverNanos = b.cutoverNanos
  mappingViews : a.mappingViews = b.mappingViews
  rollupViews : a.rollupViews = b.rollupViews
  latest : a.latest = b.latest
  proto : ∀ x, a.proto x = b.proto x
  forward : ∀ env t0 id frm to, forwardMatch env (a.activeSet t0) id frm to = forwardMatch env (b.activeSet t0) id frm to
  reverse : ∀ env t0 id frm to mt at' multi o,
    reverseMatch env (a.activeSet t0) id frm to mt at' multi o = reverseMatch env (b.activeSet t0) id frm to mt at' multi o

theorem Alike.trans {a b c : RuleSet} (h : Alike a b) (h' : Alike b c) : Alike a c :=
  ⟨by
    obtain ⟨a1, a2, a3, a4, a5, a6, a7, a8⟩ := h.fields
    obtain ⟨b1, b2, b3, b4, b5, b6, b7, b8⟩ := h'.fields
    exact ⟨a1.trans b1, a2.trans b2, a3.trans b3, a4.trans b4, a5.trans b5, a6.trans b6, a7.trans b7, a8.trans b8⟩,
    h.mappingViews.trans h'.mappingViews, h.rollupViews.trans h'.rollupViews, h.latest.trans h'.latest,
    fun x => (h.proto x).trans (h'.proto x), fun _ _ _ _ _ => (h.forward ..).trans (h'.forward ..),
    fun _ _ _ _ _ _ _ _ _ => (h.reverse ..).trans (h'.reverse ..)⟩

theorem Alike.symm {a b : RuleSet} (h : Alike a b) : Alike b a :=
  ⟨by
    obtain ⟨a1, a2, a3, a4, a5, a6, a7, a8⟩ := h.fields
    exact ⟨a1.symm, a2.symm, a3.symm, a4.symm, a5.symm, a6.symm, a7.symm, a8.symm⟩,
    h.mappingViews.symm, h.rollupViews.symm, h.latest.symm, fun x => (h.proto x).symm, fun _ _ _ _ _ => (h.forward ..).symm,
    fun _ _ _ _ _ _ _ _ _ => (h.reverse ..).symm⟩

/-! ### A clone and its original -/

omit [Snap S] in
theorem history_clone {V : Type} (g : Bytes → S → V) {f : S → S} (h : ∀ u s, g u (f s) = g u s) (r : Rule S) :
    history g (cloneRule f r) = history g r := by
  rw [history_eq, history_eq]
  simp only [cloneRule, List.map_map]
  congr 2
  exact List.map_congr_left fun s _ => h r.uuid s

omit [Snap S] in
theorem histories_clone {V : Type} (g : Bytes → S → V) {f : S → S} (h : ∀ u s, g u (f s) = g u s) : ∀ (rules : List (Rule S)) m,
    histories g (rules.map (cloneRule f)) m = histories g rules m
  | [], _ => rfl
  | r :: rules, m => by
    simp only [List.map_cons, histories, history_clone g h]
    cases history g r with
    | none => rfl
    | some v => exact histories_clone g h rules _

theorem mapM'_map {A B C : Type} (g : B → Option C) (f : A → B) (g' : A → Option C) (h : ∀ a, g (f a) = g' a) : ∀ l : List A,
    mapM' g (l.map f) = mapM' g' l
  | [] => rfl
  | a :: l => by simp only [List.map_cons, mapM', h, mapM'_map g f g' h l]

omit [Snap S] in
theorem ruleProto_clone {P : Type} (g : S → Option P) {f : S → S} (h : ∀ s, g (f s) = g s) (r : Rule S) :
    ruleProto g (cloneRule f r) = ruleProto g r := by
  unfold ruleProto cloneRule
  rw [mapM'_map g f g h]

theorem pipelineProto_clone : ∀ p : Pipe.Pipeline, Pipe.pipelineProto (Pipe.pipelineClone p) = Pipe.pipelineProto p
  | [] => rfl
  | op :: ops => by
    have ih := pipelineProto_clone ops
    have h : op.clone.proto = op.proto := by
      unfold Pipe.OpUnion.proto Pipe.OpUnion.clone Pipe.RollupOp.clone
      by_cases h1 : op.type = 1
      · simp [h1, Pipe.AggregationOpType]
      · by_cases h2 : op.type = 2
        · simp [h2, Pipe.AggregationOpType, Pipe.TransformationOpType]
        · by_cases h3 : op.type = 3
          · simp [h3, Pipe.AggregationOpType, Pipe.TransformationOpType, Pipe.RollupOpType]
          · simp [h1, h2, h3, Pipe.AggregationOpType, Pipe.TransformationOpType, Pipe.RollupOpType]
    unfold Pipe.pipelineClone at ih ⊢
    simp only [List.map_cons, Pipe.pipelineProto, h, ih]

theorem proto_clone (x : XTime) (s : RollupSnapshot) : rollupSnapshotProto x (cloneRollupSnapshot s) = rollupSnapshotProto x s := by
  unfold rollupSnapshotProto cloneRollupSnapshot
  simp only
  rw [mapM'_map (rollupTargetProto x) cloneTarget (rollupTargetProto x)]
  intro t
  unfold rollupTargetProto cloneTarget
  rw [pipelineProto_clone]

/-- The active set with copied rollup rules. -/
def copied (as : ActiveRuleSet) : ActiveRuleSet := { as with rollupRules := as.rollupRules.map (cloneRule cloneRollupSnapshot) }

theorem clone_activeIndex (r : RollupRule) (t : Int) : (cloneRule cloneRollupSnapshot r).activeIndex t = r.activeIndex t := by
  have : ∀ (l : List RollupSnapshot) k, activeIndexLoop (l.map cloneRollupSnapshot) t k = activeIndexLoop l t k := by
    intro l k
    induction k with
    | zero => rfl
    | succ k ih =>
      simp only [activeIndexLoop, List.getElem?_map]
      cases l[k]? with
      | none => rfl
      | some s => simp only [Option.map_some, ih]; rfl
  unfold Rule.activeIndex cloneRule
  simp only [List.length_map, this]

theorem clone_activeSnapshot (r : RollupRule) (t : Int) :
    (cloneRule cloneRollupSnapshot r).activeSnapshot t = (r.activeSnapshot t).map cloneRollupSnapshot := by
  unfold Rule.activeSnapshot
  rw [clone_activeIndex]
  cases r.activeIndex t with
  | zero => rfl
  | succ k => simp [cloneRule]

theorem clone_activeRule (r : RollupRule) (t : Int) :
    (cloneRule cloneRollupSnapshot r).activeRule t = cloneRule cloneRollupSnapshot (r.activeRule t) := by
  unfold Rule.activeRule
  rw [clone_activeIndex]
  cases r.activeIndex t with
  | zero => rfl
  | succ k => simp [cloneRule]

theorem cloneRule_mapping (r : MappingRule) : cloneRule cloneMappingSnapshot r = r := by
  unfold cloneRule cloneMappingSnapshot
  rw [List.map_id']

theorem map_cloneRule_mapping (l : List MappingRule) : l.map (cloneRule cloneMappingSnapshot) = l := by
  have := List.map_congr_left fun r (_ : r ∈ l) => cloneRule_mapping r
  rw [this, List.map_id']

theorem clone_activeSet (rs : RuleSet) (t : Int) : rs.clone.activeSet t = copied (rs.activeSet t) := by
  unfold RuleSet.activeSet activeSet RuleSet.clone copied newActiveRuleSet
  simp only [map_cloneRule_mapping, List.map_map]
  have e : (fun r : RollupRule => r.activeRule t) ∘ cloneRule cloneRollupSnapshot =
      cloneRule cloneRollupSnapshot ∘ fun r : RollupRule => r.activeRule t := by
    funext r
    exact clone_activeRule r t
  rw [e]
  congr 2
  simp only [List.foldl_map, Function.comp_apply, cloneRule, List.foldl_map]
  rfl

theorem rollupLoop_copied (env : Env) (id : Bytes) (t : Int) : ∀ (rules : List RollupRule) cut ts,
    rollupLoop env id t (rules.map (cloneRule cloneRollupSnapshot)) cut ts = rollupLoop env id t rules cut ts
  | [], _, _ => rfl
  | r :: rules, cut, ts => by
    have ih := rollupLoop_copied env id t rules
    simp only [List.map_cons, rollupLoop, clone_activeSnapshot]
    cases r.activeSnapshot t with
    | none => exact ih _ _
    | some s =>
      simp only [Option.map_some, ih]
      have : (cloneRollupSnapshot s).targets.map cloneTarget = s.targets.map cloneTarget := by
        simp only [cloneRollupSnapshot, map_comp_idem cloneTarget_idem]
      rw [this]
      rfl

theorem forwardLoop_congr {env : Env} {as as' : ActiveRuleSet} {id : Bytes} (h : ∀ t, forwardMatchAt env as id t = forwardMatchAt env as' id t)
    (to : Int) : ∀ cs ex ids, forwardLoop env as id to cs ex ids = forwardLoop env as' id to cs ex ids
  | [], _, _ => rfl
  | c :: cs, ex, ids => by simp only [forwardLoop, h, forwardLoop_congr h to cs]

theorem forward_copied (env : Env) (as : ActiveRuleSet) (id : Bytes) (frm to : Int) :
    forwardMatch env (copied as) id frm to = forwardMatch env as id frm to := by
  have h : ∀ t, forwardMatchAt env (copied as) id t = forwardMatchAt env as id t := by
    intro t
    unfold forwardMatchAt rollupResultsFor copied
    simp only [rollupLoop_copied]
    rfl
  unfold forwardMatch
  simp only [h, forwardLoop_congr h]
  rfl

theorem clone_op_type (op : Pipe.OpUnion) : (op.clone.type = 3 ↔ op.type = 3) ∧ (op.type = 3 → op.clone.rollup = op.rollup) := by
  unfold Pipe.OpUnion.clone Pipe.RollupOp.clone
  by_cases h1 : op.type = 1
  · simp [h1, Pipe.AggregationOpType]
  · by_cases h2 : op.type = 2
    · simp [h2, Pipe.AggregationOpType, Pipe.TransformationOpType]
    · by_cases h3 : op.type = 3
      · simp [h3, Pipe.AggregationOpType, Pipe.TransformationOpType, Pipe.RollupOpType]
      · simp [h1, h2, h3, Pipe.AggregationOpType, Pipe.TransformationOpType, Pipe.RollupOpType]

theorem reverseOps_copied (env : Env) (name tags : Bytes) (mt : Option Kind) (at' : AType) (multi : Bool) (o : Agg.Options) (cut : Int) :
    ∀ l : List (Pipe.OpUnion × List StoragePolicy),
      reverseOps env name tags mt at' multi o cut (l.map fun x => (x.1.clone, x.2)) = reverseOps env name tags mt at' multi o cut l
  | [] => rfl
  | (op, sps) :: l => by
    have ih := reverseOps_copied env name tags mt at' multi o cut l
    obtain ⟨h1, h2⟩ := clone_op_type op
    simp only [List.map_cons, reverseOps, ih]
    by_cases h3 : op.type = 3
    · have h3' := h1.mpr h3
      rw [h2 h3]
      simp only [h3, h3']
    · have h3' : ¬ op.clone.type = 3 := fun h => h3 (h1.mp h)
      have e1 : op.type ≠ Pipe.RollupOpType := h3
      have e2 : op.clone.type ≠ Pipe.RollupOpType := h3'
      rw [if_pos e1, if_pos e2]

theorem reverseRollup_copied (env : Env) (name tags : Bytes) (t : Int) (mt : Option Kind) (at' : AType) (multi : Bool) (o : Agg.Options) :
    ∀ rules : List RollupRule, reverseRollup env name tags t mt at' multi o (rules.map (cloneRule cloneRollupSnapshot)) =
      reverseRollup env name tags t mt at' multi o rules
  | [] => rfl
  | r :: rules => by
    have ih := reverseRollup_copied env name tags t mt at' multi o rules
    simp only [List.map_cons, reverseRollup, clone_activeSnapshot]
    cases r.activeSnapshot t with
    | none => exact ih
    | some s =>
      have e : rollupOpsOf (cloneRollupSnapshot s).targets = (rollupOpsOf s.targets).map fun x => (x.1.clone, x.2) := by
        unfold rollupOpsOf cloneRollupSnapshot
        simp only [List.flatMap_map, List.map_flatMap, cloneTarget, Pipe.pipelineClone, List.map_map]
        rfl
      simp only [Option.map_some, ih, e, reverseOps_copied]
      rfl

theorem reverse_copied (env : Env) (as : ActiveRuleSet) (id : Bytes) (frm to : Int) (mt : Option Kind) (at' : AType) (multi : Bool)
    (o : Agg.Options) : reverseMatch env (copied as) id frm to mt at' multi o = reverseMatch env as id frm to mt at' multi o := by
  have h : ∀ t, reverseMappingsFor env (copied as) id (reverseKind env id).1 (reverseKind env id).2.1 (reverseKind env id).2.2 t mt at' multi o =
      reverseMappingsFor env as id (reverseKind env id).1 (reverseKind env id).2.1 (reverseKind env id).2.2 t mt at' multi o := by
    intro t
    unfold reverseMappingsFor copied
    simp only [reverseRollup_copied]
    rfl
  unfold reverseMatch
  simp only [h]
  rfl

/-- A clone cannot be told from the original. -/
theorem alike_clone (rs : RuleSet) : Alike rs.clone rs := by
  have hm : rs.clone.mappingRules = rs.mappingRules := map_cloneRule_mapping _
  have hmv : rs.clone.mappingViews = rs.mappingViews := by unfold RuleSet.mappingViews; rw [hm]
  have hrv : rs.clone.rollupViews = rs.rollupViews := by
    unfold RuleSet.rollupViews RuleSet.clone
    refine histories_clone _ (fun u s => ?_) _ _
    simp only [rollupSnapView, cloneRollupSnapshot, map_comp_idem cloneTarget_idem]
  refine ⟨⟨rfl, rfl, rfl, rfl, rfl, rfl, rfl, rfl⟩, hmv, hrv, ?_, ?_, ?_, ?_⟩
  · unfold RuleSet.latest
    rw [hmv, hrv]
    rfl
  · intro x
    unfold RuleSet.proto
    rw [hm]
    have : mapM' (ruleProto (rollupSnapshotProto x)) rs.clone.rollupRules = mapM' (ruleProto (rollupSnapshotProto x)) rs.rollupRules :=
      mapM'_map _ _ _ (ruleProto_clone _ (proto_clone x)) _
    rw [this]
    rfl
  · intro env t0 id frm to
    rw [clone_activeSet, forward_copied]
  · intro env t0 id frm to mt at' multi o
    rw [clone_activeSet, reverse_copied]

theorem alike_of_clone {a b : RuleSet} (h : a.clone = b.clone) : Alike a b := by
  have := (alike_clone a).symm
  rw [h] at this
  exact this.trans (alike_clone b)

theorem clone_clone (rs : RuleSet) : rs.clone.clone = rs.clone := by
  simp only [RuleSet.clone, map_clone_idem mapping_copies, map_clone_idem rollup_copies]

/-- **C69** (equality): a rule set and its clone cannot be told apart, also after the same edits on both, and the edits
succeed alike: `Alike` is what `MappingRules`, `RollupRules`, `Latest`, `Proto`, the getters and matching show. -/
theorem C69_equal (rs : RuleSet) : ∀ es : List (Edit × UpdateMeta), Alike (rs.clone.run es) (rs.run es) ∧
    ∀ m e, ((rs.clone.run es).edit m e).2 = ((rs.run es).edit m e).2 := by
  suffices h : ∀ (es : List (Edit × UpdateMeta)) (a b : RuleSet), a.clone = b.clone → (a.run es).clone = (b.run es).clone by
    intro es
    have := h es rs.clone rs (clone_clone rs)
    exact ⟨alike_of_clone this, fun m e => (edit_alike this m e).1⟩
  intro es
  induction es with
  | nil => intro a b h; exact h
  | cons e es ih => intro a b h; exact ih _ _ (edit_alike h e.2 e.1).2

/-- A rollup target whose operation carries a payload its type does not use; the clone drops it. -/
def exJunk : RollupTarget := ⟨[{ type := 2, aggregation := 3, transformation := 2 }], []⟩

/-- Beside C69: clone and original are different values here, so equality of what is shown is not trivial. -/
example : exOne.clone.rollupRules.map (fun r => r.snapshots.map (·.targets)) = [[[exTarget]]] ∧
    (let rs := { exOne with rollupRules := [⟨bs "r", [exRollup 1 false [exJunk]]⟩] }
     (rs.clone.rollupRules.map fun r => r.snapshots.map (·.targets)) = [[[exTarget]]] ∧
     (rs.rollupRules.map fun r => r.snapshots.map (·.targets)) = [[[exJunk]]]) := by decide +kernel

end Verif.RuleSet
