import Verif.Lemmas.RuleSet
/- Single edits on the list of rules of one kind, and sequences of edits. -/
namespace Verif.RuleSet
open Verif.Agg Verif.Policy Verif.Meta Verif.Rules Verif.Active Verif.Spec.Rules Verif.Flt

/-- The edits of a rule set other than batches. -/
inductive Edit where
  | addMapping (fresh : Bytes) (d : MappingData)
  | updateMapping (id : Bytes) (d : MappingData)
  | deleteMapping (id : Bytes)
  | addRollup (fresh : Bytes) (d : RollupData)
  | updateRollup (id : Bytes) (d : RollupData)
  | deleteRollup (id : Bytes)
  | delete
  | revive

/-- Carry out an edit: the rule set afterwards and whether it succeeded. -/
def RuleSet.edit (rs : RuleSet) (m : UpdateMeta) : Edit → RuleSet × Bool
  | .addMapping f d => ((rs.addMappingRule f d m).1, (rs.addMappingRule f d m).2.isSome)
  | .updateMapping id d => rs.updateMappingRule id d m
  | .deleteMapping id => rs.deleteMappingRule id m
  | .addRollup f d => ((rs.addRollupRule f d m).1, (rs.addRollupRule f d m).2.isSome)
  | .updateRollup id d => rs.updateRollupRule id d m
  | .deleteRollup id => rs.deleteRollupRule id m
  | .delete => rs.delete m
  | .revive => rs.revive m

/-- A sequence of edits, each with its own time and author; failed ones included. -/
def RuleSet.run (rs : RuleSet) (es : List (Edit × UpdateMeta)) : RuleSet := es.foldl (fun rs e => (rs.edit e.2 e.1).1) rs

/-- An edit as seen by the rules of one kind. -/
inductive Op (D : Type) where
  | add (fresh : Bytes) (d : D)
  | update (id : Bytes) (d : D)
  | delete (id : Bytes)
  | deleteAll
  | other

variable {S : Type} [Snap S] {D : Type}

def Op.apply (k : Kit S D) (rules : List (Rule S)) (m : UpdateMeta) : Op D → List (Rule S)
  | .add f d => (addRule k rules f d m).1
  | .update id d => (updateRule k rules id d m).1
  | .delete id => (deleteRule k rules id m).1
  | .deleteAll => RuleSet.deleteAll k rules m
  | .other => rules

def mappingOp (rs : RuleSet) : Edit → Op MappingData
  | .addMapping f d => .add f d
  | .updateMapping id d => .update id d
  | .deleteMapping id => .delete id
  | .delete => if rs.tombstoned then .other else .deleteAll
  | _ => .other

def rollupOp (rs : RuleSet) : Edit → Op RollupData
  | .addRollup f d => .add f d
  | .updateRollup id d => .update id d
  | .deleteRollup id => .delete id
  | .delete => if rs.tombstoned then .other else .deleteAll
  | _ => .other

theorem edit_mapping (rs : RuleSet) (m : UpdateMeta) (e : Edit) :
    (rs.edit m e).1.mappingRules = (mappingOp rs e).apply mappingKit rs.mappingRules m := by
  cases e <;> simp only [RuleSet.edit, mappingOp, Op.apply, RuleSet.addMappingRule, RuleSet.updateMappingRule,
    RuleSet.deleteMappingRule, RuleSet.addRollupRule, RuleSet.updateRollupRule, RuleSet.deleteRollupRule, RuleSet.delete,
    RuleSet.revive, RuleSet.updateMetadata]
  all_goals split <;> rfl

theorem edit_rollup (rs : RuleSet) (m : UpdateMeta) (e : Edit) :
    (rs.edit m e).1.rollupRules = (rollupOp rs e).apply rollupKit rs.rollupRules m := by
  cases e <;> simp only [RuleSet.edit, rollupOp, Op.apply, RuleSet.addMappingRule, RuleSet.updateMappingRule,
    RuleSet.deleteMappingRule, RuleSet.addRollupRule, RuleSet.updateRollupRule, RuleSet.deleteRollupRule, RuleSet.delete,
    RuleSet.revive, RuleSet.updateMetadata]
  all_goals split <;> rfl

/-! ### Lookup -/

omit [Snap S] in
theorem getRuleByID_some {id : Bytes} : ∀ {rules : List (Rule S)} {i : Nat}, getRuleByID id rules = some i →
    ∃ r, rules[i]? = some r ∧ r.uuid = id
  | [], _, h => by cases h
  | r :: rs, i, h => by
    rw [getRuleByID] at h
    split at h
    · rename_i he
      simp only [Option.some.injEq] at h
      subst h
      exact ⟨r, rfl, he⟩
    · rw [Option.map_eq_some_iff] at h
      obtain ⟨j, hj, rfl⟩ := h
      exact getRuleByID_some (rules := rs) hj

omit [Snap S] in
theorem getRuleByID_none {id : Bytes} : ∀ {rules : List (Rule S)}, getRuleByID id rules = none ↔ ∀ r ∈ rules, r.uuid ≠ id
  | [] => by simp [getRuleByID]
  | r :: rs => by
    rw [getRuleByID]
    have ih := getRuleByID_none (id := id) (rules := rs)
    split
    · rename_i he; simp [he]
    · rename_i he; simp [ih, he]

theorem getRuleByName_some {strict : Bool} {n : Bytes} : ∀ {rules : List (Rule S)} {i : Nat},
    getRuleByName strict n rules = some (some i) → ∃ r, rules[i]? = some r ∧ r.name = some n
  | [], _, h => by simp [getRuleByName] at h
  | r :: rs, i, h => by
    have ih := fun i => getRuleByName_some (strict := strict) (n := n) (rules := rs) (i := i)
    have step : ∀ o : Option (Option Nat), o = getRuleByName strict n rs → o.map (Option.map (· + 1)) = some (some i) →
        ∃ r', (r :: rs)[i]? = some r' ∧ r'.name = some n := by
      intro o ho hm
      rcases o with _ | _ | j
      · simp at hm
      · simp at hm
      · simp only [Option.map_some, Option.some.injEq] at hm
        subst hm
        exact ih j ho.symm
    rw [getRuleByName] at h
    cases hn : r.name with
    | none =>
      simp only [hn] at h
      cases strict
      · exact step _ rfl (by simpa using h)
      · simp at h
    | some n' =>
      simp only [hn] at h
      split at h
      · rename_i he
        simp only [Option.some.injEq] at h
        subst h; subst he
        exact ⟨r, rfl, hn⟩
      · exact step _ rfl h

theorem getRuleByName_none {strict : Bool} {n : Bytes} : ∀ {rules : List (Rule S)},
    getRuleByName strict n rules = some none → ∀ r ∈ rules, r.name ≠ some n
  | [], _ => by simp
  | r :: rs, h => by
    have ih := getRuleByName_none (strict := strict) (n := n) (rules := rs)
    have step : (getRuleByName strict n rs).map (Option.map (· + 1)) = some none → getRuleByName strict n rs = some none := by
      intro hm
      rcases hg : getRuleByName strict n rs with _ | _ | j
      · simp [hg] at hm
      · rfl
      · simp [hg] at hm
    rw [getRuleByName] at h
    intro r' hr'
    cases hn : r.name with
    | none =>
      simp only [hn] at h
      cases strict
      · have h' := ih (step (by simpa using h))
        rcases List.mem_cons.mp hr' with rfl | hr'
        · rw [hn]; simp
        · exact h' r' hr'
      · simp at h
    | some n' =>
      simp only [hn] at h
      split at h
      · simp at h
      · rename_i he
        have h' := ih (step h)
        rcases List.mem_cons.mp hr' with rfl | hr'
        · rw [hn]; simpa using he
        · exact h' r' hr'

/-- Looking up a name in rules that all have one does not fail, and finds the first rule of that name. -/
theorem getRuleByName_first {strict : Bool} {n : Bytes} : ∀ {pre post : List (Rule S)} {r : Rule S},
    (∀ q ∈ pre, q.name ≠ none ∧ q.name ≠ some n) → r.name = some n →
    getRuleByName strict n (pre ++ r :: post) = some (some pre.length)
  | [], _, r, _, hn => by simp [getRuleByName, hn]
  | q :: pre, post, r, hq, hn => by
    have ih := getRuleByName_first (strict := strict) (n := n) (pre := pre) (post := post) (r := r)
      (fun q' h' => hq q' (by simp [h'])) hn
    obtain ⟨h1, h2⟩ := hq q (by simp)
    rw [List.cons_append, getRuleByName]
    cases hqn : q.name with
    | none => exact absurd hqn h1
    | some n' =>
      simp only
      rw [if_neg (by rw [hqn] at h2; simpa using h2), ih]
      rfl

/-! ### Growth -/

theorem op_grows {k : Kit S D} (hk : k.Ok) (rules : List (Rule S)) (m : UpdateMeta) (o : Op D) :
    Grows (At m) rules (o.apply k rules m) := by
  cases o with
  | add f d => exact addRule_grows hk rules f d m
  | update id d => exact updateRule_grows hk rules id d m
  | delete id => exact deleteRule_grows hk rules id m
  | deleteAll => exact deleteAll_grows hk rules m
  | other => exact Grows.refl _ _

theorem run_grows (T : Int) : ∀ (es : List (Edit × UpdateMeta)) (rs : RuleSet), (∀ e ∈ es, T ≤ e.2.cutoverNanos) →
    Grows (fun s => T ≤ Snap.cutover s) rs.mappingRules (rs.run es).mappingRules ∧
    Grows (fun s => T ≤ Snap.cutover s) rs.rollupRules (rs.run es).rollupRules
  | [], rs, _ => ⟨Grows.refl _ _, Grows.refl _ _⟩
  | (e, m) :: es, rs, h => by
    have hm : T ≤ m.cutoverNanos := h (e, m) (by simp)
    obtain ⟨i1, i2⟩ := run_grows T es (rs.edit m e).1 (fun e' he' => h e' (by simp [he']))
    constructor
    · refine Grows.trans ?_ i1
      rw [edit_mapping]
      exact (op_grows mappingKit_ok _ m _).mono fun s hs => by rw [hs]; exact hm
    · refine Grows.trans ?_ i2
      rw [edit_rollup]
      exact (op_grows rollupKit_ok _ m _).mono fun s hs => by rw [hs]; exact hm

/-! ### Identifiers -/

def Op.newIDs : Op D → List Bytes
  | .add f _ => [f]
  | _ => []

omit [Snap S] in
theorem Extends.uuids {P : S → Prop} {l l' : List (Rule S)} (h : All2 (Extends P) l l') : l'.map (·.uuid) = l.map (·.uuid) := by
  induction h with
  | nil => rfl
  | cons h _ ih => simp [h.1, ih]

omit [Snap S] in
theorem set_uuids {P : S → Prop} {l : List (Rule S)} {i : Nat} {r r' : Rule S} (hi : l[i]? = some r) (h : Extends P r r') :
    (l.set i r').map (·.uuid) = l.map (·.uuid) := by
  rw [List.map_set]
  apply List.ext_getElem?
  intro j
  rw [List.getElem?_set]
  split
  · rename_i hij
    subst hij
    split
    · simp [hi, h.1]
    · rename_i hl
      simp only [List.length_map] at hl
      simp [List.getElem?_eq_none (Nat.le_of_not_lt hl)] at hi
  · rfl

theorem op_ids {k : Kit S D} (hk : k.Ok) (rules : List (Rule S)) (m : UpdateMeta) (o : Op D) :
    ∃ l, l.Sublist o.newIDs ∧ (o.apply k rules m).map (·.uuid) = rules.map (·.uuid) ++ l := by
  have same : ∀ {new : List (Rule S)} (_ : new.map (·.uuid) = rules.map (·.uuid)) (n : List Bytes),
      ∃ l, l.Sublist n ∧ new.map (·.uuid) = rules.map (·.uuid) ++ l := fun h n => ⟨[], List.nil_sublist _, by simpa using h⟩
  cases o with
  | add f d =>
    simp only [Op.apply, addRule]
    split
    · exact same rfl _
    · split
      · obtain ⟨hu, _⟩ := add_extends hk { uuid := f, snapshots := [] } d m
        exact ⟨[f], List.Sublist.refl _, by simp [hu]⟩
      · exact same rfl _
    · split
      · exact same rfl _
      · rename_i r hi
        exact same (set_uuids hi (revive_extends hk r d m)) _
  | update id d =>
    simp only [Op.apply, updateRule]
    split
    · exact same rfl _
    · split
      · exact same rfl _
      · rename_i r hi
        exact same (set_uuids hi (add_extends hk r d m)) _
  | delete id =>
    simp only [Op.apply, deleteRule]
    split
    · exact same rfl _
    · split
      · exact same rfl _
      · rename_i r hi
        exact same (set_uuids hi (tombstone_extends hk r m)) _
  | deleteAll =>
    obtain ⟨kept, added, h1, h2, _⟩ := deleteAll_grows hk rules m
    refine same ?_ _
    simp only [Op.apply, RuleSet.deleteAll, List.map_map]
    apply List.map_congr_left
    intro r _
    simp only [Function.comp]
    split
    · exact (tombstone_extends hk r m).1
    · rfl
  | other => exact same rfl _

/-! ### Failed edits -/

omit [Snap S] in
theorem set_self {α : Type} {l : List α} {i : Nat} {a : α} (h : l[i]? = some a) : l.set i a = l := by
  obtain ⟨hl, rfl⟩ := List.getElem?_eq_some_iff.mp h
  exact List.set_getElem_self hl


theorem addRule_fail {k : Kit S D} (hk : k.Ok) {rules : List (Rule S)} {f : Bytes} {d : D} {m : UpdateMeta}
    (h : (addRule k rules f d m).2 = none) : (addRule k rules f d m).1 = rules := by
  unfold addRule at h ⊢
  split
  · rfl
  · rename_i hg
    simp only [hg] at h ⊢
    split
    · rename_i ht; simp [ht] at h
    · rfl
  · rename_i i hg
    simp only [hg] at h ⊢
    split
    · rfl
    · rename_i r hi
      simp only [hi] at h
      have hf : (revive k.add r d m).2 = false := by
        cases hb : (revive k.add r d m).2 with
        | false => rfl
        | true => simp [hb] at h
      have : (revive k.add r d m).1 = r := by
        unfold revive at hf ⊢
        cases hn : r.name with
        | none => rfl
        | some n =>
          simp only [hn] at hf ⊢
          split
          · rfl
          · rename_i ht
            rw [if_neg ht] at hf
            rcases hk.add r d m with ⟨s, e, _⟩ | e
            · rw [e] at hf; cases hf
            · rw [e]
      simp only [this]
      exact set_self hi

theorem updateRule_fail {k : Kit S D} (hk : k.Ok) {rules : List (Rule S)} {id : Bytes} {d : D} {m : UpdateMeta}
    (h : (updateRule k rules id d m).2 = false) : (updateRule k rules id d m).1 = rules := by
  unfold updateRule at h ⊢
  split
  · rfl
  · rename_i i hg
    simp only [hg] at h ⊢
    split
    · rfl
    · rename_i r hi
      simp only [hi] at h
      rcases hk.add r d m with ⟨s, e, _⟩ | e
      · rw [e] at h; cases h
      · simp only [e]; exact set_self hi

theorem markTombstoned_fail {k : Kit S D} {r : Rule S} {m : UpdateMeta} (h : (markTombstoned k.tomb r m).2 = false) :
    (markTombstoned k.tomb r m).1 = r := by
  unfold markTombstoned at h ⊢
  cases hn : r.name with
  | none => rfl
  | some n =>
    simp only [hn] at h ⊢
    split
    · rfl
    · rename_i ht
      rw [if_neg ht] at h
      cases hl : r.snapshots.getLast? with
      | none => rfl
      | some s => simp [hl] at h

theorem deleteRule_fail {k : Kit S D} {rules : List (Rule S)} {id : Bytes} {m : UpdateMeta}
    (h : (deleteRule k rules id m).2 = false) : (deleteRule k rules id m).1 = rules := by
  unfold deleteRule at h ⊢
  split
  · rfl
  · rename_i i hg
    simp only [hg] at h ⊢
    split
    · rfl
    · rename_i r hi
      simp only [hi] at h
      simp only [markTombstoned_fail h]
      exact set_self hi

/-! ### Deleted rules stay as they are -/

theorem add_name {k : Kit S D} (hk : k.Ok) (r : Rule S) (d : D) (m : UpdateMeta) (h : (k.add r d m).2 = true) :
    (k.add r d m).1.name = some (k.nameOf d) ∧ (k.add r d m).1.tombstoned = false := by
  rcases hk.add r d m with ⟨s, e, _, ht, hn⟩ | e
  · rw [e]
    simp [Rule.name, Rule.tombstoned, hn, ht]
  · rw [e] at h; cases h

theorem markTombstoned_ok {k : Kit S D} {r : Rule S} {m : UpdateMeta} (h : (markTombstoned k.tomb r m).2 = true) :
    ∃ s, r.snapshots.getLast? = some s ∧ Snap.tombstoned s = false ∧
      (markTombstoned k.tomb r m).1 = { r with snapshots := r.snapshots ++ [k.tomb s m] } := by
  unfold markTombstoned at h ⊢
  unfold Rule.name Rule.tombstoned at h ⊢
  cases hl : r.snapshots.getLast? with
  | none => simp [hl] at h
  | some s =>
    simp only [hl, Option.map_some] at h ⊢
    cases ht : Snap.tombstoned s with
    | true => simp [ht] at h
    | false => exact ⟨s, rfl, ht, by simp⟩

/-- An edit that neither updates the rule nor adds one under its name. -/
def Op.Avoids (k : Kit S D) (id name : Bytes) : Op D → Prop
  | .add _ d => k.nameOf d ≠ name
  | .update id' _ => id' ≠ id
  | _ => True

theorem op_keeps_deleted {k : Kit S D} (rules : List (Rule S)) (m : UpdateMeta) (o : Op D) (i : Nat)
    (r : Rule S) (hi : rules[i]? = some r) (ht : r.tombstoned = true) (n : Bytes) (hn : r.name = some n)
    (ha : o.Avoids k r.uuid n) : (o.apply k rules m)[i]? = some r := by
  have hlt : i < rules.length := by
    rcases Nat.lt_or_ge i rules.length with h | h
    · exact h
    · rw [List.getElem?_eq_none h] at hi; cases hi
  have other : ∀ j r', j ≠ i → (rules.set j r')[i]? = some r := by
    intro j r' hj
    rw [List.getElem?_set_ne hj]
    exact hi
  have selfset : (rules.set i r)[i]? = some r := by rw [List.getElem?_set_self hlt]
  have hmark : (markTombstoned k.tomb r m).1 = r := by
    unfold markTombstoned
    rw [hn]
    simp [ht]
  cases o with
  | add f d =>
    simp only [Op.apply, addRule]
    split
    · exact hi
    · split
      · rw [List.getElem?_append_left hlt]; exact hi
      · exact hi
    · rename_i j hg
      obtain ⟨r', hj, hjn⟩ := getRuleByName_some hg
      simp only [hj]
      apply other
      rintro rfl
      rw [hi] at hj
      cases hj
      rw [hn] at hjn
      cases hjn
      exact ha rfl
  | update id d =>
    simp only [Op.apply, updateRule]
    split
    · exact hi
    · rename_i j hg
      obtain ⟨r', hj, hjn⟩ := getRuleByID_some hg
      simp only [hj]
      apply other
      rintro rfl
      rw [hi] at hj
      cases hj
      exact ha hjn.symm
  | delete id =>
    simp only [Op.apply, deleteRule]
    split
    · exact hi
    · rename_i j hg
      obtain ⟨r', hj, hjn⟩ := getRuleByID_some hg
      simp only [hj]
      by_cases hij : j = i
      · subst hij
        rw [hi] at hj
        cases hj
        rw [hmark]
        exact selfset
      · exact other _ _ hij
  | deleteAll =>
    simp only [Op.apply, RuleSet.deleteAll, List.getElem?_map, hi, Option.map_some, ht]
    rfl
  | other => exact hi

/-! ### Names -/

/-- No two rules have the same name. -/
def NamesDistinct (rules : List (Rule S)) : Prop :=
  rules.Pairwise fun a b => ∀ n, a.name = some n → b.name ≠ some n

omit [Snap S] in
theorem pairwise_set {α : Type} {R : α → α → Prop} (symm : ∀ a b, R a b → R b a) : ∀ (l : List α) (i : Nat) (x : α),
    l.Pairwise R → (∀ j y, l[j]? = some y → j ≠ i → R x y) → (l.set i x).Pairwise R
  | [], _, _, _, _ => by simp
  | a :: l, 0, x, h, hx => by
    rw [List.set_cons_zero, List.pairwise_cons]
    refine ⟨?_, (List.pairwise_cons.mp h).2⟩
    intro y hy
    obtain ⟨j, hj⟩ := List.getElem?_of_mem hy
    exact hx (j + 1) y hj (by omega)
  | a :: l, i + 1, x, h, hx => by
    rw [List.set_cons_succ, List.pairwise_cons]
    obtain ⟨h1, h2⟩ := List.pairwise_cons.mp h
    refine ⟨?_, pairwise_set symm l i x h2 fun j y hj hne => hx (j + 1) y hj (by omega)⟩
    intro y hy
    rcases List.mem_or_eq_of_mem_set hy with hy | rfl
    · exact h1 y hy
    · exact symm _ _ (hx 0 a rfl (by omega))

theorem names_symm : ∀ a b : Rule S, (∀ n, a.name = some n → b.name ≠ some n) → (∀ n, b.name = some n → a.name ≠ some n) :=
  fun _ _ h n hb ha => h n ha hb

theorem namesDistinct_set {rules : List (Rule S)} (h : NamesDistinct rules) {i : Nat} {r r' : Rule S} (hi : rules[i]? = some r)
    (hn : r'.name = r.name) : NamesDistinct (rules.set i r') := by
  apply pairwise_set names_symm rules i r' h
  intro j y hj hne n hn'
  rw [hn] at hn'
  obtain ⟨hl, rfl⟩ := List.getElem?_eq_some_iff.mp hj
  obtain ⟨hl', rfl⟩ := List.getElem?_eq_some_iff.mp hi
  unfold NamesDistinct at h
  rw [List.pairwise_iff_getElem] at h
  rcases Nat.lt_or_gt_of_ne hne with hlt | hlt
  · exact fun hy => h j i _ _ hlt n hy hn'
  · exact h i j _ _ hlt n hn'

/-- The edit is not an update that gives a rule the name another rule has, deleted or not. -/
def Op.Careful (k : Kit S D) (rules : List (Rule S)) : Op D → Prop
  | .update id d => ∀ r ∈ rules, r.uuid ≠ id → r.name ≠ some (k.nameOf d)
  | _ => True

theorem mark_name {k : Kit S D} (hk : k.Ok) (r : Rule S) (m : UpdateMeta) : (markTombstoned k.tomb r m).1.name = r.name := by
  cases hb : (markTombstoned k.tomb r m).2 with
  | false => rw [markTombstoned_fail hb]
  | true =>
    obtain ⟨s, h1, _, h3⟩ := markTombstoned_ok hb
    rw [h3]
    simp [Rule.name, h1, (hk.tomb s m).2.2]

theorem op_names {k : Kit S D} (hk : k.Ok) (rules : List (Rule S)) (hu : (rules.map (·.uuid)).Nodup) (h : NamesDistinct rules)
    (m : UpdateMeta) (o : Op D) (hc : o.Careful k rules) : NamesDistinct (o.apply k rules m) := by
  cases o with
  | add f d =>
    simp only [Op.apply, addRule]
    split
    · exact h
    · rename_i hg
      split
      · rename_i hok
        unfold NamesDistinct
        rw [List.pairwise_append]
        refine ⟨h, by simp, ?_⟩
        intro a ha b hb n hn
        rw [List.mem_singleton] at hb
        subst hb
        rw [(add_name hk _ d m hok).1]
        rintro he
        cases he
        exact getRuleByName_none hg a ha hn
      · exact h
    · rename_i i hg
      obtain ⟨r, hi, hn⟩ := getRuleByName_some hg
      simp only [hi]
      apply namesDistinct_set h hi
      unfold revive
      rw [hn]
      simp only
      split
      · exact hn
      · cases hb : (k.add r d m).2 with
        | true => exact (add_name hk r d m hb).1
        | false =>
          rcases hk.add r d m with ⟨s, e, _⟩ | e
          · rw [e] at hb; cases hb
          · rw [e]; exact hn
  | update id d =>
    simp only [Op.apply, updateRule]
    split
    · exact h
    · rename_i i hg
      obtain ⟨r, hi, hid⟩ := getRuleByID_some hg
      simp only [hi]
      cases hb : (k.add r d m).2 with
      | false =>
        rcases hk.add r d m with ⟨s, e, _⟩ | e
        · rw [e] at hb; cases hb
        · rw [e]; exact namesDistinct_set h hi rfl
      | true =>
        apply pairwise_set names_symm rules i _ h
        intro j y hj hne n hn
        rw [(add_name hk r d m hb).1] at hn
        cases hn
        apply hc y (List.mem_of_getElem? hj)
        intro hy
        obtain ⟨hl, rfl⟩ := List.getElem?_eq_some_iff.mp hj
        obtain ⟨hl', rfl⟩ := List.getElem?_eq_some_iff.mp hi
        unfold List.Nodup at hu
        rw [List.pairwise_map, List.pairwise_iff_getElem] at hu
        rcases Nat.lt_or_gt_of_ne hne with hlt | hlt
        · exact hu j i _ _ hlt (hy.trans hid.symm)
        · exact hu i j _ _ hlt (hid.trans hy.symm)
  | delete id =>
    simp only [Op.apply, deleteRule]
    split
    · exact h
    · rename_i i hg
      obtain ⟨r, hi, hid⟩ := getRuleByID_some hg
      simp only [hi]
      exact namesDistinct_set h hi (mark_name hk r m)
  | deleteAll =>
    simp only [Op.apply, RuleSet.deleteAll]
    unfold NamesDistinct
    rw [List.pairwise_map]
    have e : ∀ r : Rule S, (if (!r.tombstoned) = true then (markTombstoned k.tomb r m).1 else r).name = r.name := by
      intro r
      split
      · exact mark_name hk r m
      · rfl
    refine List.Pairwise.imp ?_ h
    intro a b hab n
    rw [e a, e b]
    exact hab n
  | other => exact h

end Verif.RuleSet
