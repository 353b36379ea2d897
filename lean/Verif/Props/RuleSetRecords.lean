import Verif.Props.RuleSetViews
/-
C72: edits record exactly what was asked for, by whom and from when on, and nothing else.
-/
namespace Verif.RuleSet
open Verif.Agg Verif.Policy Verif.Meta Verif.Rules Verif.Active Verif.Spec.Rules Verif.Flt

/-! ### Specification -/

section Generic
variable {S : Type} [Snap S] {D : Type}

/-- One snapshot is added to one rule, which is new at the end if it has no snapshots before, and all else is as before. -/
def Appended (rules rules' : List (Rule S)) (i : Nat) (id : Bytes) (old : List S) (s : S) : Prop :=
  rules'[i]? = some ⟨id, old ++ [s]⟩ ∧ (∀ j, j ≠ i → rules'[j]? = rules[j]?) ∧
  (rules[i]? = some ⟨id, old⟩ ∨ (i = rules.length ∧ old = []))

end Generic

/-- The rule set bears the time, author and cutover of the edit and is otherwise the same, rules and deletion apart. -/
def Stamped (rs rs' : RuleSet) (m : UpdateMeta) : Prop :=
  rs'.cutoverNanos = m.cutoverNanos ∧ rs'.lastUpdatedAtNanos = m.updatedAtNanos ∧ rs'.lastUpdatedBy = m.updatedBy ∧
  rs'.uuid = rs.uuid ∧ rs'.version = rs.version ∧ rs'.namespace_ = rs.namespace_ ∧ rs'.createdAtNanos = rs.createdAtNanos

/-- What a mapping rule is to show after it was given the data. -/
def shownM (id : Bytes) (d : MappingData) (m : UpdateMeta) : MappingView :=
  { id := id, name := d.name, tombstoned := false, cutoverMillis := m.cutoverNanos.tdiv 1000000, filter := d.filter,
    aggID := d.aggID, storagePolicies := d.storagePolicies, drop := d.drop, lastUpdatedBy := m.updatedBy,
    lastUpdatedAtMillis := m.updatedAtNanos.tdiv 1000000 }

/-- What a deleted mapping rule is to show: its name and filter, and no policies. -/
def shownDeletedM (id : Bytes) (last : MappingSnapshot) (m : UpdateMeta) : MappingView :=
  { id := id, name := last.name, tombstoned := true, cutoverMillis := m.cutoverNanos.tdiv 1000000, filter := last.rawFilter,
    aggID := 0, storagePolicies := [], drop := 0, lastUpdatedBy := m.updatedBy,
    lastUpdatedAtMillis := m.updatedAtNanos.tdiv 1000000 }

/-- What a rollup rule is to show after it was given the data: all of it, of each pipeline step the part that its type
selects. -/
def shownR (id : Bytes) (d : RollupData) (m : UpdateMeta) : RollupView :=
  { id := id, name := d.name, tombstoned := false, cutoverMillis := m.cutoverNanos.tdiv 1000000, filter := d.filter,
    targets := d.targets.map fun t => ⟨t.pipeline.map payload, t.storagePolicies⟩, lastUpdatedBy := m.updatedBy, lastUpdatedAtMillis := m.updatedAtNanos.tdiv 1000000 }

/-- What a deleted rollup rule is to show: its name and filter, and no targets. -/
def shownDeletedR (id : Bytes) (last : RollupSnapshot) (m : UpdateMeta) : RollupView :=
  { id := id, name := last.name, tombstoned := true, cutoverMillis := m.cutoverNanos.tdiv 1000000, filter := last.rawFilter,
    targets := [], lastUpdatedBy := m.updatedBy, lastUpdatedAtMillis := m.updatedAtNanos.tdiv 1000000 }

/-! ### Generic part -/

section Generic
variable {S : Type} [Snap S] {D : Type}

/-- How a kind of rule records data. -/
structure Kit.Records (k : Kit S D) (valid : D → Bool) (snap : D → UpdateMeta → S) : Prop where
  add : ∀ r d m, k.add r d m = if valid d then ({ r with snapshots := r.snapshots ++ [snap d m] }, true) else (r, false)

theorem appended_set {rules : List (Rule S)} {i : Nat} {r : Rule S} (hi : rules[i]? = some r) (s : S) :
    Appended rules (rules.set i { r with snapshots := r.snapshots ++ [s] }) i r.uuid r.snapshots s := by
  have hlt := (List.getElem?_eq_some_iff.mp hi).1
  refine ⟨by simp [hlt], fun j hj => by rw [List.getElem?_set_ne (Ne.symm hj)], Or.inl hi⟩

/-- A successful addition. -/
theorem addRule_records {k : Kit S D} {valid : D → Bool} {snap : D → UpdateMeta → S} (hk : k.Records valid snap)
    {rules : List (Rule S)} {f : Bytes} {d : D} {m : UpdateMeta} {id : Bytes} (h : (addRule k rules f d m).2 = some id) :
    valid d = true ∧ ∃ i old, Appended rules (addRule k rules f d m).1 i id old (snap d m) ∧
      ((i = rules.length ∧ id = f ∧ old = [] ∧ ∀ r ∈ rules, r.name ≠ some (k.nameOf d)) ∨
       (∃ r, rules[i]? = some r ∧ r.name = some (k.nameOf d) ∧ r.tombstoned = true)) := by
  unfold addRule at h ⊢
  cases hg : getRuleByName k.strict (k.nameOf d) rules with
  | none => simp [hg] at h
  | some o =>
    cases o with
    | none =>
      simp only [hg, hk.add] at h ⊢
      cases hv : valid d with
      | false => simp [hv] at h
      | true =>
        simp only [hv, if_true, Option.some.injEq] at h ⊢
        subst h
        refine ⟨by trivial, rules.length, [], ⟨by simp, fun j hj => ?_, Or.inr ⟨rfl, rfl⟩⟩,
          Or.inl ⟨rfl, rfl, rfl, getRuleByName_none hg⟩⟩
        by_cases hlt : j < rules.length
        · rw [List.getElem?_append_left hlt]
        · rw [List.getElem?_eq_none (by simp; omega), List.getElem?_eq_none (by omega)]
    | some i =>
      obtain ⟨r, hr, hn⟩ := getRuleByName_some hg
      simp only [hg, hr, revive, hn] at h ⊢
      cases ht : r.tombstoned with
      | false => simp [ht] at h
      | true =>
        simp only [ht, Bool.not_true, Bool.false_eq_true, if_false, hk.add] at h ⊢
        cases hv : valid d with
        | false => simp [hv] at h
        | true =>
          simp only [hv, if_true, Option.some.injEq] at h ⊢
          subst h
          exact ⟨by trivial, i, r.snapshots, appended_set hr _, Or.inr ⟨r, hr, hn, ht⟩⟩

/-- A successful update. -/
theorem updateRule_records {k : Kit S D} {valid : D → Bool} {snap : D → UpdateMeta → S} (hk : k.Records valid snap)
    {rules : List (Rule S)} {id : Bytes} {d : D} {m : UpdateMeta} (h : (updateRule k rules id d m).2 = true) :
    valid d = true ∧ ∃ i old, rules[i]? = some ⟨id, old⟩ ∧ Appended rules (updateRule k rules id d m).1 i id old (snap d m) := by
  unfold updateRule at h ⊢
  cases hg : getRuleByID id rules with
  | none => simp [hg] at h
  | some i =>
    obtain ⟨r, hr, rfl⟩ := getRuleByID_some hg
    simp only [hg, hr, hk.add] at h ⊢
    cases hv : valid d with
    | false => simp [hv] at h
    | true =>
      simp only [if_true] at h ⊢
      exact ⟨by trivial, i, r.snapshots, hr, appended_set hr _⟩

/-- An update succeeds exactly if the data are acceptable and there is a rule of that identifier. -/
theorem updateRule_succeeds {k : Kit S D} {valid : D → Bool} {snap : D → UpdateMeta → S} (hk : k.Records valid snap)
    (rules : List (Rule S)) (id : Bytes) (d : D) (m : UpdateMeta) :
    (updateRule k rules id d m).2 = true ↔ valid d = true ∧ ∃ r ∈ rules, r.uuid = id := by
  unfold updateRule
  cases hg : getRuleByID id rules with
  | none =>
    have := getRuleByID_none.mp hg
    simp only [Bool.false_eq_true, false_iff]
    rintro ⟨_, r, hr, e⟩
    exact this r hr e
  | some i =>
    obtain ⟨r, hr, e⟩ := getRuleByID_some hg
    simp only [hr, hk.add]
    have hex : ∃ r ∈ rules, r.uuid = id := ⟨r, List.mem_of_getElem? hr, e⟩
    cases hv : valid d <;> simp [hex]

/-- A successful deletion. -/
theorem deleteRule_records {k : Kit S D} {rules : List (Rule S)} {id : Bytes} {m : UpdateMeta}
    (h : (deleteRule k rules id m).2 = true) :
    ∃ i old last, rules[i]? = some ⟨id, old⟩ ∧ old.getLast? = some last ∧ Snap.tombstoned last = false ∧
      Appended rules (deleteRule k rules id m).1 i id old (k.tomb last m) := by
  unfold deleteRule at h ⊢
  cases hg : getRuleByID id rules with
  | none => simp [hg] at h
  | some i =>
    obtain ⟨r, hr, rfl⟩ := getRuleByID_some hg
    simp only [hg, hr] at h ⊢
    unfold markTombstoned at h ⊢
    cases hn : r.name with
    | none => simp [hn] at h
    | some n =>
      simp only [hn] at h ⊢
      cases ht : r.tombstoned with
      | true => simp [ht] at h
      | false =>
        simp only [ht, Bool.false_eq_true, if_false] at h ⊢
        cases hl : r.snapshots.getLast? with
        | none => simp [hl] at h
        | some last =>
          simp only
          refine ⟨i, r.snapshots, last, hr, hl, ?_, appended_set hr _⟩
          unfold Rule.tombstoned at ht
          rw [hl] at ht
          exact ht

/-- Looking up a name passes over rules without snapshots, or fails on them (`strict`). -/
theorem getRuleByName_eq (strict : Bool) (n : Bytes) : ∀ rules : List (Rule S),
    (getRuleByName strict n rules = none ↔ strict = true ∧ ∃ pre r post, rules = pre ++ r :: post ∧ r.name = none ∧
      ∀ q ∈ pre, q.name ≠ some n)
  | [] => by simp [getRuleByName]
  | r :: rs => by
    have ih := getRuleByName_eq strict n rs
    have hmap : (getRuleByName strict n rs).map (Option.map (· + 1)) = none ↔ getRuleByName strict n rs = none := by simp
    rw [getRuleByName]
    cases hn : r.name with
    | none =>
      simp only
      cases strict with
      | true =>
        simp only [if_true, true_and, true_iff]
        exact ⟨[], r, rs, rfl, hn, by simp⟩
      | false =>
        simp only [Bool.false_eq_true, if_false, false_and, iff_false]
        rw [hmap, ih]; simp
    | some n' =>
      simp only
      by_cases he : n' = n
      · rw [if_pos he]
        simp only [reduceCtorEq, false_iff]
        rintro ⟨_, pre, q, post, e, hq, hpre⟩
        cases pre with
        | nil =>
          simp only [List.nil_append, List.cons.injEq] at e
          rw [← e.1, hn] at hq; simp at hq
        | cons p pre =>
          simp only [List.cons_append, List.cons.injEq] at e
          exact hpre p (by simp) (by rw [← e.1, hn, he])
      · rw [if_neg he, hmap, ih]
        refine and_congr_right fun _ => ⟨?_, ?_⟩
        · rintro ⟨pre, q, post, rfl, hq, hpre⟩
          refine ⟨r :: pre, q, post, rfl, hq, ?_⟩
          intro x hx
          rcases List.mem_cons.mp hx with rfl | hx
          · rw [hn]; simpa using he
          · exact hpre x hx
        · rintro ⟨pre, q, post, e, hq, hpre⟩
          cases pre with
          | nil =>
            simp only [List.nil_append, List.cons.injEq] at e
            rw [← e.1, hn] at hq; simp at hq
          | cons p pre =>
            simp only [List.cons_append, List.cons.injEq] at e
            exact ⟨pre, q, post, e.2, hq, fun x hx => hpre x (by simp [hx])⟩

/-- What is found is the first rule of that name. -/
theorem getRuleByName_least {strict : Bool} {n : Bytes} : ∀ {rules : List (Rule S)} {i : Nat},
    getRuleByName strict n rules = some (some i) → ∀ j < i, ∀ r, rules[j]? = some r → r.name ≠ some n
  | [], i, h => by simp [getRuleByName] at h
  | r :: rs, i, h => by
    have step : (getRuleByName strict n rs).map (Option.map (· + 1)) = some (some i) → r.name ≠ some n →
        ∀ j < i, ∀ q, (r :: rs)[j]? = some q → q.name ≠ some n := by
      intro hm hne j hj q hq
      rcases hg : getRuleByName strict n rs with _ | _ | i'
      · simp [hg] at hm
      · simp [hg] at hm
      · simp only [hg, Option.map_some, Option.some.injEq] at hm
        cases j with
        | zero => simp at hq; rw [← hq]; exact hne
        | succ j => exact getRuleByName_least hg j (by omega) q (by simpa using hq)
    rw [getRuleByName] at h
    cases hn : r.name with
    | none =>
      simp only [hn] at h
      cases strict with
      | true => simp at h
      | false => exact step (by simpa using h) (by rw [hn]; simp)
    | some n' =>
      simp only [hn] at h
      by_cases he : n' = n
      · rw [if_pos he] at h
        simp only [Option.some.injEq] at h
        intro j hj; omega
      · rw [if_neg he] at h
        exact step h (by rw [hn]; simpa using he)

/-- An addition succeeds exactly if the data are acceptable, the lookup by name does not fail, and the first rule of the
name, if any, is deleted. -/
theorem addRule_succeeds {k : Kit S D} {valid : D → Bool} {snap : D → UpdateMeta → S} (hk : k.Records valid snap)
    (rules : List (Rule S)) (f : Bytes) (d : D) (m : UpdateMeta) :
    (addRule k rules f d m).2.isSome = true ↔ valid d = true ∧
      (k.strict = true → ∀ pre r post, rules = pre ++ r :: post → (∀ q ∈ pre, q.name ≠ some (k.nameOf d)) → r.name ≠ none) ∧
      ∀ (i : Nat) (r : Rule S), rules[i]? = some r → r.name = some (k.nameOf d) →
        (∀ j < i, ∀ q : Rule S, rules[j]? = some q → q.name ≠ some (k.nameOf d)) → r.tombstoned = true := by
  have hnone := getRuleByName_eq k.strict (k.nameOf d) rules
  unfold addRule
  cases hg : getRuleByName k.strict (k.nameOf d) rules with
  | none =>
    obtain ⟨hs, pre, r, post, e, hr, hpre⟩ := hnone.mp hg
    simp only [Option.isSome_none, Bool.false_eq_true, false_iff]
    rintro ⟨_, h2, _⟩
    exact h2 hs pre r post e hpre hr
  | some o =>
    have hstrict : k.strict = true → ∀ pre r post, rules = pre ++ r :: post → (∀ q ∈ pre, q.name ≠ some (k.nameOf d)) → r.name ≠ none := by
      intro hs pre r post e hpre hr
      have := hnone.mpr ⟨hs, pre, r, post, e, hr, hpre⟩
      rw [hg] at this; simp at this
    cases o with
    | none =>
      have hno := getRuleByName_none hg
      simp only [hk.add]
      cases hv : valid d with
      | false => simp
      | true =>
        simp only [if_true, Option.isSome_some, true_iff]
        exact ⟨by trivial, hstrict, fun i r hi hn _ => absurd hn (hno r (List.mem_of_getElem? hi))⟩
    | some i =>
      obtain ⟨r, hr, hn⟩ := getRuleByName_some hg
      have hleast := getRuleByName_least hg
      simp only [hr, revive, hn]
      have huniq : (∀ (i : Nat) (r : Rule S), rules[i]? = some r → r.name = some (k.nameOf d) →
          (∀ j < i, ∀ q : Rule S, rules[j]? = some q → q.name ≠ some (k.nameOf d)) → r.tombstoned = true) ↔ r.tombstoned = true := by
        constructor
        · intro h; exact h i r hr hn hleast
        · intro ht i' r' hi' hn' hl'
          have : i' = i := by
            rcases Nat.lt_trichotomy i' i with hlt | heq | hgt
            · exact absurd hn' (hleast i' hlt r' hi')
            · exact heq
            · exact absurd hn (hl' i hgt r hr)
          subst this
          rw [hr] at hi'
          simp only [Option.some.injEq] at hi'
          rw [← hi']; exact ht
      rw [huniq]
      cases ht : r.tombstoned with
      | false => simp
      | true =>
        simp only [Bool.not_true, Bool.false_eq_true, if_false, hk.add]
        cases hv : valid d with
        | false => simp
        | true => simpa using hstrict

end Generic

theorem mapping_records : mappingKit.Records (fun d => filterValid d.filter) mappingSnapshotOf :=
  ⟨fun _ _ _ => rfl⟩

theorem rollup_records : rollupKit.Records (fun d => filterValid d.filter) rollupSnapshotOf :=
  ⟨fun _ _ _ => rfl⟩

theorem stamped_updateMetadata (rs : RuleSet) (ms : List MappingRule) (rr : List RollupRule) (t : Bool) (m : UpdateMeta) :
    Stamped rs (RuleSet.updateMetadata { rs with mappingRules := ms, rollupRules := rr, tombstoned := t } m) m :=
  ⟨rfl, rfl, rfl, rfl, rfl, rfl, rfl⟩

/-! ### The property -/

/-- C72, adding a mapping rule: when it succeeds, exactly one rule has one more snapshot, which shows what was given; the
rule is a new one or the deleted one of that name; the rule set bears time and author; nothing else changes. -/
theorem C72_add_mapping (rs : RuleSet) (f : Bytes) (d : MappingData) (m : UpdateMeta) {id : Bytes}
    (h : (rs.addMappingRule f d m).2 = some id) :
    ∃ i old s, Appended rs.mappingRules (rs.addMappingRule f d m).1.mappingRules i id old s ∧ mappingSnapView id s = shownM id d m ∧
      s.cutoverNanos = m.cutoverNanos ∧
      ((id = f ∧ old = [] ∧ ∀ r ∈ rs.mappingRules, r.name ≠ some d.name) ∨
       (∃ r, rs.mappingRules[i]? = some r ∧ r.name = some d.name ∧ r.tombstoned = true)) ∧
      Stamped rs (rs.addMappingRule f d m).1 m ∧ (rs.addMappingRule f d m).1.rollupRules = rs.rollupRules ∧
      (rs.addMappingRule f d m).1.tombstoned = rs.tombstoned := by
  have h' : (addRule mappingKit rs.mappingRules f d m).2 = some id := h
  obtain ⟨_, i, old, ha, hc⟩ := addRule_records mapping_records h'
  have e : (rs.addMappingRule f d m).1 = RuleSet.updateMetadata { rs with mappingRules := (addRule mappingKit rs.mappingRules f d m).1 } m := by
    simp only [RuleSet.addMappingRule, h', Option.isSome_some, if_true]
  rw [e]
  refine ⟨i, old, _, ha, rfl, rfl, ?_, stamped_updateMetadata rs _ _ _ m, rfl, rfl⟩
  rcases hc with ⟨_, h1, h2, h3⟩ | hc
  · exact Or.inl ⟨h1, h2, h3⟩
  · exact Or.inr hc

/-- C72, updating a mapping rule. -/
theorem C72_update_mapping (rs : RuleSet) (id : Bytes) (d : MappingData) (m : UpdateMeta)
    (h : (rs.updateMappingRule id d m).2 = true) :
    ∃ i old s, rs.mappingRules[i]? = some ⟨id, old⟩ ∧ Appended rs.mappingRules (rs.updateMappingRule id d m).1.mappingRules i id old s ∧
      mappingSnapView id s = shownM id d m ∧ s.cutoverNanos = m.cutoverNanos ∧ Stamped rs (rs.updateMappingRule id d m).1 m ∧
      (rs.updateMappingRule id d m).1.rollupRules = rs.rollupRules ∧ (rs.updateMappingRule id d m).1.tombstoned = rs.tombstoned := by
  have h' : (updateRule mappingKit rs.mappingRules id d m).2 = true := h
  obtain ⟨_, i, old, hi, ha⟩ := updateRule_records mapping_records h'
  have e : (rs.updateMappingRule id d m).1 = RuleSet.updateMetadata { rs with mappingRules := (updateRule mappingKit rs.mappingRules id d m).1 } m := by
    simp only [RuleSet.updateMappingRule, h', if_true]
  rw [e]
  exact ⟨i, old, _, hi, ha, rfl, rfl, stamped_updateMetadata rs _ _ _ m, rfl, rfl⟩

/-- C72, deleting a mapping rule: its name and filter stay on record, its policies do not. -/
theorem C72_delete_mapping (rs : RuleSet) (id : Bytes) (m : UpdateMeta) (h : (rs.deleteMappingRule id m).2 = true) :
    ∃ i old last s, rs.mappingRules[i]? = some ⟨id, old⟩ ∧ old.getLast? = some last ∧ last.tombstoned = false ∧
      Appended rs.mappingRules (rs.deleteMappingRule id m).1.mappingRules i id old s ∧
      mappingSnapView id s = shownDeletedM id last m ∧ s.cutoverNanos = m.cutoverNanos ∧ Stamped rs (rs.deleteMappingRule id m).1 m ∧
      (rs.deleteMappingRule id m).1.rollupRules = rs.rollupRules ∧ (rs.deleteMappingRule id m).1.tombstoned = rs.tombstoned := by
  have h' : (deleteRule mappingKit rs.mappingRules id m).2 = true := h
  obtain ⟨i, old, last, hi, hl, ht, ha⟩ := deleteRule_records h'
  have e : (rs.deleteMappingRule id m).1 = RuleSet.updateMetadata { rs with mappingRules := (deleteRule mappingKit rs.mappingRules id m).1 } m := by
    simp only [RuleSet.deleteMappingRule, h', if_true]
  rw [e]
  exact ⟨i, old, last, _, hi, hl, ht, ha, rfl, rfl, stamped_updateMetadata rs _ _ _ m, rfl, rfl⟩

/-- C72, adding a rollup rule. -/
theorem C72_add_rollup (rs : RuleSet) (f : Bytes) (d : RollupData) (m : UpdateMeta) {id : Bytes}
    (h : (rs.addRollupRule f d m).2 = some id) :
    ∃ i old s, Appended rs.rollupRules (rs.addRollupRule f d m).1.rollupRules i id old s ∧ rollupSnapView id s = shownR id d m ∧
      s.cutoverNanos = m.cutoverNanos ∧
      ((id = f ∧ old = [] ∧ ∀ r ∈ rs.rollupRules, r.name ≠ some d.name) ∨
       (∃ r, rs.rollupRules[i]? = some r ∧ r.name = some d.name ∧ r.tombstoned = true)) ∧
      Stamped rs (rs.addRollupRule f d m).1 m ∧ (rs.addRollupRule f d m).1.mappingRules = rs.mappingRules ∧
      (rs.addRollupRule f d m).1.tombstoned = rs.tombstoned := by
  have h' : (addRule rollupKit rs.rollupRules f d m).2 = some id := h
  obtain ⟨_, i, old, ha, hc⟩ := addRule_records rollup_records h'
  have e : (rs.addRollupRule f d m).1 = RuleSet.updateMetadata { rs with rollupRules := (addRule rollupKit rs.rollupRules f d m).1 } m := by
    simp only [RuleSet.addRollupRule, h', Option.isSome_some, if_true]
  rw [e]
  refine ⟨i, old, _, ha, ?_, rfl, ?_, stamped_updateMetadata rs _ _ _ m, rfl, rfl⟩
  · rw [rollupSnapView_eq]; rfl
  rcases hc with ⟨_, h1, h2, h3⟩ | hc
  · exact Or.inl ⟨h1, h2, h3⟩
  · exact Or.inr hc

/-- C72, updating a rollup rule. -/
theorem C72_update_rollup (rs : RuleSet) (id : Bytes) (d : RollupData) (m : UpdateMeta)
    (h : (rs.updateRollupRule id d m).2 = true) :
    ∃ i old s, rs.rollupRules[i]? = some ⟨id, old⟩ ∧ Appended rs.rollupRules (rs.updateRollupRule id d m).1.rollupRules i id old s ∧
      rollupSnapView id s = shownR id d m ∧ s.cutoverNanos = m.cutoverNanos ∧ Stamped rs (rs.updateRollupRule id d m).1 m ∧
      (rs.updateRollupRule id d m).1.mappingRules = rs.mappingRules ∧ (rs.updateRollupRule id d m).1.tombstoned = rs.tombstoned := by
  have h' : (updateRule rollupKit rs.rollupRules id d m).2 = true := h
  obtain ⟨_, i, old, hi, ha⟩ := updateRule_records rollup_records h'
  have e : (rs.updateRollupRule id d m).1 = RuleSet.updateMetadata { rs with rollupRules := (updateRule rollupKit rs.rollupRules id d m).1 } m := by
    simp only [RuleSet.updateRollupRule, h', if_true]
  rw [e]
  refine ⟨i, old, _, hi, ha, ?_, rfl, stamped_updateMetadata rs _ _ _ m, rfl, rfl⟩
  rw [rollupSnapView_eq]; rfl

/-- C72, deleting a rollup rule: its name and filter stay on record, its targets do not. -/
theorem C72_delete_rollup (rs : RuleSet) (id : Bytes) (m : UpdateMeta) (h : (rs.deleteRollupRule id m).2 = true) :
    ∃ i old last s, rs.rollupRules[i]? = some ⟨id, old⟩ ∧ old.getLast? = some last ∧ last.tombstoned = false ∧
      Appended rs.rollupRules (rs.deleteRollupRule id m).1.rollupRules i id old s ∧
      rollupSnapView id s = shownDeletedR id last m ∧ s.cutoverNanos = m.cutoverNanos ∧ Stamped rs (rs.deleteRollupRule id m).1 m ∧
      (rs.deleteRollupRule id m).1.mappingRules = rs.mappingRules ∧ (rs.deleteRollupRule id m).1.tombstoned = rs.tombstoned := by
  have h' : (deleteRule rollupKit rs.rollupRules id m).2 = true := h
  obtain ⟨i, old, last, hi, hl, ht, ha⟩ := deleteRule_records h'
  have e : (rs.deleteRollupRule id m).1 = RuleSet.updateMetadata { rs with rollupRules := (deleteRule rollupKit rs.rollupRules id m).1 } m := by
    simp only [RuleSet.deleteRollupRule, h', if_true]
  rw [e]
  exact ⟨i, old, last, _, hi, hl, ht, ha, rfl, rfl, stamped_updateMetadata rs _ _ _ m, rfl, rfl⟩

/-- C72, which edits of rules are accepted.  A rule can be added exactly if its filter is valid and the first rule of that
name, if there is one, is deleted; a rollup rule also only if the lookup does not come upon a rule without snapshots first.
A rule can be updated exactly if the filter is valid and its identifier is known. -/
theorem C72_accepted (rs : RuleSet) (m : UpdateMeta) :
    (∀ f d, (rs.addMappingRule f d m).2.isSome = true ↔ filterValid d.filter = true ∧
      ∀ (i : Nat) (r : MappingRule), rs.mappingRules[i]? = some r → r.name = some d.name →
        (∀ j < i, ∀ q : MappingRule, rs.mappingRules[j]? = some q → q.name ≠ some d.name) → r.tombstoned = true) ∧
    (∀ f d, (rs.addRollupRule f d m).2.isSome = true ↔ filterValid d.filter = true ∧
      (∀ pre r post, rs.rollupRules = pre ++ r :: post → (∀ q ∈ pre, q.name ≠ some d.name) → r.name ≠ none) ∧
      ∀ (i : Nat) (r : RollupRule), rs.rollupRules[i]? = some r → r.name = some d.name →
        (∀ j < i, ∀ q : RollupRule, rs.rollupRules[j]? = some q → q.name ≠ some d.name) → r.tombstoned = true) ∧
    (∀ id d, (rs.updateMappingRule id d m).2 = true ↔ filterValid d.filter = true ∧ ∃ r ∈ rs.mappingRules, r.uuid = id) ∧
    (∀ id d, (rs.updateRollupRule id d m).2 = true ↔ filterValid d.filter = true ∧ ∃ r ∈ rs.rollupRules, r.uuid = id) := by
  refine ⟨fun f d => ?_, fun f d => ?_, fun id d => ?_, fun id d => ?_⟩
  · have := addRule_succeeds mapping_records rs.mappingRules f d m
    have hs : mappingKit.strict = false := rfl
    simp only [hs, Bool.false_eq_true, false_implies, true_and] at this
    exact this
  · have := addRule_succeeds rollup_records rs.rollupRules f d m
    have hs : rollupKit.strict = true := rfl
    simp only [hs, true_implies] at this
    exact this
  · exact updateRule_succeeds mapping_records rs.mappingRules id d m
  · exact updateRule_succeeds rollup_records rs.rollupRules id d m

/-- C72, deleting a rule set: it succeeds exactly if the rule set is not deleted; all live rules get a deletion on record,
the others stay as they are.  Reviving one succeeds exactly if it is deleted and touches no rule. -/
theorem C72_delete_revive (rs : RuleSet) (m : UpdateMeta) :
    ((rs.delete m).2 = !rs.tombstoned) ∧ ((rs.revive m).2 = rs.tombstoned) ∧
    ((rs.delete m).2 = true → (rs.delete m).1.tombstoned = true ∧ Stamped rs (rs.delete m).1 m ∧
      (∀ i : Nat, (rs.delete m).1.mappingRules[i]? = (rs.mappingRules[i]?).map fun (r : MappingRule) =>
        match r.snapshots.getLast? with
        | none => r
        | some last => if last.tombstoned then r else ⟨r.uuid, r.snapshots ++
            [{ last with tombstoned := true, cutoverNanos := m.cutoverNanos, lastUpdatedAtNanos := m.updatedAtNanos,
                         lastUpdatedBy := m.updatedBy, aggID := 0, storagePolicies := [], drop := 0 }]⟩) ∧
      (∀ i : Nat, (rs.delete m).1.rollupRules[i]? = (rs.rollupRules[i]?).map fun (r : RollupRule) =>
        match r.snapshots.getLast? with
        | none => r
        | some last => if last.tombstoned then r else ⟨r.uuid, r.snapshots ++
            [{ last with tombstoned := true, cutoverNanos := m.cutoverNanos, lastUpdatedAtNanos := m.updatedAtNanos,
                         lastUpdatedBy := m.updatedBy, targets := [] }]⟩)) ∧
    ((rs.revive m).2 = true → (rs.revive m).1.tombstoned = false ∧ Stamped rs (rs.revive m).1 m ∧
      (rs.revive m).1.mappingRules = rs.mappingRules ∧ (rs.revive m).1.rollupRules = rs.rollupRules) := by
  have hall : ∀ {S D : Type} [Snap S] (k : Kit S D) (r : Rule S),
      (if !r.tombstoned then (markTombstoned k.tomb r m).1 else r) = match r.snapshots.getLast? with
        | none => r
        | some last => if Snap.tombstoned last then r else ⟨r.uuid, r.snapshots ++ [k.tomb last m]⟩ := by
    intro S D _ k r
    unfold markTombstoned Rule.tombstoned Rule.name
    cases hl : r.snapshots.getLast? with
    | none => simp
    | some last =>
      cases ht : Snap.tombstoned last <;> simp [ht]
  refine ⟨?_, ?_, ?_, ?_⟩
  · unfold RuleSet.delete; split <;> simp_all
  · unfold RuleSet.revive; split <;> simp_all
  · intro h
    unfold RuleSet.delete at h ⊢
    by_cases ht : rs.tombstoned = true
    · rw [if_pos ht] at h; simp at h
    · rw [if_neg ht]
      refine ⟨rfl, ⟨rfl, rfl, rfl, rfl, rfl, rfl, rfl⟩, fun i => ?_, fun i => ?_⟩
      · show (deleteAll mappingKit rs.mappingRules m)[i]? = _
        rw [deleteAll, List.getElem?_map]
        congr 1
        funext r
        rw [hall mappingKit r]
        cases r.snapshots.getLast? <;> rfl
      · show (deleteAll rollupKit rs.rollupRules m)[i]? = _
        rw [deleteAll, List.getElem?_map]
        congr 1
        funext r
        rw [hall rollupKit r]
        cases r.snapshots.getLast? <;> rfl
  · intro h
    unfold RuleSet.revive at h ⊢
    by_cases ht : rs.tombstoned = true
    · rw [if_neg (by simp [ht])]; exact ⟨rfl, ⟨rfl, rfl, rfl, rfl, rfl, rfl, rfl⟩, rfl, rfl⟩
    · rw [if_pos (by simpa using ht)] at h; simp at h

/-- C46: edits whose metadata the update helper made at times from `T` on leave matching before `T` plus the propagation
delay as it was, and what each of them records begins at its own time plus the delay and bears its own time and author. -/
theorem C46_delay (env : Env) (rs : RuleSet) (D T : Int) (cs : List (Cmd × Int × Bytes)) (hT : ∀ c ∈ cs, T ≤ c.2.1)
    (id : Bytes) (t0 frm to : Int) (h0 : t0 ≤ frm) (hf : frm < T + D) (ht : to ≤ T + D) :
    ((forwardMatch env ((rs.commands (cs.map fun c => (c.1, newUpdateMetadata D c.2.1 c.2.2))).activeSet t0) id frm to).forExistingID =
      (forwardMatch env (rs.activeSet t0) id frm to).forExistingID ∧
    (forwardMatch env ((rs.commands (cs.map fun c => (c.1, newUpdateMetadata D c.2.1 c.2.2))).activeSet t0) id frm to).forNewRollupIDs =
      (forwardMatch env (rs.activeSet t0) id frm to).forNewRollupIDs) ∧
    ∀ (f rid : Bytes) (d : MappingData) (t : Int) (who : Bytes),
      (rs.addMappingRule f d (newUpdateMetadata D t who)).2 = some rid →
      ∃ i old s, Appended rs.mappingRules (rs.addMappingRule f d (newUpdateMetadata D t who)).1.mappingRules i rid old s ∧
        s.cutoverNanos = t + D ∧ s.lastUpdatedAtNanos = t ∧ s.lastUpdatedBy = who ∧
        (rs.addMappingRule f d (newUpdateMetadata D t who)).1.cutoverNanos = t + D ∧
        (rs.addMappingRule f d (newUpdateMetadata D t who)).1.lastUpdatedAtNanos = t ∧
        (rs.addMappingRule f d (newUpdateMetadata D t who)).1.lastUpdatedBy = who := by
  refine ⟨?_, ?_⟩
  · obtain ⟨a, b, _⟩ := C46_past_unchanged env rs (cs.map fun c => (c.1, newUpdateMetadata D c.2.1 c.2.2)) (T + D)
      (by
        intro c hc
        obtain ⟨c', h, rfl⟩ := List.mem_map.mp hc
        have := hT c' h
        simp only [newUpdateMetadata]
        omega) id t0 frm to h0 hf ht
    exact ⟨a, b⟩
  · intro f rid d t who h
    have h' : (addRule mappingKit rs.mappingRules f d (newUpdateMetadata D t who)).2 = some rid := h
    obtain ⟨_, i, old, ha, _⟩ := addRule_records mapping_records h'
    have e : (rs.addMappingRule f d (newUpdateMetadata D t who)).1 = RuleSet.updateMetadata
        { rs with mappingRules := (addRule mappingKit rs.mappingRules f d (newUpdateMetadata D t who)).1 }
        (newUpdateMetadata D t who) := by
      simp only [RuleSet.addMappingRule, h', Option.isSome_some, if_true]
    rw [e]
    exact ⟨i, old, _, ha, rfl, rfl, rfl, rfl, rfl, rfl⟩

/-- A concrete case: an edit made at 10 with a delay of 5. -/
example : (exEmpty.addMappingRule (bs "1") (exData "a" "city:sf") (newUpdateMetadata 5 10 (bs "me"))).2 = some (bs "1") ∧
    (exEmpty.addMappingRule (bs "1") (exData "a" "city:sf") (newUpdateMetadata 5 10 (bs "me"))).1.cutoverNanos = 15 := by
  decide +kernel

/-- Concrete cases: a rule is added, updated, deleted and added again; an edit with an invalid filter is refused. -/
example : (exEmpty.addMappingRule (bs "1") (exData "a" "city:sf") (exMeta 10)).2 = some (bs "1") ∧
    ((exEmpty.addMappingRule (bs "1") (exData "a" "city:sf") (exMeta 10)).1.updateMappingRule (bs "1") (exData "b" "city:sf") (exMeta 20)).2 = true ∧
    ((exEmpty.addMappingRule (bs "1") (exData "a" "city:sf") (exMeta 10)).1.deleteMappingRule (bs "1") (exMeta 20)).2 = true ∧
    (((exEmpty.addMappingRule (bs "1") (exData "a" "city:sf") (exMeta 10)).1.deleteMappingRule (bs "1") (exMeta 20)).1.addMappingRule
      (bs "2") (exData "a" "city:la") (exMeta 30)).2 = some (bs "1") ∧
    (exEmpty.addMappingRule (bs "1") (exData "a" "city") (exMeta 10)).2 = none ∧
    (exEmpty.addRollupRule (bs "1") (exRollData "a" "city:sf") (exMeta 10)).2 = some (bs "1") ∧
    (exEmpty.delete (exMeta 10)).2 = true := by decide +kernel

end Verif.RuleSet
