import Verif.Model.EditErrors
import Verif.Props.RuleSetRecords
import Verif.Props.RuleSetEdits
/- C102: the error of a refused rule change tells that it was the change. -/
namespace Verif.RuleSet
open Verif.Agg Verif.Policy Verif.Meta Verif.Rules

/-! ### Specification -/

/-- What a caller finds who looks at the error itself and, if it is a wrapped one, at the error in it. -/
def EErr.found : EErr → EErr
  | .wrapped e => e
  | e => e

/-- Every rule has a snapshot, as all rules have that were added. -/
def RuleSet.Whole (rs : RuleSet) : Prop := (∀ r ∈ rs.mappingRules, r.snapshots ≠ []) ∧ ∀ r ∈ rs.rollupRules, r.snapshots ≠ []

/-- An edit of one rule. -/
def Edit.ofRule : Edit → Bool
  | .delete | .revive => false
  | _ => true

/-- The edit comes with a filter that is not valid. -/
def Edit.badFilter : Edit → Bool
  | .addMapping _ d | .updateMapping _ d => !filterValid d.filter
  | .addRollup _ d | .updateRollup _ d => !filterValid d.filter
  | _ => false

/-- The edit names a rule, by its identifier, that is not there. -/
def Edit.Unknown (rs : RuleSet) : Edit → Prop
  | .updateMapping id _ | .deleteMapping id => ∀ r ∈ rs.mappingRules, r.uuid ≠ id
  | .updateRollup id _ | .deleteRollup id => ∀ r ∈ rs.rollupRules, r.uuid ≠ id
  | _ => False

/-- The edit adds a rule whose name a rule has already that is not deleted, at least not the first of that name. -/
def Edit.Taken (rs : RuleSet) : Edit → Prop
  | .addMapping _ d => ∃ r, rs.mappingRules.find? (fun r => r.name = some d.name) = some r ∧ r.tombstoned = false
  | .addRollup _ d => ∃ r, rs.rollupRules.find? (fun r => r.name = some d.name) = some r ∧ r.tombstoned = false
  | _ => False

/-! ### Lemmas -/

section Generic
variable {S : Type} [Snap S] {D : Type}

theorem whole_name {r : Rule S} (h : r.snapshots ≠ []) : ∃ n s, r.name = some n ∧ r.snapshots.getLast? = some s := by
  unfold Rule.name
  cases hl : r.snapshots.getLast? with
  | none => exact absurd (List.getLast?_eq_none_iff.mp hl) h
  | some s => exact ⟨_, _, rfl, rfl⟩

theorem byName_find {strict : Bool} {n : Bytes} : ∀ {rules : List (Rule S)}, (∀ r ∈ rules, r.snapshots ≠ []) →
    (getRuleByName strict n rules = some none ∧ rules.find? (fun r => r.name = some n) = none) ∨
    ∃ i r, getRuleByName strict n rules = some (some i) ∧ rules[i]? = some r ∧ rules.find? (fun r => r.name = some n) = some r
  | [], _ => .inl ⟨rfl, rfl⟩
  | r :: rules, h => by
    obtain ⟨nm, s, e1, _⟩ := whole_name (h r (by simp))
    unfold getRuleByName
    rw [e1]
    by_cases hn : nm = n
    · exact .inr ⟨0, r, by simp [hn], rfl, by simp [e1, hn]⟩
    · rcases byName_find (strict := strict) (n := n) (rules := rules) (fun q hq => h q (by simp [hq])) with ⟨h1, h2⟩ | ⟨i, q, h1, h2, h3⟩
      · exact .inl ⟨by simp [hn, h1], by simp [e1, hn]; simpa using h2⟩
      · exact .inr ⟨i + 1, q, by simp [hn, h1], by simpa using h2, by rw [List.find?_cons_of_neg (by simp [e1, hn]), h3]⟩

theorem addErr_spec {k : Kit S D} {valid : D → Bool} {snap : D → UpdateMeta → S} (hk : k.Records valid snap) {rules : List (Rule S)}
    (h : ∀ r ∈ rules, r.snapshots ≠ []) (f : Bytes) (d : D) (m : UpdateMeta) :
    ((addRule k rules f d m).2.isSome = true ↔ addErr k rules d m = none) ∧
    ∀ e, addErr k rules d m = some e → e ≠ .invalidInput ∧
      ((∃ r, rules.find? (fun r => r.name = some (k.nameOf d)) = some r ∧ r.tombstoned = false) → e.found = .invalidInput) ∧
      ((¬ ∃ r, rules.find? (fun r => r.name = some (k.nameOf d)) = some r ∧ r.tombstoned = false) → e.found = .plain ∧ valid d = false) := by
  unfold addRule addErr
  rcases byName_find (strict := k.strict) (n := k.nameOf d) h with ⟨h1, h2⟩ | ⟨i, r, h1, h2, h3⟩
  · simp only [h1, h2, addSnapshotErr, hk.add]
    cases hv : valid d <;> simp [EErr.found]
  · obtain ⟨nm, s, e1, e2⟩ := whole_name (h r (List.mem_of_getElem? h2))
    simp only [h1, h2, h3, revive, reviveErr, e1, addSnapshotErr, hk.add]
    cases ht : r.tombstoned <;> cases hv : valid d <;> simp [ht, EErr.found]

theorem updateErr_spec {k : Kit S D} {valid : D → Bool} {snap : D → UpdateMeta → S} (hk : k.Records valid snap) (rules : List (Rule S))
    (id : Bytes) (d : D) (m : UpdateMeta) :
    ((updateRule k rules id d m).2 = true ↔ updateErr k rules id d m = none) ∧
    ∀ e, updateErr k rules id d m = some e →
      ((∀ r ∈ rules, r.uuid ≠ id) → e = .invalidInput) ∧ ((¬ ∀ r ∈ rules, r.uuid ≠ id) → e = .wrapped .plain ∧ valid d = false) := by
  unfold updateRule updateErr
  cases hg : getRuleByID id rules with
  | none =>
    refine ⟨by simp, fun e he => ⟨fun _ => (Option.some.inj he).symm, fun hn => absurd (getRuleByID_none.mp hg) hn⟩⟩
  | some i =>
    obtain ⟨r, hr, hi⟩ := getRuleByID_some hg
    have hmem := List.mem_of_getElem? hr
    simp only [hr, addSnapshotErr, hk.add]
    cases hv : valid d
    · refine ⟨by simp, fun e he => ⟨fun hn => absurd hi (hn r hmem), fun _ => ⟨?_, rfl⟩⟩⟩
      simpa using he.symm
    · simp

theorem deleteErr_spec {k : Kit S D} {rules : List (Rule S)} (h : ∀ r ∈ rules, r.snapshots ≠ []) (id : Bytes) (m : UpdateMeta) :
    ((deleteRule k rules id m).2 = true ↔ deleteErr rules id = none) ∧
    ∀ e, deleteErr rules id = some e → ((∀ r ∈ rules, r.uuid ≠ id) → e = .invalidInput) ∧
      ((¬ ∀ r ∈ rules, r.uuid ≠ id) → e = .wrapped .invalidInput) := by
  unfold deleteRule deleteErr
  cases hg : getRuleByID id rules with
  | none =>
    refine ⟨by simp, fun e he => ⟨fun _ => (Option.some.inj he).symm, fun hn => absurd (getRuleByID_none.mp hg) hn⟩⟩
  | some i =>
    obtain ⟨r, hr, hi⟩ := getRuleByID_some hg
    have hmem := List.mem_of_getElem? hr
    obtain ⟨nm, s, e1, e2⟩ := whole_name (h r hmem)
    simp only [hr, markTombstoned, markTombstonedErr, e1, e2]
    cases ht : r.tombstoned
    · simp
    · refine ⟨by simp, fun e he => ⟨fun hn => absurd hi (hn r hmem), fun _ => ?_⟩⟩
      simpa using he.symm

end Generic

/-! ### Edits -/

/-- Exactly the edits that fail return an error. If a rule that is to be changed or deleted is not there the error is an
`InvalidInputError`; otherwise it is a wrapped error, in which there is an `InvalidInputError` if the rule to be deleted is deleted
already or the name of the rule to be added is taken, and an error of no type if and only if it is the filter that is refused. -/
theorem C102_edits {rs : RuleSet} (h : rs.Whole) (m : UpdateMeta) {e : Edit} (he : e.ofRule = true) :
    ((rs.edit m e).2 = true ↔ rs.editErr m e = none) ∧
    ∀ err, rs.editErr m e = some err → (err = .invalidInput ↔ e.Unknown rs) ∧ (e.Taken rs → err.found = .invalidInput) ∧
      (err.found = .invalidInput ∨ err.found = .plain) ∧ (err.found = .plain ↔ e.badFilter = true ∧ ¬ e.Unknown rs ∧ ¬ e.Taken rs) := by
  have hadd : ∀ {P Q : Prop} {err : EErr} {b : Bool}, (err ≠ .invalidInput ∧ (P → err.found = .invalidInput) ∧
      (¬ P → err.found = .plain ∧ b = false)) → Q = False → ((err = .invalidInput ↔ Q) ∧ (P → err.found = .invalidInput) ∧
      (err.found = .invalidInput ∨ err.found = .plain) ∧ (err.found = .plain ↔ (!b) = true ∧ ¬ Q ∧ ¬ P)) := by
    rintro P Q err b ⟨h1, h2, h3⟩ rfl
    by_cases hp : P
    · have := h2 hp
      simp [h1, hp, this]
    · have := h3 hp
      simp [h1, hp, this.1, this.2]
  have hupd : ∀ {P Q : Prop} {err : EErr} {b : Bool}, ((P → err = .invalidInput) ∧ (¬ P → err = .wrapped .plain ∧ b = false)) →
      Q = False → ((err = .invalidInput ↔ P) ∧ (Q → err.found = .invalidInput) ∧
      (err.found = .invalidInput ∨ err.found = .plain) ∧ (err.found = .plain ↔ (!b) = true ∧ ¬ P ∧ ¬ Q)) := by
    rintro P Q err b ⟨h2, h3⟩ rfl
    by_cases hp : P
    · have := h2 hp
      subst this
      simp [hp, EErr.found]
    · obtain ⟨rfl, hb⟩ := h3 hp
      simp [hp, EErr.found, hb]
  have hdel : ∀ {P Q : Prop} {err : EErr}, ((P → err = .invalidInput) ∧ (¬ P → err = .wrapped .invalidInput)) →
      Q = False → ((err = .invalidInput ↔ P) ∧ (Q → err.found = .invalidInput) ∧
      (err.found = .invalidInput ∨ err.found = .plain) ∧ (err.found = .plain ↔ false = true ∧ ¬ P ∧ ¬ Q)) := by
    rintro P Q err ⟨h2, h3⟩ rfl
    by_cases hp : P
    · have := h2 hp
      subst this
      simp [hp, EErr.found]
    · have := h3 hp
      subst this
      simp [hp, EErr.found]
  cases e with
  | addMapping f d =>
    obtain ⟨h1, h2⟩ := addErr_spec mapping_records h.1 f d m
    refine ⟨?_, fun err e => hadd (h2 err e) rfl⟩
    simp only [RuleSet.edit, RuleSet.editErr, RuleSet.addMappingRule]
    exact h1
  | addRollup f d =>
    obtain ⟨h1, h2⟩ := addErr_spec rollup_records h.2 f d m
    refine ⟨?_, fun err e => hadd (h2 err e) rfl⟩
    simp only [RuleSet.edit, RuleSet.editErr, RuleSet.addRollupRule]
    exact h1
  | updateMapping id d =>
    obtain ⟨h1, h2⟩ := updateErr_spec mapping_records rs.mappingRules id d m
    exact ⟨h1, fun err e => hupd (h2 err e) rfl⟩
  | updateRollup id d =>
    obtain ⟨h1, h2⟩ := updateErr_spec rollup_records rs.rollupRules id d m
    exact ⟨h1, fun err e => hupd (h2 err e) rfl⟩
  | deleteMapping id =>
    obtain ⟨h1, h2⟩ := deleteErr_spec (k := mappingKit) h.1 id m
    exact ⟨h1, fun err e => hdel (h2 err e) rfl⟩
  | deleteRollup id =>
    obtain ⟨h1, h2⟩ := deleteErr_spec (k := rollupKit) h.2 id m
    exact ⟨h1, fun err e => hdel (h2 err e) rfl⟩
  | delete => cases he
  | revive => cases he

/-- Every rule has a snapshot after any edit if every rule had one before. -/
theorem RuleSet.Whole.edit {rs : RuleSet} (h : rs.Whole) (m : UpdateMeta) (e : Edit) : (rs.edit m e).1.Whole := by
  have key : ∀ {S D : Type} [Snap S] (k : Kit S D) {valid : D → Bool} {snap : D → UpdateMeta → S}, k.Records valid snap →
      ∀ (rules : List (Rule S)), (∀ r ∈ rules, r.snapshots ≠ []) → ∀ op : Op D, ∀ r ∈ op.apply k rules m, r.snapshots ≠ [] := by
    intro S D _ k valid snap hk rules hr op
    have hset : ∀ i (r' : Rule S), r'.snapshots ≠ [] → ∀ r ∈ rules.set i r', r.snapshots ≠ [] := by
      intro i r' h' r hm
      rcases List.mem_or_eq_of_mem_set hm with hm | rfl
      · exact hr r hm
      · exact h'
    have htomb : ∀ r ∈ rules, (markTombstoned k.tomb r m).1.snapshots ≠ [] := by
      intro r hm
      unfold markTombstoned
      split
      · exact hr r hm
      · split
        · exact hr r hm
        · split
          · exact hr r hm
          · simp
    cases op with
    | add f d =>
      simp only [Op.apply, addRule]
      split
      · exact hr
      · simp only [hk.add]
        cases valid d
        · simpa using hr
        · simp only [if_true]
          intro r hm
          rcases List.mem_append.mp hm with hm | hm
          · exact hr r hm
          · rw [List.mem_singleton.mp hm]; simp
      · split
        · exact hr
        · next r hi =>
          refine hset _ _ ?_
          have := hr r (List.mem_of_getElem? hi)
          unfold Rules.revive
          split
          · exact this
          · split
            · exact this
            · rw [hk.add]; cases valid d <;> simp [this]
    | update id d =>
      simp only [Op.apply, updateRule]
      split
      · exact hr
      · split
        · exact hr
        · next r hi =>
          refine hset _ _ ?_
          have := hr r (List.mem_of_getElem? hi)
          rw [hk.add]; cases valid d <;> simp [this]
    | delete id =>
      simp only [Op.apply, deleteRule]
      split
      · exact hr
      · split
        · exact hr
        · next r hi => exact hset _ _ (htomb r (List.mem_of_getElem? hi))
    | deleteAll =>
      simp only [Op.apply, deleteAll]
      intro r hm
      obtain ⟨q, hq, rfl⟩ := List.mem_map.mp hm
      split
      · exact htomb q hq
      · exact hr q hq
    | other => exact hr
  refine ⟨?_, ?_⟩
  · rw [edit_mapping]; exact key mappingKit mapping_records _ h.1 _
  · rw [edit_rollup]; exact key rollupKit rollup_records _ h.2 _

/-! ### Batches -/

/-- What is needed of a change in a batch. -/
structure Step (f : RuleSet → C → UpdateMeta → RuleSet × Out Unit) (err : RuleSet → C → UpdateMeta → Option EErr) (good : C → Prop)
    (m : UpdateMeta) : Prop where
  whole : ∀ rs c, rs.Whole → (f rs c m).1.Whole
  fails : ∀ rs c, rs.Whole → ((f rs c m).2 = .err ↔ (err rs c m).isSome = true)
  found : ∀ rs c, rs.Whole → good c → ∀ e, err rs c m = some e → e.found = .invalidInput

theorem step_loop {f : RuleSet → C → UpdateMeta → RuleSet × Out Unit} {err : RuleSet → C → UpdateMeta → Option EErr} {good : C → Prop}
    {m : UpdateMeta} (h : Step f err good m) : ∀ (cs : List C) (rs : RuleSet), rs.Whole → (applyLoop f m cs rs).1.Whole ∧
      ((applyLoop f m cs rs).2 = .err ↔ (loopErr f err m cs rs).isSome = true) ∧
      ((∀ c ∈ cs, good c) → ∀ e, loopErr f err m cs rs = some e → e.found = .invalidInput)
  | [], rs, hw => ⟨hw, by simp [applyLoop, loopErr], fun _ e he => by simp [loopErr] at he⟩
  | c :: cs, rs, hw => by
    have h1 := h.whole rs c hw
    have h2 := h.fails rs c hw
    have h3 := h.found rs c hw
    unfold applyLoop loopErr
    rcases hf : f rs c m with ⟨rs', o⟩
    rw [hf] at h1 h2
    cases o with
    | ok u =>
      obtain ⟨i1, i2, i3⟩ := step_loop h cs rs' h1
      exact ⟨i1, i2, fun hg => i3 fun c hc => hg c (by simp [hc])⟩
    | err => exact ⟨h1, h2, fun hg => h3 (hg c (by simp))⟩
    | panic => exact ⟨h1, h2, fun hg => h3 (hg c (by simp))⟩

theorem step_edit {rs : RuleSet} (hw : rs.Whole) (m : UpdateMeta) {e : Edit} (he : e.ofRule = true) {b : Bool} (hb : b = (rs.edit m e).2) :
    ((if b = true then Out.ok () else Out.err) = .err ↔ (rs.editErr m e).isSome = true) ∧
    (e.badFilter = false → ∀ err, rs.editErr m e = some err → err.found = .invalidInput) := by
  obtain ⟨h1, h2⟩ := C102_edits hw m he
  subst hb
  refine ⟨?_, fun hf err e1 => ?_⟩
  · cases hb : (rs.edit m e).2 with
    | true => rw [h1.mp hb]; simp
    | false =>
      cases e1 : rs.editErr m e with
      | none => rw [h1.mpr e1] at hb; cases hb
      | some _ => simp
  · obtain ⟨_, _, h3, h4⟩ := h2 err e1
    rcases h3 with h3 | h3
    · exact h3
    · rw [hf] at h4; cases (h4.mp h3).1

theorem mapping_step (m : UpdateMeta) : Step RuleSet.mappingChange (RuleSet.changeErr (.addMapping []) .updateMapping .deleteMapping)
    (fun c => ∀ d, c.ruleData = some d → filterValid d.2.filter = true) m := by
  refine ⟨fun rs c hw => ?_, fun rs c hw => ?_, fun rs c hw hg => ?_⟩
  · unfold RuleSet.mappingChange
    split
    · cases c.ruleData with
      | none => exact hw
      | some d => exact hw.edit m (.addMapping c.fresh d.2)
    · split
      · cases c.ruleData with
        | none => exact hw
        | some d => exact hw.edit m (.updateMapping d.1 d.2)
      · split
        · cases c.ruleID with
          | none => exact hw
          | some id => exact hw.edit m (.deleteMapping id)
        · exact hw
  · unfold RuleSet.mappingChange RuleSet.changeErr
    split
    · cases c.ruleData with
      | none => simp
      | some d => exact (step_edit hw m (e := .addMapping c.fresh d.2) rfl rfl).1
    · split
      · cases c.ruleData with
        | none => simp
        | some d => exact (step_edit hw m (e := .updateMapping d.1 d.2) rfl rfl).1
      · split
        · cases c.ruleID with
          | none => simp
          | some id => exact (step_edit hw m (e := .deleteMapping id) rfl rfl).1
        · simp
  · unfold RuleSet.changeErr
    split
    · cases hd : c.ruleData with
      | none => simp
      | some d => exact (step_edit hw m (e := .addMapping c.fresh d.2) rfl rfl).2 (by simp [Edit.badFilter, hg d hd])
    · split
      · cases hd : c.ruleData with
        | none => simp
        | some d => exact (step_edit hw m (e := .updateMapping d.1 d.2) rfl rfl).2 (by simp [Edit.badFilter, hg d hd])
      · split
        · cases c.ruleID with
          | none => simp
          | some id => exact (step_edit hw m (e := .deleteMapping id) rfl rfl).2 rfl
        · intro e he; rw [← Option.some.inj he]; rfl

theorem rollup_step (m : UpdateMeta) : Step RuleSet.rollupChange (RuleSet.changeErr (.addRollup []) .updateRollup .deleteRollup)
    (fun c => ∀ d, c.ruleData = some d → filterValid d.2.filter = true) m := by
  refine ⟨fun rs c hw => ?_, fun rs c hw => ?_, fun rs c hw hg => ?_⟩
  · unfold RuleSet.rollupChange
    split
    · cases c.ruleData with
      | none => exact hw
      | some d => exact hw.edit m (.addRollup c.fresh d.2)
    · split
      · cases c.ruleData with
        | none => exact hw
        | some d => exact hw.edit m (.updateRollup d.1 d.2)
      · split
        · cases c.ruleID with
          | none => exact hw
          | some id => exact hw.edit m (.deleteRollup id)
        · exact hw
  · unfold RuleSet.rollupChange RuleSet.changeErr
    split
    · cases c.ruleData with
      | none => simp
      | some d => exact (step_edit hw m (e := .addRollup c.fresh d.2) rfl rfl).1
    · split
      · cases c.ruleData with
        | none => simp
        | some d => exact (step_edit hw m (e := .updateRollup d.1 d.2) rfl rfl).1
      · split
        · cases c.ruleID with
          | none => simp
          | some id => exact (step_edit hw m (e := .deleteRollup id) rfl rfl).1
        · simp
  · unfold RuleSet.changeErr
    split
    · cases hd : c.ruleData with
      | none => simp
      | some d => exact (step_edit hw m (e := .addRollup c.fresh d.2) rfl rfl).2 (by simp [Edit.badFilter, hg d hd])
    · split
      · cases hd : c.ruleData with
        | none => simp
        | some d => exact (step_edit hw m (e := .updateRollup d.1 d.2) rfl rfl).2 (by simp [Edit.badFilter, hg d hd])
      · split
        · cases c.ruleID with
          | none => simp
          | some id => exact (step_edit hw m (e := .deleteRollup id) rfl rfl).2 rfl
        · intro e he; rw [← Option.some.inj he]; rfl

/-- A batch of changes returns an error exactly if it fails, and if all filters in it are valid, there is an `InvalidInputError` in it.
What is missing for the full claim is that this holds whatever the filters are: see `C102_violation`. -/
theorem C102_partial {rs : RuleSet} (h : rs.Whole) (ms : List (Change MappingData)) (rr : List (Change RollupData)) (m : UpdateMeta) :
    (rs.applyChanges ms rr m).1.Whole ∧ ((rs.applyChanges ms rr m).2 = .err ↔ (rs.applyErr ms rr m).isSome = true) ∧
    ((∀ c ∈ ms, ∀ d, c.ruleData = some d → filterValid d.2.filter = true) →
      (∀ c ∈ rr, ∀ d, c.ruleData = some d → filterValid d.2.filter = true) →
      ∀ err, rs.applyErr ms rr m = some err → err.found = .invalidInput) := by
  obtain ⟨h1, h2, h3⟩ := step_loop (mapping_step m) ms rs h
  unfold RuleSet.applyChanges RuleSet.applyErr
  rcases hf : applyLoop RuleSet.mappingChange m ms rs with ⟨rs', o⟩
  rw [hf] at h1 h2
  cases o with
  | ok u =>
    obtain ⟨i1, i2, i3⟩ := step_loop (rollup_step m) rr rs' h1
    exact ⟨i1, i2, fun _ hg => i3 hg⟩
  | err => exact ⟨h1, h2, fun hg _ => h3 hg⟩
  | panic => exact ⟨h1, h2, fun hg _ => h3 hg⟩

/-- C102 is violated: a rule change that is refused for its filter does not return an `InvalidInputError`, not even in a wrapped error;
nor does deleting a rule set that is deleted, or reviving one that is not. -/
theorem C102_violation : ∃ (rs rs' : RuleSet) (m : UpdateMeta), rs.Whole ∧
    (∃ e : Edit, e.ofRule = true ∧ rs.editErr m e = some (.wrapped .plain)) ∧
    (∃ c, rs.applyErr [c] [] m = some (.wrapped .plain)) ∧ rs.editErr m .revive = some (.wrapped .plain) ∧
    rs' = (rs.edit m .delete).1 ∧ rs'.editErr m .delete = some .plain := by
  refine ⟨exEmpty, _, exMeta 10, ⟨by simp [exEmpty, newEmptyRuleSet, RuleSet.updateMetadata], by
    simp [exEmpty, newEmptyRuleSet, RuleSet.updateMetadata]⟩, ⟨.addMapping (bs "1") (exData "a" "city"), rfl, by decide +kernel⟩,
    ⟨⟨bs "add", none, some ([], exData "a" "city"), bs "1"⟩, by decide +kernel⟩, by decide +kernel, rfl, by decide +kernel⟩

/-- Deleting a rule set fails exactly if it is deleted, reviving it exactly if it is not; the errors are not `InvalidInputError`s. -/
theorem C102_ruleset (rs : RuleSet) (m : UpdateMeta) :
    ((rs.edit m .delete).2 = false ↔ rs.tombstoned = true) ∧ ((rs.edit m .revive).2 = false ↔ rs.tombstoned = false) ∧
    (∀ err, rs.editErr m .delete = some err ↔ rs.tombstoned = true ∧ err = .plain) ∧
    (∀ err, rs.editErr m .revive = some err ↔ rs.tombstoned = false ∧ err = .wrapped .plain) := by
  unfold RuleSet.editErr RuleSet.edit
  cases h : rs.tombstoned <;> simp [h, RuleSet.delete, RuleSet.revive, eq_comm]

/-! ### Concrete cases -/

/-- The hypotheses are met, and each kind of error occurs: a rule that is not there, a name that is taken, a rule that is deleted
already, an unknown kind of change. -/
example : exOne.Whole ∧ (Edit.deleteMapping (bs "9")).Unknown exOne ∧ exOne.editErr (exMeta 20) (.deleteMapping (bs "9")) = some .invalidInput ∧
    exOne.editErr (exMeta 20) (.deleteMapping (bs "1")) = none ∧
    (exOne.edit (exMeta 20) (.deleteMapping (bs "1"))).1.editErr (exMeta 30) (.deleteMapping (bs "1")) = some (.wrapped .invalidInput) ∧
    exOne.applyErr [⟨bs "undo", none, none, []⟩] [] (exMeta 20) = some .invalidInput ∧
    (exEmpty.edit (exMeta 20) (.addMapping (bs "1") (exData "a" "city:sf"))).1.editErr (exMeta 30) (.addMapping (bs "2") (exData "a" "city:la"))
      = some (.wrapped .invalidInput) := by
  refine ⟨⟨?_, ?_⟩, ?_, ?_, ?_, ?_, ?_, ?_⟩
  · decide +kernel
  · decide +kernel
  · unfold Edit.Unknown; decide +kernel
  all_goals decide +kernel

end Verif.RuleSet
