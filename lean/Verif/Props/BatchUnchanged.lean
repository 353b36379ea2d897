import Verif.Props.EditErrors
/- C50: exactly when a batch that fails leaves the rule set as it was. -/
namespace Verif.RuleSet
open Verif.Rules

/-- How many snapshots the rules have together. -/
def snapshotCount {S : Type} (rules : List (Rule S)) : Nat := (rules.map fun r => r.snapshots.length).sum

section Generic
variable {S : Type}

theorem count_set : ∀ {rules : List (Rule S)} {i : Nat} {r : Rule S} (_ : rules[i]? = some r) (s : S),
    snapshotCount (rules.set i { r with snapshots := r.snapshots ++ [s] }) = snapshotCount rules + 1
  | [], i, r, h, s => by simp at h
  | q :: rules, 0, r, h, s => by
    simp only [List.getElem?_cons_zero, Option.some.injEq] at h
    subst h
    simp [snapshotCount]
    omega
  | q :: rules, i + 1, r, h, s => by
    have := count_set (rules := rules) (i := i) (r := r) (by simpa using h) s
    simp only [snapshotCount, List.set_cons_succ, List.map_cons, List.sum_cons] at this ⊢
    omega

theorem appended_count {rules rules' : List (Rule S)} {i : Nat} {id : Bytes} {old : List S} {s : S}
    (h : Appended rules rules' i id old s) : snapshotCount rules' = snapshotCount rules + 1 := by
  obtain ⟨h1, h2, h3⟩ := h
  rcases h3 with h3 | ⟨rfl, rfl⟩
  · have e : rules' = rules.set i { (⟨id, old⟩ : Rule S) with snapshots := old ++ [s] } := by
      apply List.ext_getElem?
      intro j
      by_cases hj : j = i
      · subst hj
        rw [h1, List.getElem?_set_self (List.getElem?_eq_some_iff.mp h3).1]
      · rw [h2 j hj, List.getElem?_set_ne (Ne.symm hj)]
    rw [e]
    exact count_set h3 s
  · have e : rules' = rules ++ [⟨id, [s]⟩] := by
      apply List.ext_getElem?
      intro j
      by_cases hj : j = rules.length
      · subst hj
        rw [h1]
        simp
      · rw [h2 j hj]
        by_cases hl : j < rules.length
        · rw [List.getElem?_append_left hl]
        · rw [List.getElem?_eq_none (by omega), List.getElem?_eq_none (by simp; omega)]
    rw [e]
    simp [snapshotCount]

end Generic

/-- How many snapshots there are in a rule set. -/
def RuleSet.count (rs : RuleSet) : Nat := snapshotCount rs.mappingRules + snapshotCount rs.rollupRules

theorem count_updateMetadata (rs : RuleSet) (m : UpdateMeta) : (rs.updateMetadata m).count = rs.count := rfl

/-- An edit of a rule that succeeds adds a snapshot. -/
theorem edit_count (rs : RuleSet) (m : UpdateMeta) (e : Edit) (he : e.ofRule = true) (h : (rs.edit m e).2 = true) :
    (rs.edit m e).1.count = rs.count + 1 := by
  cases e with
  | addMapping f d =>
    simp only [RuleSet.edit, RuleSet.addMappingRule] at h ⊢
    obtain ⟨id, hid⟩ := Option.isSome_iff_exists.1 h
    obtain ⟨_, i, old, ha, _⟩ := addRule_records mapping_records hid
    have := appended_count ha
    rw [if_pos h, count_updateMetadata]
    simp only [RuleSet.count] at this ⊢
    omega
  | updateMapping id d =>
    simp only [RuleSet.edit, RuleSet.updateMappingRule] at h ⊢
    obtain ⟨_, i, old, _, ha⟩ := updateRule_records mapping_records h
    have := appended_count ha
    rw [if_pos h, count_updateMetadata]
    simp only [RuleSet.count] at this ⊢
    omega
  | deleteMapping id =>
    simp only [RuleSet.edit, RuleSet.deleteMappingRule] at h ⊢
    obtain ⟨i, old, last, _, _, _, ha⟩ := deleteRule_records h
    have := appended_count ha
    rw [if_pos h, count_updateMetadata]
    simp only [RuleSet.count] at this ⊢
    omega
  | addRollup f d =>
    simp only [RuleSet.edit, RuleSet.addRollupRule] at h ⊢
    obtain ⟨id, hid⟩ := Option.isSome_iff_exists.1 h
    obtain ⟨_, i, old, ha, _⟩ := addRule_records rollup_records hid
    have := appended_count ha
    rw [if_pos h, count_updateMetadata]
    simp only [RuleSet.count] at this ⊢
    omega
  | updateRollup id d =>
    simp only [RuleSet.edit, RuleSet.updateRollupRule] at h ⊢
    obtain ⟨_, i, old, _, ha⟩ := updateRule_records rollup_records h
    have := appended_count ha
    rw [if_pos h, count_updateMetadata]
    simp only [RuleSet.count] at this ⊢
    omega
  | deleteRollup id =>
    simp only [RuleSet.edit, RuleSet.deleteRollupRule] at h ⊢
    obtain ⟨i, old, last, _, _, _, ha⟩ := deleteRule_records h
    have := appended_count ha
    rw [if_pos h, count_updateMetadata]
    simp only [RuleSet.count] at this ⊢
    omega
  | delete => cases he
  | revive => cases he

theorem run_count (m : UpdateMeta) : ∀ (es : List Edit) (rs : RuleSet), (∀ e ∈ es, e.ofRule = true) → AllSucceed rs (es.map (·, m)) →
    (rs.run (es.map (·, m))).count = rs.count + es.length
  | [], rs, _, _ => rfl
  | e :: es, rs, he, h => by
    have h1 := edit_count rs m e (he e List.mem_cons_self) h.1
    have h2 := run_count m es (rs.edit m e).1 (fun e' h' => he e' (List.mem_cons_of_mem _ h')) h.2
    have : rs.run ((e :: es).map (·, m)) = (rs.edit m e).1.run (es.map (·, m)) := rfl
    rw [this, h2, h1, List.length_cons]
    omega

theorem batchEdits_ofRule (ms : List (Change MappingData)) (rr : List (Change RollupData)) (e : Edit) (h : some e ∈ batchEdits ms rr) :
    e.ofRule = true := by
  unfold batchEdits at h
  rcases List.mem_append.1 h with h | h
  · obtain ⟨c, _, hc⟩ := List.mem_map.1 h
    simp only [Change.mappingEdit] at hc
    repeat' split at hc
    · obtain ⟨_, _, rfl⟩ := Option.map_eq_some_iff.1 hc; rfl
    · obtain ⟨_, _, rfl⟩ := Option.map_eq_some_iff.1 hc; rfl
    · obtain ⟨_, _, rfl⟩ := Option.map_eq_some_iff.1 hc; rfl
    · cases hc
  · obtain ⟨c, _, hc⟩ := List.mem_map.1 h
    simp only [Change.rollupEdit] at hc
    repeat' split at hc
    · obtain ⟨_, _, rfl⟩ := Option.map_eq_some_iff.1 hc; rfl
    · obtain ⟨_, _, rfl⟩ := Option.map_eq_some_iff.1 hc; rfl
    · obtain ⟨_, _, rfl⟩ := Option.map_eq_some_iff.1 hc; rfl
    · cases hc

/-- C50, exactly: every change that a batch makes before it fails stays, and shows as one snapshot more.  So a batch leaves the rule set as
it was if and only if there is nothing in it, or the first change is malformed or fails; a batch that fails at any later change has
changed the rule set. -/
theorem C50_unchanged_iff (rs : RuleSet) (ms : List (Change MappingData)) (rr : List (Change RollupData)) (m : UpdateMeta) :
    (∃ (done : List Edit) (rest : List (Option Edit)), batchEdits ms rr = done.map some ++ rest ∧ (rs.applyChanges ms rr m).1.count = rs.count + done.length ∧
      ((rs.applyChanges ms rr m).2 = .ok () ↔ rest = [])) ∧
    ((rs.applyChanges ms rr m).1 = rs ↔ ∀ e rest, batchEdits ms rr = some e :: rest → (rs.edit m e).2 = false) := by
  obtain ⟨done, rest, h1, h2, h3, h4, h5⟩ := C50_prefix_partial rs ms rr m
  have hc : (rs.applyChanges ms rr m).1.count = rs.count + done.length := by
    rw [h3]
    refine run_count m done rs (fun e he => batchEdits_ofRule ms rr e ?_) h2
    rw [h1]
    exact List.mem_append_left _ (List.mem_map.2 ⟨e, he, rfl⟩)
  refine ⟨⟨done, rest, h1, hc, h4⟩, ?_⟩
  cases done with
  | nil =>
    refine ⟨fun _ e rest' g => ?_, fun _ => h3⟩
    exact h5 e rest' (by rw [← g, h1]; rfl)
  | cons e done =>
    constructor
    · intro g
      rw [g] at hc
      simp at hc
    · intro g
      have := g e _ h1
      rw [h2.1] at this
      cases this

/-- The batch of `C50_violated` makes one change; in the other order it makes none. -/
example : (exEmpty.applyChanges [⟨bs "add", none, some ([], exData "a" "city:sf"), bs "1"⟩, ⟨bs "delete", some (bs "9"), none, []⟩] []
      (exMeta 10)).1.count = 1 ∧
    (exEmpty.applyChanges [⟨bs "delete", some (bs "9"), none, []⟩, ⟨bs "add", none, some ([], exData "a" "city:sf"), bs "1"⟩] []
      (exMeta 10)).1.count = 0 ∧ exEmpty.count = 0 := by decide +kernel

end Verif.RuleSet
