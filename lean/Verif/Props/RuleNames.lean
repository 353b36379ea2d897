import Verif.Props.RuleSetEdits
/-
C49, exactly: which edits keep the names of the live rules apart.
-/
namespace Verif.RuleSet
open Verif.Rules

variable {S : Type} [Snap S] {D : Type}

/-- No rule that is not deleted has the name. -/
def Unused (rules : List (Rule S)) (n : Bytes) : Prop := ∀ r ∈ rules, r.tombstoned = false → r.name ≠ some n

/-- No other rule that is not deleted has the name. -/
def UnusedBut (id : Bytes) (rules : List (Rule S)) (n : Bytes) : Prop := ∀ r ∈ rules, r.uuid ≠ id → r.tombstoned = false → r.name ≠ some n

/-- The edit names its rule as no other live rule is named. -/
def FreshName (rs : RuleSet) : Edit → Prop
  | .addMapping _ d => Unused rs.mappingRules d.name
  | .updateMapping id d => UnusedBut id rs.mappingRules d.name
  | .addRollup _ d => Unused rs.rollupRules d.name
  | .updateRollup id d => UnusedBut id rs.rollupRules d.name
  | _ => True

theorem live_iff {rules : List (Rule S)} : LiveNamesDistinct rules ↔
    ∀ (i j : Nat) (a b : Rule S), rules[i]? = some a → rules[j]? = some b → i ≠ j → a.tombstoned = false → b.tombstoned = false → a.name ≠ b.name := by
  unfold LiveNamesDistinct
  rw [List.pairwise_filter, List.pairwise_iff_getElem]
  constructor
  · intro h i j a b hi hj hne ha hb
    obtain ⟨hl, rfl⟩ := List.getElem?_eq_some_iff.mp hi
    obtain ⟨hl', rfl⟩ := List.getElem?_eq_some_iff.mp hj
    rcases Nat.lt_or_gt_of_ne hne with hlt | hlt
    · exact h i j hl hl' hlt (by simp [ha]) (by simp [hb])
    · exact fun e => h j i hl' hl hlt (by simp [hb]) (by simp [ha]) e.symm
  · intro h i j hi hj hlt ha hb
    exact h i j _ _ (List.getElem?_eq_getElem hi) (List.getElem?_eq_getElem hj) (by omega) (by simpa using ha) (by simpa using hb)

theorem live_set_dead {rules : List (Rule S)} (h : LiveNamesDistinct rules) {i : Nat} {r' : Rule S} (ht : r'.tombstoned = true) :
    LiveNamesDistinct (rules.set i r') := by
  rw [live_iff] at h ⊢
  intro k j a b hk hj hne ha hb
  rw [List.getElem?_set] at hk hj
  by_cases e1 : i = k
  · rw [if_pos e1] at hk
    split at hk
    · cases hk; rw [ht] at ha; cases ha
    · cases hk
  · rw [if_neg e1] at hk
    by_cases e2 : i = j
    · rw [if_pos e2] at hj
      split at hj
      · cases hj; rw [ht] at hb; cases hb
      · cases hj
    · rw [if_neg e2] at hj
      exact h k j a b hk hj hne ha hb

theorem live_set {rules : List (Rule S)} (h : LiveNamesDistinct rules) {i : Nat} {r r' : Rule S} {n : Bytes} (hi : rules[i]? = some r)
    (ht : r'.tombstoned = false) (hn : r'.name = some n) :
    LiveNamesDistinct (rules.set i r') ↔ ∀ j y, rules[j]? = some y → j ≠ i → y.tombstoned = false → y.name ≠ some n := by
  obtain ⟨hlt, _⟩ := List.getElem?_eq_some_iff.mp hi
  rw [live_iff] at h ⊢
  constructor
  · intro h' j y hj hne hy e
    refine h' j i y r' ?_ ?_ hne hy ht (by rw [e, hn])
    · rw [List.getElem?_set, if_neg (fun e => hne e.symm)]; exact hj
    · rw [List.getElem?_set, if_pos rfl, if_pos hlt]
  · intro h' k j a b hk hj hne ha hb
    rw [List.getElem?_set] at hk hj
    by_cases e1 : i = k
    · rw [if_pos e1, if_pos hlt] at hk
      cases hk
      rw [if_neg (by omega)] at hj
      rw [hn]
      exact fun e => h' j b hj (by omega) hb e.symm
    · rw [if_neg e1] at hk
      by_cases e2 : i = j
      · rw [if_pos e2, if_pos hlt] at hj
        cases hj
        rw [hn]
        exact h' k a hk (by omega) ha
      · rw [if_neg e2] at hj
        exact h k j a b hk hj hne ha hb

theorem live_snoc {rules : List (Rule S)} (h : LiveNamesDistinct rules) {r' : Rule S} {n : Bytes} (ht : r'.tombstoned = false)
    (hn : r'.name = some n) (hu : Unused rules n) : LiveNamesDistinct (rules ++ [r']) := by
  unfold LiveNamesDistinct at h ⊢
  rw [List.filter_append, List.pairwise_append]
  refine ⟨h, by simp [ht], ?_⟩
  intro a ha b hb
  obtain ⟨ha, hat⟩ := List.mem_filter.mp ha
  obtain ⟨hb, _⟩ := List.mem_filter.mp hb
  rw [List.mem_singleton] at hb
  subst hb
  rw [hn]
  exact hu a ha (by simpa using hat)

theorem add_live {k : Kit S D} (hk : k.Ok) {rules : List (Rule S)} (h : LiveNamesDistinct rules) {f : Bytes} {d : D} {m : UpdateMeta}
    (hs : (addRule k rules f d m).2.isSome = true) : LiveNamesDistinct (addRule k rules f d m).1 ↔ Unused rules (k.nameOf d) := by
  unfold addRule at hs ⊢
  split at hs
  · cases hs
  · rename_i hg
    have hu : Unused rules (k.nameOf d) := fun r hr _ => getRuleByName_none hg r hr
    simp only at hs ⊢
    split at hs
    · rename_i hok
      rw [if_pos hok]
      have := add_name hk { uuid := f, snapshots := [] } d m hok
      exact ⟨fun _ => hu, fun _ => live_snoc h this.2 this.1 hu⟩
    · cases hs
  · rename_i i hg
    obtain ⟨r, hi, hn⟩ := getRuleByName_some hg
    simp only [hi] at hs ⊢
    split at hs
    · rename_i hr
      unfold revive at hr ⊢
      rw [hn] at hr ⊢
      simp only at hr ⊢
      split at hr
      · cases hr
      · rename_i ht
        rw [if_neg ht]
        have hdead : r.tombstoned = true := by simpa using ht
        have := add_name hk r d m hr
        rw [live_set h hi this.2 this.1]
        constructor
        · intro hh y hy hyt
          obtain ⟨j, hj⟩ := List.getElem?_of_mem hy
          by_cases e : j = i
          · subst e; rw [hi] at hj; cases hj; rw [hdead] at hyt; cases hyt
          · exact hh j y hj e hyt
        · intro hh j y hj _ hyt
          exact hh y (List.mem_of_getElem? hj) hyt
    · cases hs

theorem update_live {k : Kit S D} (hk : k.Ok) {rules : List (Rule S)} (hu : (rules.map (·.uuid)).Nodup) (h : LiveNamesDistinct rules)
    {id : Bytes} {d : D} {m : UpdateMeta} (hs : (updateRule k rules id d m).2 = true) :
    LiveNamesDistinct (updateRule k rules id d m).1 ↔ UnusedBut id rules (k.nameOf d) := by
  unfold updateRule at hs ⊢
  split at hs
  · cases hs
  · rename_i i hg
    obtain ⟨r, hi, hid⟩ := getRuleByID_some hg
    simp only [hi] at hs ⊢
    have := add_name hk r d m hs
    rw [live_set h hi this.2 this.1]
    have key : ∀ j y, rules[j]? = some y → (j ≠ i ↔ y.uuid ≠ id) := by
      intro j y hj
      obtain ⟨hl, rfl⟩ := List.getElem?_eq_some_iff.mp hj
      obtain ⟨hl', rfl⟩ := List.getElem?_eq_some_iff.mp hi
      constructor
      · intro hne hy
        unfold List.Nodup at hu
        rw [List.pairwise_map, List.pairwise_iff_getElem] at hu
        rcases Nat.lt_or_gt_of_ne hne with hlt | hlt
        · exact hu j i _ _ hlt (hy.trans hid.symm)
        · exact hu i j _ _ hlt (hid.trans hy.symm)
      · rintro hy rfl
        exact hy hid
    constructor
    · intro hh y hy hyid hyt
      obtain ⟨j, hj⟩ := List.getElem?_of_mem hy
      exact hh j y hj ((key j y hj).mpr hyid) hyt
    · intro hh j y hj hne hyt
      exact hh y (List.mem_of_getElem? hj) ((key j y hj).mp hne) hyt

theorem mark_live {k : Kit S D} (hk : k.Ok) {r : Rule S} {m : UpdateMeta} :
    (markTombstoned k.tomb r m).1.tombstoned = true := by
  cases hb : (markTombstoned k.tomb r m).2 with
  | true =>
    obtain ⟨s, h1, _, h3⟩ := markTombstoned_ok hb
    rw [h3]
    simp [Rule.tombstoned, (hk.tomb s m).2.1]
  | false =>
    rw [markTombstoned_fail hb]
    unfold markTombstoned Rule.name at hb
    unfold Rule.tombstoned at hb ⊢
    cases hl : r.snapshots.getLast? with
    | none => rfl
    | some s =>
      cases ht : Snap.tombstoned s with
      | true => simp [ht]
      | false => simp [hl, ht] at hb

theorem delete_live {k : Kit S D} (hk : k.Ok) {rules : List (Rule S)} (h : LiveNamesDistinct rules) (id : Bytes) (m : UpdateMeta) :
    LiveNamesDistinct (deleteRule k rules id m).1 := by
  unfold deleteRule
  split
  · exact h
  · split
    · exact h
    · exact live_set_dead h (mark_live hk)

theorem deleteAll_live {k : Kit S D} (hk : k.Ok) (rules : List (Rule S)) (m : UpdateMeta) : LiveNamesDistinct (RuleSet.deleteAll k rules m) := by
  have : (RuleSet.deleteAll k rules m).filter (fun r => !r.tombstoned) = [] := by
    rw [List.filter_eq_nil_iff]
    intro r hr
    simp only [RuleSet.deleteAll, List.mem_map] at hr
    obtain ⟨a, _, rfl⟩ := hr
    split
    · simp [mark_live hk]
    · rename_i ht; simpa using ht
  unfold LiveNamesDistinct
  rw [this]
  exact .nil

/-- **C49**, exactly: when all the names of live rules are different, a successful edit leaves them so if and only if it does not add a
rule under the name of a live rule and does not update a rule to the name of another live rule. -/
theorem C49_edit_exact (rs : RuleSet) (e : Edit) (m : UpdateMeta) (um : (rs.mappingRules.map (·.uuid)).Nodup)
    (ur : (rs.rollupRules.map (·.uuid)).Nodup) (hm : LiveNamesDistinct rs.mappingRules) (hr : LiveNamesDistinct rs.rollupRules)
    (hs : (rs.edit m e).2 = true) :
    (LiveNamesDistinct (rs.edit m e).1.mappingRules ∧ LiveNamesDistinct (rs.edit m e).1.rollupRules) ↔ FreshName rs e := by
  rw [edit_mapping, edit_rollup]
  cases e with
  | addMapping f d =>
    have hs' : (addRule mappingKit rs.mappingRules f d m).2.isSome = true := hs
    exact (and_iff_left hr).trans (add_live mappingKit_ok hm hs')
  | updateMapping id d =>
    have hs' : (updateRule mappingKit rs.mappingRules id d m).2 = true := hs
    exact (and_iff_left hr).trans (update_live mappingKit_ok um hm hs')
  | deleteMapping id => exact iff_of_true ⟨delete_live mappingKit_ok hm id m, hr⟩ trivial
  | addRollup f d =>
    have hs' : (addRule rollupKit rs.rollupRules f d m).2.isSome = true := hs
    exact (and_iff_right hm).trans (add_live rollupKit_ok hr hs')
  | updateRollup id d =>
    have hs' : (updateRule rollupKit rs.rollupRules id d m).2 = true := hs
    exact (and_iff_right hm).trans (update_live rollupKit_ok ur hr hs')
  | deleteRollup id => exact iff_of_true ⟨hm, delete_live rollupKit_ok hr id m⟩ trivial
  | delete =>
    simp only [mappingOp, rollupOp]
    split
    · exact iff_of_true ⟨hm, hr⟩ trivial
    · exact iff_of_true ⟨deleteAll_live mappingKit_ok _ m, deleteAll_live rollupKit_ok _ m⟩ trivial
  | revive => exact iff_of_true ⟨hm, hr⟩ trivial

/-- Every successful edit of the sequence names its rule as no other live rule is named at that moment. -/
def FreshRun : RuleSet → List (Edit × UpdateMeta) → Prop
  | _, [] => True
  | rs, (e, m) :: es => ((rs.edit m e).2 = true → FreshName rs e) ∧ FreshRun (rs.edit m e).1 es

/-- **C49**, exactly, for sequences of edits: the names of live rules are different all the time if and only if no successful edit uses
the name of another live rule. -/
theorem C49_exact : ∀ (es : List (Edit × UpdateMeta)) (rs : RuleSet),
    (rs.mappingRules.map (·.uuid) ++ es.flatMap fun e => e.1.newMappingIDs).Nodup →
    (rs.rollupRules.map (·.uuid) ++ es.flatMap fun e => e.1.newRollupIDs).Nodup →
    LiveNamesDistinct rs.mappingRules → LiveNamesDistinct rs.rollupRules →
    ((∀ k, LiveNamesDistinct (rs.run (es.take k)).mappingRules ∧ LiveNamesDistinct (rs.run (es.take k)).rollupRules) ↔ FreshRun rs es)
  | [], rs, _, _, hm, hr => by simp [FreshRun, RuleSet.run, hm, hr]
  | (e, m) :: es, rs, um, ur, hm, hr => by
    obtain ⟨⟨l1, a1, a2⟩, ⟨l2, b1, b2⟩⟩ := run_ids [(e, m)] rs
    have f1 : [(e, m)].flatMap (fun e => e.1.newMappingIDs) = e.newMappingIDs := by simp
    have f2 : [(e, m)].flatMap (fun e => e.1.newRollupIDs) = e.newRollupIDs := by simp
    rw [f1] at a1
    rw [f2] at b1
    have um' : ((rs.edit m e).1.mappingRules.map (·.uuid) ++ es.flatMap fun e => e.1.newMappingIDs).Nodup := by
      have : (rs.edit m e).1 = rs.run [(e, m)] := rfl
      rw [this, a2, List.append_assoc]
      rw [List.flatMap_cons] at um
      exact um.sublist ((List.Sublist.refl _).append (a1.append (List.Sublist.refl _)))
    have ur' : ((rs.edit m e).1.rollupRules.map (·.uuid) ++ es.flatMap fun e => e.1.newRollupIDs).Nodup := by
      have : (rs.edit m e).1 = rs.run [(e, m)] := rfl
      rw [this, b2, List.append_assoc]
      rw [List.flatMap_cons] at ur
      exact ur.sublist ((List.Sublist.refl _).append (b1.append (List.Sublist.refl _)))
    have step : (LiveNamesDistinct (rs.edit m e).1.mappingRules ∧ LiveNamesDistinct (rs.edit m e).1.rollupRules) ↔
        ((rs.edit m e).2 = true → FreshName rs e) := by
      cases hs : (rs.edit m e).2 with
      | true =>
        rw [C49_edit_exact rs e m (um.sublist (List.sublist_append_left _ _)) (ur.sublist (List.sublist_append_left _ _)) hm hr hs]
        simp
      | false => rw [edit_fail rs m e hs]; simp [hm, hr]
    constructor
    · intro h
      have h1 := h 1
      have h1' := step.mp h1
      exact ⟨h1', (C49_exact es _ um' ur' h1.1 h1.2).mp fun k => h (k + 1)⟩
    · rintro ⟨h1, h2⟩ k
      have hl := step.mpr h1
      cases k with
      | zero => exact ⟨hm, hr⟩
      | succ k => exact (C49_exact es _ um' ur' hl.1 hl.2).mpr h2 k

/-- Two rules change names by way of a third name, and a name of a deleted rule is used again: all is well. -/
def exSwap : List (Edit × UpdateMeta) := exTwo ++
  [(.updateMapping (bs "1") (exData "t" "city:sf"), exMeta 30), (.updateMapping (bs "2") (exData "a" "city:nyc"), exMeta 40),
   (.updateMapping (bs "1") (exData "b" "city:sf"), exMeta 50), (.deleteMapping (bs "2"), exMeta 60),
   (.updateMapping (bs "1") (exData "a" "city:sf"), exMeta 70)]

example : AllSucceed exEmpty exSwap ∧ (exEmpty.mappingRules.map (·.uuid) ++ exSwap.flatMap fun e => e.1.newMappingIDs).Nodup ∧
    LiveNamesDistinct (exEmpty.run exSwap).mappingRules ∧ ¬ (exEmpty.run exSwap).mappingRules.Pairwise (fun a b => a.name ≠ b.name) := by
  decide +kernel

end Verif.RuleSet
