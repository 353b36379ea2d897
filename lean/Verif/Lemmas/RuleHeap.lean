import Verif.Model.RuleHeap
import Verif.Props.RuleSetEdits
/- Rule sets in memory refine rule sets as values. -/
namespace Verif.RuleHeap
open Verif.Agg Verif.Policy Verif.Meta Verif.Rules Verif.Active Verif.RuleSet

variable {S : Type} [Snap S] {D : Type}

/-- The pointers are to distinct existing objects. -/
structure Owned (cells : List (Rule S)) (ptrs : List Nat) : Prop where
  nodup : ptrs.Nodup
  valid : ∀ a ∈ ptrs, a < cells.length

/-- What an edit of the rules behind `ptrs` may do: change these objects, create new ones and point to them. -/
structure Step (cells : List (Rule S)) (ptrs : List Nat) (cells' : List (Rule S)) (ptrs' : List Nat) : Prop where
  owned : Owned cells' ptrs'
  mono : cells.length ≤ cells'.length
  frame : ∀ a < cells.length, a ∉ ptrs → cells'[a]? = cells[a]?
  own : ∀ a ∈ ptrs', a ∈ ptrs ∨ cells.length ≤ a

omit [Snap S] in
theorem Step.refl {cells : List (Rule S)} {ptrs : List Nat} (h : Owned cells ptrs) : Step cells ptrs cells ptrs :=
  ⟨h, Nat.le_refl _, fun _ _ _ => rfl, fun _ h => Or.inl h⟩

omit [Snap S] in
theorem deref_congr {cells cells' : List (Rule S)} {ptrs : List Nat} (h : ∀ a ∈ ptrs, cells'[a]? = cells[a]?) :
    deref cells' ptrs = deref cells ptrs := filterMap_congr' h

omit [Snap S] in
theorem deref_cons {cells : List (Rule S)} {a : Nat} {ptrs : List Nat} {r : Rule S} (h : cells[a]? = some r) :
    deref cells (a :: ptrs) = r :: deref cells ptrs := by
  unfold deref
  rw [List.filterMap_cons_some h]

omit [Snap S] in
theorem deref_getElem? {cells : List (Rule S)} : ∀ {ptrs : List Nat} (_ : ∀ a ∈ ptrs, a < cells.length) (i : Nat),
    (deref cells ptrs)[i]? = (ptrs[i]?).bind fun a => cells[a]?
  | [], _, i => by simp [deref]
  | a :: ptrs, h, i => by
    have ha := List.getElem?_eq_getElem (h a (by simp))
    rw [deref_cons ha]
    cases i with
    | zero => simp [ha]
    | succ i =>
      simp only [List.getElem?_cons_succ]
      exact deref_getElem? (fun b hb => h b (by simp [hb])) i

omit [Snap S] in
theorem deref_set {cells : List (Rule S)} {r : Rule S} : ∀ {ptrs : List Nat} (_ : Owned cells ptrs) {i a : Nat} (_ : ptrs[i]? = some a),
    deref (cells.set a r) ptrs = (deref cells ptrs).set i r
  | [], _, i, a, hi => by simp at hi
  | b :: ptrs, h, i, a, hi => by
    have hb := h.valid b (by simp)
    have hn := List.nodup_cons.mp h.nodup
    have htail : Owned cells ptrs := ⟨hn.2, fun c hc => h.valid c (by simp [hc])⟩
    cases i with
    | zero =>
      simp only [List.getElem?_cons_zero, Option.some.injEq] at hi
      subst hi
      rw [deref_cons (List.getElem?_eq_getElem hb), deref_cons (r := r) (by rw [List.getElem?_set_self hb]), List.set_cons_zero]
      congr 1
      apply deref_congr
      intro c hc
      rw [List.getElem?_set_ne]
      rintro rfl
      exact hn.1 hc
    | succ i =>
      simp only [List.getElem?_cons_succ] at hi
      have hne : a ≠ b := by
        rintro rfl
        exact hn.1 (List.mem_of_getElem? hi)
      rw [deref_cons (List.getElem?_eq_getElem hb),
        deref_cons (r := cells[b]) (by rw [List.getElem?_set_ne hne, List.getElem?_eq_getElem hb]), List.set_cons_succ,
        deref_set htail hi]

omit [Snap S] in
theorem deref_append {cells ext : List (Rule S)} {ptrs : List Nat} (h : ∀ a ∈ ptrs, a < cells.length) :
    deref (cells ++ ext) ptrs = deref cells ptrs :=
  deref_congr fun a ha => List.getElem?_append_left (h a ha)

omit [Snap S] in
theorem through_step {cells : List (Rule S)} {ptrs : List Nat} (h : Owned cells ptrs) (i : Nat) (f : Rule S → Rule S × Bool) :
    Step cells ptrs (through cells ptrs i f).1 (through cells ptrs i f).2.1 := by
  unfold through
  cases hi : ptrs[i]? with
  | none => exact Step.refl h
  | some a =>
    have ha := List.mem_of_getElem? hi
    simp only [List.getElem?_eq_getElem (h.valid a ha)]
    refine ⟨⟨h.nodup, by simpa using h.valid⟩, by simp, ?_, fun _ h => Or.inl h⟩
    intro b _ hb
    rw [List.getElem?_set_ne]
    rintro rfl
    exact hb ha

omit [Snap S] in
theorem through_eq {cells : List (Rule S)} {ptrs : List Nat} (h : Owned cells ptrs) {i : Nat} {r : Rule S}
    (hr : (deref cells ptrs)[i]? = some r) (f : Rule S → Rule S × Bool) :
    deref (through cells ptrs i f).1 (through cells ptrs i f).2.1 = (deref cells ptrs).set i (f r).1 ∧
    (through cells ptrs i f).2.2 = if (f r).2 then some r.uuid else none := by
  rw [deref_getElem? h.valid] at hr
  unfold through
  cases hi : ptrs[i]? with
  | none => simp [hi] at hr
  | some a =>
    simp only [hi, Option.bind_some] at hr
    simp only [hr]
    exact ⟨deref_set h hi, trivial⟩

theorem addRule_eq (k : Kit S D) {cells : List (Rule S)} {ptrs : List Nat} (h : Owned cells ptrs) (fresh : Bytes) (d : D) (m : UpdateMeta) :
    Step cells ptrs (addRule k cells ptrs fresh d m).1 (addRule k cells ptrs fresh d m).2.1 ∧
    (deref (addRule k cells ptrs fresh d m).1 (addRule k cells ptrs fresh d m).2.1, (addRule k cells ptrs fresh d m).2.2) =
      RuleSet.addRule k (deref cells ptrs) fresh d m := by
  unfold addRule RuleSet.addRule
  cases hg : getRuleByName k.strict (k.nameOf d) (deref cells ptrs) with
  | none => exact ⟨Step.refl h, rfl⟩
  | some o =>
    cases o with
    | none =>
      simp only
      split
      · refine ⟨⟨⟨?_, ?_⟩, by simp, ?_, ?_⟩, ?_⟩
        · rw [List.nodup_append]
          refine ⟨h.nodup, by simp, ?_⟩
          intro a ha b hb
          simp only [List.mem_singleton] at hb
          have := h.valid a ha
          omega
        · intro a ha
          simp only [List.length_append, List.length_singleton]
          rcases List.mem_append.mp ha with ha | ha
          · have := h.valid a ha; omega
          · simp only [List.mem_singleton] at ha; omega
        · intro a ha _
          exact List.getElem?_append_left ha
        · intro a ha
          rcases List.mem_append.mp ha with ha | ha
          · exact Or.inl ha
          · simp only [List.mem_singleton] at ha; exact Or.inr (by omega)
        · have : deref (cells ++ [(k.add ⟨fresh, []⟩ d m).1]) (ptrs ++ [cells.length]) =
              deref cells ptrs ++ [(k.add ⟨fresh, []⟩ d m).1] := by
            unfold deref
            rw [List.filterMap_append]
            congr 1
            · exact deref_append h.valid
            · simp
          rw [this]
      · exact ⟨Step.refl h, rfl⟩
    | some i =>
      obtain ⟨r, hr, _⟩ := getRuleByName_some hg
      simp only [hr]
      obtain ⟨h1, h2⟩ := through_eq h hr fun r => revive k.add r d m
      refine ⟨through_step h i _, ?_⟩
      rw [h1, h2]

theorem updateRule_eq (k : Kit S D) {cells : List (Rule S)} {ptrs : List Nat} (h : Owned cells ptrs) (id : Bytes) (d : D) (m : UpdateMeta) :
    Step cells ptrs (updateRule k cells ptrs id d m).1 (updateRule k cells ptrs id d m).2.1 ∧
    (deref (updateRule k cells ptrs id d m).1 (updateRule k cells ptrs id d m).2.1, (updateRule k cells ptrs id d m).2.2.isSome) =
      RuleSet.updateRule k (deref cells ptrs) id d m := by
  unfold updateRule RuleSet.updateRule
  cases hg : getRuleByID id (deref cells ptrs) with
  | none => exact ⟨Step.refl h, rfl⟩
  | some i =>
    obtain ⟨r, hr, _⟩ := getRuleByID_some hg
    simp only [hr]
    obtain ⟨h1, h2⟩ := through_eq h hr fun r => k.add r d m
    refine ⟨through_step h i _, ?_⟩
    rw [h1, h2]
    cases (k.add r d m).2 <;> rfl

theorem deleteRule_eq (k : Kit S D) {cells : List (Rule S)} {ptrs : List Nat} (h : Owned cells ptrs) (id : Bytes) (m : UpdateMeta) :
    Step cells ptrs (deleteRule k cells ptrs id m).1 (deleteRule k cells ptrs id m).2.1 ∧
    (deref (deleteRule k cells ptrs id m).1 (deleteRule k cells ptrs id m).2.1, (deleteRule k cells ptrs id m).2.2.isSome) =
      RuleSet.deleteRule k (deref cells ptrs) id m := by
  unfold deleteRule RuleSet.deleteRule
  cases hg : getRuleByID id (deref cells ptrs) with
  | none => exact ⟨Step.refl h, rfl⟩
  | some i =>
    obtain ⟨r, hr, _⟩ := getRuleByID_some hg
    simp only [hr]
    obtain ⟨h1, h2⟩ := through_eq h hr fun r => markTombstoned k.tomb r m
    refine ⟨through_step h i _, ?_⟩
    rw [h1, h2]
    cases (markTombstoned k.tomb r m).2 <;> rfl

theorem deleteAll_get (k : Kit S D) (m : UpdateMeta) : ∀ (ptrs : List Nat) (cells : List (Rule S)), ptrs.Nodup →
    (deleteAll k cells ptrs m).length = cells.length ∧
    ∀ a, (deleteAll k cells ptrs m)[a]? = if a ∈ ptrs then
      (cells[a]?).map (fun r => if !r.tombstoned then (markTombstoned k.tomb r m).1 else r) else cells[a]?
  | [], cells, _ => by simp [deleteAll]
  | b :: ptrs, cells, hn => by
    obtain ⟨h1, h2⟩ := List.nodup_cons.mp hn
    unfold deleteAll
    rw [List.foldl_cons]
    cases hb : cells[b]? with
    | none =>
      simp only
      obtain ⟨i1, i2⟩ := deleteAll_get k m ptrs cells h2
      refine ⟨i1, fun a => ?_⟩
      rw [show List.foldl _ cells ptrs = deleteAll k cells ptrs m from rfl, i2]
      by_cases hab : a = b
      · subst hab
        simp [h1, hb]
      · simp [hab]
    | some r =>
      simp only
      cases ht : r.tombstoned with
      | true =>
        simp only [Bool.not_true, Bool.false_eq_true, if_false]
        obtain ⟨i1, i2⟩ := deleteAll_get k m ptrs cells h2
        refine ⟨i1, fun a => ?_⟩
        rw [show List.foldl _ cells ptrs = deleteAll k cells ptrs m from rfl, i2]
        by_cases hab : a = b
        · subst hab
          simp [h1, hb, ht]
        · simp [hab]
      | false =>
        simp only [Bool.not_false, if_true]
        obtain ⟨i1, i2⟩ := deleteAll_get k m ptrs (cells.set b (markTombstoned k.tomb r m).1) h2
        refine ⟨by rw [show List.foldl _ _ ptrs = deleteAll k _ ptrs m from rfl, i1]; simp, fun a => ?_⟩
        rw [show List.foldl _ _ ptrs = deleteAll k _ ptrs m from rfl, i2]
        have hlt : b < cells.length := by
          rcases Nat.lt_or_ge b cells.length with h | h
          · exact h
          · rw [List.getElem?_eq_none h] at hb; cases hb
        by_cases hab : a = b
        · subst hab
          rw [if_neg h1, List.getElem?_set_self hlt, hb]
          simp [ht]
        · rw [List.getElem?_set_ne (Ne.symm hab)]
          simp [hab]

theorem deleteAll_eq (k : Kit S D) {cells : List (Rule S)} {ptrs : List Nat} (h : Owned cells ptrs) (m : UpdateMeta) :
    Step cells ptrs (deleteAll k cells ptrs m) ptrs ∧
    deref (deleteAll k cells ptrs m) ptrs = RuleSet.deleteAll k (deref cells ptrs) m := by
  obtain ⟨h1, h2⟩ := deleteAll_get k m ptrs cells h.nodup
  refine ⟨⟨⟨h.nodup, by rw [h1]; exact h.valid⟩, by omega, ?_, fun _ h => Or.inl h⟩, ?_⟩
  · intro a _ ha
    rw [h2, if_neg ha]
  · unfold deref RuleSet.deleteAll
    rw [List.map_filterMap]
    apply filterMap_congr'
    intro a ha
    rw [h2, if_pos ha]

/-- Making copies: the memory only grows, the new objects are read as the copies. -/
theorem cloneRules_eq (f : S → S) : ∀ (ptrs : List Nat) (cells : List (Rule S)), (∀ a ∈ ptrs, a < cells.length) →
    (∃ ext, (cloneRules f ptrs cells).1 = cells ++ ext ∧ (cloneRules f ptrs cells).2 = (List.range' cells.length ext.length)) ∧
    deref (cloneRules f ptrs cells).1 (cloneRules f ptrs cells).2 = (deref cells ptrs).map (cloneRule f)
  | [], cells, _ => ⟨⟨[], by simp [cloneRules], by simp [cloneRules]⟩, rfl⟩
  | a :: ptrs, cells, h => by
    have hlt : a < cells.length := h a (by simp)
    have ha := List.getElem?_eq_getElem hlt
    have ih := cloneRules_eq f ptrs (cells ++ [cloneRule f cells[a]]) (fun b hb => by
      have := h b (by simp [hb]); simp; omega)
    obtain ⟨⟨ext, e1, e2⟩, e3⟩ := ih
    have htail : ∀ b ∈ ptrs, b < cells.length := fun b hb => h b (by simp [hb])
    simp only [cloneRules, ha]
    refine ⟨⟨cloneRule f cells[a] :: ext, by rw [e1]; simp, ?_⟩, ?_⟩
    · rw [e2]
      simp [List.range'_succ]
    · rw [deref_cons ha, List.map_cons, deref_cons (r := cloneRule f cells[a]) (by rw [e1]; simp), e3, deref_append htail]

/-- Taking the active rules: the memory only grows, every rule is read as its active part. -/
theorem activeRules_eq (t : Int) : ∀ (ptrs : List Nat) (cells : List (Rule S)), (∀ a ∈ ptrs, a < cells.length) →
    (∃ ext, (activeRules t ptrs cells).1 = cells ++ ext) ∧
    deref (activeRules t ptrs cells).1 (activeRules t ptrs cells).2 = (deref cells ptrs).map (fun r => r.activeRule t) ∧
    (∀ a ∈ (activeRules t ptrs cells).2, (a < (activeRules t ptrs cells).1.length) ∧
      (cells.length ≤ a ∨ (a ∈ ptrs ∧ ∃ r, cells[a]? = some r ∧ r.activeIndex t = 0)))
  | [], cells, _ => ⟨⟨[], by simp [activeRules]⟩, rfl, by simp [activeRules]⟩
  | a :: ptrs, cells, h => by
    have hlt : a < cells.length := h a (by simp)
    have ha := List.getElem?_eq_getElem hlt
    have htail : ∀ b ∈ ptrs, b < cells.length := fun b hb => h b (by simp [hb])
    simp only [activeRules, ha]
    cases hk : Rule.activeIndex cells[a] t with
    | zero =>
      simp only
      obtain ⟨⟨ext, e1⟩, e2, e3⟩ := activeRules_eq t ptrs cells htail
      refine ⟨⟨ext, e1⟩, ?_, ?_⟩
      · rw [deref_cons ha, List.map_cons, deref_cons (r := cells[a]) (by
          rw [e1, List.getElem?_append_left (h a (by simp)), ha]), e2]
        congr 1
        simp [Rule.activeRule, hk]
      · intro b hb
        rcases List.mem_cons.mp hb with rfl | hb
        · refine ⟨?_, Or.inr ⟨by simp, _, ha, hk⟩⟩
          have := h b (by simp)
          rw [e1]; simp; omega
        · obtain ⟨k1, k2⟩ := e3 b hb
          exact ⟨k1, k2.imp_right fun ⟨x, y⟩ => ⟨List.mem_cons_of_mem _ x, y⟩⟩
    | succ k =>
      simp only
      have ih := activeRules_eq t ptrs (cells ++ [{ uuid := cells[a].uuid, snapshots := cells[a].snapshots.drop k }])
        (fun b hb => by have := htail b hb; simp; omega)
      obtain ⟨⟨ext, e1⟩, e2, e3⟩ := ih
      refine ⟨⟨_ :: ext, by rw [e1, List.append_assoc]; rfl⟩, ?_, ?_⟩
      · rw [deref_cons ha, List.map_cons,
          deref_cons (r := { uuid := cells[a].uuid, snapshots := cells[a].snapshots.drop k }) (by rw [e1]; simp), e2,
          deref_append htail]
        congr 1
        simp [Rule.activeRule, hk]
      · intro b hb
        rcases List.mem_cons.mp hb with rfl | hb
        · refine ⟨?_, Or.inl (Nat.le_refl _)⟩
          rw [e1]; simp
        · obtain ⟨k1, k2⟩ := e3 b hb
          refine ⟨k1, ?_⟩
          rcases k2 with k2 | ⟨x, r, y, z⟩
          · simp only [List.length_append, List.length_singleton] at k2
            exact Or.inl (by omega)
          · refine Or.inr ⟨List.mem_cons_of_mem _ x, r, ?_, z⟩
            rw [List.getElem?_append_left (htail b x)] at y
            exact y

end Verif.RuleHeap
