import Verif.Lemmas.RuleHeap
import Verif.Lemmas.M3Env
/-
C69 (independence of clones) and C71 (active sets are not affected by later edits), with rules as objects in memory.
-/
namespace Verif.RuleHeap
open Verif.Agg Verif.Policy Verif.Meta Verif.Rules Verif.Active Verif.RuleSet

/-! ### The memory with several rule sets, and what its users expect -/

/-- The memory, the rule sets made so far and the active sets taken so far. -/
structure World where
  heap : Heap
  sets : List Obj
  actives : List ActiveObj

/-- What a program does: edit one of the rule sets, clone one, take the active set of one. -/
inductive Act where
  | edit (i : Nat) (e : Edit) (m : UpdateMeta)
  | clone (i : Nat)
  | activate (i : Nat) (t : Int)

def World.step (w : World) : Act → World
  | .edit i e m => match w.sets[i]? with
    | none => w
    | some rs => { w with heap := (RuleHeap.edit w.heap rs m e).1, sets := w.sets.set i (RuleHeap.edit w.heap rs m e).2.1 }
  | .clone i => match w.sets[i]? with
    | none => w
    | some rs => { w with heap := (RuleHeap.clone w.heap rs).1, sets := w.sets ++ [(RuleHeap.clone w.heap rs).2] }
  | .activate i t => match w.sets[i]? with
    | none => w
    | some rs => { w with heap := (activeSet w.heap rs t).1, actives := w.actives ++ [(activeSet w.heap rs t).2] }

def World.run (w : World) (acts : List Act) : World := acts.foldl World.step w

/-- Specification: rule sets and active sets as values, each changed only by the edits made to it. -/
structure Values where
  sets : List RuleSet
  actives : List ActiveRuleSet

def Values.step (v : Values) : Act → Values
  | .edit i e m => match v.sets[i]? with
    | none => v
    | some rs => { v with sets := v.sets.set i (rs.edit m e).1 }
  | .clone i => match v.sets[i]? with
    | none => v
    | some rs => { v with sets := v.sets ++ [rs.clone] }
  | .activate i t => match v.sets[i]? with
    | none => v
    | some rs => { v with actives := v.actives ++ [rs.activeSet t] }

def Values.run (v : Values) (acts : List Act) : Values := acts.foldl Values.step v

/-- The values in a memory. -/
def World.sets' (w : World) : List RuleSet := w.sets.map (Obj.read w.heap)
def World.actives' (w : World) : List ActiveRuleSet := w.actives.map (ActiveObj.read w.heap)

/-- A rule set owns its rules. -/
structure OwnedSet (h : Heap) (rs : Obj) : Prop where
  mapping : Owned h.mapping rs.mappingRules
  rollup : Owned h.rollup rs.rollupRules

/-- No rule is shared. -/
def Apart (ms rr : List Nat) (b : Obj) : Prop :=
  (∀ a ∈ ms, a ∉ b.mappingRules) ∧ (∀ a ∈ rr, a ∉ b.rollupRules)

/-- Every rule set owns its rules and no two share one; true of a rule set just read from storage. -/
structure World.OK (w : World) : Prop where
  owned : ∀ rs ∈ w.sets, OwnedSet w.heap rs
  apart : w.sets.Pairwise fun a b => Apart a.mappingRules a.rollupRules b

/-! ### Edits in memory -/

/-- One edit in memory: it is the edit of the value, and touches nothing but the rule set's own rules. -/
theorem edit_eq {h : Heap} {rs : Obj} (ho : OwnedSet h rs) (m : UpdateMeta) (e : Edit) :
    Step h.mapping rs.mappingRules (edit h rs m e).1.mapping (edit h rs m e).2.1.mappingRules ∧
    Step h.rollup rs.rollupRules (edit h rs m e).1.rollup (edit h rs m e).2.1.rollupRules ∧
    ((edit h rs m e).2.1.read (edit h rs m e).1, (edit h rs m e).2.2) = (rs.read h).edit m e := by
  have rm := Step.refl ho.mapping
  have rr := Step.refl ho.rollup
  cases e with
  | addMapping f d =>
    obtain ⟨h1, h2⟩ := addRule_eq mappingKit ho.mapping f d m
    have e1 := congrArg Prod.fst h2
    have e2 := congrArg Prod.snd h2
    simp only at e1 e2
    simp only [edit, finishM, RuleSet.edit, RuleSet.addMappingRule, Obj.read, ← e1, ← e2]
    cases (addRule mappingKit h.mapping rs.mappingRules f d m).2.2 <;> exact ⟨h1, rr, rfl⟩
  | updateMapping id d =>
    obtain ⟨h1, h2⟩ := updateRule_eq mappingKit ho.mapping id d m
    have e1 := congrArg Prod.fst h2
    have e2 := congrArg Prod.snd h2
    simp only at e1 e2
    simp only [edit, finishM, RuleSet.edit, RuleSet.updateMappingRule, Obj.read, ← e1, ← e2]
    cases (updateRule mappingKit h.mapping rs.mappingRules id d m).2.2 <;> exact ⟨h1, rr, rfl⟩
  | deleteMapping id =>
    obtain ⟨h1, h2⟩ := deleteRule_eq mappingKit ho.mapping id m
    have e1 := congrArg Prod.fst h2
    have e2 := congrArg Prod.snd h2
    simp only at e1 e2
    simp only [edit, finishM, RuleSet.edit, RuleSet.deleteMappingRule, Obj.read, ← e1, ← e2]
    cases (deleteRule mappingKit h.mapping rs.mappingRules id m).2.2 <;> exact ⟨h1, rr, rfl⟩
  | addRollup f d =>
    obtain ⟨h1, h2⟩ := addRule_eq rollupKit ho.rollup f d m
    have e1 := congrArg Prod.fst h2
    have e2 := congrArg Prod.snd h2
    simp only at e1 e2
    simp only [edit, finishR, RuleSet.edit, RuleSet.addRollupRule, Obj.read, ← e1, ← e2]
    cases (addRule rollupKit h.rollup rs.rollupRules f d m).2.2 <;> exact ⟨rm, h1, rfl⟩
  | updateRollup id d =>
    obtain ⟨h1, h2⟩ := updateRule_eq rollupKit ho.rollup id d m
    have e1 := congrArg Prod.fst h2
    have e2 := congrArg Prod.snd h2
    simp only at e1 e2
    simp only [edit, finishR, RuleSet.edit, RuleSet.updateRollupRule, Obj.read, ← e1, ← e2]
    cases (updateRule rollupKit h.rollup rs.rollupRules id d m).2.2 <;> exact ⟨rm, h1, rfl⟩
  | deleteRollup id =>
    obtain ⟨h1, h2⟩ := deleteRule_eq rollupKit ho.rollup id m
    have e1 := congrArg Prod.fst h2
    have e2 := congrArg Prod.snd h2
    simp only at e1 e2
    simp only [edit, finishR, RuleSet.edit, RuleSet.deleteRollupRule, Obj.read, ← e1, ← e2]
    cases (deleteRule rollupKit h.rollup rs.rollupRules id m).2.2 <;> exact ⟨rm, h1, rfl⟩
  | delete =>
    obtain ⟨m1, m2⟩ := deleteAll_eq mappingKit ho.mapping m
    obtain ⟨r1, r2⟩ := deleteAll_eq rollupKit ho.rollup m
    have e0 : (rs.read h).tombstoned = rs.tombstoned := rfl
    simp only [edit, RuleSet.edit, RuleSet.delete, e0]
    by_cases ht : rs.tombstoned = true
    · simp only [if_pos ht]
      exact ⟨rm, rr, trivial⟩
    · simp only [if_neg ht]
      refine ⟨m1, r1, ?_⟩
      simp only [Obj.updateMetadata, RuleSet.updateMetadata, Obj.read, m2, r2]
  | revive =>
    have e0 : (rs.read h).tombstoned = rs.tombstoned := rfl
    simp only [edit, RuleSet.edit, RuleSet.revive, e0]
    by_cases ht : (!rs.tombstoned) = true
    · simp only [if_pos ht]
      exact ⟨rm, rr, trivial⟩
    · simp only [if_neg ht]
      exact ⟨rm, rr, rfl⟩

/-! ### Other rule sets are not affected -/

/-- The memory behind `keep` is the same. -/
structure SameAt (h h' : Heap) (ms rr : List Nat) : Prop where
  mapping : ∀ a ∈ ms, h'.mapping[a]? = h.mapping[a]?
  rollup : ∀ a ∈ rr, h'.rollup[a]? = h.rollup[a]?
  mlen : h.mapping.length ≤ h'.mapping.length
  rlen : h.rollup.length ≤ h'.rollup.length

theorem SameAt.read {h h' : Heap} {rs : Obj} (s : SameAt h h' rs.mappingRules rs.rollupRules) : rs.read h' = rs.read h := by
  unfold Obj.read
  rw [deref_congr s.mapping, deref_congr s.rollup]

theorem SameAt.readActive {h h' : Heap} {as : ActiveObj} (s : SameAt h h' as.mappingRules as.rollupRules) :
    as.read h' = as.read h := by
  unfold ActiveObj.read
  rw [deref_congr s.mapping, deref_congr s.rollup]

theorem SameAt.owned {h h' : Heap} {rs : Obj} (s : SameAt h h' rs.mappingRules rs.rollupRules) (ho : OwnedSet h rs) : OwnedSet h' rs :=
  ⟨⟨ho.mapping.nodup, fun a ha => Nat.lt_of_lt_of_le (ho.mapping.valid a ha) s.mlen⟩,
   ⟨ho.rollup.nodup, fun a ha => Nat.lt_of_lt_of_le (ho.rollup.valid a ha) s.rlen⟩⟩

/-- Pointers to existing objects of a memory. -/
structure Valid (h : Heap) (ms rr : List Nat) : Prop where
  mapping : ∀ a ∈ ms, a < h.mapping.length
  rollup : ∀ a ∈ rr, a < h.rollup.length

theorem OwnedSet.toValid {h : Heap} {rs : Obj} (ho : OwnedSet h rs) : Valid h rs.mappingRules rs.rollupRules :=
  ⟨ho.mapping.valid, ho.rollup.valid⟩

theorem sameAt_edit {h : Heap} {rs : Obj} (ho : OwnedSet h rs) (m : UpdateMeta) (e : Edit) {ms rr : List Nat}
    (hv : Valid h ms rr) (hd : Apart ms rr rs) : SameAt h (edit h rs m e).1 ms rr := by
  obtain ⟨h1, h2, _⟩ := edit_eq ho m e
  exact ⟨fun a ha => h1.frame a (hv.mapping a ha) (hd.1 a ha), fun a ha => h2.frame a (hv.rollup a ha) (hd.2 a ha), h1.mono, h2.mono⟩

theorem sameAt_ext {h h' : Heap} {em : List MappingRule} {er : List RollupRule} (e1 : h'.mapping = h.mapping ++ em)
    (e2 : h'.rollup = h.rollup ++ er) {ms rr : List Nat} (hv : Valid h ms rr) : SameAt h h' ms rr :=
  ⟨fun a ha => by rw [e1, List.getElem?_append_left (hv.mapping a ha)],
   fun a ha => by rw [e2, List.getElem?_append_left (hv.rollup a ha)], by simp [e1], by simp [e2]⟩

theorem clone_eq {h : Heap} {rs : Obj} (ho : OwnedSet h rs) :
    (∃ em er, (clone h rs).1.mapping = h.mapping ++ em ∧ (clone h rs).1.rollup = h.rollup ++ er) ∧
    OwnedSet (clone h rs).1 (clone h rs).2 ∧
    (∀ a ∈ (clone h rs).2.mappingRules, h.mapping.length ≤ a) ∧ (∀ a ∈ (clone h rs).2.rollupRules, h.rollup.length ≤ a) ∧
    (clone h rs).2.read (clone h rs).1 = (rs.read h).clone := by
  obtain ⟨⟨em, m1, m2⟩, m3⟩ := cloneRules_eq cloneMappingSnapshot rs.mappingRules h.mapping ho.mapping.valid
  obtain ⟨⟨er, r1, r2⟩, r3⟩ := cloneRules_eq cloneRollupSnapshot rs.rollupRules h.rollup ho.rollup.valid
  refine ⟨⟨em, er, m1, r1⟩, ⟨⟨?_, ?_⟩, ?_, ?_⟩, ?_, ?_, ?_⟩
  · simp only [clone, m2]; exact List.nodup_range'
  · simp only [clone, m1, m2]
    intro a ha
    simp only [List.mem_range'_1] at ha
    simp only [List.length_append]; omega
  · simp only [clone, r2]; exact List.nodup_range'
  · simp only [clone, r1, r2]
    intro a ha
    simp only [List.mem_range'_1] at ha
    simp only [List.length_append]; omega
  · simp only [clone, m2]
    intro a ha
    simp only [List.mem_range'_1] at ha; omega
  · simp only [clone, r2]
    intro a ha
    simp only [List.mem_range'_1] at ha; omega
  · simp only [clone, Obj.read, RuleSet.clone, m3, r3]

theorem activeSet_eq {h : Heap} {rs : Obj} (ho : OwnedSet h rs) (t : Int) :
    (∃ em er, (activeSet h rs t).1.mapping = h.mapping ++ em ∧ (activeSet h rs t).1.rollup = h.rollup ++ er) ∧
    (activeSet h rs t).2.read (activeSet h rs t).1 = (rs.read h).activeSet t := by
  obtain ⟨⟨em, m1⟩, m2, _⟩ := activeRules_eq t rs.mappingRules h.mapping ho.mapping.valid
  obtain ⟨⟨er, r1⟩, r2, _⟩ := activeRules_eq t rs.rollupRules h.rollup ho.rollup.valid
  refine ⟨⟨em, er, m1, r1⟩, ?_⟩
  simp only [activeSet, ActiveObj.read, RuleSet.activeSet, Obj.read, m2, r2]
  rfl

/-! ### C69 -/

theorem apart_of {l : List Obj} (h : l.Pairwise fun a b => Apart a.mappingRules a.rollupRules b) {i j : Nat} {a b : Obj}
    (hi : l[i]? = some a) (hj : l[j]? = some b) (hij : i ≠ j) : Apart b.mappingRules b.rollupRules a := by
  obtain ⟨hi', rfl⟩ := List.getElem?_eq_some_iff.mp hi
  obtain ⟨hj', rfl⟩ := List.getElem?_eq_some_iff.mp hj
  rcases Nat.lt_or_gt_of_ne hij with h' | h'
  · have := List.pairwise_iff_getElem.mp h i j hi' hj' h'
    exact ⟨fun x hx hx' => this.1 x hx' hx, fun x hx hx' => this.2 x hx' hx⟩
  · exact List.pairwise_iff_getElem.mp h j i hj' hi' h'

theorem map_set_congr {α β : Type} {f g : α → β} : ∀ {l : List α} {i : Nat} {x : α},
    (∀ j y, j ≠ i → l[j]? = some y → f y = g y) → i < l.length → (l.set i x).map f = (l.map g).set i (f x)
  | [], i, x, _, hi => by simp at hi
  | a :: l, 0, x, h, _ => by
    simp only [List.set_cons_zero, List.map_cons, List.cons.injEq, true_and]
    apply List.map_congr_left
    intro y hy
    obtain ⟨j, hj⟩ := List.getElem?_of_mem hy
    exact h (j + 1) y (by omega) (by simpa using hj)
  | a :: l, i + 1, x, h, hi => by
    simp only [List.set_cons_succ, List.map_cons]
    rw [h 0 a (by omega) rfl, map_set_congr (fun j y hj hy => h (j + 1) y (by omega) (by simpa using hy)) (by simpa using hi)]

theorem step_sets {w : World} (ok : w.OK) (act : Act) {acts : List ActiveRuleSet} :
    (w.step act).OK ∧ (w.step act).sets' = (Values.step ⟨w.sets', acts⟩ act).sets := by
  cases act with
  | edit i e m =>
    simp only [World.step, Values.step, World.sets', List.getElem?_map]
    cases hi : w.sets[i]? with
    | none => exact ⟨ok, rfl⟩
    | some rs =>
      have hlt : i < w.sets.length := (List.getElem?_eq_some_iff.mp hi).1
      have ho := ok.owned rs (List.mem_of_getElem? hi)
      obtain ⟨h1, h2, h3⟩ := edit_eq ho m e
      have other : ∀ j b, j ≠ i → w.sets[j]? = some b → SameAt w.heap (edit w.heap rs m e).1 b.mappingRules b.rollupRules :=
        fun j b hj hb => sameAt_edit ho m e (ok.owned b (List.mem_of_getElem? hb)).toValid (apart_of ok.apart hi hb (Ne.symm hj))
      have new : ∀ j b, j ≠ i → w.sets[j]? = some b → Apart b.mappingRules b.rollupRules (edit w.heap rs m e).2.1 := by
        intro j b hj hb
        have hd := apart_of ok.apart hi hb (Ne.symm hj)
        have hb' := ok.owned b (List.mem_of_getElem? hb)
        refine ⟨fun a ha ha' => ?_, fun a ha ha' => ?_⟩
        · rcases h1.own a ha' with h | h
          · exact hd.1 a ha h
          · have := hb'.mapping.valid a ha; omega
        · rcases h2.own a ha' with h | h
          · exact hd.2 a ha h
          · have := hb'.rollup.valid a ha; omega
      refine ⟨⟨?_, ?_⟩, ?_⟩
      · intro b hb
        simp only at hb ⊢
        obtain ⟨j, hj⟩ := List.getElem?_of_mem hb
        rw [List.getElem?_set] at hj
        split at hj
        · cases hj; exact ⟨h1.owned, h2.owned⟩
        · exact (other j b (by omega) hj).owned (ok.owned b (List.mem_of_getElem? hj))
      · simp only
        rw [List.pairwise_iff_getElem]
        intro j k hj hk hjk
        simp only [List.length_set] at hj hk
        simp only [List.getElem_set]
        by_cases h1 : i = j
        · subst h1
          rw [if_pos rfl, if_neg (by omega)]
          have := new k w.sets[k] (by omega) (List.getElem?_eq_getElem hk)
          exact ⟨fun x hx hx' => this.1 x hx' hx, fun x hx hx' => this.2 x hx' hx⟩
        · rw [if_neg h1]
          by_cases h2 : i = k
          · subst h2
            rw [if_pos rfl]
            exact new j w.sets[j] (by omega) (List.getElem?_eq_getElem hj)
          · rw [if_neg h2]
            exact List.pairwise_iff_getElem.mp ok.apart j k hj hk hjk
      · simp only [Option.map_some]
        rw [map_set_congr (g := Obj.read w.heap) (fun j y hj hy => (other j y hj hy).read) hlt]
        rw [show Obj.read _ (edit w.heap rs m e).2.1 = _ from congrArg Prod.fst h3]
  | clone i =>
    simp only [World.step, Values.step, World.sets', List.getElem?_map]
    cases hi : w.sets[i]? with
    | none => exact ⟨ok, rfl⟩
    | some rs =>
      have ho := ok.owned rs (List.mem_of_getElem? hi)
      obtain ⟨⟨em, er, e1, e2⟩, h1, h2, h3, h4⟩ := clone_eq ho
      have other : ∀ b ∈ w.sets, SameAt w.heap (clone w.heap rs).1 b.mappingRules b.rollupRules :=
        fun b hb => sameAt_ext e1 e2 (ok.owned b hb).toValid
      refine ⟨⟨?_, ?_⟩, ?_⟩
      · intro b hb
        simp only at hb ⊢
        rcases List.mem_append.mp hb with hb | hb
        · exact (other b hb).owned (ok.owned b hb)
        · rw [List.mem_singleton] at hb
          subst hb
          exact h1
      · simp only
        rw [List.pairwise_append]
        refine ⟨ok.apart, List.pairwise_singleton _ _, ?_⟩
        intro b hb c hc
        rw [List.mem_singleton] at hc
        subst hc
        have := ok.owned b hb
        exact ⟨fun a ha ha' => by have := this.mapping.valid a ha; have := h2 a ha'; omega,
          fun a ha ha' => by have := this.rollup.valid a ha; have := h3 a ha'; omega⟩
      · simp only [Option.map_some, List.map_append, List.map_cons, List.map_nil, h4]
        congr 1
        exact List.map_congr_left fun b hb => (other b hb).read
  | activate i t =>
    simp only [World.step, Values.step, World.sets', List.getElem?_map]
    cases hi : w.sets[i]? with
    | none => exact ⟨ok, rfl⟩
    | some rs =>
      have ho := ok.owned rs (List.mem_of_getElem? hi)
      obtain ⟨⟨em, er, e1, e2⟩, _⟩ := activeSet_eq ho t
      have other : ∀ b ∈ w.sets, SameAt w.heap (activeSet w.heap rs t).1 b.mappingRules b.rollupRules :=
        fun b hb => sameAt_ext e1 e2 (ok.owned b hb).toValid
      refine ⟨⟨fun b hb => (other b hb).owned (ok.owned b hb), ok.apart⟩, ?_⟩
      simp only [Option.map_some]
      exact List.map_congr_left fun b hb => (other b hb).read

/-- The rule sets of the specification do not depend on the active sets. -/
theorem values_sets (v v' : Values) (h : v.sets = v'.sets) (act : Act) : (v.step act).sets = (v'.step act).sets := by
  cases act <;> simp only [Values.step, h] <;> split <;> simp only [h]

theorem values_run_sets : ∀ (acts : List Act) (v v' : Values), v.sets = v'.sets → (v.run acts).sets = (v'.run acts).sets
  | [], _, _, h => h
  | act :: acts, v, v', h => values_run_sets acts _ _ (values_sets v v' h act)

/-- **C69** (independence): in any program of edits, clonings and activations, however interleaved, every rule set and
every clone is at all times what its own edits made of it. -/
theorem C69_independent : ∀ (acts : List Act) {w : World}, w.OK →
    (w.run acts).OK ∧ (w.run acts).sets' = (Values.run ⟨w.sets', []⟩ acts).sets
  | [], _, ok => ⟨ok, rfl⟩
  | act :: acts, w, ok => by
    obtain ⟨ok', e⟩ := step_sets ok act (acts := [])
    obtain ⟨h1, h2⟩ := C69_independent acts ok'
    refine ⟨h1, ?_⟩
    have : w.run (act :: acts) = (w.step act).run acts := rfl
    rw [this, h2]
    exact values_run_sets acts _ _ e

/-- **C69**: edits on a clone leave the original as it is, and edits on the original leave the clone as it was made. -/
theorem C69_original_unchanged {w : World} (ok : w.OK) {i : Nat} {rs : Obj} (hi : w.sets[i]? = some rs)
    (es : List (Edit × UpdateMeta)) :
    let w' := (w.step (.clone i)).run (es.map fun e => .edit w.sets.length e.1 e.2)
    w'.sets'[i]? = some (rs.read w.heap) ∧ w'.sets'[w.sets.length]? = some ((rs.read w.heap).clone.run es) := by
  intro w'
  obtain ⟨_, h⟩ := C69_independent (.clone i :: es.map fun e => .edit w.sets.length e.1 e.2) ok
  have hw : w' = w.run (.clone i :: es.map fun e => .edit w.sets.length e.1 e.2) := rfl
  rw [hw, h]
  have hlt : i < w.sets.length := (List.getElem?_eq_some_iff.mp hi).1
  have hr : w.sets'[i]? = some (rs.read w.heap) := by simp [World.sets', hi]
  have hl : w.sets'.length = w.sets.length := by simp [World.sets']
  have gen : ∀ (es : List (Edit × UpdateMeta)) (v : Values) (c : RuleSet), v.sets[i]? = some (rs.read w.heap) →
      v.sets[w.sets.length]? = some c →
      (v.run (es.map fun e => .edit w.sets.length e.1 e.2)).sets[i]? = some (rs.read w.heap) ∧
      (v.run (es.map fun e => .edit w.sets.length e.1 e.2)).sets[w.sets.length]? = some (c.run es) := by
    intro es
    induction es with
    | nil => intro v c h1 h2; exact ⟨h1, h2⟩
    | cons e es ih =>
      intro v c h1 h2
      have := ih (v.step (.edit w.sets.length e.1 e.2)) (c.edit e.2 e.1).1
        (by simp only [Values.step, h2]; rw [List.getElem?_set_ne (by omega)]; exact h1)
        (by
          simp only [Values.step, h2]
          rw [List.getElem?_set_self (by have := (List.getElem?_eq_some_iff.mp h2).1; omega)])
      exact this
  have := gen es (Values.step ⟨w.sets', []⟩ (.clone i)) (rs.read w.heap).clone
    (by simp only [Values.step, hr]; rw [List.getElem?_append_left (by omega)]; exact hr)
    (by simp only [Values.step, hr]; rw [List.getElem?_append_right (by omega), hl]; simp)
  exact this

/-! ### C71 -/

/-- Every rule has a snapshot in effect at `t`. -/
def InEffect (rs : RuleSet) (t : Int) : Prop :=
  (∀ r ∈ rs.mappingRules, ∃ s ∈ r.snapshots, s.cutoverNanos ≤ t) ∧ (∀ r ∈ rs.rollupRules, ∃ s ∈ r.snapshots, s.cutoverNanos ≤ t)

/-- In the specification, active sets are taken only when every rule has a snapshot in effect. -/
def ActivatedInEffect : Values → List Act → Prop
  | _, [] => True
  | v, act :: acts =>
    (match act with
      | .activate i t => ∀ rs, v.sets[i]? = some rs → InEffect rs t
      | _ => True) ∧ ActivatedInEffect (v.step act) acts

/-- The active set shares no rule with a rule set. -/
structure Frozen (w : World) (as : ActiveObj) : Prop where
  valid : Valid w.heap as.mappingRules as.rollupRules
  apart : ∀ rs ∈ w.sets, Apart as.mappingRules as.rollupRules rs

theorem activeIndex_pos {S : Type} [Snap S] {r : Rule S} {t : Int} (h : ∃ s ∈ r.snapshots, Snap.cutover s ≤ t) : r.activeIndex t ≠ 0 := by
  intro h0
  have := activeIndexLoop_eq r.snapshots t r.snapshots.length (Nat.le_refl _)
  have e : activeIndexLoop r.snapshots t r.snapshots.length = 0 := h0
  rw [e, List.take_length] at this
  obtain ⟨s, hs, hc⟩ := h
  have hn := List.getLast?_eq_none_iff.mp this.symm
  have : s ∈ r.snapshots.filter fun s => decide (Snap.cutover s ≤ t) := List.mem_filter.mpr ⟨hs, by simpa using hc⟩
  rw [hn] at this
  cases this

theorem step_frozen {w : World} (ok : w.OK) (act : Act) (hact : match act with
      | .activate i t => ∀ rs, w.sets'[i]? = some rs → InEffect rs t
      | _ => True) (hf : ∀ as ∈ w.actives, Frozen w as) :
    (∀ as ∈ (w.step act).actives, Frozen (w.step act) as) ∧
    (w.step act).actives' = (Values.step ⟨w.sets', w.actives'⟩ act).actives := by
  cases act with
  | edit i e m =>
    simp only [World.step, Values.step, World.sets', World.actives', List.getElem?_map]
    cases hi : w.sets[i]? with
    | none => exact ⟨hf, rfl⟩
    | some rs =>
      have hmem := List.mem_of_getElem? hi
      have ho := ok.owned rs hmem
      obtain ⟨h1, h2, _⟩ := edit_eq ho m e
      have same : ∀ as ∈ w.actives, SameAt w.heap (edit w.heap rs m e).1 as.mappingRules as.rollupRules :=
        fun as ha => sameAt_edit ho m e (hf as ha).valid ((hf as ha).apart rs hmem)
      refine ⟨fun as ha => ⟨⟨?_, ?_⟩, ?_⟩, ?_⟩
      · exact fun a h => Nat.lt_of_lt_of_le ((hf as ha).valid.mapping a h) h1.mono
      · exact fun a h => Nat.lt_of_lt_of_le ((hf as ha).valid.rollup a h) h2.mono
      · intro b hb
        rcases List.mem_or_eq_of_mem_set hb with hb | rfl
        · exact (hf as ha).apart b hb
        · have hd := (hf as ha).apart rs hmem
          have hv := (hf as ha).valid
          refine ⟨fun a h h' => ?_, fun a h h' => ?_⟩
          · rcases h1.own a h' with h'' | h''
            · exact hd.1 a h h''
            · have := hv.mapping a h; omega
          · rcases h2.own a h' with h'' | h''
            · exact hd.2 a h h''
            · have := hv.rollup a h; omega
      · simp only [Option.map_some]
        exact List.map_congr_left fun as ha => (same as ha).readActive
  | clone i =>
    simp only [World.step, Values.step, World.sets', World.actives', List.getElem?_map]
    cases hi : w.sets[i]? with
    | none => exact ⟨hf, rfl⟩
    | some rs =>
      have ho := ok.owned rs (List.mem_of_getElem? hi)
      obtain ⟨⟨em, er, e1, e2⟩, h1, h2, h3, h4⟩ := clone_eq ho
      have same : ∀ as ∈ w.actives, SameAt w.heap (clone w.heap rs).1 as.mappingRules as.rollupRules :=
        fun as ha => sameAt_ext e1 e2 (hf as ha).valid
      refine ⟨fun as ha => ⟨⟨?_, ?_⟩, ?_⟩, ?_⟩
      · exact fun a h => Nat.lt_of_lt_of_le ((hf as ha).valid.mapping a h) (same as ha).mlen
      · exact fun a h => Nat.lt_of_lt_of_le ((hf as ha).valid.rollup a h) (same as ha).rlen
      · intro b hb
        rcases List.mem_append.mp hb with hb | hb
        · exact (hf as ha).apart b hb
        · rw [List.mem_singleton] at hb
          subst hb
          have hv := (hf as ha).valid
          exact ⟨fun a h h' => by have := hv.mapping a h; have := h2 a h'; omega,
            fun a h h' => by have := hv.rollup a h; have := h3 a h'; omega⟩
      · simp only [Option.map_some]
        exact List.map_congr_left fun as ha => (same as ha).readActive
  | activate i t =>
    simp only [World.sets', List.getElem?_map] at hact
    simp only [World.step, Values.step, World.sets', World.actives', List.getElem?_map]
    cases hi : w.sets[i]? with
    | none => exact ⟨hf, rfl⟩
    | some rs =>
      have ho := ok.owned rs (List.mem_of_getElem? hi)
      have heff := hact (rs.read w.heap) (by simp [hi])
      obtain ⟨⟨em, er, e1, e2⟩, hread⟩ := activeSet_eq ho t
      have same : ∀ {ms rr}, Valid w.heap ms rr → SameAt w.heap (activeSet w.heap rs t).1 ms rr := sameAt_ext e1 e2
      obtain ⟨_, _, m3⟩ := activeRules_eq t rs.mappingRules w.heap.mapping ho.mapping.valid
      obtain ⟨_, _, r3⟩ := activeRules_eq t rs.rollupRules w.heap.rollup ho.rollup.valid
      have newM : ∀ a ∈ (activeSet w.heap rs t).2.mappingRules, w.heap.mapping.length ≤ a := by
        intro a ha
        rcases (m3 a ha).2 with h | ⟨h, r, hr, h0⟩
        · exact h
        · exfalso
          refine activeIndex_pos (heff.1 r ?_) h0
          exact List.mem_filterMap.mpr ⟨a, h, hr⟩
      have newR : ∀ a ∈ (activeSet w.heap rs t).2.rollupRules, w.heap.rollup.length ≤ a := by
        intro a ha
        rcases (r3 a ha).2 with h | ⟨h, r, hr, h0⟩
        · exact h
        · exfalso
          refine activeIndex_pos (heff.2 r ?_) h0
          exact List.mem_filterMap.mpr ⟨a, h, hr⟩
      refine ⟨fun as ha => ?_, ?_⟩
      · rcases List.mem_append.mp ha with ha | ha
        · refine ⟨⟨?_, ?_⟩, (hf as ha).apart⟩
          · exact fun a h => Nat.lt_of_lt_of_le ((hf as ha).valid.mapping a h) (same (hf as ha).valid).mlen
          · exact fun a h => Nat.lt_of_lt_of_le ((hf as ha).valid.rollup a h) (same (hf as ha).valid).rlen
        · rw [List.mem_singleton] at ha
          subst ha
          refine ⟨⟨fun a h => (m3 a h).1, fun a h => (r3 a h).1⟩, fun b hb => ?_⟩
          have hv := (ok.owned b hb).toValid
          exact ⟨fun a h h' => by have := hv.mapping a h'; have := newM a h; omega,
            fun a h h' => by have := hv.rollup a h'; have := newR a h; omega⟩
      · simp only [Option.map_some, List.map_append, List.map_cons, List.map_nil, hread]
        congr 1
        exact List.map_congr_left fun as ha => (same (hf as ha).valid).readActive

theorem frozen_run : ∀ (acts : List Act) {w : World}, w.OK → (∀ as ∈ w.actives, Frozen w as) →
    ActivatedInEffect ⟨w.sets', w.actives'⟩ acts →
    (w.run acts).actives' = (Values.run ⟨w.sets', w.actives'⟩ acts).actives
  | [], _, _, _, _ => rfl
  | act :: acts, w, ok, hf, h => by
    obtain ⟨ok', e⟩ := step_sets ok act (acts := w.actives')
    obtain ⟨hf', e'⟩ := step_frozen ok act h.1 hf
    have hv : Values.step ⟨w.sets', w.actives'⟩ act = ⟨(w.step act).sets', (w.step act).actives'⟩ := by rw [e, e']
    have := frozen_run acts ok' hf' (by rw [← hv]; exact h.2)
    rw [← hv] at this
    exact this

/-- **C71**, for active sets taken when every rule has a snapshot in effect: in any program of edits, clonings and
activations every active set remains what it was when it was taken, so matching with it never depends on later edits.
Missing: rules without a snapshot in effect, see `C71_violated`. -/
theorem C71_frozen_partial (acts : List Act) {w : World} (ok : w.OK) (h0 : w.actives = []) (h : ActivatedInEffect ⟨w.sets', []⟩ acts) :
    (w.run acts).actives' = (Values.run ⟨w.sets', []⟩ acts).actives := by
  have h1 : w.actives' = [] := by simp [World.actives', h0]
  have := frozen_run acts ok (by simp [h0]) (by rw [h1]; exact h)
  rw [h1] at this
  exact this

/-! ### Examples -/

/-- A rule set as it is after reading: two mapping rules, the first in effect from 10 on, and a rollup rule. -/
def exWorld : World :=
  { heap := ⟨exRules, [⟨bs "r", [exRollup 1 false [exTarget]]⟩]⟩, actives := []
    sets := [{ uuid := bs "u", version := 1, namespace_ := bs "ns", createdAtNanos := 1, lastUpdatedAtNanos := 1,
               lastUpdatedBy := [], tombstoned := false, cutoverNanos := 1, mappingRules := [0, 1], rollupRules := [0] }] }

theorem exWorld_ok : exWorld.OK :=
  ⟨by
    intro rs hrs
    simp only [exWorld, List.mem_singleton] at hrs
    subst hrs
    exact ⟨⟨by decide, by decide⟩, ⟨by decide, by decide⟩⟩, List.pairwise_singleton _ _⟩

/-- C71 is violated: an active set is taken at 1, before the first mapping rule is in effect; the rule is then deleted
from 15 on.  The metric matched at 15 with the active set had the rule's pipeline before the deletion and has not after. -/
theorem C71_violated : ∃ (w : World) (act : Act) (as : ActiveObj), w.OK ∧ w.actives = [as] ∧ (w.step act).actives = [as] ∧
    as.read w.heap = (w.sets'.getD 0 exEmpty).activeSet 1 ∧
    ((forwardMatchAt m3Env (as.read w.heap) exID 15).forExistingID.pipelines.map (·.aggID)) = [4, 8, 0] ∧
    ((forwardMatchAt m3Env (as.read (w.step act).heap) exID 15).forExistingID.pipelines.map (·.aggID)) = [8, 0] := by
  refine ⟨exWorld.step (.activate 0 1), .edit 0 (.deleteMapping (bs "1")) (exMeta 15), _,
    (step_sets exWorld_ok _ (acts := [])).1, rfl, rfl, ?_, by decide +kernel, by decide +kernel⟩
  rfl

/-- Beside C69: the clone of a rule set is edited; the original is not. -/
example : let w := exWorld.run [.clone 0, .edit 1 (.deleteMapping (bs "1")) (exMeta 15), .edit 0 (.deleteMapping (bs "2")) (exMeta 30)]
    w.sets'.map (fun rs => rs.mappingRules.map fun r => r.tombstoned) = [[false, true], [true, false]] := by decide +kernel

/-- Beside C71: an active set taken at 12 shows the rule after it has been deleted from 15 on. -/
example : ActivatedInEffect ⟨exWorld.sets', []⟩ [.activate 0 12, .edit 0 (.deleteMapping (bs "1")) (exMeta 15)] ∧
    (exWorld.run [.activate 0 12, .edit 0 (.deleteMapping (bs "1")) (exMeta 15)]).actives'.map
      (fun as => (forwardMatchAt m3Env as exID 15).forExistingID.pipelines.map (·.aggID)) = [[4, 8, 0]] := by
  refine ⟨⟨?_, trivial, trivial⟩, by decide +kernel⟩
  intro rs hrs
  obtain rfl : _ = rs := Option.some.inj hrs
  refine ⟨fun r hr => ?_, fun r hr => ?_⟩
  · have : r = ⟨bs "1", [exSnap "city:s*" 10 4]⟩ ∨ r = ⟨bs "2", [exSnap "city:sf" 5 8, exSnap "city:ny" 20 8]⟩ := by
      simpa [Obj.read, exWorld, exRules, deref] using hr
    rcases this with rfl | rfl
    · exact ⟨_, List.mem_cons_self, by decide +kernel⟩
    · exact ⟨_, List.mem_cons_self, by decide +kernel⟩
  · have : r = ⟨bs "r", [exRollup 1 false [exTarget]]⟩ := by
      simpa [Obj.read, exWorld, exRules, deref] using hr
    subst this
    exact ⟨_, List.mem_cons_self, by decide +kernel⟩

end Verif.RuleHeap
