import Verif.Props.EditErrors
/- C102: exactly which batches of changes fail without an `InvalidInputError`. -/
namespace Verif.RuleSet
open Verif.Rules

section Generic
variable {S : Type} [Snap S] {D : Type}

theorem addErr_refused {k : Kit S D} {valid : D → Bool} {snap : D → UpdateMeta → S} (hk : k.Records valid snap) {rules : List (Rule S)}
    (h : ∀ r ∈ rules, r.snapshots ≠ []) (d : D) (m : UpdateMeta) (hv : valid d = false) : ∃ e, addErr k rules d m = some e := by
  unfold addErr
  rcases byName_find (strict := k.strict) (n := k.nameOf d) h with ⟨h1, _⟩ | ⟨i, r, h1, h2, _⟩
  · simp [h1, addSnapshotErr, hk.add, hv]
  · obtain ⟨nm, s, e1, e2⟩ := whole_name (h r (List.mem_of_getElem? h2))
    simp only [h1, h2, reviveErr, e1, addSnapshotErr, hk.add]
    cases ht : r.tombstoned <;> simp [hv]

omit [Snap S] in
theorem updateErr_refused {k : Kit S D} {valid : D → Bool} {snap : D → UpdateMeta → S} (hk : k.Records valid snap) (rules : List (Rule S))
    (id : Bytes) (d : D) (m : UpdateMeta) (hv : valid d = false) : ∃ e, updateErr k rules id d m = some e := by
  unfold updateErr
  cases hg : getRuleByID id rules with
  | none => exact ⟨_, rfl⟩
  | some i =>
    obtain ⟨r, hr, hi⟩ := getRuleByID_some hg
    simp [hr, addSnapshotErr, hk.add, hv]

end Generic

/-- An edit with a filter that is not valid fails. -/
theorem editErr_refused {rs : RuleSet} (h : rs.Whole) (m : UpdateMeta) (e : Edit) (hb : e.badFilter = true) :
    ∃ err, rs.editErr m e = some err := by
  cases e with
  | addMapping f d => exact addErr_refused mapping_records h.1 d m (by simpa [Edit.badFilter] using hb)
  | updateMapping id d => exact updateErr_refused mapping_records _ id d m (by simpa [Edit.badFilter] using hb)
  | addRollup f d => exact addErr_refused rollup_records h.2 d m (by simpa [Edit.badFilter] using hb)
  | updateRollup id d => exact updateErr_refused rollup_records _ id d m (by simpa [Edit.badFilter] using hb)
  | _ => all_goals cases hb

/-- `Change.mappingEdit` and `Change.rollupEdit` in one. -/
def Change.edit (add : Bytes → D → Edit) (update : Bytes → D → Edit) (delete : Bytes → Edit) (c : Change D) : Option Edit :=
  if c.op = bs "add" then c.ruleData.map fun d => add c.fresh d.2
  else if c.op = bs "change" then c.ruleData.map fun d => update d.1 d.2
  else if c.op = bs "delete" then c.ruleID.map delete
  else none

/-- Only its filter is wrong with an edit. -/
def Edit.FilterOnly (rs : RuleSet) (e : Edit) : Prop := e.badFilter = true ∧ ¬ e.Unknown rs ∧ ¬ e.Taken rs

/-- What is needed of a change for `loop_plain`. -/
structure Exact (f : RuleSet → C → UpdateMeta → RuleSet × Out Unit) (err : RuleSet → C → UpdateMeta → Option EErr) (ed : C → Option Edit)
    (m : UpdateMeta) : Prop where
  whole : ∀ rs c, rs.Whole → (f rs c m).1.Whole
  fails : ∀ rs c, rs.Whole → ((f rs c m).2 = .err ↔ (err rs c m).isSome = true)
  plain : ∀ rs c, rs.Whole → ((∃ e, err rs c m = some e ∧ e.found ≠ .invalidInput) ↔ ∃ e, ed c = some e ∧ e.FilterOnly rs)

theorem loop_plain {f : RuleSet → C → UpdateMeta → RuleSet × Out Unit} {err : RuleSet → C → UpdateMeta → Option EErr} {ed : C → Option Edit}
    {m : UpdateMeta} (h : Exact f err ed m) : ∀ (cs : List C) (rs : RuleSet), rs.Whole →
      ((∃ e, loopErr f err m cs rs = some e ∧ e.found ≠ .invalidInput) ↔
        ∃ a c b rs' e, cs = a ++ c :: b ∧ applyLoop f m a rs = (rs', .ok ()) ∧ ed c = some e ∧ e.FilterOnly rs')
  | [], rs, _ => by simp [loopErr]
  | c :: cs, rs, hw => by
    have h1 := h.whole rs c hw
    have h2 := h.fails rs c hw
    have h3 := h.plain rs c hw
    unfold loopErr
    rcases hf : f rs c m with ⟨rs', o⟩
    rw [hf] at h1 h2
    have hnot : (∃ e, ed c = some e ∧ e.FilterOnly rs) → o = .err := by
      intro g
      obtain ⟨e, he, _⟩ := h3.2 g
      exact h2.2 (by rw [he]; rfl)
    cases o with
    | ok u =>
      simp only
      rw [loop_plain h cs rs' h1]
      constructor
      · rintro ⟨a, d, b, rs'', e, rfl, g1, g2⟩
        exact ⟨c :: a, d, b, rs'', e, rfl, by simp only [applyLoop, hf]; exact g1, g2⟩
      · rintro ⟨a, d, b, rs'', e, hc, g1, g2⟩
        cases a with
        | nil =>
          simp only [List.nil_append, List.cons.injEq] at hc
          obtain ⟨rfl, rfl⟩ := hc
          simp only [applyLoop, Prod.mk.injEq, and_true] at g1
          subst g1
          cases hnot ⟨e, g2⟩
        | cons c' a =>
          simp only [List.cons_append, List.cons.injEq] at hc
          obtain ⟨rfl, rfl⟩ := hc
          simp only [applyLoop, hf] at g1
          exact ⟨a, d, b, rs'', e, rfl, g1, g2⟩
    | err | panic =>
      all_goals
        simp only
        rw [h3]
        constructor
        · rintro ⟨e, g⟩
          exact ⟨[], c, cs, rs, e, rfl, rfl, g⟩
        · rintro ⟨a, d, b, rs'', e, hc, g1, g2⟩
          cases a with
          | nil =>
            simp only [List.nil_append, List.cons.injEq] at hc
            obtain ⟨rfl, rfl⟩ := hc
            simp only [applyLoop, Prod.mk.injEq, and_true] at g1
            subst g1
            exact ⟨e, g2⟩
          | cons c' a =>
            simp only [List.cons_append, List.cons.injEq] at hc
            obtain ⟨rfl, rfl⟩ := hc
            simp only [applyLoop, hf] at g1
            simp at g1

theorem edit_plain {rs : RuleSet} (hw : rs.Whole) (m : UpdateMeta) {e : Edit} (he : e.ofRule = true) :
    (∃ err, rs.editErr m e = some err ∧ err.found ≠ .invalidInput) ↔ e.FilterOnly rs := by
  have h := (C102_edits hw m he).2
  constructor
  · rintro ⟨err, h1, h2⟩
    obtain ⟨_, _, h3, h4⟩ := h err h1
    exact h4.1 (h3.resolve_left h2)
  · intro g
    obtain ⟨err, h1⟩ := editErr_refused hw m e g.1
    obtain ⟨_, _, _, h4⟩ := h err h1
    exact ⟨err, h1, by rw [h4.2 g]; exact fun c => nomatch c⟩

theorem change_plain {add update : Bytes → D → Edit} {delete : Bytes → Edit} (ha : ∀ f d, (add f d).ofRule = true)
    (hu : ∀ f d, (update f d).ofRule = true) (hd : ∀ f, (delete f).ofRule = true)
    (hf : ∀ (rs : RuleSet) (m : UpdateMeta) f d, rs.editErr m (add f d) = rs.editErr m (add [] d)) (m : UpdateMeta) (rs : RuleSet) (c : Change D)
    (hw : rs.Whole) : (∃ e, RuleSet.changeErr (add []) update delete rs c m = some e ∧ e.found ≠ .invalidInput) ↔
      ∃ e, c.edit add update delete = some e ∧ e.FilterOnly rs := by
  unfold RuleSet.changeErr Change.edit
  split
  · cases c.ruleData with
    | none => simp
    | some d =>
      simp only [Option.bind_some, Option.map_some, Option.some.injEq, exists_eq_left']
      rw [← hf rs m c.fresh]
      exact edit_plain hw m (ha _ _)
  · split
    · cases c.ruleData with
      | none => simp
      | some d =>
        simp only [Option.bind_some, Option.map_some, Option.some.injEq, exists_eq_left']
        exact edit_plain hw m (hu _ _)
    · split
      · cases c.ruleID with
        | none => simp
        | some id =>
          simp only [Option.bind_some, Option.map_some, Option.some.injEq, exists_eq_left']
          exact edit_plain hw m (hd _)
      · simp [EErr.found]

/-- C102, exactly, for batches: a batch fails without an `InvalidInputError` if and only if one of its changes adds or changes a rule with
a filter that is not valid, where all changes before it are made, the rule to be changed is there then, and the name of the rule to be
added is not taken then. -/
theorem C102_batch_iff {rs : RuleSet} (h : rs.Whole) (ms : List (Change MappingData)) (rr : List (Change RollupData)) (m : UpdateMeta) :
    (∃ err, rs.applyErr ms rr m = some err ∧ err.found ≠ .invalidInput) ↔
      (∃ a c b rs' e, ms = a ++ c :: b ∧ applyLoop RuleSet.mappingChange m a rs = (rs', .ok ()) ∧ c.mappingEdit = some e ∧
        e.FilterOnly rs') ∨
      (∃ rs1 a c b rs' e, applyLoop RuleSet.mappingChange m ms rs = (rs1, .ok ()) ∧ rr = a ++ c :: b ∧
        applyLoop RuleSet.rollupChange m a rs1 = (rs', .ok ()) ∧ c.rollupEdit = some e ∧ e.FilterOnly rs') := by
  have hm : Exact RuleSet.mappingChange (RuleSet.changeErr (.addMapping []) .updateMapping .deleteMapping) Change.mappingEdit m :=
    ⟨(mapping_step m).whole, (mapping_step m).fails,
      change_plain (fun _ _ => rfl) (fun _ _ => rfl) (fun _ => rfl) (fun _ _ _ _ => rfl) m⟩
  have hr : Exact RuleSet.rollupChange (RuleSet.changeErr (.addRollup []) .updateRollup .deleteRollup) Change.rollupEdit m :=
    ⟨(rollup_step m).whole, (rollup_step m).fails,
      change_plain (fun _ _ => rfl) (fun _ _ => rfl) (fun _ => rfl) (fun _ _ _ _ => rfl) m⟩
  have h1 := loop_plain hm ms rs h
  have s1 := step_loop (mapping_step m) ms rs h
  unfold RuleSet.applyErr
  rcases hf : applyLoop RuleSet.mappingChange m ms rs with ⟨rs', o⟩
  rw [hf] at s1
  cases o with
  | ok u =>
    have h2 := loop_plain hr rr rs' s1.1
    simp only
    rw [h2]
    constructor
    · rintro ⟨a, c, b, rs'', e, g⟩
      exact .inr ⟨rs', a, c, b, rs'', e, rfl, g⟩
    · rintro (g | ⟨rs1, a, c, b, rs'', e, g0, g⟩)
      · obtain ⟨e, he, _⟩ := h1.2 g
        have := s1.2.1.2 (by rw [he]; rfl)
        cases this
      · cases g0
        exact ⟨a, c, b, rs'', e, g⟩
  | err | panic =>
    all_goals
      simp only
      rw [h1]
      constructor
      · exact .inl
      · rintro (g | ⟨rs1, a, c, b, rs'', e, g0, g⟩)
        · exact g
        · cases g0

/-- A batch of two changes of which the second is refused for its filter, and one that fails for a rule that is not there before it comes to
the filter. -/
example : exEmpty.applyErr [⟨bs "add", none, some ([], exData "a" "city:sf"), bs "1"⟩, ⟨bs "change", none, some (bs "1", exData "a" "city"), []⟩]
      [] (exMeta 10) = some (.wrapped .plain) ∧
    exEmpty.applyErr [⟨bs "delete", some (bs "9"), none, []⟩, ⟨bs "add", none, some ([], exData "a" "city"), bs "1"⟩] [] (exMeta 10) =
      some .invalidInput := by decide +kernel

end Verif.RuleSet
