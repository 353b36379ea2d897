import Verif.Props.RuleHeap
/-
C71, exactly: which rules of an active set follow later edits, and how.
-/
namespace Verif.RuleHeap
open Verif.Agg Verif.Policy Verif.Meta Verif.Rules Verif.Active Verif.RuleSet

section Generic
variable {S : Type} [Snap S] {D : Type}

/-- The pointers of an active set: the same where no snapshot is in effect, else new ones. -/
theorem activeRules_ptr (t : Int) : ∀ (ptrs : List Nat) (cells : List (Rule S)), (∀ a ∈ ptrs, a < cells.length) →
    (activeRules t ptrs cells).2.length = ptrs.length ∧
    ∀ (j a : Nat) (r : Rule S), ptrs[j]? = some a → cells[a]? = some r → ∃ b, (activeRules t ptrs cells).2[j]? = some b ∧
      (r.activeIndex t = 0 → b = a) ∧ (r.activeIndex t ≠ 0 → cells.length ≤ b)
  | [], cells, _ => by simp [activeRules]
  | x :: ptrs, cells, h => by
    have hx : x < cells.length := h x (by simp)
    unfold activeRules
    rw [List.getElem?_eq_getElem hx]
    simp only
    split
    · rename_i h0
      obtain ⟨l, p⟩ := activeRules_ptr t ptrs cells fun a ha => h a (by simp [ha])
      refine ⟨by simp [l], fun j a r hj hr => ?_⟩
      cases j with
      | zero =>
        simp only [List.getElem?_cons_zero, Option.some.injEq] at hj
        subst hj
        rw [List.getElem?_eq_getElem hx] at hr
        cases hr
        exact ⟨x, rfl, fun _ => rfl, fun h => absurd h0 h⟩
      | succ j =>
        simp only [List.getElem?_cons_succ] at hj ⊢
        exact p j a r hj hr
    · rename_i k h0
      obtain ⟨l, p⟩ := activeRules_ptr t ptrs (cells ++ [{ uuid := cells[x].uuid, snapshots := cells[x].snapshots.drop k }]) fun a ha => by
        have := h a (by simp [ha])
        simp
        omega
      refine ⟨by simp [l], fun j a r hj hr => ?_⟩
      cases j with
      | zero =>
        simp only [List.getElem?_cons_zero, Option.some.injEq] at hj
        subst hj
        rw [List.getElem?_eq_getElem hx] at hr
        cases hr
        exact ⟨cells.length, rfl, fun h => by omega, fun _ => Nat.le_refl _⟩
      | succ j =>
        simp only [List.getElem?_cons_succ] at hj ⊢
        have ha : a < cells.length := h a (by simp [List.mem_of_getElem? hj])
        obtain ⟨b, b1, b2, b3⟩ := p j a r hj (by rw [List.getElem?_append_left ha]; exact hr)
        refine ⟨b, b1, b2, fun h => ?_⟩
        have := b3 h
        simp at this
        omega

theorem activeIndex_zero {r : Rule S} {t : Int} (h : ¬ ∃ s ∈ r.snapshots, Snap.cutover s ≤ t) : r.activeIndex t = 0 := by
  have key : ∀ k, activeIndexLoop r.snapshots t k = 0 := by
    intro k
    induction k with
    | zero => rfl
    | succ k ih =>
      unfold activeIndexLoop
      split
      · rfl
      · rename_i s hs
        rw [if_pos, ih]
        apply Int.not_le.mp
        exact fun hc => h ⟨s, List.mem_of_getElem? hs, hc⟩
  exact key _

omit [Snap S] in
theorem through_ptrs (cells : List (Rule S)) (ptrs : List Nat) (i : Nat) (f : Rule S → Rule S × Bool) : (through cells ptrs i f).2.1 = ptrs := by
  unfold through
  split
  · rfl
  · split <;> rfl

theorem addRule_prefix (k : Kit S D) (cells : List (Rule S)) (ptrs : List Nat) (f : Bytes) (d : D) (m : UpdateMeta) :
    ptrs <+: (addRule k cells ptrs f d m).2.1 := by
  unfold addRule
  split
  · exact List.prefix_refl _
  · simp only
    split
    · exact List.prefix_append _ _
    · exact List.prefix_refl _
  · rw [through_ptrs]; exact List.prefix_refl _

omit [Snap S] in
theorem updateRule_prefix (k : Kit S D) (cells : List (Rule S)) (ptrs : List Nat) (id : Bytes) (d : D) (m : UpdateMeta) :
    ptrs <+: (updateRule k cells ptrs id d m).2.1 := by
  unfold updateRule
  split
  · exact List.prefix_refl _
  · rw [through_ptrs]; exact List.prefix_refl _

theorem deleteRule_prefix (k : Kit S D) (cells : List (Rule S)) (ptrs : List Nat) (id : Bytes) (m : UpdateMeta) :
    ptrs <+: (deleteRule k cells ptrs id m).2.1 := by
  unfold deleteRule
  split
  · exact List.prefix_refl _
  · rw [through_ptrs]; exact List.prefix_refl _

end Generic

theorem edit_prefix (h : Heap) (rs : Obj) (m : UpdateMeta) (e : Edit) :
    rs.mappingRules <+: (edit h rs m e).2.1.mappingRules ∧ rs.rollupRules <+: (edit h rs m e).2.1.rollupRules := by
  cases e with
  | addMapping f d =>
    simp only [edit, finishM, Obj.updateMetadata]
    split <;> exact ⟨addRule_prefix _ _ _ _ _ _, List.prefix_refl _⟩
  | updateMapping id d =>
    simp only [edit, finishM, Obj.updateMetadata]
    split <;> exact ⟨updateRule_prefix _ _ _ _ _ _, List.prefix_refl _⟩
  | deleteMapping id =>
    simp only [edit, finishM, Obj.updateMetadata]
    split <;> exact ⟨deleteRule_prefix _ _ _ _ _, List.prefix_refl _⟩
  | addRollup f d =>
    simp only [edit, finishR, Obj.updateMetadata]
    split <;> exact ⟨List.prefix_refl _, addRule_prefix _ _ _ _ _ _⟩
  | updateRollup id d =>
    simp only [edit, finishR, Obj.updateMetadata]
    split <;> exact ⟨List.prefix_refl _, updateRule_prefix _ _ _ _ _ _⟩
  | deleteRollup id =>
    simp only [edit, finishR, Obj.updateMetadata]
    split <;> exact ⟨List.prefix_refl _, deleteRule_prefix _ _ _ _ _⟩
  | delete =>
    simp only [edit, Obj.updateMetadata]
    split <;> exact ⟨List.prefix_refl _, List.prefix_refl _⟩
  | revive =>
    simp only [edit, Obj.updateMetadata]
    split <;> exact ⟨List.prefix_refl _, List.prefix_refl _⟩

/-- Rules that no rule set has are not changed and are not given to one. -/
theorem step_apart {w : World} (ok : w.OK) (act : Act) {ms rr : List Nat} (hv : Valid w.heap ms rr) (ha : ∀ rs ∈ w.sets, Apart ms rr rs) :
    SameAt w.heap (w.step act).heap ms rr ∧ ∀ rs ∈ (w.step act).sets, Apart ms rr rs := by
  have idle : SameAt w.heap w.heap ms rr := ⟨fun _ _ => rfl, fun _ _ => rfl, Nat.le_refl _, Nat.le_refl _⟩
  cases act with
  | edit i e m =>
    simp only [World.step]
    cases hi : w.sets[i]? with
    | none => exact ⟨idle, ha⟩
    | some rs =>
      have hmem := List.mem_of_getElem? hi
      have ho := ok.owned rs hmem
      obtain ⟨h1, h2, _⟩ := edit_eq ho m e
      refine ⟨sameAt_edit ho m e hv (ha rs hmem), ?_⟩
      intro b hb
      rcases List.mem_or_eq_of_mem_set hb with hb | rfl
      · exact ha b hb
      · have hd := ha rs hmem
        refine ⟨fun a h h' => ?_, fun a h h' => ?_⟩
        · rcases h1.own a h' with h'' | h''
          · exact hd.1 a h h''
          · have := hv.mapping a h; omega
        · rcases h2.own a h' with h'' | h''
          · exact hd.2 a h h''
          · have := hv.rollup a h; omega
  | clone i =>
    simp only [World.step]
    cases hi : w.sets[i]? with
    | none => exact ⟨idle, ha⟩
    | some rs =>
      have ho := ok.owned rs (List.mem_of_getElem? hi)
      obtain ⟨⟨em, er, e1, e2⟩, h1, h2, h3, h4⟩ := clone_eq ho
      refine ⟨sameAt_ext e1 e2 hv, ?_⟩
      intro b hb
      rcases List.mem_append.mp hb with hb | hb
      · exact ha b hb
      · rw [List.mem_singleton] at hb
        subst hb
        exact ⟨fun a h h' => by have := hv.mapping a h; have := h2 a h'; omega,
          fun a h h' => by have := hv.rollup a h; have := h3 a h'; omega⟩
  | activate i t =>
    simp only [World.step]
    cases hi : w.sets[i]? with
    | none => exact ⟨idle, ha⟩
    | some rs =>
      obtain ⟨⟨em, er, e1, e2⟩, _⟩ := activeSet_eq (ok.owned rs (List.mem_of_getElem? hi)) t
      exact ⟨sameAt_ext e1 e2 hv, ha⟩

/-- Rule sets keep their place and the places of their rules; active sets keep theirs. -/
theorem step_places (w : World) (act : Act) :
    (∀ (i : Nat) (rs : Obj), w.sets[i]? = some rs → ∃ rs' : Obj, (w.step act).sets[i]? = some rs' ∧ rs.mappingRules <+: rs'.mappingRules ∧ rs.rollupRules <+: rs'.rollupRules) ∧
    ∀ (n : Nat) as, w.actives[n]? = some as → (w.step act).actives[n]? = some as := by
  have same : ∀ (i : Nat) (rs : Obj), w.sets[i]? = some rs → ∃ rs' : Obj, w.sets[i]? = some rs' ∧ rs.mappingRules <+: rs'.mappingRules ∧ rs.rollupRules <+: rs'.rollupRules :=
    fun i rs h => ⟨rs, h, List.prefix_refl _, List.prefix_refl _⟩
  cases act with
  | edit i e m =>
    simp only [World.step]
    cases hi : w.sets[i]? with
    | none => exact ⟨same, fun _ _ h => h⟩
    | some rs =>
      refine ⟨fun j b hj => ?_, fun _ _ h => h⟩
      simp only [List.getElem?_set]
      have hlt := (List.getElem?_eq_some_iff.mp hi).1
      by_cases e' : i = j
      · subst e'
        rw [hi] at hj
        cases hj
        rw [if_pos rfl, if_pos hlt]
        exact ⟨_, rfl, edit_prefix w.heap rs m e⟩
      · rw [if_neg e']
        exact same j b hj
  | clone i =>
    simp only [World.step]
    cases hi : w.sets[i]? with
    | none => exact ⟨same, fun _ _ h => h⟩
    | some rs =>
      refine ⟨fun j b hj => ?_, fun _ _ h => h⟩
      simp only [List.getElem?_append_left (List.getElem?_eq_some_iff.mp hj).1]
      exact same j b hj
  | activate i t =>
    simp only [World.step]
    cases hi : w.sets[i]? with
    | none => exact ⟨same, fun _ _ h => h⟩
    | some rs =>
      refine ⟨same, fun n as h => ?_⟩
      simp only [List.getElem?_append_left (List.getElem?_eq_some_iff.mp h).1]
      exact h

theorem run_track : ∀ (acts : List Act) {w : World} (_ : w.OK) {ms rr : List Nat} (_ : Valid w.heap ms rr) (_ : ∀ rs ∈ w.sets, Apart ms rr rs)
    {i n : Nat} {rs : Obj} {as : ActiveObj} (_ : w.sets[i]? = some rs) (_ : w.actives[n]? = some as),
    (w.run acts).OK ∧ SameAt w.heap (w.run acts).heap ms rr ∧ (w.run acts).actives[n]? = some as ∧
    ∃ rs' : Obj, (w.run acts).sets[i]? = some rs' ∧ rs.mappingRules <+: rs'.mappingRules ∧ rs.rollupRules <+: rs'.rollupRules
  | [], w, ok, ms, rr, _, _, i, n, rs, as, hi, hn =>
    ⟨ok, ⟨fun _ _ => rfl, fun _ _ => rfl, Nat.le_refl _, Nat.le_refl _⟩, hn, rs, hi, List.prefix_refl _, List.prefix_refl _⟩
  | act :: acts, w, ok, ms, rr, hv, ha, i, n, rs, as, hi, hn => by
    obtain ⟨s1, a1⟩ := step_apart ok act hv ha
    obtain ⟨p1, p2⟩ := step_places w act
    obtain ⟨rs1, hi1, q1, q2⟩ := p1 i rs hi
    have hv1 : Valid (w.step act).heap ms rr :=
      ⟨fun a h => Nat.lt_of_lt_of_le (hv.mapping a h) s1.mlen, fun a h => Nat.lt_of_lt_of_le (hv.rollup a h) s1.rlen⟩
    obtain ⟨ok', s2, hn2, rs2, hi2, q3, q4⟩ := run_track acts (step_sets ok act (acts := [])).1 hv1 a1 hi1 (p2 n as hn)
    refine ⟨ok', ⟨fun a h => (s2.mapping a h).trans (s1.mapping a h), fun a h => (s2.rollup a h).trans (s1.rollup a h),
      Nat.le_trans s1.mlen s2.mlen, Nat.le_trans s1.rlen s2.rlen⟩, hn2, rs2, hi2, q1.trans q3, q2.trans q4⟩

theorem prefix_getElem? {α : Type} {l l' : List α} (h : l <+: l') {j : Nat} {a : α} (hj : l[j]? = some a) : l'[j]? = some a := by
  obtain ⟨t, rfl⟩ := h
  rw [List.getElem?_append_left (List.getElem?_eq_some_iff.mp hj).1]
  exact hj

/-- One kind of rule. -/
theorem shared_rules {S : Type} [Snap S] {cells0 cells1 cells2 : List (Rule S)} {ptrs ptrs2 : List Nat} {t : Int} (hv : ∀ a ∈ ptrs, a < cells0.length)
    (h1 : cells1 = (activeRules t ptrs cells0).1) (hlen : cells1.length ≤ cells2.length)
    (hfresh : ∀ b ∈ (activeRules t ptrs cells0).2, cells0.length ≤ b → cells2[b]? = cells1[b]?) (hp : ptrs <+: ptrs2)
    (hv2 : ∀ a ∈ ptrs2, a < cells2.length) :
    (deref cells2 (activeRules t ptrs cells0).2).length = (deref cells0 ptrs).length ∧
    ∀ (j : Nat) r, (deref cells0 ptrs)[j]? = some r →
      ((∃ s ∈ r.snapshots, Snap.cutover s ≤ t) → (deref cells2 (activeRules t ptrs cells0).2)[j]? = ((deref cells0 ptrs).map fun r => r.activeRule t)[j]?) ∧
      ((¬ ∃ s ∈ r.snapshots, Snap.cutover s ≤ t) → (deref cells2 (activeRules t ptrs cells0).2)[j]? = (deref cells2 ptrs2)[j]?) := by
  obtain ⟨_, e2, e3⟩ := activeRules_eq t ptrs cells0 hv
  obtain ⟨pl, pp⟩ := activeRules_ptr t ptrs cells0 hv
  have hva : ∀ b ∈ (activeRules t ptrs cells0).2, b < cells2.length := fun b hb => by
    have := (e3 b hb).1
    rw [← h1] at this
    omega
  have hva1 : ∀ b ∈ (activeRules t ptrs cells0).2, b < cells1.length := fun b hb => by rw [h1]; exact (e3 b hb).1
  have dlen : ∀ (c : List (Rule S)) (p : List Nat), (∀ a ∈ p, a < c.length) → (deref c p).length = p.length := by
    intro c p h
    unfold deref
    induction p with
    | nil => rfl
    | cons a p ih =>
      rw [List.filterMap_cons_some (List.getElem?_eq_getElem (h a (by simp)))]
      simp only [List.length_cons]
      rw [ih fun b hb => h b (by simp [hb])]
  refine ⟨by rw [dlen _ _ hva, dlen _ _ hv, pl], fun j r hj => ?_⟩
  rw [deref_getElem? hv] at hj
  obtain ⟨a, ha, hr⟩ := Option.bind_eq_some_iff.mp hj
  obtain ⟨b, hb, b1, b2⟩ := pp j a r ha hr
  refine ⟨fun hin => ?_, fun hno => ?_⟩
  · have hb0 := b2 (activeIndex_pos hin)
    rw [← e2, ← h1, deref_getElem? hva, deref_getElem? hva1, hb]
    exact hfresh b (List.mem_of_getElem? hb) hb0
  · have := b1 (activeIndex_zero hno)
    subst this
    rw [deref_getElem? hva, deref_getElem? hv2, hb, prefix_getElem? hp ha]

/-- **C71**, exactly: take an active set of a rule set, and let anything happen then.  A rule that had a snapshot in effect is in the
active set for ever what it was when it was taken; a rule that had none is at every time what it is in the rule set at that time. -/
theorem C71_exact {w : World} (ok : w.OK) {i : Nat} {rs : RuleSet} (hi : w.sets'[i]? = some rs) (t : Int) (acts : List Act) :
    ∃ as now, ((w.step (.activate i t)).run acts).actives'[w.actives.length]? = some as ∧
      ((w.step (.activate i t)).run acts).sets'[i]? = some now ∧
      as.version = rs.version ∧ as.cutoverTimesAsc = (rs.activeSet t).cutoverTimesAsc ∧
      as.mappingRules.length = rs.mappingRules.length ∧ as.rollupRules.length = rs.rollupRules.length ∧
      (∀ (j : Nat) r, rs.mappingRules[j]? = some r →
        ((∃ s ∈ r.snapshots, s.cutoverNanos ≤ t) → as.mappingRules[j]? = (rs.activeSet t).mappingRules[j]?) ∧
        ((¬ ∃ s ∈ r.snapshots, s.cutoverNanos ≤ t) → as.mappingRules[j]? = now.mappingRules[j]?)) ∧
      (∀ (j : Nat) r, rs.rollupRules[j]? = some r →
        ((∃ s ∈ r.snapshots, s.cutoverNanos ≤ t) → as.rollupRules[j]? = (rs.activeSet t).rollupRules[j]?) ∧
        ((¬ ∃ s ∈ r.snapshots, s.cutoverNanos ≤ t) → as.rollupRules[j]? = now.rollupRules[j]?)) := by
  simp only [World.sets', List.getElem?_map] at hi
  obtain ⟨o, ho, rfl⟩ := Option.map_eq_some_iff.mp hi
  have hown := ok.owned o (List.mem_of_getElem? ho)
  obtain ⟨⟨em, er, e1, e2⟩, hread⟩ := activeSet_eq hown t
  have hw1 : w.step (.activate i t) = { w with heap := (activeSet w.heap o t).1, actives := w.actives ++ [(activeSet w.heap o t).2] } := by
    simp only [World.step, ho]
  obtain ⟨_, _, m3⟩ := activeRules_eq t o.mappingRules w.heap.mapping hown.mapping.valid
  obtain ⟨_, _, r3⟩ := activeRules_eq t o.rollupRules w.heap.rollup hown.rollup.valid
  have hn : (w.step (.activate i t)).actives[w.actives.length]? = some (activeSet w.heap o t).2 := by rw [hw1]; simp
  have hs : (w.step (.activate i t)).sets[i]? = some o := by rw [hw1]; exact ho
  have hh : (w.step (.activate i t)).heap = (activeSet w.heap o t).1 := by rw [hw1]
  have hv : Valid (w.step (.activate i t)).heap ((activeSet w.heap o t).2.mappingRules.filter fun b => decide (w.heap.mapping.length ≤ b))
      ((activeSet w.heap o t).2.rollupRules.filter fun b => decide (w.heap.rollup.length ≤ b)) := by
    rw [hh]
    exact ⟨fun a h => (m3 a (List.mem_filter.mp h).1).1, fun a h => (r3 a (List.mem_filter.mp h).1).1⟩
  have ha : ∀ b ∈ (w.step (.activate i t)).sets,
      Apart ((activeSet w.heap o t).2.mappingRules.filter fun b => decide (w.heap.mapping.length ≤ b))
        ((activeSet w.heap o t).2.rollupRules.filter fun b => decide (w.heap.rollup.length ≤ b)) b := by
    intro b hb
    rw [hw1] at hb
    have := (ok.owned b hb).toValid
    refine ⟨fun x hx hx' => ?_, fun x hx hx' => ?_⟩
    · have h1 := this.mapping x hx'
      have h2 := (List.mem_filter.mp hx).2
      simp at h2; omega
    · have h1 := this.rollup x hx'
      have h2 := (List.mem_filter.mp hx).2
      simp at h2; omega
  obtain ⟨ok2, same, hn2, o2, hi2, p1, p2⟩ := run_track acts (step_sets ok (.activate i t) (acts := [])).1 hv ha hs hn
  generalize ((w.step (.activate i t)).run acts) = w2 at ok2 same hn2 hi2 ⊢
  rw [hh] at same
  have hv2 := (ok2.owned o2 (List.mem_of_getElem? hi2)).toValid
  obtain ⟨a1, a2⟩ := shared_rules hown.mapping.valid (cells1 := (activeSet w.heap o t).1.mapping) (cells2 := w2.heap.mapping) rfl same.mlen
    (fun b hb h => same.mapping b (List.mem_filter.mpr ⟨hb, by simpa using h⟩)) p1 hv2.mapping (t := t)
  obtain ⟨b1, b2⟩ := shared_rules hown.rollup.valid (cells1 := (activeSet w.heap o t).1.rollup) (cells2 := w2.heap.rollup) rfl same.rlen
    (fun b hb h => same.rollup b (List.mem_filter.mpr ⟨hb, by simpa using h⟩)) p2 hv2.rollup (t := t)
  refine ⟨(activeSet w.heap o t).2.read w2.heap, o2.read w2.heap, ?_, ?_, rfl, ?_, a1, b1, a2, b2⟩
  · simp only [World.actives', List.getElem?_map, hn2, Option.map_some]
  · simp only [World.sets', List.getElem?_map, hi2, Option.map_some]
  · rw [← hread]; rfl

/-- An active set taken at 1, when the first mapping rule is not in effect yet: it follows the deletion of that rule. -/
example : exWorld.sets'.length = 1 ∧
    ((exWorld.step (.activate 0 1)).run [.edit 0 (.deleteMapping (bs "1")) (exMeta 15)]).actives'.map
      (fun as => as.mappingRules.map fun r => r.tombstoned) = [[true, false]] ∧
    ((exWorld.step (.activate 0 1)).run [.edit 0 (.deleteMapping (bs "1")) (exMeta 15)]).sets'.map
      (fun rs => rs.mappingRules.map fun r => r.tombstoned) = [[true, false]] := by
  decide +kernel

end Verif.RuleHeap
