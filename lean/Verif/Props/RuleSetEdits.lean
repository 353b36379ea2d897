import Verif.Lemmas.RuleOps
/- C46-C50: edits of rule sets. -/
namespace Verif.RuleSet
open Verif.Agg Verif.Policy Verif.Meta Verif.Rules Verif.Active Verif.Spec.Rules Verif.Flt

/-! ### Batches as sequences of edits -/

/-- The edit a mapping rule change stands for; none for an unknown operation or missing data. -/
def Change.mappingEdit (c : Change MappingData) : Option Edit :=
  if c.op = bs "add" then c.ruleData.map fun d => .addMapping c.fresh d.2
  else if c.op = bs "change" then c.ruleData.map fun d => .updateMapping d.1 d.2
  else if c.op = bs "delete" then c.ruleID.map .deleteMapping
  else none

/-- The edit a rollup rule change stands for. -/
def Change.rollupEdit (c : Change RollupData) : Option Edit :=
  if c.op = bs "add" then c.ruleData.map fun d => .addRollup c.fresh d.2
  else if c.op = bs "change" then c.ruleData.map fun d => .updateRollup d.1 d.2
  else if c.op = bs "delete" then c.ruleID.map .deleteRollup
  else none

theorem mappingChange_eq (rs : RuleSet) (c : Change MappingData) (m : UpdateMeta) :
    (∃ e, c.mappingEdit = some e ∧ rs.mappingChange c m = ((rs.edit m e).1, if (rs.edit m e).2 then .ok () else .err)) ∨
    (c.mappingEdit = none ∧ (rs.mappingChange c m).1 = rs ∧ (rs.mappingChange c m).2 ≠ .ok ()) := by
  unfold Change.mappingEdit RuleSet.mappingChange
  by_cases h1 : c.op = bs "add"
  · simp only [h1, if_true]
    cases c.ruleData with
    | none => exact Or.inr ⟨rfl, rfl, by simp⟩
    | some d => exact Or.inl ⟨_, rfl, rfl⟩
  · rw [if_neg h1, if_neg h1]
    by_cases h2 : c.op = bs "change"
    · simp only [h2, if_true]
      cases c.ruleData with
      | none => exact Or.inr ⟨rfl, rfl, by simp⟩
      | some d => exact Or.inl ⟨_, rfl, rfl⟩
    · rw [if_neg h2, if_neg h2]
      by_cases h3 : c.op = bs "delete"
      · simp only [h3, if_true]
        cases c.ruleID with
        | none => exact Or.inr ⟨rfl, rfl, by simp⟩
        | some d => exact Or.inl ⟨_, rfl, rfl⟩
      · rw [if_neg h3, if_neg h3]
        exact Or.inr ⟨rfl, rfl, by simp⟩

theorem rollupChange_eq (rs : RuleSet) (c : Change RollupData) (m : UpdateMeta) :
    (∃ e, c.rollupEdit = some e ∧ rs.rollupChange c m = ((rs.edit m e).1, if (rs.edit m e).2 then .ok () else .err)) ∨
    (c.rollupEdit = none ∧ (rs.rollupChange c m).1 = rs ∧ (rs.rollupChange c m).2 ≠ .ok ()) := by
  unfold Change.rollupEdit RuleSet.rollupChange
  by_cases h1 : c.op = bs "add"
  · simp only [h1, if_true]
    cases c.ruleData with
    | none => exact Or.inr ⟨rfl, rfl, by simp⟩
    | some d => exact Or.inl ⟨_, rfl, rfl⟩
  · rw [if_neg h1, if_neg h1]
    by_cases h2 : c.op = bs "change"
    · simp only [h2, if_true]
      cases c.ruleData with
      | none => exact Or.inr ⟨rfl, rfl, by simp⟩
      | some d => exact Or.inl ⟨_, rfl, rfl⟩
    · rw [if_neg h2, if_neg h2]
      by_cases h3 : c.op = bs "delete"
      · simp only [h3, if_true]
        cases c.ruleID with
        | none => exact Or.inr ⟨rfl, rfl, by simp⟩
        | some d => exact Or.inl ⟨_, rfl, rfl⟩
      · rw [if_neg h3, if_neg h3]
        exact Or.inr ⟨rfl, rfl, by simp⟩

/-- Every edit of the sequence succeeds when it is reached. -/
def AllSucceed : RuleSet → List (Edit × UpdateMeta) → Prop
  | _, [] => True
  | rs, (e, m) :: es => (rs.edit m e).2 = true ∧ AllSucceed (rs.edit m e).1 es

theorem run_append (rs : RuleSet) (es es' : List (Edit × UpdateMeta)) : rs.run (es ++ es') = (rs.run es).run es' := by
  unfold RuleSet.run; rw [List.foldl_append]

theorem allSucceed_append : ∀ (es : List (Edit × UpdateMeta)) (rs : RuleSet) (es' : List (Edit × UpdateMeta)),
    AllSucceed rs (es ++ es') ↔ AllSucceed rs es ∧ AllSucceed (rs.run es) es'
  | [], rs, es' => by simp [AllSucceed, RuleSet.run]
  | (e, m) :: es, rs, es' => by
    rw [List.cons_append, AllSucceed, AllSucceed, allSucceed_append es, and_assoc]
    rfl

instance decAllSucceed : ∀ (rs : RuleSet) (es : List (Edit × UpdateMeta)), Decidable (AllSucceed rs es)
  | _, [] => .isTrue trivial
  | rs, (e, m) :: es => by
    unfold AllSucceed
    exact @instDecidableAnd _ _ inferInstance (decAllSucceed _ es)

/-- Every edit of the sequence changes nothing when it fails. -/
theorem edit_fail (rs : RuleSet) (m : UpdateMeta) (e : Edit) (h : (rs.edit m e).2 = false) : (rs.edit m e).1 = rs := by
  cases e with
  | addMapping f d =>
    simp only [RuleSet.edit, RuleSet.addMappingRule] at h ⊢
    rw [h]
    simp only [Bool.false_eq_true, if_false]
    rw [addRule_fail mappingKit_ok (Option.not_isSome_iff_eq_none.mp (by simp [h]))]
  | updateMapping id d =>
    simp only [RuleSet.edit, RuleSet.updateMappingRule] at h ⊢
    rw [h]
    simp only [Bool.false_eq_true, if_false]
    rw [updateRule_fail mappingKit_ok h]
  | deleteMapping id =>
    simp only [RuleSet.edit, RuleSet.deleteMappingRule] at h ⊢
    rw [h]
    simp only [Bool.false_eq_true, if_false]
    rw [deleteRule_fail h]
  | addRollup f d =>
    simp only [RuleSet.edit, RuleSet.addRollupRule] at h ⊢
    rw [h]
    simp only [Bool.false_eq_true, if_false]
    rw [addRule_fail rollupKit_ok (Option.not_isSome_iff_eq_none.mp (by simp [h]))]
  | updateRollup id d =>
    simp only [RuleSet.edit, RuleSet.updateRollupRule] at h ⊢
    rw [h]
    simp only [Bool.false_eq_true, if_false]
    rw [updateRule_fail rollupKit_ok h]
  | deleteRollup id =>
    simp only [RuleSet.edit, RuleSet.deleteRollupRule] at h ⊢
    rw [h]
    simp only [Bool.false_eq_true, if_false]
    rw [deleteRule_fail h]
  | delete =>
    simp only [RuleSet.edit, RuleSet.delete] at h ⊢
    split
    · rfl
    · rename_i ht; simp [ht] at h
  | revive =>
    simp only [RuleSet.edit, RuleSet.revive] at h ⊢
    split
    · rfl
    · rename_i ht; simp [ht] at h

/-- One of the two loops: the changes before the first that fails are carried out, the rest is not. -/
theorem applyLoop_eq {C : Type} (f : RuleSet → C → UpdateMeta → RuleSet × Out Unit) (ed : C → Option Edit) (m : UpdateMeta)
    (hf : ∀ rs c, (∃ e, ed c = some e ∧ f rs c m = ((rs.edit m e).1, if (rs.edit m e).2 then .ok () else .err)) ∨
      (ed c = none ∧ (f rs c m).1 = rs ∧ (f rs c m).2 ≠ .ok ())) : ∀ (cs : List C) (rs : RuleSet),
    ∃ (done : List Edit) (rest : List C), AllSucceed rs (done.map (·, m)) ∧
      (∃ cs1, cs = cs1 ++ rest ∧ cs1.map ed = done.map some) ∧
      (applyLoop f m cs rs).1 = rs.run (done.map (·, m)) ∧
      ((applyLoop f m cs rs).2 = .ok () ↔ rest = []) ∧
      (∀ c rest', rest = c :: rest' → ∀ e, ed c = some e → ((rs.run (done.map (·, m))).edit m e).2 = false)
  | [], rs => ⟨[], [], trivial, ⟨[], rfl, rfl⟩, rfl, by simp [applyLoop], by simp⟩
  | c :: cs, rs => by
    rcases hf rs c with ⟨e, he, hr⟩ | ⟨he, h1, h2⟩
    · cases hb : (rs.edit m e).2 with
      | true =>
        obtain ⟨done, rest, i1, ⟨cs1, i2, i3⟩, i4, i5, i6⟩ := applyLoop_eq f ed m hf cs (rs.edit m e).1
        have hloop : applyLoop f m (c :: cs) rs = applyLoop f m cs (rs.edit m e).1 := by
          rw [applyLoop, hr]; simp [hb]
        refine ⟨e :: done, rest, ⟨hb, i1⟩, ⟨c :: cs1, by simp [i2], by simp [he, i3]⟩, ?_, ?_, ?_⟩
        · rw [hloop, i4]; rfl
        · rw [hloop]; exact i5
        · exact i6
      | false =>
        have hloop : applyLoop f m (c :: cs) rs = ((rs.edit m e).1, .err) := by
          rw [applyLoop, hr]; simp [hb]
        refine ⟨[], c :: cs, trivial, ⟨[], rfl, rfl⟩, ?_, ?_, ?_⟩
        · rw [hloop, edit_fail rs m e hb]; rfl
        · rw [hloop]; simp
        · intro c' rest' h e' he'
          cases h
          rw [he] at he'
          cases he'
          exact hb
    · have hloop : applyLoop f m (c :: cs) rs = f rs c m := by
        rw [applyLoop]
        cases hx : f rs c m with
        | mk a b =>
          rw [hx] at h2
          cases b with
          | ok u => exact absurd rfl h2
          | err => rfl
          | panic => rfl
      refine ⟨[], c :: cs, trivial, ⟨[], rfl, rfl⟩, ?_, ?_, ?_⟩
      · rw [hloop, h1]; rfl
      · rw [hloop]; simp [h2]
      · intro c' rest' h e' he'
        cases h
        rw [he] at he'
        cases he'

/-- The edits a batch asks for, mapping rules first; none if some change is malformed. -/
def batchEdits (ms : List (Change MappingData)) (rr : List (Change RollupData)) : List (Option Edit) :=
  ms.map (·.mappingEdit) ++ rr.map (·.rollupEdit)

/-- C50, the part that holds: a batch carries out, in order, the changes before the first that is malformed or fails,
and nothing of it or of later ones; it reports success exactly if there is no such change.
Missing (refuted by `C50_violated`): nothing is carried out if some change fails. -/
theorem C50_prefix_partial (rs : RuleSet) (ms : List (Change MappingData)) (rr : List (Change RollupData)) (m : UpdateMeta) :
    ∃ (done : List Edit) (rest : List (Option Edit)), batchEdits ms rr = done.map some ++ rest ∧
      AllSucceed rs (done.map (·, m)) ∧
      (rs.applyChanges ms rr m).1 = rs.run (done.map (·, m)) ∧
      ((rs.applyChanges ms rr m).2 = .ok () ↔ rest = []) ∧
      (∀ e rest', rest = some e :: rest' → ((rs.run (done.map (·, m))).edit m e).2 = false) := by
  obtain ⟨d1, r1, a1, ⟨c1, a2, a3⟩, a4, a5, a6⟩ :=
    applyLoop_eq RuleSet.mappingChange Change.mappingEdit m (fun rs c => mappingChange_eq rs c m) ms rs
  obtain ⟨d2, r2, b1, ⟨c2, b2, b3⟩, b4, b5, b6⟩ :=
    applyLoop_eq RuleSet.rollupChange Change.rollupEdit m (fun rs c => rollupChange_eq rs c m) rr (rs.run (d1.map (·, m)))
  unfold RuleSet.applyChanges batchEdits
  cases hr : applyLoop RuleSet.mappingChange m ms rs with
  | mk rs' out =>
  rw [hr] at a4 a5
  simp only at a4 a5
  by_cases ho : out = .ok ()
  · subst ho
    have hr1 := a5.mp rfl
    subst hr1
    simp only [List.append_nil] at a2
    subst a4
    refine ⟨d1 ++ d2, r2.map (·.rollupEdit), ?_, ?_, ?_, ?_, ?_⟩
    · rw [a2, b2, a3, List.map_append, b3, List.map_append, List.append_assoc]
    · rw [List.map_append, allSucceed_append]; exact ⟨a1, b1⟩
    · rw [List.map_append, run_append]; exact b4
    · simp only [List.map_eq_nil_iff]; exact b5
    · intro e rest' h
      rw [List.map_append, run_append]
      cases r2 with
      | nil => cases h
      | cons c r2 =>
        simp only [List.map_cons, List.cons.injEq] at h
        exact b6 c r2 rfl e h.1
  · have hne : rs.applyChanges ms rr m = (rs', out) := by
      unfold RuleSet.applyChanges
      rw [hr]
      cases out with
      | ok u => exact absurd rfl ho
      | err => rfl
      | panic => rfl
    unfold RuleSet.applyChanges at hne
    rw [hr] at hne
    rw [hne]
    refine ⟨d1, r1.map (·.mappingEdit) ++ rr.map (·.rollupEdit), ?_, a1, a4, ?_, ?_⟩
    · rw [a2, List.map_append, a3, List.append_assoc]
    · constructor
      · intro h; exact absurd h ho
      · intro h
        have h1 := (List.append_eq_nil_iff.mp h).1
        simp only [List.map_eq_nil_iff] at h1
        exact a5.mpr h1
    · intro e rest' h
      cases r1 with
      | nil => exact absurd (a5.mpr rfl) ho
      | cons c r1 =>
        simp only [List.map_cons, List.cons_append, List.cons.injEq] at h
        exact a6 c r1 rfl e h.1

def exMeta (t : Int) : UpdateMeta := ⟨t, t - 5, bs "me"⟩
def exData (name filter : String) : MappingData := ⟨bs name, bs filter, 0, [], 1⟩
def exRollData (name filter : String) : RollupData := ⟨bs name, bs filter, [exTarget]⟩
def exEmpty : RuleSet := newEmptyRuleSet (bs "u") (bs "ns") (exMeta 1)

/-- C50 is violated: the second of two changes fails, the first stays. -/
theorem C50_violated : ∃ rs ms rr m, (RuleSet.applyChanges rs ms rr m).2 = .err ∧
    rs.mappingRules.map (·.uuid) = [] ∧ (RuleSet.applyChanges rs ms rr m).1.mappingRules.map (·.uuid) = [bs "1"] :=
  ⟨exEmpty, [⟨bs "add", none, some ([], exData "a" "city:sf"), bs "1"⟩, ⟨bs "delete", some (bs "9"), none, []⟩], [],
    exMeta 10, by decide +kernel, by decide +kernel, by decide +kernel⟩

/-! ### Sequences of commands -/

/-- What a client can ask of a mutable rule set. -/
inductive Cmd where
  | one (e : Edit)
  | batch (ms : List (Change MappingData)) (rr : List (Change RollupData))

def RuleSet.command (rs : RuleSet) (m : UpdateMeta) : Cmd → RuleSet
  | .one e => (rs.edit m e).1
  | .batch ms rr => (rs.applyChanges ms rr m).1

def RuleSet.commands (rs : RuleSet) (cs : List (Cmd × UpdateMeta)) : RuleSet := cs.foldl (fun rs c => rs.command c.2 c.1) rs

/-- The single edits a command may carry out. -/
def Cmd.edits : Cmd → List Edit
  | .one e => [e]
  | .batch ms rr => (batchEdits ms rr).filterMap fun e => e

/-- Commands amount to a sequence of edits: some of theirs, in order. -/
theorem commands_run : ∀ (cs : List (Cmd × UpdateMeta)) (rs : RuleSet),
    ∃ es : List (Edit × UpdateMeta), rs.commands cs = rs.run es ∧ es.Sublist (cs.flatMap fun c => c.1.edits.map (·, c.2))
  | [], rs => ⟨[], rfl, List.Sublist.refl _⟩
  | (c, m) :: cs, rs => by
    obtain ⟨es, h1, h2⟩ := commands_run cs (rs.command m c)
    have : ∃ es0 : List Edit, rs.command m c = rs.run (es0.map (·, m)) ∧ es0.Sublist c.edits := by
      cases c with
      | one e => exact ⟨[e], rfl, List.Sublist.refl _⟩
      | batch ms rr =>
        obtain ⟨done, rest, k1, _, k3, _⟩ := C50_prefix_partial rs ms rr m
        refine ⟨done, k3, ?_⟩
        simp only [Cmd.edits, k1, List.filterMap_append]
        have : (done.map some).filterMap (fun e => e) = done := by
          rw [List.filterMap_map]
          show done.filterMap (fun e => some e) = done
          exact List.filterMap_some
        rw [this]
        exact List.sublist_append_left _ _
    obtain ⟨es0, k1, k2⟩ := this
    refine ⟨es0.map (·, m) ++ es, ?_, ?_⟩
    · rw [run_append, ← k1]; exact h1
    · rw [List.flatMap_cons]
      exact (k2.map _).append h2

theorem commands_meta {cs : List (Cmd × UpdateMeta)} {es : List (Edit × UpdateMeta)}
    (h : es.Sublist (cs.flatMap fun c => c.1.edits.map (·, c.2))) : ∀ e ∈ es, ∃ c ∈ cs, c.2 = e.2 := by
  intro e he
  have := h.subset he
  simp only [List.mem_flatMap, List.mem_map] at this
  obtain ⟨c, hc, e', _, rfl⟩ := this
  exact ⟨c, hc, rfl⟩

/-! ### C46 -/

/-- Rule sets that agree before `T` match alike over ranges before `T`. -/
theorem grows_match (env : Env) (v v' : Int) {ms ms' : List MappingRule} {rs rs' : List RollupRule} (T : Int)
    (hm : Grows (fun s => T ≤ Snap.cutover s) ms ms') (hr : Grows (fun s => T ≤ Snap.cutover s) rs rs')
    (id : Bytes) (t0 frm to : Int) (h0 : t0 ≤ frm) (hf : frm < T) (ht : to ≤ T) :
    (forwardMatch env (activeSet v' ms' rs' t0) id frm to).forExistingID =
      (forwardMatch env (activeSet v ms rs t0) id frm to).forExistingID ∧
    (forwardMatch env (activeSet v' ms' rs' t0) id frm to).forNewRollupIDs =
      (forwardMatch env (activeSet v ms rs t0) id frm to).forNewRollupIDs ∧
    ∀ mt at' multi o, (reverseMatch env (activeSet v' ms' rs' t0) id frm to mt at' multi o).forExistingID =
      (reverseMatch env (activeSet v ms rs t0) id frm to mt at' multi o).forExistingID := by
  have hb : Built (activeSet v ms rs t0) := ⟨v, _, _, rfl⟩
  have hb' : Built (activeSet v' ms' rs' t0) := ⟨v', _, _, rfl⟩
  have gm := hm.active t0 (fun s hs => by have : T ≤ Snap.cutover s := hs; omega)
  have gr := hr.active t0 (fun s hs => by have : T ≤ Snap.cutover s := hs; omega)
  have cm : ∀ t, t < T → current (activeSet v' ms' rs' t0).mappingRules t = current (activeSet v ms rs t0).mappingRules t :=
    fun t ht => gm.current t (fun s hs => by have : T ≤ Snap.cutover s := hs; omega)
  have cr : ∀ t, t < T → current (activeSet v' ms' rs' t0).rollupRules t = current (activeSet v ms rs t0).rollupRules t :=
    fun t ht => gr.current t (fun s hs => by have : T ≤ Snap.cutover s := hs; omega)
  have hp : ∀ t, t < T → forwardMatchAt env (activeSet v' ms' rs' t0) id t = forwardMatchAt env (activeSet v ms rs t0) id t := by
    intro t ht
    apply forwardMatchAt_congr'
    · unfold matchingM; rw [cm t ht]
    · unfold matchingR; rw [cr t ht]
  have hq : ∀ mt at' multi o t, t < T → reverseAt env (activeSet v' ms' rs' t0) id mt at' multi o t =
      reverseAt env (activeSet v ms rs t0) id mt at' multi o t :=
    fun mt at' multi o t ht => reverseAt_congr env _ _ id mt at' multi o t (cm t ht) (cr t ht)
  have hs : stages (activeSet v' ms' rs' t0) frm to = stages (activeSet v ms rs t0) frm to := by
    unfold stages
    refine sorted_ext (hb'.sorted.filter _) (hb.sorted.filter _) fun c => ?_
    simp only [List.mem_filter, Bool.and_eq_true, decide_eq_true_eq, hb.mem, hb'.mem]
    have e1 : c < to → (IsRuleTime (activeSet v' ms' rs' t0).mappingRules (activeSet v' ms' rs' t0).rollupRules c ↔
        IsRuleTime (activeSet v ms rs t0).mappingRules (activeSet v ms rs t0).rollupRules c) := by
      intro hc
      have k1 := gm.times c (fun s hs => by have : T ≤ Snap.cutover s := hs; omega)
      have k2 := gr.times c (fun s hs => by have : T ≤ Snap.cutover s := hs; omega)
      exact or_congr k1 k2
    constructor
    · rintro ⟨a, b, d⟩; exact ⟨(e1 d).mp a, b, d⟩
    · rintro ⟨a, b, d⟩; exact ⟨(e1 d).mpr a, b, d⟩
  have hst : ∀ c ∈ stages (activeSet v ms rs t0) frm to, c < T := by
    intro c hc
    unfold stages at hc
    simp only [List.mem_filter, Bool.and_eq_true, decide_eq_true_eq] at hc
    omega
  refine ⟨?_, ?_, ?_⟩
  · rw [forwardMatch_eq env _ hb', forwardMatch_eq env _ hb]
    simp only
    rw [hs, hp frm hf]
    apply foldl_congr'
    intro c hc ex
    rw [hp c (hst c hc)]
  · rw [forwardMatch_eq env _ hb', forwardMatch_eq env _ hb]
    simp only
    rw [hs, hp frm hf]
    apply foldl_congr'
    intro c hc ex
    rw [hp c (hst c hc)]
  · intro mt at' multi o
    rw [reverseMatch_eq env _ hb', reverseMatch_eq env _ hb]
    simp only
    rw [hs, hq mt at' multi o frm hf]
    apply foldl_congr'
    intro c hc ex
    rw [hq mt at' multi o c (hst c hc)]

/-- C46: whatever commands are given with cutover times from `T` on, matching over any range before `T` gives the same
metadatas and rollup identifiers as before, forwards and in reverse. -/
theorem C46_past_unchanged (env : Env) (rs : RuleSet) (cs : List (Cmd × UpdateMeta)) (T : Int)
    (hT : ∀ c ∈ cs, T ≤ c.2.cutoverNanos) (id : Bytes) (t0 frm to : Int) (h0 : t0 ≤ frm) (hf : frm < T) (ht : to ≤ T) :
    (forwardMatch env ((rs.commands cs).activeSet t0) id frm to).forExistingID =
      (forwardMatch env (rs.activeSet t0) id frm to).forExistingID ∧
    (forwardMatch env ((rs.commands cs).activeSet t0) id frm to).forNewRollupIDs =
      (forwardMatch env (rs.activeSet t0) id frm to).forNewRollupIDs ∧
    ∀ mt at' multi o, (reverseMatch env ((rs.commands cs).activeSet t0) id frm to mt at' multi o).forExistingID =
      (reverseMatch env (rs.activeSet t0) id frm to mt at' multi o).forExistingID := by
  obtain ⟨es, h1, h2⟩ := commands_run cs rs
  have hes : ∀ e ∈ es, T ≤ e.2.cutoverNanos := by
    intro e he
    obtain ⟨c, hc, hce⟩ := commands_meta h2 e he
    rw [← hce]
    exact hT c hc
  obtain ⟨gm, gr⟩ := run_grows T es rs hes
  rw [h1]
  exact grows_match env _ _ T gm gr id t0 frm to h0 hf ht

/-! ### C48 -/

def Edit.newMappingIDs : Edit → List Bytes
  | .addMapping f _ => [f]
  | _ => []

def Edit.newRollupIDs : Edit → List Bytes
  | .addRollup f _ => [f]
  | _ => []

theorem run_ids : ∀ (es : List (Edit × UpdateMeta)) (rs : RuleSet),
    (∃ l, l.Sublist (es.flatMap fun e => e.1.newMappingIDs) ∧
      (rs.run es).mappingRules.map (·.uuid) = rs.mappingRules.map (·.uuid) ++ l) ∧
    (∃ l, l.Sublist (es.flatMap fun e => e.1.newRollupIDs) ∧
      (rs.run es).rollupRules.map (·.uuid) = rs.rollupRules.map (·.uuid) ++ l)
  | [], rs => ⟨⟨[], by simp, by simp [RuleSet.run]⟩, ⟨[], by simp, by simp [RuleSet.run]⟩⟩
  | (e, m) :: es, rs => by
    obtain ⟨⟨l1, a1, a2⟩, ⟨l2, b1, b2⟩⟩ := run_ids es (rs.edit m e).1
    constructor
    · obtain ⟨l, c1, c2⟩ := op_ids mappingKit_ok rs.mappingRules m (mappingOp rs e)
      rw [← edit_mapping] at c2
      refine ⟨l ++ l1, ?_, ?_⟩
      · rw [List.flatMap_cons]
        refine List.Sublist.append (c1.trans ?_) a1
        have : (mappingOp rs e).newIDs = e.newMappingIDs := by
          cases e <;> simp only [mappingOp] <;> first | rfl | (split <;> rfl)
        rw [this]
        exact List.Sublist.refl _
      · show ((rs.edit m e).1.run es).mappingRules.map (·.uuid) = _
        rw [a2, c2, List.append_assoc]
    · obtain ⟨l, c1, c2⟩ := op_ids rollupKit_ok rs.rollupRules m (rollupOp rs e)
      rw [← edit_rollup] at c2
      refine ⟨l ++ l2, ?_, ?_⟩
      · rw [List.flatMap_cons]
        refine List.Sublist.append (c1.trans ?_) b1
        have : (rollupOp rs e).newIDs = e.newRollupIDs := by
          cases e <;> simp only [rollupOp] <;> first | rfl | (split <;> rfl)
        rw [this]
        exact List.Sublist.refl _
      · show ((rs.edit m e).1.run es).rollupRules.map (·.uuid) = _
        rw [b2, c2, List.append_assoc]

/-- The identifiers the commands may give to new mapping rules. -/
def freshMapping (cs : List (Cmd × UpdateMeta)) : List Bytes := cs.flatMap fun c => c.1.edits.flatMap (·.newMappingIDs)

/-- The identifiers the commands may give to new rollup rules. -/
def freshRollup (cs : List (Cmd × UpdateMeta)) : List Bytes := cs.flatMap fun c => c.1.edits.flatMap (·.newRollupIDs)

theorem flatMap_sublist {α β : Type} (f : α → List β) {l l' : List α} (h : l.Sublist l') : (l.flatMap f).Sublist (l'.flatMap f) := by
  induction h with
  | slnil => exact List.Sublist.refl _
  | cons a _ ih => rw [List.flatMap_cons]; exact ih.trans (List.sublist_append_right _ _)
  | cons_cons a _ ih => rw [List.flatMap_cons, List.flatMap_cons]; exact (List.Sublist.refl _).append ih

/-- C48: identifiers stay unique, given that the ones drawn for new rules are new. -/
theorem C48_unique_ids (rs : RuleSet) (cs : List (Cmd × UpdateMeta))
    (hm : (rs.mappingRules.map (·.uuid) ++ freshMapping cs).Nodup)
    (hr : (rs.rollupRules.map (·.uuid) ++ freshRollup cs).Nodup) :
    ((rs.commands cs).mappingRules.map (·.uuid)).Nodup ∧ ((rs.commands cs).rollupRules.map (·.uuid)).Nodup := by
  obtain ⟨es, h1, h2⟩ := commands_run cs rs
  obtain ⟨⟨l1, a1, a2⟩, ⟨l2, b1, b2⟩⟩ := run_ids es rs
  rw [h1, a2, b2]
  have key : ∀ f : Edit → List Bytes, (es.flatMap fun e => f e.1).Sublist (cs.flatMap fun c => c.1.edits.flatMap f) := by
    intro f
    refine (flatMap_sublist (fun e => f e.1) h2).trans ?_
    rw [List.flatMap_assoc]
    have : (fun c : Cmd × UpdateMeta => (c.1.edits.map (·, c.2)).flatMap fun e => f e.1) = fun c => c.1.edits.flatMap f := by
      funext c
      rw [List.flatMap_map]
    rw [this]
    exact List.Sublist.refl _
  constructor
  · exact hm.sublist ((List.Sublist.refl _).append (a1.trans (key _)))
  · exact hr.sublist ((List.Sublist.refl _).append (b1.trans (key _)))

/-- C48: every rule keeps its place, its identifier and its history, which is only continued; new rules come after. -/
theorem C48_append_only (rs : RuleSet) (cs : List (Cmd × UpdateMeta)) :
    (∀ (i : Nat) (r : MappingRule), rs.mappingRules[i]? = some r → ∃ r', (rs.commands cs).mappingRules[i]? = some r' ∧ r'.uuid = r.uuid ∧
      r.snapshots <+: r'.snapshots) ∧
    (∀ (i : Nat) (r : RollupRule), rs.rollupRules[i]? = some r → ∃ r', (rs.commands cs).rollupRules[i]? = some r' ∧ r'.uuid = r.uuid ∧
      r.snapshots <+: r'.snapshots) := by
  have key : ∀ {S : Type} [Snap S] {P : S → Prop} {a b : List (Rule S)}, Grows P a b → ∀ (i : Nat) (r : Rule S), a[i]? = some r →
      ∃ r', b[i]? = some r' ∧ r'.uuid = r.uuid ∧ r.snapshots <+: r'.snapshots := by
    intro S _ P a b h i r hi
    obtain ⟨kept, added, rfl, hf, _⟩ := h
    have : ∃ r', kept[i]? = some r' ∧ r'.uuid = r.uuid ∧ r.snapshots <+: r'.snapshots := by
      induction hf generalizing i with
      | nil => simp at hi
      | cons h _ ih =>
        cases i with
        | zero =>
          simp only [List.getElem?_cons_zero, Option.some.injEq] at hi
          subst hi
          obtain ⟨hu, ex, he, _⟩ := h
          exact ⟨_, rfl, hu, ex, he.symm⟩
        | succ i => exact ih i hi
    obtain ⟨r', h1, h2⟩ := this
    refine ⟨r', ?_, h2⟩
    obtain ⟨hl, _⟩ := List.getElem?_eq_some_iff.mp h1
    rw [List.getElem?_append_left hl]
    exact h1
  obtain ⟨es, h1, _⟩ := commands_run cs rs
  rw [h1]
  have hmin : ∃ T : Int, ∀ e ∈ es, T ≤ e.2.cutoverNanos := by
    clear h1
    induction es with
    | nil => exact ⟨0, by simp⟩
    | cons e es ih =>
      obtain ⟨T, hT⟩ := ih (by assumption |> fun h => (List.Sublist.trans (List.sublist_cons_self _ _) h))
      refine ⟨min T e.2.cutoverNanos, ?_⟩
      intro e' he'
      rcases List.mem_cons.mp he' with rfl | he'
      · omega
      · have := hT e' he'; omega
  obtain ⟨T, hT⟩ := hmin
  obtain ⟨g1, g2⟩ := run_grows T es rs hT
  exact ⟨key g1, key g2⟩

/-- C48: a failed edit changes nothing. -/
theorem C48_failed_edit (rs : RuleSet) (m : UpdateMeta) (e : Edit) (h : (rs.edit m e).2 = false) : (rs.edit m e).1 = rs :=
  edit_fail rs m e h

/-! ### C47 -/

/-- What is produced for a metric at a time: the pipelines for itself, and the rollup identifiers with theirs. -/
def outputs (env : Env) (as : ActiveRuleSet) (id : Bytes) (t : Int) :
    List PipelineMetadata × List (Bytes × List (List PipelineMetadata)) :=
  ((forwardMatchAt env as id t).forExistingID.pipelines,
   (forwardMatchAt env as id t).forNewRollupIDs.map fun r => (r.id, r.metadatas.map (·.pipelines)))

theorem unique_pipelines (a b : MatchRes) (h : a.pipelines = b.pipelines) : a.unique.pipelines = b.unique.pipelines := by
  unfold MatchRes.unique
  rw [h]
  split
  · exact h
  · simp only
    split <;> rfl

theorem live_filter {S : Type} [Snap S] (p : S → Bool) (l : List S) : live (l.filter p) = (live l).filter p := by
  unfold live
  rw [List.filter_filter, List.filter_filter]
  congr 1
  funext s
  exact Bool.and_comm _ _

/-- What is produced depends only on the snapshots in force that are not deleted. -/
theorem outputs_congr (env : Env) (as as' : ActiveRuleSet) (id : Bytes) (t : Int)
    (hM : live (current as.mappingRules t) = live (current as'.mappingRules t))
    (hR : live (current as.rollupRules t) = live (current as'.rollupRules t)) :
    outputs env as id t = outputs env as' id t := by
  have h1 : asked env as id t = asked env as' id t := by
    unfold asked matchingM
    rw [live_filter, live_filter, hM]
  have h2 : rolled env as id t = rolled env as' id t := by
    unfold rolled targetsAt matchingR
    rw [live_filter, live_filter, hR]
  unfold outputs
  congr 1
  · unfold forwardMatchAt MatchRes.toStaged
    simp only [mappingsFor_eq, rollupResultsFor_eq, h1, h2]
    unfold MatchRes.resolvedPipelines
    generalize hx : (MatchRes.merge _ _) = x
    generalize hy : (MatchRes.merge _ _) = y
    have : x.unique.pipelines = y.unique.pipelines := by
      apply unique_pipelines
      rw [← hx, ← hy]
      rfl
    rw [this]
  · rw [forward_rollups, forward_rollups]
    unfold sortByID generated
    rw [h2, sortBy_map, sortBy_map, List.map_map, List.map_map]
    rfl

theorem inForce_last {S : Type} [Snap S] {snaps : List S} {s : S} {t : Int} (h : snaps.getLast? = some s)
    (hc : Snap.cutover s ≤ t) : inForce snaps t = some s := by
  obtain ⟨l, rfl⟩ : ∃ l, snaps = l ++ [s] := by
    obtain ⟨hne, hl⟩ := List.getLast?_eq_some_iff.mp h
    exact ⟨_, hl⟩
  unfold inForce
  rw [List.filter_append]
  simp [hc]

theorem current_mapping (rs : RuleSet) {t0 t : Int} (h : t0 ≤ t) : current (rs.activeSet t0).mappingRules t = current rs.mappingRules t :=
  activeSet_current rs.mappingRules t0 t h

theorem current_rollup (rs : RuleSet) {t0 t : Int} (h : t0 ≤ t) : current (rs.activeSet t0).rollupRules t = current rs.rollupRules t :=
  activeSet_current rs.rollupRules t0 t h

/-- A rule that is deleted at a time can as well be taken away. -/
theorem live_erase {S : Type} [Snap S] {rules : List (Rule S)} {i : Nat} {r : Rule S} (hi : rules[i]? = some r) {t : Int} {s : S}
    (hs : inForce r.snapshots t = some s) (ht : Snap.tombstoned s = true) :
    live (current (rules.eraseIdx i) t) = live (current rules t) := by
  induction rules generalizing i with
  | nil => simp at hi
  | cons q rules ih =>
    cases i with
    | zero =>
      simp only [List.getElem?_cons_zero, Option.some.injEq] at hi
      subst hi
      unfold current live
      rw [List.eraseIdx_cons_zero, List.filterMap_cons, hs]
      simp [ht]
    | succ i =>
      have := ih (i := i) hi
      unfold current live at this ⊢
      rw [List.eraseIdx_cons_succ, List.filterMap_cons, List.filterMap_cons]
      cases inForce q.snapshots t with
      | none => exact this
      | some s => simp only [List.filter_cons, this]

def Edit.AvoidsMapping (id name : Bytes) : Edit → Prop
  | .addMapping _ d => d.name ≠ name
  | .updateMapping id' _ => id' ≠ id
  | _ => True

def Edit.AvoidsRollup (id name : Bytes) : Edit → Prop
  | .addRollup _ d => d.name ≠ name
  | .updateRollup id' _ => id' ≠ id
  | _ => True

theorem run_keeps_mapping (i : Nat) (r : MappingRule) (ht : r.tombstoned = true) (n : Bytes) (hn : r.name = some n) :
    ∀ (es : List (Edit × UpdateMeta)) (rs : RuleSet), rs.mappingRules[i]? = some r →
      (∀ e ∈ es, e.1.AvoidsMapping r.uuid n) → (rs.run es).mappingRules[i]? = some r
  | [], _, hi, _ => hi
  | (e, m) :: es, rs, hi, h => by
    refine run_keeps_mapping i r ht n hn es (rs.edit m e).1 ?_ (fun e' he' => h e' (by simp [he']))
    rw [edit_mapping]
    apply op_keeps_deleted (k := mappingKit) rs.mappingRules m _ i r hi ht n hn
    have := h (e, m) (by simp)
    cases e <;> simp only [mappingOp] <;> first | exact this | trivial | (split <;> trivial)

theorem run_keeps_rollup (i : Nat) (r : RollupRule) (ht : r.tombstoned = true) (n : Bytes) (hn : r.name = some n) :
    ∀ (es : List (Edit × UpdateMeta)) (rs : RuleSet), rs.rollupRules[i]? = some r →
      (∀ e ∈ es, e.1.AvoidsRollup r.uuid n) → (rs.run es).rollupRules[i]? = some r
  | [], _, hi, _ => hi
  | (e, m) :: es, rs, hi, h => by
    refine run_keeps_rollup i r ht n hn es (rs.edit m e).1 ?_ (fun e' he' => h e' (by simp [he']))
    rw [edit_rollup]
    apply op_keeps_deleted (k := rollupKit) rs.rollupRules m _ i r hi ht n hn
    have := h (e, m) (by simp)
    cases e <;> simp only [rollupOp] <;> first | exact this | trivial | (split <;> trivial)

theorem deleteRule_ok {S D : Type} [Snap S] {k : Kit S D} (hk : k.Ok) {rules : List (Rule S)} {id : Bytes} {m : UpdateMeta}
    (h : (deleteRule k rules id m).2 = true) : ∃ (i : Nat) (r r' : Rule S) (n : Bytes) (s : S), rules[i]? = some r ∧ r.uuid = id ∧
      r.name = some n ∧ (deleteRule k rules id m).1[i]? = some r' ∧ r'.uuid = id ∧ r'.name = some n ∧
      r'.snapshots.getLast? = some s ∧ Snap.tombstoned s = true ∧ Snap.cutover s = m.cutoverNanos := by
  unfold deleteRule at h ⊢
  cases hg : getRuleByID id rules with
  | none => simp [hg] at h
  | some i =>
    obtain ⟨r, hi, hid⟩ := getRuleByID_some hg
    simp only [hg, hi] at h ⊢
    obtain ⟨s, h1, h2, h3⟩ := markTombstoned_ok h
    obtain ⟨k1, k2, k3⟩ := hk.tomb s m
    have hlt : i < rules.length := (List.getElem?_eq_some_iff.mp hi).1
    refine ⟨i, r, _, Snap.name s, k.tomb s m, hi, hid, by simp [Rule.name, h1], List.getElem?_set_self hlt, ?_, ?_, ?_, k2, k1⟩
    · rw [h3]; exact hid
    · rw [h3]; simp [Rule.name, k3]
    · rw [h3]; simp

/-- After the deletion has taken effect the mapping rule counts for nothing. -/
theorem mapping_stops_live (rs : RuleSet) (rid : Bytes) (m : UpdateMeta) (h : (rs.deleteMappingRule rid m).2 = true)
    (cs : List (Cmd × UpdateMeta)) : ∃ (i : Nat) (r : MappingRule) (n : Bytes), rs.mappingRules[i]? = some r ∧ r.uuid = rid ∧
      r.name = some n ∧ ((∀ c ∈ cs, ∀ e ∈ c.1.edits, e.AvoidsMapping rid n) →
        ∀ rs', rs' = (rs.deleteMappingRule rid m).1.commands cs → ∀ t, m.cutoverNanos ≤ t →
          live (current (rs'.mappingRules.eraseIdx i) t) = live (current rs'.mappingRules t)) := by
  have h' : (deleteRule mappingKit rs.mappingRules rid m).2 = true := h
  obtain ⟨i, r, r', n, s, h1, h2, h3, h4, h5, h6, h7, h8, h9⟩ := deleteRule_ok mappingKit_ok h'
  refine ⟨i, r, n, h1, h2, h3, ?_⟩
  rintro hav rs' rfl t ht
  have hstate : (rs.deleteMappingRule rid m).1.mappingRules[i]? = some r' := by
    have : (rs.deleteMappingRule rid m).1.mappingRules = (deleteRule mappingKit rs.mappingRules rid m).1 := by
      unfold RuleSet.deleteMappingRule
      simp only
      split <;> rfl
    rw [this]
    exact h4
  obtain ⟨es, e1, e2⟩ := commands_run cs (rs.deleteMappingRule rid m).1
  have hk : ((rs.deleteMappingRule rid m).1.commands cs).mappingRules[i]? = some r' := by
    rw [e1]
    refine run_keeps_mapping i r' (by simp [Rule.tombstoned, h7, h8]) n h6 es _ hstate ?_
    intro e he
    have := e2.subset he
    simp only [List.mem_flatMap, List.mem_map] at this
    obtain ⟨c, hc, e', he', rfl⟩ := this
    rw [h5]
    exact hav c hc e' he'
  exact live_erase hk (inForce_last h7 (by rw [h9]; exact ht)) h8

/-- C47: a mapping rule deleted with cutover `T` contributes nothing from `T` on: whatever commands follow, as long as they
neither update it nor add a rule under its name, the metric is treated as if the rule were not there. -/
theorem C47_mapping_stops (env : Env) (rs : RuleSet) (rid : Bytes) (m : UpdateMeta) (h : (rs.deleteMappingRule rid m).2 = true)
    (cs : List (Cmd × UpdateMeta)) : ∃ (i : Nat) (r : MappingRule) (n : Bytes), rs.mappingRules[i]? = some r ∧ r.uuid = rid ∧
      r.name = some n ∧ ((∀ c ∈ cs, ∀ e ∈ c.1.edits, e.AvoidsMapping rid n) →
        ∀ rs', rs' = (rs.deleteMappingRule rid m).1.commands cs → ∀ t0 t id, t0 ≤ t → m.cutoverNanos ≤ t →
          outputs env (rs'.activeSet t0) id t =
            outputs env (RuleSet.activeSet { rs' with mappingRules := rs'.mappingRules.eraseIdx i } t0) id t) := by
  obtain ⟨i, r, n, h1, h2, h3, h4⟩ := mapping_stops_live rs rid m h cs
  refine ⟨i, r, n, h1, h2, h3, ?_⟩
  rintro hav rs' rfl t0 t id ht0 ht
  apply outputs_congr
  · rw [current_mapping _ ht0, current_mapping _ ht0]
    exact (h4 hav _ rfl t ht).symm
  · rfl

/-- After the deletion has taken effect the rollup rule counts for nothing. -/
theorem rollup_stops_live (rs : RuleSet) (rid : Bytes) (m : UpdateMeta) (h : (rs.deleteRollupRule rid m).2 = true)
    (cs : List (Cmd × UpdateMeta)) : ∃ (i : Nat) (r : RollupRule) (n : Bytes), rs.rollupRules[i]? = some r ∧ r.uuid = rid ∧
      r.name = some n ∧ ((∀ c ∈ cs, ∀ e ∈ c.1.edits, e.AvoidsRollup rid n) →
        ∀ rs', rs' = (rs.deleteRollupRule rid m).1.commands cs → ∀ t, m.cutoverNanos ≤ t →
          live (current (rs'.rollupRules.eraseIdx i) t) = live (current rs'.rollupRules t)) := by
  have h' : (deleteRule rollupKit rs.rollupRules rid m).2 = true := h
  obtain ⟨i, r, r', n, s, h1, h2, h3, h4, h5, h6, h7, h8, h9⟩ := deleteRule_ok rollupKit_ok h'
  refine ⟨i, r, n, h1, h2, h3, ?_⟩
  rintro hav rs' rfl t ht
  have hstate : (rs.deleteRollupRule rid m).1.rollupRules[i]? = some r' := by
    have : (rs.deleteRollupRule rid m).1.rollupRules = (deleteRule rollupKit rs.rollupRules rid m).1 := by
      unfold RuleSet.deleteRollupRule
      simp only
      split <;> rfl
    rw [this]
    exact h4
  obtain ⟨es, e1, e2⟩ := commands_run cs (rs.deleteRollupRule rid m).1
  have hk : ((rs.deleteRollupRule rid m).1.commands cs).rollupRules[i]? = some r' := by
    rw [e1]
    refine run_keeps_rollup i r' (by simp [Rule.tombstoned, h7, h8]) n h6 es _ hstate ?_
    intro e he
    have := e2.subset he
    simp only [List.mem_flatMap, List.mem_map] at this
    obtain ⟨c, hc, e', he', rfl⟩ := this
    rw [h5]
    exact hav c hc e' he'
  exact live_erase hk (inForce_last h7 (by rw [h9]; exact ht)) h8

/-- C47 for rollup rules. -/
theorem C47_rollup_stops (env : Env) (rs : RuleSet) (rid : Bytes) (m : UpdateMeta) (h : (rs.deleteRollupRule rid m).2 = true)
    (cs : List (Cmd × UpdateMeta)) : ∃ (i : Nat) (r : RollupRule) (n : Bytes), rs.rollupRules[i]? = some r ∧ r.uuid = rid ∧
      r.name = some n ∧ ((∀ c ∈ cs, ∀ e ∈ c.1.edits, e.AvoidsRollup rid n) →
        ∀ rs', rs' = (rs.deleteRollupRule rid m).1.commands cs → ∀ t0 t id, t0 ≤ t → m.cutoverNanos ≤ t →
          outputs env (rs'.activeSet t0) id t =
            outputs env (RuleSet.activeSet { rs' with rollupRules := rs'.rollupRules.eraseIdx i } t0) id t) := by
  obtain ⟨i, r, n, h1, h2, h3, h4⟩ := rollup_stops_live rs rid m h cs
  refine ⟨i, r, n, h1, h2, h3, ?_⟩
  rintro hav rs' rfl t0 t id ht0 ht
  apply outputs_congr
  · rfl
  · rw [current_rollup _ ht0, current_rollup _ ht0]
    exact (h4 hav _ rfl t ht).symm

/-- C47: deleting the whole rule set at a time not before any of its changes leaves only the default pipeline from then on. -/
theorem C47_delete_all (env : Env) (rs : RuleSet) (m : UpdateMeta) (h : (rs.delete m).2 = true)
    (hm : ∀ r ∈ rs.mappingRules, ∀ s ∈ r.snapshots, s.cutoverNanos ≤ m.cutoverNanos)
    (hr : ∀ r ∈ rs.rollupRules, ∀ s ∈ r.snapshots, s.cutoverNanos ≤ m.cutoverNanos)
    (t0 t : Int) (id : Bytes) (h0 : t0 ≤ t) (ht : m.cutoverNanos ≤ t) :
    outputs env ((rs.delete m).1.activeSet t0) id t = ([{}], []) := by
  have key : ∀ {S D : Type} [Snap S] {k : Kit S D} (_ : k.Ok) (rules : List (Rule S)),
      (∀ r ∈ rules, ∀ s ∈ r.snapshots, Snap.cutover s ≤ m.cutoverNanos) → live (current (RuleSet.deleteAll k rules m) t) = [] := by
    intro S D _ k hk rules hc
    unfold live
    rw [List.filter_eq_nil_iff]
    intro s hs
    unfold current at hs
    simp only [List.mem_filterMap, RuleSet.deleteAll, List.mem_map] at hs
    obtain ⟨r', ⟨r, hr, rfl⟩, hin⟩ := hs
    have last : ∀ {l : List S} {x : S}, l.getLast? = some x → Snap.cutover x ≤ t → inForce l t = some s → s = x := by
      intro l x hl hx hi
      rw [inForce_last hl hx] at hi
      cases hi; rfl
    cases hb : (markTombstoned k.tomb r m).2 with
    | true =>
      obtain ⟨x, h1, h2, h3⟩ := markTombstoned_ok hb
      have hnt : (!r.tombstoned) = true := by simp [Rule.tombstoned, h1, h2]
      rw [if_pos hnt, h3] at hin
      have := last (x := k.tomb x m) (by simp) (by rw [(hk.tomb x m).1]; exact ht) hin
      rw [this, (hk.tomb x m).2.1]
      simp
    | false =>
      have hin' : inForce r.snapshots t = some s := by
        rw [markTombstoned_fail hb] at hin
        split at hin <;> exact hin
      cases hl : r.snapshots.getLast? with
      | none =>
        rw [List.getLast?_eq_none_iff] at hl
        rw [hl] at hin'
        simp [inForce] at hin'
      | some x =>
        have hx := last hl (Int.le_trans (hc r hr x (List.mem_of_getLast? hl)) ht) hin'
        have htx : r.tombstoned = true := by
          unfold markTombstoned at hb
          cases hrt : r.tombstoned with
          | true => rfl
          | false => simp [Rule.name, hl, hrt] at hb
        simp only [Rule.tombstoned, hl] at htx
        rw [hx, htx]
        simp
  have hd : (rs.delete m).1.mappingRules = RuleSet.deleteAll mappingKit rs.mappingRules m ∧
      (rs.delete m).1.rollupRules = RuleSet.deleteAll rollupKit rs.rollupRules m := by
    unfold RuleSet.delete at h ⊢
    split
    · rename_i hts; rw [if_pos hts] at h; cases h
    · exact ⟨rfl, rfl⟩
  have e : outputs env ((rs.delete m).1.activeSet t0) id t = outputs env (newActiveRuleSet 0 [] []) id t := by
    apply outputs_congr
    · rw [current_mapping _ h0, hd.1, key mappingKit_ok _ hm]
      rfl
    · rw [current_rollup _ h0, hd.2, key rollupKit_ok _ hr]
      rfl
  rw [e]
  unfold outputs
  rw [forward_rollups]
  have hg : rolled env (newActiveRuleSet 0 [] []) id t = [] := by
    unfold rolled
    split <;> rfl
  unfold generated
  rw [hg]
  unfold forwardMatchAt
  simp only [mappingsFor_eq, rollupResultsFor_eq, hg]
  have ha : asked env (newActiveRuleSet 0 [] []) id t = [] := rfl
  rw [ha]
  rfl

/-- C47: deleting a rule that is not there, or that is deleted, fails (and, by `C48_failed_edit`, changes nothing). -/
theorem C47_delete_fails (rs : RuleSet) (rid : Bytes) (m : UpdateMeta) :
    ((∀ r ∈ rs.mappingRules, r.uuid = rid → r.tombstoned = true) → rs.deleteMappingRule rid m = (rs, false)) ∧
    ((∀ r ∈ rs.rollupRules, r.uuid = rid → r.tombstoned = true) → rs.deleteRollupRule rid m = (rs, false)) := by
  have key : ∀ {S D : Type} [Snap S] {k : Kit S D} (rules : List (Rule S)),
      (∀ r ∈ rules, r.uuid = rid → r.tombstoned = true) → (deleteRule k rules rid m).2 = false := by
    intro S D _ k rules h
    unfold deleteRule
    cases hg : getRuleByID rid rules with
    | none => rfl
    | some i =>
      obtain ⟨r, hi, hid⟩ := getRuleByID_some hg
      simp only [hi]
      have := h r (List.mem_of_getElem? hi) hid
      unfold markTombstoned
      cases r.name <;> simp [this]
  constructor
  · intro h
    have hf : (rs.edit m (.deleteMapping rid)).2 = false := key (k := mappingKit) _ h
    exact Prod.ext (edit_fail rs m _ hf) hf
  · intro h
    have hf : (rs.edit m (.deleteRollup rid)).2 = false := key (k := rollupKit) _ h
    exact Prod.ext (edit_fail rs m _ hf) hf

theorem addRule_revives {S D : Type} [Snap S] {k : Kit S D} (hk : k.Ok) {pre post : List (Rule S)} {r : Rule S} (f : Bytes) (d : D)
    (m : UpdateMeta) (hpre : ∀ q ∈ pre, q.name ≠ none ∧ q.name ≠ some (k.nameOf d)) (hn : r.name = some (k.nameOf d))
    (ht : r.tombstoned = true) (hv : (k.add r d m).2 = true) :
    ∃ s, addRule k (pre ++ r :: post) f d m = (pre ++ { r with snapshots := r.snapshots ++ [s] } :: post, some r.uuid) ∧
      Snap.tombstoned s = false ∧ Snap.cutover s = m.cutoverNanos ∧ Snap.name s = k.nameOf d := by
  rcases hk.add r d m with ⟨s, e, h1, h2, h3⟩ | e
  · refine ⟨s, ?_, h2, h1, h3⟩
    unfold addRule
    rw [getRuleByName_first hpre hn]
    simp only
    rw [List.getElem?_append_right (Nat.le_refl _), Nat.sub_self, List.getElem?_cons_zero]
    simp only
    have : revive k.add r d m = ({ r with snapshots := r.snapshots ++ [s] }, true) := by
      unfold revive
      rw [hn]
      simp [ht, e]
    rw [this]
    simp
  · rw [e] at hv; cases hv

/-- C47: adding a mapping rule under the name of a deleted one revives that one: it keeps its identifier, its place and its
history, which is continued by a live snapshot. -/
theorem C47_mapping_revives (rs : RuleSet) (pre post : List MappingRule) (r : MappingRule) (f : Bytes) (d : MappingData)
    (m : UpdateMeta) (hrs : rs.mappingRules = pre ++ r :: post) (hpre : ∀ q ∈ pre, q.name ≠ none ∧ q.name ≠ some d.name)
    (hn : r.name = some d.name) (ht : r.tombstoned = true) (hv : filterValid d.filter = true) :
    ∃ s, (rs.addMappingRule f d m).2 = some r.uuid ∧
      (rs.addMappingRule f d m).1.mappingRules = pre ++ { r with snapshots := r.snapshots ++ [s] } :: post ∧
      s.tombstoned = false ∧ s.cutoverNanos = m.cutoverNanos ∧ s.name = d.name := by
  have hv' : (mappingKit.add r d m).2 = true := by
    simp only [mappingKit, addMappingSnapshot]
    rw [if_pos hv]
  obtain ⟨s, h1, h2⟩ := addRule_revives mappingKit_ok (post := post) f d m hpre hn ht hv'
  refine ⟨s, ?_, ?_, h2⟩
  · simp only [RuleSet.addMappingRule, hrs, h1]
  · simp only [RuleSet.addMappingRule, hrs, h1, RuleSet.updateMetadata]
    rfl

/-- C47 for rollup rules. -/
theorem C47_rollup_revives (rs : RuleSet) (pre post : List RollupRule) (r : RollupRule) (f : Bytes) (d : RollupData)
    (m : UpdateMeta) (hrs : rs.rollupRules = pre ++ r :: post) (hpre : ∀ q ∈ pre, q.name ≠ none ∧ q.name ≠ some d.name)
    (hn : r.name = some d.name) (ht : r.tombstoned = true) (hv : filterValid d.filter = true) :
    ∃ s, (rs.addRollupRule f d m).2 = some r.uuid ∧
      (rs.addRollupRule f d m).1.rollupRules = pre ++ { r with snapshots := r.snapshots ++ [s] } :: post ∧
      s.tombstoned = false ∧ s.cutoverNanos = m.cutoverNanos ∧ s.name = d.name := by
  have hv' : (rollupKit.add r d m).2 = true := by
    simp only [rollupKit, addRollupSnapshot]
    rw [if_pos hv]
  obtain ⟨s, h1, h2⟩ := addRule_revives rollupKit_ok (post := post) f d m hpre hn ht hv'
  refine ⟨s, ?_, ?_, h2⟩
  · simp only [RuleSet.addRollupRule, hrs, h1]
  · simp only [RuleSet.addRollupRule, hrs, h1, RuleSet.updateMetadata]
    rfl

/-! ### C49 -/

/-- No two live rules have the same name. -/
def LiveNamesDistinct {S : Type} [Snap S] (rules : List (Rule S)) : Prop :=
  (rules.filter fun r => !r.tombstoned).Pairwise fun a b => a.name ≠ b.name

instance {S : Type} [Snap S] (rules : List (Rule S)) : Decidable (LiveNamesDistinct rules) := by
  unfold LiveNamesDistinct; infer_instance

theorem live_of_names {S : Type} [Snap S] {rules : List (Rule S)} (h : NamesDistinct rules) : LiveNamesDistinct rules := by
  unfold LiveNamesDistinct
  have h' := List.Pairwise.filter (fun r => !r.tombstoned) h
  refine List.Pairwise.imp_of_mem ?_ h'
  intro a b ha _ hab heq
  have hat : a.tombstoned = false := by simpa using (List.mem_filter.mp ha).2
  unfold Rule.tombstoned at hat
  cases hl : a.snapshots.getLast? with
  | none => simp [hl] at hat
  | some s =>
    have hn : a.name = some (Snap.name s) := by simp [Rule.name, hl]
    exact hab _ hn (heq ▸ hn)

/-- No edit of the sequence is an update that gives a rule a name that, at that moment, another rule has. -/
def CarefulRun : RuleSet → List (Edit × UpdateMeta) → Prop
  | _, [] => True
  | rs, (e, m) :: es => (mappingOp rs e).Careful mappingKit rs.mappingRules ∧ (rollupOp rs e).Careful rollupKit rs.rollupRules ∧
      CarefulRun (rs.edit m e).1 es

/-- C49, the part that holds: names stay unique under edits that do not rename a rule to the name of another, deleted or not.
Missing (refuted by `C49_violated` and `C49_violated_by_revival`): other renaming updates. -/
theorem C49_names_partial : ∀ (es : List (Edit × UpdateMeta)) (rs : RuleSet),
    (rs.mappingRules.map (·.uuid) ++ es.flatMap fun e => e.1.newMappingIDs).Nodup →
    (rs.rollupRules.map (·.uuid) ++ es.flatMap fun e => e.1.newRollupIDs).Nodup →
    NamesDistinct rs.mappingRules → NamesDistinct rs.rollupRules → CarefulRun rs es →
    LiveNamesDistinct (rs.run es).mappingRules ∧ LiveNamesDistinct (rs.run es).rollupRules
  | [], rs, _, _, hm, hr, _ => ⟨live_of_names hm, live_of_names hr⟩
  | (e, m) :: es, rs, um, ur, hm, hr, ⟨c1, c2, c3⟩ => by
    obtain ⟨⟨l1, a1, a2⟩, ⟨l2, b1, b2⟩⟩ := run_ids [(e, m)] rs
    have f1 : [(e, m)].flatMap (fun e => e.1.newMappingIDs) = e.newMappingIDs := by simp
    have f2 : [(e, m)].flatMap (fun e => e.1.newRollupIDs) = e.newRollupIDs := by simp
    rw [f1] at a1
    rw [f2] at b1
    refine C49_names_partial es (rs.edit m e).1 ?_ ?_ ?_ ?_ c3
    · have : (rs.edit m e).1 = rs.run [(e, m)] := rfl
      rw [this, a2, List.append_assoc]
      rw [List.flatMap_cons] at um
      exact um.sublist ((List.Sublist.refl _).append (a1.append (List.Sublist.refl _)))
    · have : (rs.edit m e).1 = rs.run [(e, m)] := rfl
      rw [this, b2, List.append_assoc]
      rw [List.flatMap_cons] at ur
      exact ur.sublist ((List.Sublist.refl _).append (b1.append (List.Sublist.refl _)))
    · rw [edit_mapping]
      exact op_names mappingKit_ok _ (um.sublist (List.sublist_append_left _ _)) hm m _ c1
    · rw [edit_rollup]
      exact op_names rollupKit_ok _ (ur.sublist (List.sublist_append_left _ _)) hr m _ c2

def exTwo : List (Edit × UpdateMeta) :=
  [(.addMapping (bs "1") (exData "a" "city:sf"), exMeta 10), (.addMapping (bs "2") (exData "b" "city:nyc"), exMeta 20)]

/-- C49 is violated: a rule is renamed to the name of another live rule. -/
theorem C49_violated : ∃ (rs : RuleSet) (es : List (Edit × UpdateMeta)), LiveNamesDistinct rs.mappingRules ∧ AllSucceed rs es ∧
    ¬ LiveNamesDistinct (rs.run es).mappingRules :=
  ⟨exEmpty, exTwo ++ [(.updateMapping (bs "2") (exData "a" "city:nyc"), exMeta 30)], by decide +kernel,
    by decide +kernel, by decide +kernel⟩

/-- C49 is violated even if no update uses the name of a live rule: rule 1 is deleted, rule 2 takes its name, and adding a
rule of that name, instead of being refused, revives rule 1. -/
theorem C49_violated_by_revival : ∃ (rs : RuleSet) (e : Edit) (m : UpdateMeta),
    (∃ es, AllSucceed exEmpty es ∧ rs = exEmpty.run es) ∧ LiveNamesDistinct rs.mappingRules ∧
    (∃ f d, e = .addMapping f d ∧ ∃ r ∈ rs.mappingRules, r.tombstoned = false ∧ r.name = some d.name) ∧
    (rs.edit m e).2 = true ∧ ¬ LiveNamesDistinct (rs.edit m e).1.mappingRules :=
  ⟨exEmpty.run (exTwo ++ [(.deleteMapping (bs "1"), exMeta 30), (.updateMapping (bs "2") (exData "a" "city:nyc"), exMeta 40)]),
    .addMapping (bs "3") (exData "a" "city:la"), exMeta 50,
    ⟨_, by decide +kernel, rfl⟩, by decide +kernel,
    ⟨_, _, rfl, by decide +kernel⟩, by decide +kernel, by decide +kernel⟩

/-! ### Concrete cases -/

/-- A sequence with all kinds of edits, a batch that fails half way among them. -/
def exCmds : List (Cmd × UpdateMeta) :=
  [(.one (.addMapping (bs "1") (exData "a" "city:sf")), exMeta 10),
   (.one (.addRollup (bs "2") (exRollData "b" "city:nyc")), exMeta 20),
   (.batch [⟨bs "add", none, some ([], exData "c" "city:la"), bs "3"⟩, ⟨bs "delete", some (bs "9"), none, []⟩] [], exMeta 30),
   (.one (.deleteMapping (bs "1")), exMeta 40), (.one (.addMapping (bs "4") (exData "a" "city:x")), exMeta 50)]

/-- Beside C46 and C48: rule 1 is added, deleted and revived, the first change of the batch stays. -/
example : (exEmpty.commands exCmds).mappingRules.map (fun r => (r.uuid, r.snapshots.map (·.cutoverNanos))) =
      [(bs "1", [10, 40, 50]), (bs "3", [30])] ∧
    (exEmpty.commands exCmds).rollupRules.map (·.uuid) = [bs "2"] ∧
    (exEmpty.mappingRules.map (·.uuid) ++ freshMapping exCmds).Nodup ∧
    (exEmpty.rollupRules.map (·.uuid) ++ freshRollup exCmds).Nodup ∧ (∀ c ∈ exCmds, 10 ≤ c.2.cutoverNanos) := by
  decide +kernel

/-- Two rules apply to `exID` at 10. -/
def exOne : RuleSet := { exEmpty with mappingRules := exRules, rollupRules := [⟨bs "r", [exRollup 1 false [exTarget]]⟩] }

/-- Beside C47: a rule that applies is deleted at 15; its pipeline is there before and is not from then on, also after a
rule of another name has been added; the other rules go on. -/
example : (exOne.deleteMappingRule (bs "1") (exMeta 15)).2 = true ∧
    ((outputs m3Env (exOne.activeSet 0) exID 16).1.map (·.aggID)) = [4, 8, 0] ∧
    ((outputs m3Env (((exOne.deleteMappingRule (bs "1") (exMeta 15)).1.commands
      [(.one (.addMapping (bs "7") (exData "z" "city:sf")), exMeta 16)]).activeSet 0) exID 14).1.map (·.aggID)) = [4, 8, 0] ∧
    ((outputs m3Env (((exOne.deleteMappingRule (bs "1") (exMeta 15)).1.commands
      [(.one (.addMapping (bs "7") (exData "z" "city:sf")), exMeta 17)]).activeSet 0) exID 16).1.map (·.aggID)) = [8, 0] ∧
    ((outputs m3Env ((exOne.deleteRollupRule (bs "r") (exMeta 15)).1.activeSet 0) exID 16).1.map (·.aggID)) = [4, 8] ∧
    ((exOne.delete (exMeta 20)).2 = true ∧ outputs m3Env ((exOne.delete (exMeta 20)).1.activeSet 0) exID 20 = ([{}], [])) := by
  decide +kernel

end Verif.RuleSet
