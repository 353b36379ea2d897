import Verif.Lemmas.Json
/- C81: the JSON forms of rules. -/
namespace Verif.Json
open Verif.Policy Verif.RuleSet Verif.Spec.Json
open Verif.Rules (RollupTarget)
open Verif.MP (StagedPolicies)

/-! ### Round trips -/

/-- C81: a text is written as it is exactly when it is UTF-8. -/
theorem C81_text (s : Bytes) : coerce s = s ↔ Utf8 s := coerce_iff s

example : Utf8 [99, 0xC3, 0xA9] ∧ ¬ Utf8 [99, 0xFF] := by
  rw [← C81_text, ← C81_text]; decide +kernel

/-- C81: rule sets, lists of namespaces and changes are read back from their JSON forms. -/
theorem C81_roundtrip (x : XTime) :
    (∀ v, RuleSetForm x v → ∃ j, (ruleSetView x).enc v = some j ∧ (ruleSetView x).dec j zeroRuleSet = some v) ∧
    (∀ c, ChangesForm x c → ∃ j, (changes x).enc c = some j ∧ (changes x).dec j {} = some c) ∧
    (∀ v : NamespacesView, Spec.Msg.Int64 v.version → (∀ n ∈ v.namespaces, NamespaceForm n) →
      ∃ j, namespacesView.enc v = some j ∧ namespacesView.dec j {} = some v) :=
  ⟨fun _ h => ruleSet_rt h, fun _ h => changes_rt h, fun _ h h' => namespaces_rt h h'⟩

/-- C81: a rule set has a JSON form exactly when its aggregation types, operations and transformations are known. -/
theorem C81_writes_iff (x : XTime) (v : RuleSetView) : (ruleSetView x).enc v ≠ none ↔ Known v := writes_ruleSet x v

/-- C81: whatever is read from JSON has known types and operations only, with nothing in the fields of other kinds, and numbers in range; so it
is written and read back. -/
theorem C81_read (x : XTime) (hx : PrintsParsed x) (j : J) (hj : Text j) :
    (∀ v, (ruleSetView x).dec j zeroRuleSet = some v →
      RuleSetForm x v ∧ ∃ j', (ruleSetView x).enc v = some j' ∧ (ruleSetView x).dec j' zeroRuleSet = some v) ∧
    (∀ c, (changes x).dec j {} = some c →
      ChangesForm x c ∧ ∃ j', (changes x).enc c = some j' ∧ (changes x).dec j' {} = some c) := by
  constructor
  · intro v h
    have := reads_ruleSet hx j _ v hj (zero_ruleSet x) h
    exact ⟨this, ruleSet_rt this⟩
  · intro c h
    have := reads_changes hx j _ c hj ⟨utf8_nil, by simp, by simp⟩ h
    exact ⟨this, changes_rt this⟩

/-! ### Reading over an older value -/

theorem rt_slice_any {c : Codec A} {zero : A} : ∀ {l : List A} (old : List A), (∀ a ∈ l, ∀ o, RT c a o) → RT (slice c zero) l old
  | [], old, _ => ⟨.arr [], rfl, rfl⟩
  | a :: l, old, h => by
    obtain ⟨j, h1, h2⟩ := h a (by simp) (old.headD zero)
    obtain ⟨js, h3, h4⟩ := rt_slice_any (zero := zero) old.tail (fun a ha => h a (List.mem_cons_of_mem _ ha) : ∀ a ∈ l, ∀ o, RT c a o)
    simp only [slice] at h3 h4
    cases he : arrEnc c l with
    | none => rw [he] at h3; cases h3
    | some l' =>
      rw [he] at h3
      cases h3
      refine ⟨.arr (j :: l'), by simp [slice, arrEnc, h1, he], ?_⟩
      simp only at h4
      simp only [slice, arrDec, h2, h4]

theorem step_omit_over {name : Bytes} {c : Codec A} {empty : A → Bool} {get : M → A} {set : M → A → M} {m d : M} (h : RT c (get m) (get d)) :
    Step (omitField name c empty get set) m d (if empty (get m) then d else set d (get m)) := by
  cases hm : empty (get m) with
  | true => exact Or.inl ⟨by simp [omitField, hm], rfl⟩
  | false =>
    obtain ⟨j, h1, h2⟩ := h
    exact Or.inr ⟨j, by simp [omitField, hm, h1], by simp [omitField, h2]⟩

/-- C81: a rule that is read over an older one takes the ID and the cutover time of the older one where it has none; all else is its own. -/
theorem C81_over_older (x : XTime) (v old : MappingView) (h : MappingForm x v) :
    ∃ j, (mappingView x).enc v = some j ∧ (mappingView x).dec j old = some { v with
      id := if v.id = [] then old.id else v.id
      cutoverMillis := if v.cutoverMillis = 0 then old.cutoverMillis else v.cutoverMillis } := by
  have st : ∀ p ∈ v.storagePolicies, ∀ o, RT (storagePolicy x) p o := fun p hp o => rt_storage (h.storage p hp) o
  have tail : ∀ d : MappingView, Steps ((mappingFields x).drop 4) v d { v with
      id := d.id, name := d.name, tombstoned := d.tombstoned, cutoverMillis := d.cutoverMillis } := fun d =>
    steps_cons (step_field (rt_string h.filter _)) (steps_cons (step_field (rt_aggID h.aggID _))
    (steps_cons (step_field (rt_slice_any _ st)) (steps_cons (step_field (rt_uint h.drop _))
    (steps_cons (step_field (rt_string h.by_ _)) (steps_cons (step_field (rt_int h.at_ _)) rfl)))))
  have third : ∀ d : MappingView, Steps ((mappingFields x).drop 3) v d { v with
      id := d.id, name := d.name, tombstoned := d.tombstoned
      cutoverMillis := if v.cutoverMillis = 0 then d.cutoverMillis else v.cutoverMillis } := fun d => by
    refine steps_cons (step_omit_over (rt_int h.cutover _)) ?_
    have := tail (if v.cutoverMillis = 0 then d else { d with cutoverMillis := v.cutoverMillis })
    by_cases e : v.cutoverMillis = 0
    · simp only [e, if_true, beq_self_eq_true] at this ⊢; exact this
    · simp only [e, if_false, beq_iff_eq] at this ⊢; exact this
  have : Steps (mappingFields x) v old { v with
      id := if v.id = [] then old.id else v.id
      cutoverMillis := if v.cutoverMillis = 0 then old.cutoverMillis else v.cutoverMillis } := by
    refine steps_cons (step_omit_over (rt_string h.id _)) (steps_cons (step_field (rt_string h.name _))
      (steps_cons (step_field (rt_bool _ _)) ?_))
    by_cases e : v.id = []
    · simp only [e, if_true, List.isEmpty_nil]
      exact third { old with name := v.name, tombstoned := v.tombstoned }
    · simp only [e, if_false, List.isEmpty_iff]
      exact third { old with id := v.id, name := v.name, tombstoned := v.tombstoned }
  obtain ⟨l, h1, h2⟩ := steps_members (all := mappingFields x) (by simp only [mappingFields, List.map, field, omitField]; decide)
    (fun _ h => h) this
  exact ⟨.obj l, by simp [mappingView, struct, h1], h2⟩

/-! ### Policies -/

/-- C81, the part for staged policies that holds: those with known aggregation types are read back.  Missing: the others, which are written
too, see `C81_violation_policy`. -/
theorem C81_policies_partial (x : XTime) (p old : StagedPolicies) (h : Spec.Msg.Int64 p.cutoverNanos)
    (h' : ∀ q ∈ p.policies, Printable x q.sp ∧ KnownID q.aggID) :
    ∃ j, (stagedPolicies x).enc p = some j ∧ (stagedPolicies x).dec j old = some p := staged_rt h h' old

theorem unread_policy {x : XTime} {q : Policy} (h : Printable x q.sp) (hk : ¬ KnownID q.aggID) : parsePolicy x (q.string x) = none := by
  have hbar := noBar_storage_policy_string x q.sp h.1 h.2.1 h.2.2
  have ht : Agg.ID.types q.aggID = none := by
    cases e : Agg.ID.types q.aggID with
    | none => rfl
    | some l => exact absurd ((known_iff _).mpr ⟨l, e⟩) hk
  have hd : q.aggID.isDefault = false := by
    cases e : q.aggID.isDefault with
    | false => rfl
    | true => rw [(Agg.C02_default_iff _).mp e] at ht; cases ht
  have hs : aggIDString q.aggID = bs "[invalid ID]" := by simp only [aggIDString, ht]
  have h1 : splitOn 124 (bs "[invalid ID]") = [bs "[invalid ID]"] := by decide
  have h2 : Agg.parseTypes (bs "[invalid ID]") = none := by decide
  unfold Policy.string parsePolicy
  rw [hd]
  simp only [Bool.false_eq_true, if_false]
  rw [splitOn_append _ _ _ hbar, hs, h1]
  simp only [h2]
  split <;> rfl

theorem arrDec_fails {c : Codec A} {zero : A} : ∀ (l : List J) (old : List A), (∃ j ∈ l, ∀ o, c.dec j o = none) → arrDec c zero l old = none
  | [], _, ⟨_, h, _⟩ => by cases h
  | j :: l, old, ⟨k, hk, h⟩ => by
    rw [arrDec]
    rcases List.mem_cons.mp hk with rfl | hk
    · rw [h]
    · rw [arrDec_fails l old.tail ⟨k, hk, h⟩]
      cases c.dec j (old.headD zero) <;> rfl

theorem policies_enc (x : XTime) : ∀ l : List Policy, arrEnc (policy x) l = some (l.map fun p => .str (p.string x))
  | [] => rfl
  | p :: l => by rw [arrEnc, policies_enc x l]; rfl

/-- C81 fails: staged policies with an aggregation type that is not known are written without an error, but cannot be read. -/
theorem C81_violation_policy (x : XTime) (p old : StagedPolicies) (h : ∃ q ∈ p.policies, Printable x q.sp ∧ ¬ KnownID q.aggID) :
    ∃ j, (stagedPolicies x).enc p = some j ∧ (stagedPolicies x).dec j old = none := by
  obtain ⟨q, hq, hs, hk⟩ := h
  refine ⟨.obj [(bs "cutoverNanos", .num p.cutoverNanos), (bs "tombstoned", .bool p.tombstoned),
    (bs "policies", .arr (p.policies.map fun p => .str (p.string x)))], ?_, ?_⟩
  · simp [stagedPolicies, struct, stagedFields, encFields, field, slice, policies_enc, int64, integer, boolean]
  · have f1 : findField (stagedFields x) (bs "cutoverNanos") = some ((stagedFields x).get ⟨0, by simp [stagedFields]⟩) := rfl
    have f2 : findField (stagedFields x) (bs "tombstoned") = some ((stagedFields x).get ⟨1, by simp [stagedFields]⟩) := rfl
    have f3 : findField (stagedFields x) (bs "policies") = some ((stagedFields x).get ⟨2, by simp [stagedFields]⟩) := rfl
    have hl : ∀ o, (slice (policy x) zeroPolicy).dec (.arr (p.policies.map fun p => .str (p.string x))) o = none := fun o =>
      arrDec_fails _ _ ⟨_, List.mem_map.mpr ⟨q, hq, rfl⟩, fun _ => unread_policy hs hk⟩
    simp only [stagedPolicies, struct, decMembers, f1, f2, f3]
    simp only [stagedFields, List.get, field, hl, Option.map_none]
    repeat' split
    all_goals rfl

/-- C81: an operation whose form has two kinds is read as the first of them, and the other is dropped. -/
theorem C81_two_kinds (old : Pipe.OpUnion) (a t : Int) (ha : 1 ≤ a ∧ a ≤ 22) (ht : t = 1 ∨ t = 2) :
    ∃ ja jt, aggOp.enc a = some ja ∧ transOp.enc t = some jt ∧
      opUnion.dec (.obj [(bs "transformation", jt), (bs "aggregation", ja)]) old = some { type := 1, aggregation := a } := by
  obtain ⟨s, h1, h2⟩ := rt_transType ht 0
  obtain ⟨h3, h4⟩ := rt_aggType ha 0
  refine ⟨_, _, h3, h1, ?_⟩
  have f1 : findField unionFields (bs "transformation") = some (unionFields.get ⟨1, by decide⟩) := rfl
  have f2 : findField unionFields (bs "aggregation") = some (unionFields.get ⟨0, by decide⟩) := rfl
  simp only [opUnion, struct, decMembers, f1, f2]
  simp only [unionFields, List.get, omitField, pointer, transOp, aggOp, h2, h4, Option.map_some]
  rfl

/-! ### Examples -/

/-- A printer and parser that know three durations. -/
def exX : XTime where
  unitValue u := if u = 1 then some 1000000000 else none
  unitFromDuration d := if d = 1000000000 then some 1 else none
  maxUnit _ := 1
  extString d := if d = 1000000000 then bs "1s" else if d = 10000000000 then bs "10s" else bs "2d"
  parseExt s := [(bs "1s", 1000000000), (bs "10s", 10000000000), (bs "2d", 172800000000000)].lookup s
  unitString _ := bs "s"

theorem exX_duration {s : Bytes} {d : Int} (h : exX.parseExt s = some d) : DurationOK exX d := by
  have h1 : ∀ p ∈ [(bs "1s", (1000000000 : Int)), (bs "10s", 10000000000), (bs "2d", 172800000000000)],
      exX.parseExt (exX.extString p.2) = some p.2 ∧ (64 : UInt8) ∉ exX.extString p.2 ∧ (58 : UInt8) ∉ exX.extString p.2 ∧
      (124 : UInt8) ∉ exX.extString p.2 := by decide +kernel
  have := h1 (s, d) (Agg.mem_of_lookup_eq_some h)
  exact ⟨this.1, this.2.1, this.2.2.1, this.2.2.2⟩

theorem exX_unit : UnitOK exX 1 := ⟨⟨1000000000, by decide +kernel, by decide +kernel⟩, by decide +kernel, by decide +kernel⟩

theorem exX_parsed : PrintsParsed exX := by
  intro s p h
  unfold parseStoragePolicy at h
  split at h
  · rename_i a b _
    cases e1 : parseResolution exX a with
    | none => rw [e1] at h; cases h
    | some r =>
      rw [e1] at h
      simp only at h
      cases e2 : exX.parseExt b with
      | none => rw [e2] at h; cases h
      | some d =>
        rw [e2] at h; cases h
        suffices DurationOK exX r.window ∧ r.precision = 1 from ⟨this.1, exX_duration e2, this.2 ▸ exX_unit⟩
        unfold parseResolution at e1
        split at e1
        · split at e1
          · cases e1
          · rename_i w hw; cases e1; exact ⟨exX_duration hw, rfl⟩
        · split at e1
          · cases e1
          · rename_i w hw
            split at e1
            · cases e1
            · split at e1
              · cases e1
              · rename_i u hu
                cases e1
                refine ⟨exX_duration hw, ?_⟩
                simp only [exX] at hu
                split at hu <;> cases hu
                rfl
  · cases h

def exSP : StoragePolicy := ⟨⟨10000000000, 1⟩, 172800000000000⟩

/-- A rule set with a mapping rule and a rollup rule of three operations. -/
def exView : RuleSetView :=
  ⟨bs "ns", 3, 5000,
   [⟨bs "m1", bs "first", false, 0, bs "app:web", 0x12#64, [exSP], 2, bs "them", 7000⟩],
   [⟨bs "r1", bs "second", true, -1, bs "app:*", [⟨[{ type := 1, aggregation := 7 }, { type := 2, transformation := 2 },
     { type := 3, rollup := { newName := bs "all", tags := [bs "a", bs "b"], aggID := 0x80#64 } }], [exSP]⟩], bs "them", 7000⟩]⟩

theorem utf8_of {s : Bytes} (h : coerce s = s) : Utf8 s := (C81_text s).mp h

theorem known_small {id : BitVec 64} (h : ∀ i < 64, id.getLsbD i = true → 1 ≤ i ∧ i ≤ 22) : KnownID id := fun i hb =>
  h i (Classical.byContradiction fun hn => by rw [BitVec.getLsbD_of_ge _ _ (by omega)] at hb; cases hb) hb

theorem exView_form : RuleSetForm exX exView := by
  have hsp : ∀ p ∈ [exSP], Printable exX p := by
    intro p hp
    rw [List.mem_singleton.mp hp]
    exact exX_parsed (bs "10s:2d") exSP (by decide +kernel)
  refine ⟨utf8_of (by decide +kernel), by unfold Spec.Msg.Int64; decide, by unfold Spec.Msg.Int64; decide, ?_, ?_⟩
  · intro r hr
    rw [List.mem_singleton.mp hr]
    exact ⟨utf8_of (by decide +kernel), utf8_of (by decide +kernel), utf8_of (by decide +kernel), utf8_of (by decide +kernel),
      by unfold Spec.Msg.Int64; decide, by unfold Spec.Msg.Int64; decide, known_small (by decide), hsp, by decide⟩
  · intro r hr
    rw [List.mem_singleton.mp hr]
    refine ⟨utf8_of (by decide +kernel), utf8_of (by decide +kernel), utf8_of (by decide +kernel), utf8_of (by decide +kernel),
      by unfold Spec.Msg.Int64; decide, by unfold Spec.Msg.Int64; decide, ?_⟩
    intro t ht
    rw [List.mem_singleton.mp ht]
    refine ⟨?_, hsp⟩
    intro u hu
    simp only [List.mem_cons, List.not_mem_nil, or_false] at hu
    rcases hu with rfl | rfl | rfl
    · exact ⟨.aggregation _ rfl (by decide), by simp, by simp, by simp, utf8_nil, by simp⟩
    · exact ⟨.transformation _ rfl (by decide), by simp, by simp, by simp, utf8_nil, by simp⟩
    · refine ⟨.rollup _ rfl (known_small (by decide)), by simp, by simp, by simp, utf8_of (by decide +kernel), ?_⟩
      have : ∀ t ∈ [bs "a", bs "b"], coerce t = t := by decide +kernel
      exact fun t ht => utf8_of (this t ht)

example : ∃ j, (ruleSetView exX).enc exView = some j ∧ (ruleSetView exX).dec j zeroRuleSet = some exView :=
  (C81_roundtrip exX).1 exView exView_form

/-- The JSON text `{"ID": "ns", "mappingRules": [{"name": "é", "aggregation": ["Sum", "Max"], "storagePolicies": ["10s:2d"]}]}` is read,
up to case. -/
example : ((ruleSetView exX).dec (.obj [(bs "ID", .str (bs "ns")), (bs "mappingRules", .arr [.obj [(bs "name", .str [0xC3, 0xA9]),
    (bs "aggregation", .arr [.str (bs "Sum"), .str (bs "Max")]), (bs "storagePolicies", .arr [.str (bs "10s:2d")])]])]) zeroRuleSet) =
    some ⟨bs "ns", 0, 0, [{ zeroMapping with name := [0xC3, 0xA9], aggID := 0x88, storagePolicies := [exSP] }], []⟩ := by decide +kernel

/-- A policy with type 23 is written as a text that is not read. -/
example : ∃ j, (stagedPolicies exX).enc { policies := [⟨exSP, 0x800000⟩] } = some j ∧ (stagedPolicies exX).dec j {} = none :=
  C81_violation_policy exX _ _ ⟨⟨exSP, 0x800000⟩, by simp, exX_parsed (bs "10s:2d") exSP (by decide +kernel), fun h => by
    have := h 23 (by decide); omega⟩

example : ¬ Known { exView with mappingRules := [{ zeroMapping with aggID := 0x800000 }] } := fun h => by
  have := h.mapping { zeroMapping with aggID := 0x800000 } (by simp) 23 (by decide); omega

end Verif.Json
