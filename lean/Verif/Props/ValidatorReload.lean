import Verif.Props.Validator
import Verif.Props.RuleSetProto
import Verif.Props.RuleSetViews
/-
C52: whether a rule set that the validator accepts can be read back once written.
-/
namespace Verif.RuleSet
open Verif.Agg Verif.Policy Verif.Meta Verif.Rules Verif.Active Verif.Spec.Rules Verif.Val Verif.Spec.Val Verif.TagsFlt

/-! ### One edit -/

/-- After an edit every snapshot is an old one, the mark of a deletion, or the live last one of its rule. -/
theorem op_step {S D : Type} [Snap S] {k : Kit S D} (hk : k.Ok) (rules : List (Rule S)) (m : UpdateMeta) (o : Op D) :
    ∀ r' ∈ o.apply k rules m, ∀ s ∈ r'.snapshots, (∃ r ∈ rules, s ∈ r.snapshots) ∨
      (∃ r ∈ rules, ∃ s0 ∈ r.snapshots, s = k.tomb s0 m) ∨ (r'.snapshots.getLast? = some s ∧ Snap.tombstoned s = false) := by
  have old : ∀ r' ∈ rules, ∀ s ∈ r'.snapshots, (∃ r ∈ rules, s ∈ r.snapshots) ∨
      (∃ r ∈ rules, ∃ s0 ∈ r.snapshots, s = k.tomb s0 m) ∨ (r'.snapshots.getLast? = some s ∧ Snap.tombstoned s = false) :=
    fun r' hr s hs => Or.inl ⟨r', hr, hs⟩
  -- a rule to which a snapshot is added
  have added : ∀ (r : Rule S) (d : D), (∀ s ∈ r.snapshots, ∃ r0 ∈ rules, s ∈ r0.snapshots) →
      ∀ s ∈ (k.add r d m).1.snapshots, (∃ r ∈ rules, s ∈ r.snapshots) ∨
      (∃ r ∈ rules, ∃ s0 ∈ r.snapshots, s = k.tomb s0 m) ∨
      ((k.add r d m).1.snapshots.getLast? = some s ∧ Snap.tombstoned s = false) := by
    intro r d hr s hs
    rcases hk.add r d m with ⟨s1, h1, _, h2, _⟩ | h1
    · rw [h1] at hs ⊢
      simp only at hs ⊢
      rcases List.mem_append.mp hs with h | h
      · exact Or.inl (hr s h)
      · rw [List.mem_singleton] at h
        exact Or.inr (Or.inr ⟨by simp [h], h ▸ h2⟩)
    · rw [h1] at hs
      exact Or.inl (hr s hs)
  -- a rule that is marked deleted
  have marked : ∀ r ∈ rules, ∀ s ∈ (markTombstoned k.tomb r m).1.snapshots, (∃ r ∈ rules, s ∈ r.snapshots) ∨
      (∃ r ∈ rules, ∃ s0 ∈ r.snapshots, s = k.tomb s0 m) ∨
      ((markTombstoned k.tomb r m).1.snapshots.getLast? = some s ∧ Snap.tombstoned s = false) := by
    intro r hr s hs
    have : (markTombstoned k.tomb r m).1.snapshots = r.snapshots ∨
        ∃ s0 ∈ r.snapshots, (markTombstoned k.tomb r m).1.snapshots = r.snapshots ++ [k.tomb s0 m] := by
      unfold markTombstoned
      split
      · exact Or.inl rfl
      · split
        · exact Or.inl rfl
        · split
          · exact Or.inl rfl
          · rename_i s0 h
            exact Or.inr ⟨s0, List.mem_of_getLast? h, rfl⟩
    rcases this with h | ⟨s0, h0, h⟩
    · rw [h] at hs
      exact Or.inl ⟨r, hr, hs⟩
    · rw [h] at hs
      rcases List.mem_append.mp hs with h | h
      · exact Or.inl ⟨r, hr, h⟩
      · exact Or.inr (Or.inl ⟨r, hr, s0, h0, List.mem_singleton.mp h⟩)
  -- a rule replaced in its place
  have replaced : ∀ (i : Nat) (x : Rule S), (∀ s ∈ x.snapshots, (∃ r ∈ rules, s ∈ r.snapshots) ∨
      (∃ r ∈ rules, ∃ s0 ∈ r.snapshots, s = k.tomb s0 m) ∨ (x.snapshots.getLast? = some s ∧ Snap.tombstoned s = false)) →
      ∀ r' ∈ rules.set i x, ∀ s ∈ r'.snapshots, (∃ r ∈ rules, s ∈ r.snapshots) ∨
      (∃ r ∈ rules, ∃ s0 ∈ r.snapshots, s = k.tomb s0 m) ∨ (r'.snapshots.getLast? = some s ∧ Snap.tombstoned s = false) := by
    intro i x hx r' hr'
    rcases List.mem_or_eq_of_mem_set hr' with h | h
    · exact old r' h
    · exact h ▸ hx
  intro r' hr'
  cases o with
  | add f d =>
    simp only [Op.apply, addRule] at hr'
    split at hr'
    · exact old r' hr'
    · split at hr'
      · rcases List.mem_append.mp hr' with h | h
        · exact old r' h
        · rw [List.mem_singleton] at h
          exact h ▸ added _ d (by simp)
      · exact old r' hr'
    · split at hr'
      · exact old r' hr'
      · rename_i i r hi
        have hmem := List.mem_of_getElem? hi
        refine replaced _ _ ?_ r' hr'
        unfold revive
        split
        · exact old r hmem
        · split
          · exact old r hmem
          · exact added r d fun s hs => ⟨r, hmem, hs⟩
  | update id d =>
    simp only [Op.apply, updateRule] at hr'
    split at hr'
    · exact old r' hr'
    · split at hr'
      · exact old r' hr'
      · rename_i i _ r hi
        exact replaced _ _ (added r d fun s hs => ⟨r, List.mem_of_getElem? hi, hs⟩) r' hr'
  | delete id =>
    simp only [Op.apply, deleteRule] at hr'
    split at hr'
    · exact old r' hr'
    · split at hr'
      · exact old r' hr'
      · rename_i i _ r hi
        exact replaced _ _ (marked r (List.mem_of_getElem? hi)) r' hr'
  | deleteAll =>
    simp only [Op.apply, deleteAll, List.mem_map] at hr'
    obtain ⟨r, hr, rfl⟩ := hr'
    split
    · exact marked r hr
    · exact old r hr
  | other => exact old r' hr'

/-! ### What the validator guarantees -/

/-- The storage policies a deployment allows can be written. -/
def UnitsAllowed (x : XTime) (o : Val.Options) : Prop := ∀ t p, o.allowsStorage t p = true → KnownUnit x p

theorem types_of_known {id : Agg.ID} (h : ∀ i, id.getLsbD i = true → 1 ≤ i ∧ i ≤ 22) : id.types.isSome = true := by
  obtain ⟨l, hl⟩ := (C02_decodes_iff id).mpr fun i _ hb => by
    have := h i hb
    unfold Verif.Spec.ValidAggType
    omega
  simp [hl]

theorem filterOk_valid {L : Limits} {text : Bytes} {m : TagFilterValueMap} {types : List Int} (h : FilterOk L text m types) :
    filterValid text = true := by
  unfold filterValid
  rw [(C31_validate_iff text m).mpr ⟨h.parses, h.patterns⟩]

theorem storageOk_units {x : XTime} {o : Val.Options} (hu : UnitsAllowed x o) {sps : List StoragePolicy} {types : List Int}
    (hne : types ≠ []) (h : StorageOk (limits o) sps types) : ∀ p ∈ sps, KnownUnit x p := by
  intro p hp
  cases types with
  | nil => exact absurd rfl hne
  | cons t ts => exact hu t p (h.allowed t (by simp) p hp)

theorem mapping_accepted {x : XTime} {o : Val.Options} (hu : UnitsAllowed x o) (uuid : Bytes) (s : MappingSnapshot)
    (h : MappingOk (limits o) (shownMapping uuid s)) : MappingReadable x s ∧ s.drop ≤ 2 := by
  obtain ⟨m, types, hf, ha, hd⟩ := h
  refine ⟨⟨types_of_known ha.known, ?_, ?_, ?_, filterOk_valid hf⟩, ?_⟩
  · rcases hd with ⟨_, hs⟩ | ⟨_, _, hs⟩
    · exact storageOk_units hu hf.nonempty hs
    · intro p hp
      rw [show s.storagePolicies = [] from hs] at hp
      cases hp
  · intro he
    rcases hd with ⟨_, hs⟩ | ⟨hd, _, _⟩
    · exact absurd he hs.nonempty
    · left
      rcases hd with hd | hd <;> rw [show s.drop = _ from hd] <;> decide
  · intro hne
    rcases hd with ⟨hd, _⟩ | ⟨_, _, hs⟩
    · exact hd
    · exact absurd hs hne
  · rcases hd with ⟨hd, _⟩ | ⟨hd | hd, _⟩ <;> rw [show s.drop = _ from hd] <;> decide

theorem rollup_accepted {x : XTime} {o : Val.Options} (hu : UnitsAllowed x o) (uuid : Bytes) (s : RollupSnapshot)
    (h : RollupRuleOk (limits o) (shownRollup uuid s)) (ht : s.targets ≠ []) : RollupReadable x s := by
  obtain ⟨m, types, hf, hall⟩ := h
  refine ⟨fun t htm => ?_, fun e => absurd e ht, filterOk_valid hf⟩
  obtain ⟨hp, hs⟩ := hall ⟨t.pipeline.map payload, t.storagePolicies⟩ (List.mem_map.mpr ⟨t, htm, rfl⟩)
  refine ⟨fun u hu' => ?_, storageOk_units hu hf.nonempty hs⟩
  obtain ⟨i, hi⟩ := List.getElem?_of_mem hu'
  have hget : (t.pipeline.map payload)[i]? = some (payload u) := by rw [List.getElem?_map, hi]; rfl
  have hmem : payload u ∈ t.pipeline.map payload := List.mem_map.mpr ⟨u, hu', rfl⟩
  rcases hp.known _ hmem with h1 | h1 | h1
  · have h1' : u.type = 1 := h1
    have := (hp.aggregation i _ hget h1).2.1
    simp only [payload, h1', if_true] at this
    exact Or.inl ⟨h1', this⟩
  · have h1' : u.type = 2 := h1
    have := hp.transformation _ hmem h1
    simp only [payload, h1', if_true] at this
    exact Or.inr (Or.inl ⟨h1', this⟩)
  · have h1' : u.type = 3 := h1
    have := (hp.rollup i _ hget h1).agg.known
    simp only [payload, h1', if_true] at this
    exact Or.inr (Or.inr ⟨h1', types_of_known this⟩)

/-- The last snapshots of the live rules are in the latest view. -/
theorem latest_shows (rs : RuleSet) (hm : (rs.mappingRules.map (·.uuid)).Nodup) (hr : (rs.rollupRules.map (·.uuid)).Nodup)
    (v : RuleSetView) (hv : rs.latest = some v) :
    (∀ r ∈ rs.mappingRules, ∀ s, r.snapshots.getLast? = some s → s.tombstoned = false → shownMapping r.uuid s ∈ v.mappingRules) ∧
    (∀ r ∈ rs.rollupRules, ∀ s, r.snapshots.getLast? = some s → s.tombstoned = false → shownRollup r.uuid s ∈ v.rollupRules) := by
  obtain ⟨h1, h2⟩ := C68_history rs
  unfold RuleSet.latest at hv
  rw [h1, h2] at hv
  cases hv
  obtain ⟨_, _, _, h3, h4⟩ := C68_latest_partial rs hm hr _ _ ⟨_, h1, List.Perm.refl _⟩ ⟨_, h2, List.Perm.refl _⟩
  constructor
  · intro r hr' s hs ht
    rw [h3.1.mem_iff]
    unfold liveShown
    rw [List.mem_filterMap]
    refine ⟨r, hr', ?_⟩
    simp only [hs]
    rw [if_neg (by simpa [Snap.tombstoned] using ht)]
  · intro r hr' s hs ht
    rw [h4.1.mem_iff]
    unfold liveShown
    rw [List.mem_filterMap]
    refine ⟨r, hr', ?_⟩
    simp only [hs]
    rw [if_neg (by simpa [Snap.tombstoned] using ht)]

/-- Every live rollup rule has a target. -/
def HasTargets (rs : RuleSet) : Prop :=
  ∀ r ∈ rs.rollupRules, ∀ s, r.snapshots.getLast? = some s → s.tombstoned = false → s.targets ≠ []

/-- What the validator says about the live rules. -/
theorem accepted_live {x : XTime} {o : Val.Options} (hu : UnitsAllowed x o) (rs : RuleSet)
    (hm : (rs.mappingRules.map (·.uuid)).Nodup) (hr : (rs.rollupRules.map (·.uuid)).Nodup)
    (hv : Val.validate o rs.latest = none) (ht : HasTargets rs) :
    (∀ r ∈ rs.mappingRules, ∀ s, r.snapshots.getLast? = some s → s.tombstoned = false → MappingReadable x s ∧ s.drop ≤ 2) ∧
    (∀ r ∈ rs.rollupRules, ∀ s, r.snapshots.getLast? = some s → s.tombstoned = false → RollupReadable x s) := by
  cases hl : rs.latest with
  | none => rw [hl] at hv; simp [Val.validate, wrapError] at hv
  | some v =>
    rw [hl] at hv
    obtain ⟨he, _⟩ := (C53_accepts_iff o v).mp hv
    obtain ⟨s1, s2⟩ := latest_shows _ hm hr v hl
    constructor
    · intro r hr' s hs hlive
      refine mapping_accepted hu r.uuid s (he.mapping _ ?_)
      unfold liveM
      rw [List.mem_filter]
      exact ⟨s1 r hr' s hs hlive, by simpa [shownMapping] using hlive⟩
    · intro r hr' s hs hlive
      refine rollup_accepted hu r.uuid s (he.rollup _ ?_) (ht r hr' s hs hlive)
      unfold liveR
      rw [List.mem_filter]
      exact ⟨s2 r hr' s hs hlive, by simpa [shownRollup] using hlive⟩

/-- The snapshots that are not shown to the validator can be read: the superseded ones and the marks of deletions. -/
structure RestReadable (x : XTime) (rs : RuleSet) : Prop where
  mapping : ∀ r ∈ rs.mappingRules, ∀ s ∈ r.snapshots, (r.snapshots.getLast? = some s ∧ s.tombstoned = false) ∨
    (MappingReadable x s ∧ s.drop ≤ 2)
  rollup : ∀ r ∈ rs.rollupRules, ∀ s ∈ r.snapshots, (r.snapshots.getLast? = some s ∧ s.tombstoned = false) ∨ RollupReadable x s

theorem accepted_readable {x : XTime} {o : Val.Options} (hu : UnitsAllowed x o) (rs : RuleSet)
    (hm : (rs.mappingRules.map (·.uuid)).Nodup) (hr : (rs.rollupRules.map (·.uuid)).Nodup)
    (hv : Val.validate o rs.latest = none) (ht : HasTargets rs) (h : RestReadable x rs) : Readable x rs ∧ KnownDrops rs := by
  obtain ⟨a1, a2⟩ := accepted_live hu rs hm hr hv ht
  have hmap : ∀ r ∈ rs.mappingRules, ∀ s ∈ r.snapshots, MappingReadable x s ∧ s.drop ≤ 2 := fun r hr' s hs =>
    (h.mapping r hr' s hs).elim (fun hl => a1 r hr' s hl.1 hl.2) id
  exact ⟨⟨fun r hr' s hs => (hmap r hr' s hs).1, fun r hr' s hs =>
    (h.rollup r hr' s hs).elim (fun hl => a2 r hr' s hl.1 hl.2) id⟩, fun r hr' s hs => (hmap r hr' s hs).2⟩

/-- C52, part: an accepted rule set can be written and read back exactly when the snapshots the validator is not shown can,
if the allowed storage policies can be written and live rollup rules have targets. -/
theorem C52_accepted_partial {x : XTime} (hx : UnitsOK x) {o : Val.Options} (hu : UnitsAllowed x o) (key : Bytes) (version : Int)
    (rs : RuleSet) (hm : (rs.mappingRules.map (·.uuid)).Nodup) (hr : (rs.rollupRules.map (·.uuid)).Nodup)
    (hd : KnownDrops rs) (hv : Val.validate o rs.latest = none) (ht : HasTargets rs) :
    (∃ rs', reload x key version rs = some rs') ↔ RestReadable x rs := by
  constructor
  · rintro ⟨rs', h⟩
    obtain ⟨h, _⟩ := (C51_reload_partial hx key version rs rs' hd).mp h
    exact ⟨fun r hr' s hs => Or.inr ⟨h.mapping r hr' s hs, hd r hr' s hs⟩, fun r hr' s hs => Or.inr (h.rollup r hr' s hs)⟩
  · intro h
    exact ⟨_, (C51_reload_partial hx key version rs _ hd).mpr ⟨(accepted_readable hu rs hm hr hv ht h).1, rfl⟩⟩

/-- Sequences of edits with the outcome validated after each of them. -/
def ValidatedRun (o : Val.Options) : RuleSet → List (Edit × UpdateMeta) → Prop
  | _, [] => True
  | rs, (e, m) :: es => Val.validate o (rs.edit m e).1.latest = none ∧ HasTargets (rs.edit m e).1 ∧ ValidatedRun o (rs.edit m e).1 es

theorem step_rest {x : XTime} (rs : RuleSet) (e : Edit) (m : UpdateMeta) (h : Readable x rs) (hd : KnownDrops rs) :
    RestReadable x (rs.edit m e).1 where
  mapping r hr' s hs := by
    rcases op_step mappingKit_ok rs.mappingRules m (mappingOp rs e) r (by rw [← edit_mapping]; exact hr') s hs with
      ⟨r0, h0, hs0⟩ | ⟨r0, h0, s0, hs0, rfl⟩ | hl
    · exact Or.inr ⟨h.mapping r0 h0 s hs0, hd r0 h0 s hs0⟩
    · have := h.mapping r0 h0 s0 hs0
      exact Or.inr ⟨⟨(by decide : (default : Agg.ID).types.isSome = true), by simp [mappingKit, mappingTombstone],
        fun _ => Or.inr rfl, fun hne => absurd rfl hne, this.filter⟩, by simp [mappingKit, mappingTombstone]⟩
    · exact Or.inl hl
  rollup r hr' s hs := by
    rcases op_step rollupKit_ok rs.rollupRules m (rollupOp rs e) r (by rw [← edit_rollup]; exact hr') s hs with
      ⟨r0, h0, hs0⟩ | ⟨r0, h0, s0, hs0, rfl⟩ | hl
    · exact Or.inr (h.rollup r0 h0 s hs0)
    · have := h.rollup r0 h0 s0 hs0
      exact Or.inr ⟨by simp [rollupKit, rollupTombstone], fun _ => rfl, this.filter⟩
    · exact Or.inl hl

/-- C52, part: a rule set that could be read, edited with fresh identifiers and accepted by the validator after every edit,
can be written and read back, when the allowed storage policies can be written and live rollup rules have targets.  Missing
for the full claim: an edit that is not validated on its own can leave an unreadable snapshot in the history of a rule
(`C52_violation_hidden`), and a rollup rule without targets is accepted but cannot be read (`C52_violation_targets`). -/
theorem C52_each_validated_partial {x : XTime} (hx : UnitsOK x) {o : Val.Options} (hu : UnitsAllowed x o) (key : Bytes) (version : Int) :
    ∀ (es : List (Edit × UpdateMeta)) (rs : RuleSet), Readable x rs → KnownDrops rs →
    ((rs.mappingRules.map (·.uuid)) ++ es.flatMap (fun e => e.1.newMappingIDs)).Nodup →
    ((rs.rollupRules.map (·.uuid)) ++ es.flatMap (fun e => e.1.newRollupIDs)).Nodup →
    ValidatedRun o rs es → ∃ rs', reload x key version (rs.run es) = some rs'
  | [], rs, h, hd, _, _, _ => ⟨_, (C51_reload_partial hx key version rs _ hd).mpr ⟨h, rfl⟩⟩
  | (e, m) :: es, rs, h, hd, hm, hr, hv => by
    obtain ⟨hv1, hv2, hv3⟩ := hv
    obtain ⟨l1, hl1, h1⟩ := op_ids mappingKit_ok rs.mappingRules m (mappingOp rs e)
    obtain ⟨l2, hl2, h2⟩ := op_ids rollupKit_ok rs.rollupRules m (rollupOp rs e)
    have e1 : (mappingOp rs e).newIDs = e.newMappingIDs := by
      cases e <;> simp only [mappingOp] <;> first | rfl | (split <;> rfl)
    have e2 : (rollupOp rs e).newIDs = e.newRollupIDs := by
      cases e <;> simp only [rollupOp] <;> first | rfl | (split <;> rfl)
    rw [e1] at hl1
    rw [e2] at hl2
    rw [← edit_mapping] at h1
    rw [← edit_rollup] at h2
    rw [List.flatMap_cons, ← List.append_assoc] at hm hr
    have n1 := hm.sublist (((List.Sublist.refl _).append hl1).append (List.Sublist.refl _))
    have n2 := hr.sublist (((List.Sublist.refl _).append hl2).append (List.Sublist.refl _))
    rw [← h1] at n1
    rw [← h2] at n2
    obtain ⟨h', hd'⟩ := accepted_readable hu _ (List.nodup_append.mp n1).1 (List.nodup_append.mp n2).1 hv1 hv2
      (step_rest rs e m h hd)
    exact C52_each_validated_partial hx hu key version es _ h' hd' n1 n2 hv3

/-! ### Concrete cases -/

/-- Ten seconds kept for an hour. -/
def exSp : StoragePolicy := ⟨⟨10000000000, 1⟩, 3600000000000⟩

/-- A deployment with one storage policy and any aggregation type, where filters match counters. -/
def exLimits : Val.Options :=
  { metricTypesFn := fun _ => some [1], defaultStorage := [exSp], defaultFirst := [2, 6, 7], defaultNonFirst := [6] }

def exRollTarget : RollupTarget := ⟨[{ type := 2, transformation := 2 }, { type := 3, rollup := ⟨bs "n", [bs "c"], 0x40#64⟩ }], [exSp]⟩

/-- A mapping rule is added and changed, a rollup rule is added, the mapping rule is deleted. -/
def exEdits : List (Edit × UpdateMeta) :=
  [(.addMapping (bs "1") ⟨bs "a", bs "city:sf", 4#64, [exSp], 0⟩, exMeta 10),
   (.addRollup (bs "2") ⟨bs "r", bs "city:s*", [exRollTarget]⟩, exMeta 20),
   (.updateMapping (bs "1") ⟨bs "a", bs "city:sf", 0, [], 1⟩, exMeta 30), (.deleteMapping (bs "1"), exMeta 40)]

theorem exLimits_units : UnitsAllowed exUnits exLimits := by
  intro t p h
  have : p = exSp := by simpa [Val.Options.allowsStorage, Val.Options.find, exLimits] using h
  subst this
  rfl

/-- Beside C52: every step is accepted, and what is written is read. -/
example : ValidatedRun exLimits exEmpty exEdits ∧ Readable exUnits exEmpty ∧ KnownDrops exEmpty ∧
    ((reload exUnits [] 2 (exEmpty.run exEdits)).map fun rs =>
      (rs.mappingRules.map fun r => r.snapshots.map fun s => (s.cutoverNanos, s.tombstoned), rs.rollupRules.map (·.uuid))) =
      some ([[(10, false), (30, false), (40, true)]], [bs "2"]) := by
  refine ⟨⟨by decide +kernel, ?_, by decide +kernel, ?_, by decide +kernel, ?_, by decide +kernel, ?_, trivial⟩,
    ⟨fun r hr => (by cases hr), fun r hr => (by cases hr)⟩, fun r hr => (by cases hr), by decide +kernel⟩
  all_goals
    have : ∀ rs : RuleSet, (rs.rollupRules.all fun r => r.snapshots.all fun s => !s.targets.isEmpty) = true → HasTargets rs := by
      intro rs h r hr s hs _ he
      rw [List.all_eq_true] at h
      have := List.all_eq_true.mp (h r hr) s (List.mem_of_getLast? hs)
      rw [he] at this
      cases this
    exact this _ (by decide +kernel)

theorem not_reloaded {x : XTime} (hx : UnitsOK x) {rs : RuleSet} (key : Bytes) (version : Int)
    (hd : (rs.mappingRules.all fun r => r.snapshots.all fun s => decide (s.drop ≤ 2)) = true) (h : ¬ Readable x rs) :
    reload x key version rs = none := by
  have hd' : KnownDrops rs := fun r hr s hs => of_decide_eq_true (List.all_eq_true.mp (List.all_eq_true.mp hd r hr) s hs)
  cases hl : reload x key version rs with
  | none => rfl
  | some rs' => exact absurd ((C51_reload_partial hx key version rs rs' hd').mp hl).1 h

/-- A rule without storage policies that keeps metrics, put right by a second edit. -/
def exHidden : List (Edit × UpdateMeta) :=
  [(.addMapping (bs "1") ⟨bs "a", bs "city:sf", 4#64, [], 0⟩, exMeta 10),
   (.updateMapping (bs "1") ⟨bs "a", bs "city:sf", 4#64, [exSp], 0⟩, exMeta 20)]

/-- C52 is violated: the validator looks at the latest snapshots only, so a bad one behind a good one is written, and nothing
is read back. -/
theorem C52_violation_hidden : ∃ (x : XTime) (o : Val.Options) (rs : RuleSet) (es : List (Edit × UpdateMeta)), UnitsOK x ∧ UnitsAllowed x o ∧
    Readable x rs ∧ HasTargets (rs.run es) ∧ AllSucceed rs es ∧ Val.validate o (rs.run es).latest = none ∧
    (∀ key version, reload x key version (rs.run es) = none) := by
  refine ⟨exUnits, exLimits, exEmpty, exHidden, exUnits_ok, exLimits_units, ⟨fun r hr => (by cases hr), fun r hr => (by cases hr)⟩,
    fun r hr => ?_, by decide +kernel, by decide +kernel, fun key version => ?_⟩
  · have : (exEmpty.run exHidden).rollupRules = [] := by decide +kernel
    rw [this] at hr
    cases hr
  · refine not_reloaded exUnits_ok key version (by decide +kernel) fun h => ?_
    have hb : ((exEmpty.run exHidden).mappingRules.any fun r => r.snapshots.any fun s =>
      decide (s.storagePolicies = [] ∧ s.drop = 0 ∧ s.tombstoned = false)) = true := by decide +kernel
    obtain ⟨r, hr, hb⟩ := List.any_eq_true.mp hb
    obtain ⟨s, hs, hb⟩ := List.any_eq_true.mp hb
    obtain ⟨h1, h2, h3⟩ := of_decide_eq_true hb
    rcases (h.mapping r hr s hs).empty h1 with h | h
    · exact h h2
    · rw [h3] at h; cases h

/-- C52 is violated: the validator accepts a rollup rule without targets, the reader does not. -/
theorem C52_violation_targets : ∃ (x : XTime) (o : Val.Options) (rs : RuleSet) (e : Edit) (m : UpdateMeta), UnitsOK x ∧ UnitsAllowed x o ∧
    Readable x rs ∧ (rs.edit m e).2 = true ∧ Val.validate o (rs.edit m e).1.latest = none ∧
    (∀ key version, reload x key version (rs.edit m e).1 = none) := by
  refine ⟨exUnits, exLimits, exEmpty, .addRollup (bs "2") ⟨bs "r", bs "city:s*", []⟩, exMeta 20, exUnits_ok, exLimits_units,
    ⟨fun r hr => (by cases hr), fun r hr => (by cases hr)⟩, by decide +kernel, by decide +kernel, fun key version => ?_⟩
  refine not_reloaded exUnits_ok key version (by decide +kernel) fun h => ?_
  have hb : ((exEmpty.edit (exMeta 20) (.addRollup (bs "2") ⟨bs "r", bs "city:s*", []⟩)).1.rollupRules.any fun r =>
    r.snapshots.any fun s => decide (s.targets = [] ∧ s.tombstoned = false)) = true := by decide +kernel
  obtain ⟨r, hr, hb⟩ := List.any_eq_true.mp hb
  obtain ⟨s, hs, hb⟩ := List.any_eq_true.mp hb
  obtain ⟨h1, h2⟩ := of_decide_eq_true hb
  have := (h.rollup r hr s hs).empty h1
  rw [h2] at this
  cases this

end Verif.RuleSet
