import Verif.Props.ValidatorReload
import Verif.Props.Store
/-
C88: what the validator accepted it accepts again once it was stored and read.
-/
namespace Verif.RuleSet
open Verif.Agg Verif.Policy Verif.Meta Verif.Rules Verif.Active Verif.Spec.Rules Verif.Val Verif.Spec.Val Verif.TagsFlt

/-! ### Pipelines -/

/-- A rollup operation with sorted tags. -/
def sortedTags (r : Pipe.RollupOp) : Pipe.RollupOp := { r with tags := sortBy bytesLt r.tags }

theorem readBack_fields (u : Pipe.OpUnion) (h : u.type = 1 ∨ u.type = 2 ∨ u.type = 3) :
    (Pipe.readBack u).type = u.type ∧ (u.type = 1 → (Pipe.readBack u).aggregation = u.aggregation) ∧
    (u.type = 2 → (Pipe.readBack u).transformation = u.transformation) ∧ (u.type = 3 → (Pipe.readBack u).rollup = sortedTags u.rollup) := by
  unfold Pipe.readBack sortedTags
  rcases h with h | h | h <;> simp [h]

theorem rollupsOf_readBack : ∀ ops : List Pipe.OpUnion, (∀ op ∈ ops, op.type = 1 ∨ op.type = 2 ∨ op.type = 3) →
    rollupsOf (ops.map Pipe.readBack) = (rollupsOf ops).map sortedTags
  | [], _ => rfl
  | u :: ops, h => by
    have ih := rollupsOf_readBack ops fun op ho => h op (List.mem_cons_of_mem _ ho)
    obtain ⟨e1, _, _, e4⟩ := readBack_fields u (h u (by simp))
    unfold rollupsOf at ih ⊢
    simp only [List.map_cons, List.filter_cons, e1]
    by_cases h3 : u.type = 3
    · simp [h3, ih, e4 h3]
    · have : (u.type == 3) = false := by simpa using h3
      simp only [this, Bool.false_eq_true, if_false, ih]

theorem perSeconds_readBack : ∀ ops : List Pipe.OpUnion, (∀ op ∈ ops, op.type = 1 ∨ op.type = 2 ∨ op.type = 3) →
    perSeconds (ops.map Pipe.readBack) = perSeconds ops
  | [], _ => rfl
  | u :: ops, h => by
    have ih := perSeconds_readBack ops fun op ho => h op (List.mem_cons_of_mem _ ho)
    obtain ⟨e1, _, e3, _⟩ := readBack_fields u (h u (by simp))
    unfold perSeconds at ih ⊢
    simp only [List.map_cons, List.countP_cons, ih, e1]
    by_cases h2 : u.type = 2
    · simp [e3 h2]
    · have : (u.type == 2) = false := by simpa using h2
      simp [this]

theorem infix_map {α β : Type} {f : α → β} {l : List α} {s : List β} (h : s <:+: l.map f) : ∃ s', s' <:+: l ∧ s = s'.map f := by
  obtain ⟨a, b, e⟩ := h
  obtain ⟨l1, l2, e1, e2, e3⟩ := List.map_eq_append_iff.mp e.symm
  obtain ⟨l3, l4, e4, e5, e6⟩ := List.map_eq_append_iff.mp e2
  exact ⟨l4, ⟨l3, l2, by rw [e1, e4]⟩, e6.symm⟩

theorem sortedTags_mem (r : Pipe.RollupOp) (t : Bytes) : t ∈ (sortedTags r).tags ↔ t ∈ r.tags := mem_sortBy _

theorem rollupOk_sorted {L : Limits} {level : Int → Int → Prop} {r : Pipe.RollupOp} {types : List Int} (h : RollupOk L level r types) :
    RollupOk L level (sortedTags r) types :=
  ⟨h.named, h.nameChars, fun t ht => h.tagChars t ((sortedTags_mem r t).mp ht), (sortBy_perm bytesLt r.tags).nodup_iff.mpr h.distinct,
    fun t ht => (sortedTags_mem r t).mpr (h.required t ht), h.agg⟩

theorem pipelineOk_readBack {L : Limits} {ops : List Pipe.OpUnion} {types : List Int} (h : PipelineOk L ops types) :
    PipelineOk L (ops.map Pipe.readBack) types := by
  have hk := h.known
  refine ⟨?_, ?_, ?_, ?_, ?_, ?_, ?_, ?_⟩
  · intro op ho
    obtain ⟨u, hu, rfl⟩ := List.mem_map.mp ho
    rw [(readBack_fields u (hk u hu)).1]; exact hk u hu
  · intro i op ho ht
    rw [List.getElem?_map] at ho
    obtain ⟨u, hu, rfl⟩ := Option.map_eq_some_iff.mp ho
    obtain ⟨e1, e2, _⟩ := readBack_fields u (hk u (List.mem_of_getElem? hu))
    rw [e1] at ht
    rw [e2 ht]
    exact h.aggregation i u hu ht
  · intro op ho ht
    obtain ⟨u, hu, rfl⟩ := List.mem_map.mp ho
    obtain ⟨e1, _, e3, _⟩ := readBack_fields u (hk u hu)
    rw [e1] at ht
    rw [e3 ht]
    exact h.transformation u hu ht
  · intro s hs hn hp
    obtain ⟨s', hs', rfl⟩ := infix_map hs
    have hks : ∀ op ∈ s', op.type = 1 ∨ op.type = 2 ∨ op.type = 3 := fun op ho => hk op (hs'.subset ho)
    rw [perSeconds_readBack s' hks] at hp ⊢
    refine h.order s' hs' (fun op ho e => ?_) hp
    exact hn _ (List.mem_map_of_mem ho) (by rw [(readBack_fields op (hks op ho)).1]; exact e)
  · intro i op ho ht
    rw [List.getElem?_map] at ho
    obtain ⟨u, hu, rfl⟩ := Option.map_eq_some_iff.mp ho
    obtain ⟨e1, _, _, e4⟩ := readBack_fields u (hk u (List.mem_of_getElem? hu))
    rw [e1] at ht
    rw [e4 ht]
    exact rollupOk_sorted (h.rollup i u hu ht)
  · rw [rollupsOf_readBack ops hk]
    intro a b hab
    obtain ⟨s', hs', e⟩ := infix_map hab
    match s', e with
    | [a', b'], e =>
      simp only [List.map_cons, List.map_nil, List.cons.injEq, and_true] at e
      obtain ⟨rfl, rfl⟩ := e
      obtain ⟨h1, t, h2, h3⟩ := h.shrink a' b' hs'
      exact ⟨fun t ht => (sortedTags_mem _ _).mpr (h1 t ((sortedTags_mem _ _).mp ht)), t, (sortedTags_mem _ _).mpr h2,
        fun hb => h3 ((sortedTags_mem _ _).mp hb)⟩
  · rw [rollupsOf_readBack ops hk]
    intro e
    exact h.nonempty (List.map_eq_nil_iff.mp e)
  · rw [rollupsOf_readBack ops hk, List.length_map]; exact h.levels

/-! ### Views -/

theorem payload_readBack (u : Pipe.OpUnion) (h : u.type = 1 ∨ u.type = 2 ∨ u.type = 3) :
    payload (Pipe.readBack u) = Pipe.readBack (payload u) := by
  unfold payload Pipe.readBack
  rcases h with h | h | h <;> simp [h]

/-- What is shown of a rollup rule once it was stored and read. -/
def readRollup (w : RollupView) : RollupView := { w with targets := w.targets.map fun t => ⟨t.pipeline.map Pipe.readBack, t.storagePolicies⟩ }

def readMapping (w : MappingView) : MappingView := { w with aggID := if w.storagePolicies = [] then 0 else w.aggID }

theorem shownRollup_asRead (key uuid : Bytes) (x : XTime) (s : RollupSnapshot) (h : RollupReadable x s) :
    shownRollup uuid (asReadR key s) = readRollup (shownRollup uuid s) := by
  unfold shownRollup readRollup asReadR
  simp only [RollupView.mk.injEq, true_and, and_true, List.map_map]
  refine List.map_congr_left fun t ht => ?_
  simp only [Function.comp, asReadT, List.map_map, RollupTarget.mk.injEq, and_true]
  refine List.map_congr_left fun u hu => ?_
  simp only [Function.comp]
  refine payload_readBack u ?_
  rcases (h.targets t ht).ops u hu with ⟨h, _⟩ | ⟨h, _⟩ | ⟨h, _⟩ <;> simp [h]

theorem liveShown_asRead {S V : Type} [Snap S] (shown : Bytes → S → V) (g : V → V) (f : S → S) (ht : ∀ s, Snap.tombstoned (f s) = Snap.tombstoned s) :
    ∀ rules : List (Rule S), (∀ r ∈ rules, ∀ s ∈ r.snapshots, shown r.uuid (f s) = g (shown r.uuid s)) →
      liveShown shown (rules.map (asReadRule f)) = (liveShown shown rules).map g
  | [], _ => rfl
  | r :: rules, h => by
    have ih := liveShown_asRead shown g f ht rules fun r' hr => h r' (List.mem_cons_of_mem _ hr)
    have cons : ∀ (q : Rule S) (l : List (Rule S)), liveShown shown (q :: l) = (match q.snapshots.getLast? with
        | none => []
        | some s => if Snap.tombstoned s then [] else [shown q.uuid s]) ++ liveShown shown l := by
      intro q l
      unfold liveShown
      rw [List.filterMap_cons]
      cases q.snapshots.getLast? with
      | none => rfl
      | some s => by_cases h : Snap.tombstoned s = true <;> simp [h]
    rw [List.map_cons, cons, cons, List.map_append, ih]
    congr 1
    simp only [asReadRule, List.getLast?_map]
    cases hl : r.snapshots.getLast? with
    | none => rfl
    | some s =>
      simp only [Option.map_some, ht]
      split
      · rfl
      · simp only [List.map_cons, List.map_nil]
        rw [h r (by simp) s (List.mem_of_getLast? hl)]

/-! ### Rule sets -/

theorem latest_some (rs : RuleSet) (hm : (rs.mappingRules.map (·.uuid)).Nodup) (hr : (rs.rollupRules.map (·.uuid)).Nodup) :
    ∃ v, rs.latest = some v ∧ v.namespace_ = rs.namespace_ ∧ v.mappingRules.Perm (liveShown shownMapping rs.mappingRules) ∧
      v.rollupRules.Perm (liveShown shownRollup rs.rollupRules) := by
  obtain ⟨h1, h2⟩ := C68_history rs
  obtain ⟨h5, _, _, h3, h4⟩ := C68_latest_partial rs hm hr _ _ ⟨_, h1, List.Perm.refl _⟩ ⟨_, h2, List.Perm.refl _⟩
  refine ⟨_, ?_, h5, h3.1, h4.1⟩
  unfold RuleSet.latest
  rw [h1, h2]

theorem sameRollup_sorted (a b : Pipe.RollupOp) : SameRollup (sortedTags a) (sortedTags b) ↔ SameRollup a b := by
  unfold SameRollup sortedTags
  refine and_congr_right fun _ => ?_
  constructor
  · intro h; exact (sortBy_perm _ _).symm.trans (h.trans (sortBy_perm _ _))
  · intro h; exact (sortBy_perm _ _).trans (h.trans (sortBy_perm _ _).symm)

theorem sameRollup_symm {a b : Pipe.RollupOp} (h : SameRollup a b) : SameRollup b a := ⟨h.1.symm, h.2.symm⟩

theorem flatMap_congr' {α β : Type} {f g : α → List β} : ∀ {l : List α}, (∀ a ∈ l, f a = g a) → l.flatMap f = l.flatMap g
  | [], _ => rfl
  | a :: l, h => by rw [List.flatMap_cons, List.flatMap_cons, h a (by simp), flatMap_congr' fun b hb => h b (by simp [hb])]

/-- The constraints hold of what is shown after reading if they hold before. -/
theorem snapshotOk_read {L : Limits} {s s' : RuleSetView} (hn : s'.namespace_ = s.namespace_)
    (hm : s'.mappingRules.Perm (s.mappingRules.map readMapping)) (hr : s'.rollupRules.Perm (s.rollupRules.map readRollup))
    (h : SnapshotOk L s) : SnapshotOk L s' := by
  have lm : (liveM s').Perm ((liveM s).map readMapping) := by
    unfold liveM
    have := hm.filter fun r => !r.tombstoned
    rw [List.filter_map] at this
    exact this
  have lr : (liveR s').Perm ((liveR s).map readRollup) := by
    unfold liveR
    have := hr.filter fun r => !r.tombstoned
    rw [List.filter_map] at this
    exact this
  obtain ⟨he, hc⟩ := h
  refine ⟨⟨by rw [hn]; exact he.namespace_, ?_, ?_⟩, ?_, ?_, ?_⟩
  · intro r hr
    obtain ⟨w, hw, rfl⟩ := List.mem_map.mp (lm.mem_iff.mp hr)
    obtain ⟨m, types, fok, aok, rest⟩ := he.mapping w hw
    refine ⟨m, types, fok, ?_, ?_⟩
    · unfold readMapping
      simp only
      split
      · exact ⟨by simp, by simp, by simp⟩
      · exact aok
    · rcases rest with h | ⟨h1, h2, h3⟩
      · exact Or.inl h
      · refine Or.inr ⟨h1, ?_, h3⟩
        simp only [readMapping, h3, if_true]
  · intro r hr
    obtain ⟨w, hw, rfl⟩ := List.mem_map.mp (lr.mem_iff.mp hr)
    obtain ⟨m, types, fok, tok⟩ := he.rollup w hw
    refine ⟨m, types, fok, ?_⟩
    intro t ht
    obtain ⟨t', ht', rfl⟩ := List.mem_map.mp ht
    exact ⟨pipelineOk_readBack (tok t' ht').1, (tok t' ht').2⟩
  · rw [(lm.map _).nodup_iff, List.map_map]
    exact hc.mappingNames
  · rw [(lr.map _).nodup_iff, List.map_map]
    exact hc.rollupNames
  · have e : ((liveR s).map readRollup).flatMap (fun r => r.targets.flatMap fun t => rollupsOf t.pipeline) = (allRollups s).map sortedTags := by
      unfold allRollups
      rw [List.flatMap_map, List.map_flatMap]
      refine flatMap_congr' fun r hr => ?_
      obtain ⟨_, _, _, tok⟩ := he.rollup r hr
      unfold readRollup
      simp only
      rw [List.flatMap_map, List.map_flatMap]
      exact flatMap_congr' fun t ht => rollupsOf_readBack _ (tok t ht).1.known
    have p : (allRollups s').Perm ((allRollups s).map sortedTags) := by
      rw [← e]
      exact List.Perm.flatMap_right _ lr
    rw [p.pairwise_iff (fun h h' => h (sameRollup_symm h')), List.pairwise_map]
    exact hc.rollups.imp fun h h' => h ((sameRollup_sorted _ _).mp h')

/-- **C88.** A rule set the validator accepts is still accepted when it was stored and read back, whatever the limits of the validator. -/
theorem C88_revalidated {x : XTime} (hx : UnitsOK x) (o : Val.Options) (key : Bytes) (version : Int) (rs v : RuleSet)
    (hm : (rs.mappingRules.map (·.uuid)).Nodup) (hr : (rs.rollupRules.map (·.uuid)).Nodup) (hd : KnownDrops rs)
    (hv : Val.validate o rs.latest = none) (hl : reload x key version rs = some v) : Val.validate o v.latest = none := by
  obtain ⟨hread, rfl⟩ := (C51_reload_partial hx key version rs v hd).mp hl
  have hm' : ((asRead key version rs).mappingRules.map (·.uuid)).Nodup := by
    simpa [asRead, List.map_map, Function.comp_def, asReadRule] using hm
  have hr' : ((asRead key version rs).rollupRules.map (·.uuid)).Nodup := by
    simpa [asRead, List.map_map, Function.comp_def, asReadRule] using hr
  obtain ⟨s, e1, n1, m1, r1⟩ := latest_some rs hm hr
  obtain ⟨s', e2, n2, m2, r2⟩ := latest_some _ hm' hr'
  rw [e1] at hv
  rw [e2]
  refine (C53_accepts_iff o s').mpr (snapshotOk_read (s := s) (by rw [n1, n2]; rfl) ?_ ?_ ((C53_accepts_iff o s).mp hv))
  · refine m2.trans ?_
    have := liveShown_asRead shownMapping readMapping (asReadM key) (fun s => rfl) rs.mappingRules (fun r _ s _ => rfl)
    rw [show (asRead key version rs).mappingRules = rs.mappingRules.map (asReadRule (asReadM key)) from rfl, this]
    exact (m1.map readMapping).symm
  · refine r2.trans ?_
    have := liveShown_asRead shownRollup readRollup (asReadR key) (fun s => rfl) rs.rollupRules
      (fun r hr s hs => shownRollup_asRead key r.uuid x s (hread.rollup r hr s hs))
    rw [show (asRead key version rs).rollupRules = rs.rollupRules.map (asReadRule (asReadR key)) from rfl, this]
    exact (r1.map readRollup).symm

/-- What was read has known drop policies and the UUIDs it was written with. -/
theorem reloaded_shape {x : XTime} (hx : UnitsOK x) {key : Bytes} {version : Int} {rs v : RuleSet} (hd : KnownDrops rs) (hl : reload x key version rs = some v) :
    v.mappingRules.map (·.uuid) = rs.mappingRules.map (·.uuid) ∧ v.rollupRules.map (·.uuid) = rs.rollupRules.map (·.uuid) ∧ KnownDrops v := by
  obtain ⟨-, rfl⟩ := (C51_reload_partial hx key version rs v hd).mp hl
  refine ⟨by simp [asRead, List.map_map, Function.comp_def, asReadRule], by simp [asRead, List.map_map, Function.comp_def, asReadRule], ?_⟩
  intro r hr s hs
  simp only [asRead, List.mem_map] at hr
  obtain ⟨r0, hr0, rfl⟩ := hr
  simp only [asReadRule, List.mem_map] at hs
  obtain ⟨s0, hs0, rfl⟩ := hs
  exact hd r0 hr0 s0 hs0

open Verif.Store in
/-- **C88.** A client that reads the rules of a namespace just after a write can write them again as they are: the validator that let
the write pass lets this one pass, the rules can be stored, and the version is the current one. -/
theorem C88_rewritable (o : Store.Options) (hx : UnitsOK o.x) (vo : Val.Options)
    (hval : ∀ f, o.validator = some f → ∀ rs, f rs = (Val.validate vo rs.latest).isNone) (kv : KV) (rs v : RuleSet)
    (hm : (rs.mappingRules.map (·.uuid)).Nodup) (hr : (rs.rollupRules.map (·.uuid)).Nodup) (hd : KnownDrops rs)
    (hw : (writeRuleSet o kv rs).2 = .ok) (hl : readRuleSet o (writeRuleSet o kv rs).1 rs.namespace_ = .ok v) :
    (writeRuleSet o (writeRuleSet o kv rs).1 v).2 = .ok ∧ v.version = rs.version + 1 := by
  obtain ⟨h1, _, h3, _⟩ := C56_write o kv rs
  obtain ⟨hp, _, hn⟩ := h1.mp hw
  obtain ⟨p, hpb, e⟩ := h3 hw
  rw [e] at hl ⊢
  unfold readRuleSet at hl
  simp only [if_true, List.getLast?_append, List.getLast?_singleton, Option.some_or, KV.version, List.length_append, List.length_singleton] at hl
  split at hl
  · cases hl
  · next v' hl' =>
    cases hl
    obtain ⟨f1, f2, -⟩ := loaded_fields hl'
    have hns : v.namespace_ = rs.namespace_ := by rw [f2, (proto_fields hpb).1]
    have hrel : reload o.x o.filterKey (((kv (o.ruleSetKey rs.namespace_)).length + 1 : Nat) : Int) rs = some v := by
      unfold reload; rw [hpb]; exact hl'
    refine ⟨?_, by rw [f1, hn]; simp⟩
    refine (C56_write o _ v).1.mpr ⟨?_, ?_, ?_⟩
    · intro f hf
      rw [hval f hf, Option.isNone_iff_eq_none]
      refine C88_revalidated hx vo o.filterKey _ rs v hm hr hd ?_ hrel
      have := hp f hf
      rwa [hval f hf, Option.isNone_iff_eq_none] at this
    · have := C51_loaded hx o.filterKey _ 0 _ v hl'
      unfold reload at this
      cases hq : v.proto o.x with
      | none => rw [hq] at this; cases this
      | some q => rfl
    · rw [f1, hns]; simp

/-- Two rules are added; the rollup rule groups by tags that are not sorted. -/
def exUnsorted : RuleSet := exEmpty.run [(.addMapping (bs "1") ⟨bs "a", bs "city:sf", 4#64, [exSp], 0⟩, exMeta 10),
  (.addRollup (bs "2") ⟨bs "r", bs "city:s*", [⟨[{ type := 3, rollup := ⟨bs "n", [bs "d", bs "c"], 0x40#64⟩ }], [exSp]⟩]⟩, exMeta 20)]

/-- The validator accepts them before and after storing, which sorts the tags. -/
example : Val.validate exLimits exUnsorted.latest = none ∧ (exUnsorted.mappingRules.map (·.uuid)).Nodup ∧
    (exUnsorted.rollupRules.map (·.uuid)).Nodup ∧ (exUnsorted.mappingRules.map fun r => r.snapshots.map (·.drop)) = [[0]] ∧
    (reload exUnits [] 2 exUnsorted).map (fun v => Val.validate exLimits v.latest) = some none ∧
    (reload exUnits [] 2 exUnsorted).map (fun v => v.rollupRules.map fun r => r.snapshots.map fun s => s.targets.map fun t =>
      t.pipeline.map fun u => u.rollup.tags) = some [[[[[bs "c", bs "d"]]]]] := by
  refine ⟨?_, ?_, ?_, ?_, ?_, ?_⟩ <;> decide +kernel

/-- C88 has no converse: a rule that drops metrics and has an aggregation is rejected, but the aggregation is not stored, and what is
read is accepted. -/
theorem C88_not_conversely : ∃ (x : XTime) (o : Val.Options) (rs v : RuleSet), UnitsOK x ∧ KnownDrops rs ∧ reload x [] 1 rs = some v ∧
    Val.validate o rs.latest ≠ none ∧ Val.validate o v.latest = none := by
  have hrs : ∃ v, reload exUnits [] 1 exDropAgg = some v ∧ Val.validate exLimits v.latest = none := by
    have : ((reload exUnits [] 1 exDropAgg).map fun v => Val.validate exLimits v.latest) = some none := by decide +kernel
    exact Option.map_eq_some_iff.mp this
  obtain ⟨v, h1, h2⟩ := hrs
  refine ⟨exUnits, exLimits, exDropAgg, v, exUnits_ok, ?_, h1, by decide +kernel, h2⟩
  intro r hr s hs
  simp only [exDropAgg, List.mem_singleton] at hr
  subst hr
  simp only [List.mem_singleton] at hs
  subst hs
  decide

end Verif.RuleSet
