import Verif.Props.Deploy
import Verif.Props.ValidatorConfig
import Verif.Props.Messages
import Verif.Props.ProtoIterator
/- C98: what the matcher gives to a metric can be sent, and arrives. -/
namespace Verif.Sent
open Verif.Policy Verif.Meta Verif.RuleSet Verif.Rules Verif.Active Verif.Msg Verif.Spec.Rules Verif.Spec.Msg

/-! ### Specification -/

/-- The metadatas are given by a match result, for the metric itself or for a rollup of it, in whole or from a time on. -/
def Given (out : MatchResult) (ms : List StagedMetadata) : Prop :=
  ms = out.forExistingID ∨ (∃ t, ms = out.forExistingIDAt t) ∨ (∃ y ∈ out.forNewRollupIDs, ms = y.metadatas) ∨
    ∃ i t y, out.forNewRollupIDsAt i t = some y ∧ ms = y.metadatas

/-- A counter, timer or gauge with these metadatas. -/
def Carries (ms : List StagedMetadata) : Message → Prop
  | .counter m => m.metadata = ms ∧ Int64 m.metric.value
  | .batchTimer m => m.metadata = ms
  | .gauge m => m.metadata = ms
  | _ => False

/-- The message carries what some rule set that was read gives to some metric. -/
def FromMatch (x : XTime) (m : Message) : Prop :=
  ∃ (key : Bytes) (v : Int) (pb : Option PBRuleSet) (rs : RuleSet) (env : Env) (t0 frm to : Int) (id : Bytes) (ms : List StagedMetadata),
    newRuleSetFromProto x key v pb = some rs ∧ Spec.StoredRules.InRange x rs ∧ Given (forwardMatch env (rs.activeSet t0) id frm to) ms ∧
    Carries ms m

/-! ### Stages -/

/-- What holds of every stage of a result over a range. -/
theorem range_stages (env : Env) (as : ActiveRuleSet) (h : Built as) (id : Bytes) (frm to : Int) (R : StagedMetadata → Prop)
    (hR : ∀ t, R (forwardMatchAt env as id t).forExistingID ∧ ∀ y ∈ (forwardMatchAt env as id t).forNewRollupIDs, ∀ m ∈ y.metadatas, R m)
    (hc : ∀ m, R m → ∀ c ∈ as.cutoverTimesAsc, R { m with cutoverNanos := c }) (ht : ∀ c ∈ as.cutoverTimesAsc, R (tombstoneAt c)) :
    (∀ m ∈ (forwardMatch env as id frm to).forExistingID, R m) ∧
    ∀ y ∈ (forwardMatch env as id frm to).forNewRollupIDs, ∀ m ∈ y.metadatas, R m := by
  rw [forwardMatch_eq env as h]
  simp only
  have hs : ∀ c ∈ stages as frm to, c ∈ as.cutoverTimesAsc := fun c hc => (List.mem_filter.mp hc).1
  constructor
  · have aux : ∀ (cs : List Int), (∀ c ∈ cs, c ∈ as.cutoverTimesAsc) → ∀ (ex : List StagedMetadata), (∀ m ∈ ex, R m) →
        ∀ m ∈ cs.foldl (fun ex c => mergeExisting ex (forwardMatchAt env as id c).forExistingID c) ex, R m := by
      intro cs
      induction cs with
      | nil => intro _ ex hex; exact hex
      | cons c cs ih =>
        intro hcs ex hex
        refine ih (fun c hc => hcs c (List.mem_cons_of_mem _ hc)) _ ?_
        intro m hm
        unfold mergeExisting at hm
        simp only at hm
        split at hm
        · rw [List.mem_singleton] at hm; rw [hm]; exact (hR c).1
        · rcases List.mem_append.mp hm with hm | hm
          · exact hex m hm
          · rw [List.mem_singleton] at hm
            rw [hm]
            split
            · exact hc _ (hR c).1 c (hcs c (by simp))
            · exact (hR c).1
    exact aux _ hs _ (by intro m hm; rw [List.mem_singleton] at hm; rw [hm]; exact (hR frm).1)
  · have loop : ∀ (T : Int), R (tombstoneAt T) → ∀ (k : Nat) (cs ns : List IDWithMetadatas), (∀ y ∈ cs, ∀ m ∈ y.metadatas, R m) →
        (∀ y ∈ ns, ∀ m ∈ y.metadatas, R m) →
        (∀ y ∈ (mergeRollupLoop T k cs ns).1, ∀ m ∈ y.metadatas, R m) ∧
        ∀ y ∈ (mergeRollupLoop T k cs ns).2, ∀ m ∈ y.metadatas, R m := by
      intro T hT k
      have end' : ∀ {c : IDWithMetadatas} {l : List StagedMetadata}, (∀ m ∈ c.metadatas, R m) → (∀ m ∈ l, R m) →
          ∀ m ∈ c.metadatas ++ l, R m := by
        intro c l h1 h2 m hm
        rcases List.mem_append.mp hm with hm | hm
        · exact h1 m hm
        · exact h2 m hm
      have tomb : ∀ m ∈ [tombstoneAt T], R m := by intro m hm; rw [List.mem_singleton] at hm; rw [hm]; exact hT
      induction k with
      | zero => intro cs ns h1 h2; exact ⟨h1, h2⟩
      | succ k ih =>
        intro cs ns h1 h2
        match cs, ns with
        | [], ns => exact ⟨h1, h2⟩
        | c :: cs, [] =>
          obtain ⟨i1, i2⟩ := ih cs [] (fun y hy => h1 y (List.mem_cons_of_mem _ hy)) h2
          refine ⟨?_, i2⟩
          intro y hy
          simp only [mergeRollupLoop] at hy
          rcases List.mem_cons.mp hy with rfl | hy
          · exact end' (h1 c (by simp)) tomb
          · exact i1 y hy
        | c :: cs, n :: ns =>
          simp only [mergeRollupLoop]
          split
          · obtain ⟨i1, i2⟩ := ih cs ns (fun y hy => h1 y (List.mem_cons_of_mem _ hy)) (fun y hy => h2 y (List.mem_cons_of_mem _ hy))
            refine ⟨?_, i2⟩
            intro y hy
            rcases List.mem_cons.mp hy with rfl | hy
            · exact end' (h1 c (by simp)) fun m hm => h2 n (by simp) m (List.mem_of_mem_take hm)
            · exact i1 y hy
          · split
            · obtain ⟨i1, i2⟩ := ih cs (n :: ns) (fun y hy => h1 y (List.mem_cons_of_mem _ hy)) h2
              refine ⟨?_, i2⟩
              intro y hy
              rcases List.mem_cons.mp hy with rfl | hy
              · exact end' (h1 c (by simp)) tomb
              · exact i1 y hy
            · obtain ⟨i1, i2⟩ := ih (c :: cs) ns h1 (fun y hy => h2 y (List.mem_cons_of_mem _ hy))
              refine ⟨i1, ?_⟩
              intro y hy
              rcases List.mem_cons.mp hy with rfl | hy
              · exact h2 y (by simp)
              · exact i2 y hy
    have aux : ∀ (cs : List Int), (∀ c ∈ cs, c ∈ as.cutoverTimesAsc) → ∀ (ids : List IDWithMetadatas), (∀ y ∈ ids, ∀ m ∈ y.metadatas, R m) →
        ∀ y ∈ cs.foldl (fun ids c => mergeRollup ids (forwardMatchAt env as id c).forNewRollupIDs c) ids, ∀ m ∈ y.metadatas, R m := by
      intro cs
      induction cs with
      | nil => intro _ ids hids; exact hids
      | cons c cs ih =>
        intro hcs ids hids
        refine ih (fun c hc => hcs c (List.mem_cons_of_mem _ hc)) _ ?_
        intro y hy
        unfold mergeRollup at hy
        simp only at hy
        unfold sortByID at hy
        rw [mem_sortBy] at hy
        obtain ⟨l1, l2⟩ := loop c (ht c (hcs c (by simp))) (ids.length + (forwardMatchAt env as id c).forNewRollupIDs.length) ids _ hids (hR c).2
        rcases List.mem_append.mp hy with hy | hy
        · exact l1 y hy
        · exact l2 y hy
    exact aux _ hs _ (hR frm).2

theorem activeRule_mem {S : Type} [Snap S] {r : Rule S} {t : Int} {s : S} (h : s ∈ (r.activeRule t).snapshots) : s ∈ r.snapshots := by
  unfold Rule.activeRule at h
  split at h
  · exact h
  · exact List.mem_of_mem_drop h

theorem active_mapping {rs : RuleSet} {t0 : Int} {P : MappingSnapshot → Prop} (h : ∀ r ∈ rs.mappingRules, ∀ s ∈ r.snapshots, P s) :
    ∀ r ∈ (rs.activeSet t0).mappingRules, ∀ s ∈ r.snapshots, P s := by
  intro r hr s hs
  obtain ⟨r', hr', rfl⟩ := List.mem_map.mp (show r ∈ rs.mappingRules.map fun r => r.activeRule t0 from hr)
  exact h r' hr' s (activeRule_mem hs)

theorem active_rollup {rs : RuleSet} {t0 : Int} {P : RollupSnapshot → Prop} (h : ∀ r ∈ rs.rollupRules, ∀ s ∈ r.snapshots, P s) :
    ∀ r ∈ (rs.activeSet t0).rollupRules, ∀ s ∈ r.snapshots, P s := by
  intro r hr s hs
  obtain ⟨r', hr', rfl⟩ := List.mem_map.mp (show r ∈ rs.rollupRules.map fun r => r.activeRule t0 from hr)
  exact h r' hr' s (activeRule_mem hs)

theorem latest_mem (ts : List Int) : latest ts = 0 ∨ latest ts ∈ ts := by
  have : ∀ (ts : List Int) (a : Int), ts.foldl max a = a ∨ ts.foldl max a ∈ ts := by
    intro ts
    induction ts with
    | nil => intro a; exact Or.inl rfl
    | cons b ts ih =>
      intro a
      rw [List.foldl_cons]
      rcases ih (max a b) with e | e
      · rw [e]
        rcases Int.le_total a b with hab | hab
        · rw [Int.max_eq_right hab]; right; simp
        · rw [Int.max_eq_left hab]; left; rfl
      · right; exact List.mem_cons_of_mem _ e
  exact this ts 0

theorem matched_mem {S : Type} [Snap S] {rules : List (Rule S)} {t : Int} {P : S → Bool} {s : S}
    (h : s ∈ (current rules t).filter P) : ∃ r ∈ rules, s ∈ r.snapshots := by
  obtain ⟨h, _⟩ := List.mem_filter.mp h
  unfold current at h
  obtain ⟨r, hr, hf⟩ := List.mem_filterMap.mp h
  exact ⟨r, hr, (inForce_mem hf).1⟩

theorem live_mem {S : Type} [Snap S] {l : List S} {s : S} (h : s ∈ live l) : s ∈ l := (List.mem_filter.mp h).1

/-- Changes times of results are 0 or change times of rules. -/
theorem cuts (env : Env) (as : ActiveRuleSet) (id : Bytes) (t : Int) (P : Int → Prop) (h0 : P 0)
    (hm : ∀ r ∈ as.mappingRules, ∀ s ∈ r.snapshots, P s.cutoverNanos) (hr : ∀ r ∈ as.rollupRules, ∀ s ∈ r.snapshots, P s.cutoverNanos) :
    P (mappingCut env as id t) ∧ P (rollupCut env as id t) := by
  constructor
  · unfold mappingCut
    rcases latest_mem ((matchingM env as.mappingRules id t).map (·.cutoverNanos)) with e | e
    · rw [e]; exact h0
    · obtain ⟨s, hs, e'⟩ := List.mem_map.mp e
      rw [← e']
      obtain ⟨r, h1, h2⟩ := matched_mem hs
      exact hm r h1 s h2
  · unfold rollupCut
    split
    · exact h0
    · rcases latest_mem ((matchingR env as.rollupRules id t).map (·.cutoverNanos)) with e | e
      · rw [e]; exact h0
      · obtain ⟨s, hs, e'⟩ := List.mem_map.mp e
        rw [← e']
        obtain ⟨r, h1, h2⟩ := matched_mem hs
        exact hr r h1 s h2

/-! ### Pipelines -/

/-- A pipeline that can be sent as it is. -/
structure PipeOK (x : XTime) (Q : StoragePolicy → Prop) (q : PipelineMetadata) : Prop where
  policies : ∀ p ∈ q.storagePolicies, PolicyForm x p ∧ Q p
  ops : ∀ u ∈ q.pipeline, OpForm u ∧ Applied.Canonical u
  drop : q.drop ≤ 2

theorem applied_ok {env : Env} {tags : Bytes} : ∀ {p : Pipe.Pipeline} {us : Applied.Pipeline}, (∀ u ∈ p, OpReadable u) →
    applyIDToPipeline env tags p = some us → ∀ u ∈ us, OpForm u ∧ Applied.Canonical u
  | [], us, _, h => by
    cases h
    intro u hu
    cases hu
  | op :: ops, us, hr, h => by
    have ho := hr op (by simp)
    unfold applyIDToPipeline at h
    simp only [Pipe.TransformationOpType, Pipe.RollupOpType] at h
    split at h
    · cases h
    · next u hu =>
      split at h
      · cases h
      · next us' hus =>
        cases h
        intro w hw
        rcases List.mem_cons.mp hw with rfl | hw
        · by_cases ht : op.type = 2
          · simp only [ht, if_true] at hu
            cases hu
            refine ⟨Or.inl ⟨rfl, ?_⟩, Or.inl ⟨rfl, rfl⟩⟩
            rcases ho with ⟨h1, _⟩ | ⟨_, h2⟩ | ⟨h1, _⟩
            · rw [h1] at ht; cases ht
            · exact h2
            · rw [h1] at ht; cases ht
          · by_cases ht3 : op.type = 3
            · simp only [ht3, if_true, show ¬ (3 : Nat) = 2 by decide, if_false] at hu
              cases hm : matchRollupTarget env tags op.rollup.newName op.rollup.tags with
              | none => rw [hm] at hu; cases hu
              | some i => rw [hm] at hu; cases hu; exact ⟨Or.inr rfl, Or.inr ⟨rfl, rfl⟩⟩
            · simp only [ht, ht3, if_false] at hu
              cases hu
        · exact applied_ok (fun u hu => hr u (List.mem_cons_of_mem _ hu)) hus w hw

theorem target_ok {x : XTime} {Q : StoragePolicy → Prop} {env : Env} {tags : Bytes} {tg : RollupTarget} {o : Option Bytes} {q : PipelineMetadata}
    (ht : TargetReadable x tg) (hQ : ∀ p ∈ tg.storagePolicies, Q p) (h : targetResult env tags tg = some (o, q)) : PipeOK x Q q := by
  unfold targetResult at h
  simp only [Pipe.AggregationOpType, Pipe.TransformationOpType, Pipe.RollupOpType] at h
  have pol : ∀ p ∈ tg.storagePolicies, PolicyForm x p ∧ Q p := fun p hp =>
    ⟨Option.isSome_iff_exists.mp (ht.units p hp), hQ p hp⟩
  split at h
  · cases h
  · next firstOp rest hp =>
    split at h
    · cases h
    · next a i toApply hs =>
      have hsub : ∀ u ∈ toApply, u ∈ tg.pipeline := by
        rw [hp]
        by_cases ht1 : firstOp.type = 1
        · simp only [ht1, if_true] at hs
          cases hc : Agg.compressTypes [firstOp.aggregation] with
          | none => rw [hc] at hs; cases hs
          | some _ => rw [hc] at hs; cases hs; exact fun u hu => List.mem_cons_of_mem _ hu
        · by_cases ht2 : firstOp.type = 2
          · simp only [ht2, if_true, show ¬ (2 : Nat) = 1 by decide, if_false] at hs
            cases hs; exact fun u hu => hu
          · by_cases ht3 : firstOp.type = 3
            · simp only [ht3, if_true, show ¬ (3 : Nat) = 1 by decide, show ¬ (3 : Nat) = 2 by decide, if_false] at hs
              cases hm : matchRollupTarget env tags firstOp.rollup.newName firstOp.rollup.tags with
              | none => rw [hm] at hs; cases hs
              | some _ => rw [hm] at hs; cases hs; exact fun u hu => List.mem_cons_of_mem _ hu
            · simp only [ht1, ht2, ht3, if_false] at hs
              cases hs
      split at h
      · cases h
      · next us hus =>
        cases h
        exact ⟨pol, applied_ok (fun u hu => ht.ops u (hsub u hu)) hus, by simp⟩

/-- A stage that can be sent as it is. -/
structure StageOK (x : XTime) (Q : StoragePolicy → Prop) (P : Int → Prop) (m : StagedMetadata) : Prop where
  pipes : ∀ q ∈ m.pipelines, PipeOK x Q q
  cut : P m.cutoverNanos

/-- What the rules give at a time. -/
theorem point_ok {x : XTime} {Q : StoragePolicy → Prop} {P : Int → Prop} (env : Env) (as : ActiveRuleSet) (id : Bytes) (t : Int) (h0 : P 0)
    (hm : ∀ r ∈ as.mappingRules, ∀ s ∈ r.snapshots, MappingReadable x s ∧ s.drop ≤ 2 ∧ P s.cutoverNanos ∧ ∀ p ∈ s.storagePolicies, Q p)
    (hr : ∀ r ∈ as.rollupRules, ∀ s ∈ r.snapshots, RollupReadable x s ∧ P s.cutoverNanos ∧ ∀ tg ∈ s.targets, ∀ p ∈ tg.storagePolicies, Q p) :
    StageOK x Q P (forwardMatchAt env as id t).forExistingID ∧
    ∀ y ∈ (forwardMatchAt env as id t).forNewRollupIDs, ∀ m ∈ y.metadatas, StageOK x Q P m := by
  obtain ⟨c1, c2⟩ := cuts env as id t P h0 (fun r h s hs => (hm r h s hs).2.2.1) (fun r h s hs => (hr r h s hs).2.1)
  have hd : DropsValid as := by
    intro r h s hs
    have := (hm r h s hs).2.1
    omega
  have nothing : ∀ d, d ≤ 2 → PipeOK x Q { drop := d } := fun d h => ⟨by simp, by simp, h⟩
  refine ⟨⟨fun q hq => ?_, ?_⟩, fun y hy m hmy => ?_⟩
  · rcases C40_sound env as hd id t q hq with ⟨_, _, rfl⟩ | ⟨_, ⟨s, hs, _, rfl⟩ | ⟨_, tb, _, s, hs, tg, htg, hres⟩ | ⟨rfl, _⟩⟩
    · exact nothing 1 (by decide)
    · obtain ⟨r, h1, h2⟩ := matched_mem (live_mem hs)
      obtain ⟨a, b, _, c⟩ := hm r h1 s h2
      exact ⟨fun p hp => ⟨Option.isSome_iff_exists.mp (a.units p hp), c p hp⟩, by simp [mappingPipeline], b⟩
    · obtain ⟨r, h1, h2⟩ := matched_mem (live_mem hs)
      obtain ⟨a, _, c⟩ := hr r h1 s h2
      exact target_ok (a.targets tg htg) (c tg htg) hres
    · exact nothing 0 (by decide)
  · rw [existing_cutover]
    rcases Int.le_total (mappingCut env as id t) (rollupCut env as id t) with h | h
    · rw [Int.max_eq_right h]; exact c2
    · rw [Int.max_eq_left h]; exact c1
  · obtain ⟨q, hq, hmap⟩ := generated_one env as id t y hy
    rw [hmap, List.mem_singleton] at hmy
    subst hmy
    refine ⟨fun q' hq' => ?_, c2⟩
    obtain ⟨_, tb, s, tg, p, _, hs, htg, hres, hmap'⟩ := C40_rollup_pipeline env as id t y hy
    rw [hmap] at hmap'
    simp only [stagedOf, List.map_cons, List.map_nil, List.cons.injEq, and_true, Prod.mk.injEq] at hmap' hq'
    rw [hmap', List.mem_singleton] at hq'
    subst hq'
    obtain ⟨r, h1, h2⟩ := matched_mem (live_mem hs)
    obtain ⟨a, _, c⟩ := hr r h1 s h2
    exact target_ok (a.targets tg htg) (c tg htg) hres

theorem given_mem {out : MatchResult} {ms : List StagedMetadata} (h : Given out ms) {R : StagedMetadata → Prop}
    (h1 : ∀ m ∈ out.forExistingID, R m) (h2 : ∀ y ∈ out.forNewRollupIDs, ∀ m ∈ y.metadatas, R m) : ∀ m ∈ ms, R m := by
  have sub : ∀ (l : List StagedMetadata) (t : Int), ∀ m ∈ activeStagedMetadatasAt l t, m ∈ l := by
    intro l t m hm
    rcases activeStaged_spec l t with ⟨_, e⟩ | ⟨pre, m', post, e, _, _, e'⟩
    · rwa [e] at hm
    · rw [e'] at hm; rw [e]; exact List.mem_append_right _ hm
  rcases h with rfl | ⟨t, rfl⟩ | ⟨y, hy, rfl⟩ | ⟨i, t, y, hy, rfl⟩
  · exact h1
  · exact fun m hm => h1 m (sub _ t m hm)
  · exact h2 y hy
  · unfold MatchResult.forNewRollupIDsAt at hy
    cases hi : out.forNewRollupIDs[i]? with
    | none => rw [hi] at hy; cases hy
    | some z =>
      rw [hi] at hy
      cases hy
      exact fun m hm => h2 z (List.mem_of_getElem? hi) m (sub _ t m hm)

theorem range_ok {x : XTime} {Q : StoragePolicy → Prop} {P : Int → Prop} (env : Env) (rs : RuleSet) (t0 : Int) (id : Bytes) (frm to : Int) (h0 : P 0)
    (hm : ∀ r ∈ rs.mappingRules, ∀ s ∈ r.snapshots, MappingReadable x s ∧ s.drop ≤ 2 ∧ P s.cutoverNanos ∧ ∀ p ∈ s.storagePolicies, Q p)
    (hr : ∀ r ∈ rs.rollupRules, ∀ s ∈ r.snapshots, RollupReadable x s ∧ P s.cutoverNanos ∧ ∀ tg ∈ s.targets, ∀ p ∈ tg.storagePolicies, Q p)
    {ms : List StagedMetadata} (hg : Given (forwardMatch env (rs.activeSet t0) id frm to) ms) : ∀ m ∈ ms, StageOK x Q P m := by
  have hb : Built (rs.activeSet t0) := ⟨_, _, _, rfl⟩
  have hm' := active_mapping (t0 := t0) hm
  have hr' := active_rollup (t0 := t0) hr
  have hcut : ∀ c ∈ (rs.activeSet t0).cutoverTimesAsc, P c := by
    intro c hc
    rcases (hb.mem c).mp hc with ⟨r, h1, s, h2, e⟩ | ⟨r, h1, s, h2, e⟩
    · rw [← e]; exact (hm' r h1 s h2).2.2.1
    · rw [← e]; exact (hr' r h1 s h2).2.1
  obtain ⟨h1, h2⟩ := range_stages env _ hb id frm to (StageOK x Q P) (fun t => point_ok env _ id t h0 hm' hr')
    (fun m hm c hc => ⟨hm.pipes, hcut c hc⟩) (fun c hc => ⟨by simp [tombstoneAt], hcut c hc⟩)
  exact given_mem hg h1 h2

theorem stage_form {x : XTime} {Q : StoragePolicy → Prop} {P : Int → Prop} {m : StagedMetadata} (h : StageOK x Q P m) : StagedForm x m :=
  fun q hq => ⟨fun p hp => ((h.pipes q hq).policies p hp).1, fun u hu => ((h.pipes q hq).ops u hu).1⟩

theorem stage_canon {x : XTime} {Q : StoragePolicy → Prop} {P : Int → Prop} {ms : List StagedMetadata} (h : ∀ m ∈ ms, StageOK x Q P m) :
    ms.map canonStaged = ms := by
  have : ∀ m ∈ ms, canonStaged m = m := by
    intro m hm
    rw [canonStaged_eq]
    exact stripStage_canonical m fun q hq u hu => (((h m hm).pipes q hq).ops u hu).2
  rw [List.map_congr_left (g := fun m => m) this, List.map_id']

theorem stage_fits {x : XTime} (hx : UnitsOK x) {Q : StoragePolicy → Prop} {P : Int → Prop} {m : StagedMetadata} (h : StageOK x Q P m) :
    ∀ q ∈ m.pipelines, MetaOK x q := by
  intro q hq
  have := (h.pipes q hq).drop
  exact ⟨fun p _ => hx.toUnit _, by omega⟩

theorem sent_back {x : XTime} (hx : UnitsOK x) {Q : StoragePolicy → Prop} {P : Int → Prop} {ms : List StagedMetadata} (h : ∀ m ∈ ms, StageOK x Q P m)
    (dst : List PBStagedMetadata) (old : List StagedMetadata) : ∃ pb, stagedToProto x dst ms = some pb ∧ stagedFromProto x old pb = some ms := by
  obtain ⟨pb, hpb⟩ := Option.isSome_iff_exists.mp ((staged_form x dst ms).mpr fun m hm => stage_form (h m hm))
  refine ⟨pb, hpb, ?_⟩
  rw [staged_back x ms old dst pb (fun m hm => stage_fits hx (h m hm)) hpb, stage_canon h]

theorem loaded_ok {x : XTime} (hx : UnitsOK x) {key : Bytes} {v : Int} {pb : Option PBRuleSet} {rs : RuleSet}
    (h : newRuleSetFromProto x key v pb = some rs) (env : Env) (t0 : Int) (id : Bytes) (frm to : Int) {ms : List StagedMetadata}
    (hg : Given (forwardMatch env (rs.activeSet t0) id frm to) ms) : ∀ m ∈ ms, StageOK x (fun _ => True) (fun _ => True) m := by
  obtain ⟨hm, hr⟩ := loaded hx h
  exact range_ok env rs t0 id frm to trivial (fun r h s hs => ⟨(hm r h s hs).1, (hm r h s hs).2.2, trivial, fun _ _ => trivial⟩)
    (fun r h s hs => ⟨(hr r h s hs).1, trivial, fun _ _ _ _ => trivial⟩) hg

/-! ### C98 -/

/-- **C98.** Whatever a rule set that was read gives to a metric - for the metric itself or for any rollup of it, for any range of times
and from any time on - has a protobuf form, and is read back from it exactly as it was, whatever the reused objects held. -/
theorem C98_metadatas {x : XTime} (hx : UnitsOK x) (key : Bytes) (v : Int) (pb : Option PBRuleSet) (rs : RuleSet)
    (h : newRuleSetFromProto x key v pb = some rs) (env : Env) (t0 : Int) (id : Bytes) (frm to : Int) (ms : List StagedMetadata)
    (hg : Given (forwardMatch env (rs.activeSet t0) id frm to) ms) (dst : List PBStagedMetadata) (old : List StagedMetadata) :
    ∃ p, stagedToProto x dst ms = some p ∧ stagedFromProto x old p = some ms :=
  sent_back hx (loaded_ok hx h env t0 id frm to hg) dst old

/-- **C98.** So does a part of it that is forwarded: one of the storage policies with what is left of the pipeline after some steps. -/
theorem C98_forwarded {x : XTime} (hx : UnitsOK x) (key : Bytes) (v : Int) (pb : Option PBRuleSet) (rs : RuleSet)
    (h : newRuleSetFromProto x key v pb = some rs) (env : Env) (t0 : Int) (id : Bytes) (frm to : Int) (ms : List StagedMetadata)
    (hg : Given (forwardMatch env (rs.activeSet t0) id frm to) ms) (m : StagedMetadata) (hm : m ∈ ms) (q : PipelineMetadata) (hq : q ∈ m.pipelines)
    (p : StoragePolicy) (hp : p ∈ q.storagePolicies) (k : Nat) (fm : ForwardMetadata) (hs : fm.storagePolicy = p)
    (hk : fm.pipeline = q.pipeline.drop k) (h1 : -2 ^ 31 ≤ fm.numForwardedTimes) (h2 : fm.numForwardedTimes < 2 ^ 31)
    (dst : PBForwardMetadata) (old : ForwardMetadata) :
    ∃ b, fm.toProto x dst = some b ∧ old.fromProto x b = some fm := by
  have hok := (loaded_ok hx h env t0 id frm to hg m hm).pipes q hq
  have hops : ∀ u ∈ fm.pipeline, OpForm u ∧ Applied.Canonical u := fun u hu => hok.ops u (by rw [hk] at hu; exact List.mem_of_mem_drop hu)
  have hsome : (fm.toProto x dst).isSome = true := by
    have h3 := (policy_form x fm.storagePolicy dst.storagePolicy).mpr (hs ▸ (hok.policies p hp).1)
    have h4 := (isSome_mapOpt (Applied.OpUnion.toProto {}) fm.pipeline).mpr fun u hu => (op_form u {}).mpr (hops u hu).1
    unfold ForwardMetadata.toProto
    simp only [Applied.pipelineToProto_eq]
    obtain ⟨a, ha⟩ := Option.isSome_iff_exists.mp h3
    obtain ⟨b, hb⟩ := Option.isSome_iff_exists.mp h4
    simp [ha, hb]
  obtain ⟨b, hb⟩ := Option.isSome_iff_exists.mp hsome
  exact ⟨b, hb, (C12_forward_roundtrip x fm old dst b (hx.toUnit _) h1 h2 hb).2.2 fun u hu => (hops u hu).2⟩

/-- What a message with such metadatas is. -/
theorem message_ok {x : XTime} (hx : UnitsOK x) {m : Message} (h : FromMatch x m) : Form x m ∧ Fits x m ∧ InRange x m ∧ canon m = m := by
  obtain ⟨key, v, pb, rs, env, t0, frm, to, id, ms, hl, hr, hg, hc⟩ := h
  obtain ⟨h1, h2⟩ := loaded hx hl
  have hok : ∀ m ∈ ms, StageOK x (PolicyRange x) Int64 m :=
    range_ok env rs t0 id frm to (by decide)
      (fun r h s hs => ⟨(h1 r h s hs).1, (h1 r h s hs).2.2, (hr.mapping r h s hs).1, (hr.mapping r h s hs).2.2⟩)
      (fun r h s hs => ⟨(h2 r h s hs).1, (hr.rollup r h s hs).1, (hr.rollup r h s hs).2.2⟩) hg
  have f1 : ∀ s ∈ ms, StagedForm x s := fun s hs => stage_form (hok s hs)
  have f2 : ∀ s ∈ ms, ∀ p ∈ s.pipelines, (∀ q ∈ p.storagePolicies, Fits.UnitOK x q.resolution.precision) ∧ p.drop < 2 ^ 31 :=
    fun s hs p hp => ⟨fun q hq => hx.toUnit _, (stage_fits hx (hok s hs) p hp).2⟩
  have f3 : ∀ s ∈ ms, StagedRange x s := fun s hs => ⟨(hok s hs).cut, fun q hq p hp => (((hok s hs).pipes q hq).policies p hp).2⟩
  have f4 := stage_canon hok
  cases m with
  | counter m => obtain ⟨rfl, hv⟩ := hc; exact ⟨f1, f2, ⟨hv, f3⟩, by simp only [canon, f4]⟩
  | batchTimer m => cases hc; exact ⟨f1, f2, f3, by simp only [canon, f4]⟩
  | gauge m => cases hc; exact ⟨f1, f2, f3, by simp only [canon, f4]⟩
  | forwarded m => exact hc.elim
  | timed m => exact hc.elim

/-- **C98.** A counter, timer or gauge with what a rule set gives to it is never refused by the encoder for what it contains. -/
theorem C98_encodes {x : XTime} (hx : UnitsOK x) (u : Union) (m : Message) (hv : view u = some m) (h : FromMatch x m) (p : PBuf.Protos) :
    (PBuf.toPB x p u).isSome = true := by
  obtain ⟨hf, -, -, -⟩ := message_ok hx h
  obtain ⟨h1, h2, h3, h4, h5⟩ := C65_toProto x
  unfold view at hv
  unfold PBuf.toPB
  repeat' split at hv
  all_goals simp_all

/-- **C98.** A stream of such metrics comes out of the iterator as it went in, metadatas and all; only a negative zero of a gauge becomes
a positive one. -/
theorem C98_stream {x : XTime} (hx : UnitsOK x) (fresh : Nat → Nat → Bytes) (hf : ∀ k, PIter.Enough (fresh k))
    (ms : List (Union × Message × Wire.PBMetric)) (n : Nat) (it : PIter.Iter) (he : it.err = none) (hc : it.closed = false)
    (hm : ∀ m ∈ ms, view m.1 = some m.2.1 ∧ FromMatch x m.2.1 ∧ (∃ p, PBuf.toPB x p m.1 = some m.2.2) ∧
      (Wire.metricWithMetadatas.size m.2.2 : Int) ≤ it.maxMessageSize ∧ it.maxMessageSize < 9223372036854775808)
    (hr : it.reader = ms.flatMap (fun m => PIter.frame m.2.2)) (hn : ms.length < n) :
    ∃ it', PIter.drain x fresh n it = .ok (ms.map (fun m => some (received m.2.1)), it') ∧ it'.err = some .eof := by
  have hs : ∀ m ∈ ms, PIter.Sent x it.maxMessageSize m.1 m.2.1 m.2.2 := by
    intro m hmm
    obtain ⟨a, b, c, d, e⟩ := hm m hmm
    obtain ⟨_, f2, f3, _⟩ := message_ok hx b
    exact ⟨a, f2, f3, c, d, by omega⟩
  obtain ⟨it', h1, h2⟩ := PIter.C17_stream x fresh hf ms n it he hc hs hr hn
  refine ⟨it', ?_, h2⟩
  rw [h1]
  congr 2
  refine List.map_congr_left fun m hmm => ?_
  rw [(message_ok hx (hm m hmm).2.1).2.2.2]

/-- **C98.** The answers of a deployed matcher can be sent: whatever clients write to the store, and however writes, watches, announcements
and lookups interleave, what a lookup is answered, unless the last change of its ruleset is still to be announced, has a protobuf form and
is read back as it was. -/
theorem C98_deployed {o : Store.Options} {W : RuleSet → Prop} {cfg : Cache.Config} {env : Env} {past : Int} {nsOf : Nat → Bytes} (hx : UnitsOK o.x)
    (hcap : 0 ≤ cfg.capacity) (hk : Store.KeysOK o) {d : Deploy.Dep} (h : Deploy.DReach o W cfg env past nsOf d)
    (tagValue : Bytes → Bytes → Option Bytes) (tag dflt id : Bytes) (t : Cache.Tick) (frm to : Int) (second : Bool) (c' : Cache.St) (res : MatchResult)
    (hg : d.sys.cache.tryGetWithLock cfg (d.sys.world.answers (Matcher.answers env)) t (Matcher.namespaceOf tagValue tag dflt id) id frm to second =
      (c', res, true)) :
    ∃ ns, (tagValue id tag = some ns ∨ tagValue id tag = none ∧ ns = dflt) ∧
      ((∀ src, Cache.mget d.sys.ns.rules ns = some src → src ∉ d.sys.pending) →
        ∀ ms, Given res ms → ∀ dst old, ∃ p, stagedToProto o.x dst ms = some p ∧ stagedFromProto o.x old p = some ms) := by
  obtain ⟨ns, h1, h2, h3⟩ := Deploy.C87_answers hcap hk h tagValue tag dflt id t frm to second c' res hg
  refine ⟨ns, h1, fun hp ms hms dst old => ?_⟩
  have empty : res = emptyMatchResult → ∃ p, stagedToProto o.x dst ms = some p ∧ stagedFromProto o.x old p = some ms := by
    rintro rfl
    refine sent_back (Q := fun _ => True) (P := fun _ => True) hx (given_mem hms ?_ (by intro y hy; cases hy)) dst old
    intro m hm
    simp only [emptyMatchResult, defaultStagedMetadatas, List.mem_singleton] at hm
    subst hm
    exact ⟨by intro q hq; simp only [defaultPipelineMetadatas, List.mem_singleton] at hq; subst hq; exact ⟨by simp, by simp, by simp⟩, trivial⟩
  cases hs : Cache.mget d.sys.ns.rules ns with
  | none => exact empty (h2 hs)
  | some src =>
    rcases h3 src hs (hp src hs) with ⟨_, e⟩ | ⟨n, b, v, rs, p, now, f, u, _, _, _, _, _, _, _, _, hl, e, _⟩
    · exact empty e
    · subst e
      exact C98_metadatas hx _ _ _ v hl env _ id f u ms hms dst old

/-! ### A case, and why the rules must have been read -/

/-- Rules with a drop, several storage policies, and a pipeline of a rollup, a transformation and another rollup. -/
def exSentRules : PBRuleSet :=
  let sp : Option PBStoragePolicy := some ⟨some ⟨10000000000, 1000000000⟩, some ⟨3600⟩⟩
  { uuid := bs "u", namespace_ := bs "ns",
    mappingRules := [
      some ⟨bs "1", [some { name := bs "a", cutoverNanos := 5, filter := bs "city:sf", storagePolicies := [sp, sp], aggregationTypes := [3] },
        some { name := bs "a", cutoverNanos := 30, filter := bs "city:sf", dropPolicy := 1 }]⟩],
    rollupRules := [some ⟨bs "3", [some {
      name := bs "r", cutoverNanos := 20, filter := bs "city:sf",
      targetsV2 := [some ⟨some [{ type := 3, rollup := some ⟨bs "n", [bs "city"], []⟩ }, { type := 2, transformation := some 2 },
        { type := 3, rollup := some ⟨bs "m", [], [6]⟩ }], [sp]⟩] }]⟩] }

def exSentOut : MatchResult :=
  match newRuleSetFromProto exUnits (bs "name") 1 (some exSentRules) with
  | some rs => forwardMatch m3Env (rs.activeSet 10) (Spec.Id.idText (bs "requests") [(bs "city", bs "sf")]) 15 40
  | none => emptyMatchResult

/-- Beside C98: the rules are read, three stages come out for the metric and two for the rollup, which has a pipeline of two steps; all
is sent and comes back. -/
example : (newRuleSetFromProto exUnits (bs "name") 1 (some exSentRules)).isSome = true ∧
    exSentOut.forExistingID.map (fun m => (m.cutoverNanos, m.pipelines.map fun q => (q.storagePolicies.length, q.drop))) =
      [(5, [(2, 0)]), (20, [(2, 0)]), (30, [(0, 1)])] ∧
    exSentOut.forNewRollupIDs.map (fun y => (y.id, y.metadatas.map (·.cutoverNanos))) = [(bs "m3+n+city=sf,m3_rollup=true", [20, 20])] ∧
    (∀ y ∈ exSentOut.forNewRollupIDs, ∀ m ∈ y.metadatas, ∀ q ∈ m.pipelines,
      q.pipeline = [{ type := 2, transformation := 2 }, { type := 3, rollup := ⟨bs "m3+m+m3_rollup=true", 0x40#64⟩ }]) ∧
    ((stagedToProto exUnits [] exSentOut.forExistingID).bind (stagedFromProto exUnits []) = some exSentOut.forExistingID) ∧
    ∀ y ∈ exSentOut.forNewRollupIDs, (stagedToProto exUnits [] y.metadatas).bind (stagedFromProto exUnits []) = some y.metadatas := by
  refine ⟨?_, ?_, ?_, ?_, ?_, ?_⟩ <;> decide +kernel

/-- Beside C98: the deployment of C87 meets the hypotheses of `C98_deployed`. -/
example : UnitsOK Store.exStoreOpts.x ∧ 0 ≤ Cache.exCfg.capacity ∧ Store.KeysOK Store.exStoreOpts ∧
    Deploy.DReach Store.exStoreOpts Deploy.exWritten Cache.exCfg Deploy.exAll 5 Deploy.exNsName Deploy.exDep4 :=
  ⟨exUnits_ok, by decide, Deploy.exKeys, Deploy.exDep4_reach⟩

/-- Rules that were not read from a store, but made by calls: the transformation is of a type that there is not. -/
def exUnread : RuleSet := { exEmpty with rollupRules := [⟨bs "2", [exRollup 5 false
  [⟨[{ type := 3, rollup := ⟨bs "n", [bs "city"], 0⟩ }, { type := 2, transformation := 7 }], [⟨⟨10000000000, 1⟩, 3600000000000⟩]⟩]]⟩] }

/-- C98, outside: a rule set that was made by calls, and not stored and read, may give what cannot be sent. -/
theorem C98_unread : ∃ (rs : RuleSet) (id : Bytes) (ms : List StagedMetadata),
    Given (forwardMatch m3Env (rs.activeSet 10) id 15 40) ms ∧ stagedToProto exUnits [] ms = none := by
  refine ⟨exUnread, Spec.Id.idText (bs "requests") [(bs "city", bs "sf")],
    [{ cutoverNanos := 5, pipelines := [{ storagePolicies := [⟨⟨10000000000, 1⟩, 3600000000000⟩], pipeline := [{ type := 2, transformation := 7 }] }] }],
    Or.inr (Or.inr (Or.inl ⟨⟨bs "m3+n+city=sf,m3_rollup=true", _⟩, ?_, rfl⟩)), by decide +kernel⟩
  decide +kernel

end Verif.Sent
