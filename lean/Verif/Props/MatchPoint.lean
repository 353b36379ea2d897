import Verif.Props.ForwardRollups
/- C40–C43: what is matched at one time. -/
namespace Verif.Active
open Verif.Agg Verif.Policy Verif.Meta Verif.Id Verif.TagsFlt Verif.Rules Verif.Spec.Rules Verif.Spec

/-! ### The pipelines of the existing identifier in closed form -/

/-- Every mapping rule snapshot has one of the three drop policies. -/
def DropsValid (as : ActiveRuleSet) : Prop :=
  ∀ r ∈ as.mappingRules, ∀ s ∈ r.snapshots, s.drop = 0 ∨ s.drop = 1 ∨ s.drop = 2

theorem mem_asked {env : Env} {as : ActiveRuleSet} {id : Bytes} {t : Int} {p : PipelineMetadata} :
    p ∈ asked env as id t ↔ ∃ s ∈ live (matchingM env as.mappingRules id t), mappingPipeline s = p := by
  unfold asked
  simp only [List.mem_map]

theorem asked_valid {env : Env} {as : ActiveRuleSet} (h : DropsValid as) {id : Bytes} {t : Int} :
    ∀ p ∈ asked env as id t, ValidDrop p := by
  intro p hp
  obtain ⟨s, hs, rfl⟩ := mem_asked.mp hp
  unfold live matchingM current at hs
  simp only [List.mem_filter, List.mem_filterMap] at hs
  obtain ⟨⟨⟨r, hr, hin⟩, _⟩, _⟩ := hs
  exact h r hr s (inForce_mem hin).1

/-- The pipelines before removal of duplicates when nothing is dropped. -/
def contributed (env : Env) (as : ActiveRuleSet) (id : Bytes) (t : Int) : List PipelineMetadata :=
  (if (asked env as id t).filter (fun p => p.drop == 0) = [] then [{}]
    else (asked env as id t).filter (fun p => p.drop == 0)) ++ rolledExisting env as id t

theorem pipelines_eq (env : Env) (as : ActiveRuleSet) (hv : DropsValid as) (id : Bytes) (t : Int) :
    (forwardMatchAt env as id t).forExistingID.pipelines =
      if dropEffective (asked env as id t) then [{ drop := 1 }]
      else (contributed env as id t).foldl dedupStep [] := by
  have hre : (rolled env as id t).filterMap (fun r => if r.1 = none then some r.2 else none) = rolledExisting env as id t := rfl
  unfold forwardMatchAt MatchRes.toStaged MatchRes.merge MatchRes.resolvedPipelines
  simp only [mappingsFor_eq, rollupResultsFor_eq, hre, C14_pipelines _ (asked_valid hv), resolve]
  have hroll0 : ∀ p ∈ rolledExisting env as id t, p.drop = 0 := fun p hp => rolledExisting_drop hp
  by_cases hd : dropEffective (asked env as id t) = true
  · simp only [hd, if_true, List.cons_ne_nil, if_false]
    rw [unique_eq]
    · have : dropEffective ([{ drop := 1 }] ++ rolledExisting env as id t) = true := by simp [dropEffective]
      simp only [this, if_true]
      rfl
    · intro p hp
      simp only [List.mem_append, List.mem_singleton] at hp
      rcases hp with rfl | hp
      · exact Or.inr (Or.inl rfl)
      · exact Or.inl (hroll0 p hp)
  · simp only [hd]
    have hc0 : ∀ p ∈ contributed env as id t, p.drop = 0 := by
      intro p hp
      unfold contributed at hp
      rcases List.mem_append.mp hp with hp | hp
      · split at hp
        · simp only [List.mem_singleton] at hp; subst hp; rfl
        · simpa using (List.mem_filter.mp hp).2
      · exact hroll0 p hp
    have hne : contributed env as id t ≠ [] := by
      unfold contributed
      split
      · simp
      · rename_i h; simp [h]
    have hnd : dropEffective (contributed env as id t) = false := by
      cases hce : contributed env as id t with
      | nil => exact absurd hce hne
      | cons a l =>
        rw [hce] at hc0
        unfold dropEffective
        simp only [Bool.or_eq_false_iff, List.any_eq_false, Bool.and_eq_false_iff]
        refine ⟨fun p hp => by simp [hc0 p hp], Or.inr ?_⟩
        simp [hc0 a (by simp)]
    have hfil : (contributed env as id t).filter (fun p => p.drop == 0) = contributed env as id t :=
      List.filter_eq_self.mpr (fun p hp => by simp [hc0 p hp])
    have huni : ∀ c : Int, (MatchRes.unique { cutoverNanos := c, pipelines := contributed env as id t }).pipelines =
        (contributed env as id t).foldl dedupStep [] := by
      intro c
      rw [unique_eq _ (fun p hp => Or.inl (hc0 p hp))]
      simp only [hnd, hfil]
      rfl
    have hlen : 0 < ((contributed env as id t).foldl dedupStep []).length := by
      obtain ⟨_, _, _, h4⟩ := dedup_spec (contributed env as id t) [] List.Pairwise.nil
      cases hce : contributed env as id t with
      | nil => exact absurd hce hne
      | cons a l =>
        obtain ⟨q, hq, _⟩ := h4 a (by rw [hce]; simp)
        rw [hce] at hq
        exact List.length_pos_of_mem hq
    have hcon : ((if (asked env as id t).filter (fun m => m.drop == 0) = [] then [{}]
        else (asked env as id t).filter (fun m => m.drop == 0)) ++ rolledExisting env as id t) = contributed env as id t := rfl
    simp only [Bool.false_eq_true, if_false]
    rw [hcon]
    simp only [huni, hlen, if_true, gt_iff_lt]

/-! ### C40 -/

/-- C40: there is always at least one pipeline, and no two are equal. -/
theorem C40_distinct (env : Env) (as : ActiveRuleSet) (hv : DropsValid as) (id : Bytes) (t : Int) :
    (forwardMatchAt env as id t).forExistingID.pipelines ≠ [] ∧
    (forwardMatchAt env as id t).forExistingID.pipelines.Pairwise (fun p q => p.equal q = false) := by
  rw [pipelines_eq env as hv]
  split
  · simp
  · obtain ⟨h1, _, _, h4⟩ := dedup_spec (contributed env as id t) [] List.Pairwise.nil
    refine ⟨?_, h1⟩
    intro hnil
    have hne : contributed env as id t ≠ [] := by
      unfold contributed
      split
      · simp
      · rename_i h; simp [h]
    cases hce : contributed env as id t with
    | nil => exact hne hce
    | cons a l =>
      obtain ⟨q, hq, _⟩ := h4 a (by rw [hce]; simp)
      rw [hnil] at hq
      cases hq

/-- The metric is dropped: some matching rule says it must be, or there are matching mapping rules and all of them
ask for a drop. -/
def Dropped (env : Env) (as : ActiveRuleSet) (id : Bytes) (t : Int) : Prop :=
  (∃ s ∈ live (matchingM env as.mappingRules id t), s.drop = 1) ∨
  (live (matchingM env as.mappingRules id t) ≠ [] ∧ ∀ s ∈ live (matchingM env as.mappingRules id t), s.drop ≠ 0)

theorem dropped_iff (env : Env) (as : ActiveRuleSet) (id : Bytes) (t : Int) :
    dropEffective (asked env as id t) = true ↔ Dropped env as id t := by
  unfold dropEffective asked Dropped
  cases hl : live (matchingM env as.mappingRules id t) with
  | nil => simp
  | cons a l => simp [mappingPipeline]

/-- C40: unless the metric is dropped, every pipeline asked for by a matching mapping rule without a drop policy and
every pipeline a matching rollup rule has for the metric itself is represented. -/
theorem C40_complete (env : Env) (as : ActiveRuleSet) (hv : DropsValid as) (id : Bytes) (t : Int)
    (hd : ¬ Dropped env as id t) :
    (∀ s ∈ live (matchingM env as.mappingRules id t), s.drop = 0 →
      ∃ q ∈ (forwardMatchAt env as id t).forExistingID.pipelines, q.equal (mappingPipeline s) = true) ∧
    (∀ name tags, env.nameAndTags id = some (name, tags) → ∀ s ∈ live (matchingR env as.rollupRules id t),
      ∀ tg ∈ s.targets, ∀ p, targetResult env tags tg = some (none, p) →
      ∃ q ∈ (forwardMatchAt env as id t).forExistingID.pipelines, q.equal p = true) := by
  rw [pipelines_eq env as hv, if_neg (by rw [dropped_iff]; exact hd)]
  obtain ⟨_, _, _, h4⟩ := dedup_spec (contributed env as id t) [] List.Pairwise.nil
  constructor
  · intro s hs h0
    apply h4
    have hm : mappingPipeline s ∈ (asked env as id t).filter (fun p => p.drop == 0) := by
      rw [List.mem_filter]
      exact ⟨mem_asked.mpr ⟨s, hs, rfl⟩, by simpa [mappingPipeline] using h0⟩
    unfold contributed
    rw [if_neg (List.ne_nil_of_mem hm)]
    exact List.mem_append_left _ hm
  · intro name tags hn s hs tg htg p hp
    apply h4
    unfold contributed
    apply List.mem_append_right
    unfold rolledExisting rolled
    simp only [hn, List.mem_filterMap]
    refine ⟨(none, p), ⟨tg, ?_, hp⟩, by simp⟩
    unfold targetsAt
    exact List.mem_flatMap.mpr ⟨s, hs, htg⟩

/-- C40: nothing else is returned: a pipeline of the result comes from a matching rule, or it is the default one and
no matching mapping rule asks for a pipeline, or it is the drop pipeline of a dropped metric. -/
theorem C40_sound (env : Env) (as : ActiveRuleSet) (hv : DropsValid as) (id : Bytes) (t : Int)
    (q : PipelineMetadata) (hq : q ∈ (forwardMatchAt env as id t).forExistingID.pipelines) :
    (Dropped env as id t ∧ (forwardMatchAt env as id t).forExistingID.pipelines = [{ drop := 1 }] ∧ q = { drop := 1 }) ∨
    (¬ Dropped env as id t ∧
      ((∃ s ∈ live (matchingM env as.mappingRules id t), s.drop = 0 ∧ mappingPipeline s = q) ∨
       (∃ name tags, env.nameAndTags id = some (name, tags) ∧ ∃ s ∈ live (matchingR env as.rollupRules id t),
          ∃ tg ∈ s.targets, targetResult env tags tg = some (none, q)) ∨
       (q = {} ∧ ∀ s ∈ live (matchingM env as.mappingRules id t), s.drop ≠ 0))) := by
  rw [pipelines_eq env as hv] at hq ⊢
  by_cases hd : dropEffective (asked env as id t) = true
  · left
    rw [if_pos hd] at hq ⊢
    exact ⟨(dropped_iff ..).mp hd, rfl, by simpa using hq⟩
  · right
    rw [if_neg hd] at hq
    refine ⟨fun h => hd ((dropped_iff ..).mpr h), ?_⟩
    obtain ⟨_, h2, _, _⟩ := dedup_spec (contributed env as id t) [] List.Pairwise.nil
    rcases h2 q hq with h | h
    · cases h
    · unfold contributed at h
      rcases List.mem_append.mp h with h | h
      · split at h
        · rename_i hnil
          right; right
          refine ⟨by simpa using h, fun s hs h0 => ?_⟩
          rw [List.filter_eq_nil_iff] at hnil
          exact hnil _ (mem_asked.mpr ⟨s, hs, rfl⟩) (by simpa [mappingPipeline] using h0)
        · left
          rw [List.mem_filter] at h
          obtain ⟨s, hs, rfl⟩ := mem_asked.mp h.1
          exact ⟨s, hs, by simpa [mappingPipeline] using h.2, rfl⟩
      · right; left
        unfold rolledExisting rolled at h
        cases hn : env.nameAndTags id with
        | none => simp [hn] at h
        | some nt =>
          simp only [hn, List.mem_filterMap] at h
          obtain ⟨a, ⟨tg, htg, ha⟩, hr⟩ := h
          unfold targetsAt at htg
          obtain ⟨s, hs, hst⟩ := List.mem_flatMap.mp htg
          refine ⟨nt.1, nt.2, rfl, s, hs, tg, hst, ?_⟩
          split at hr
          · rename_i h1
            simp only [Option.some.injEq] at hr
            rw [ha, ← hr, ← h1]
          · cases hr

/-- C40: with no matching rule the default pipeline is returned. -/
theorem C40_default (env : Env) (as : ActiveRuleSet) (id : Bytes) (t : Int)
    (hm : live (matchingM env as.mappingRules id t) = []) (hr : live (matchingR env as.rollupRules id t) = []) :
    (forwardMatchAt env as id t).forExistingID.pipelines = [{}] ∧ (forwardMatchAt env as id t).forNewRollupIDs = [] := by
  have ht : targetsAt env as id t = [] := by unfold targetsAt; rw [hr]; rfl
  have hro : rolled env as id t = [] := by
    unfold rolled
    rw [ht]
    cases env.nameAndTags id <;> rfl
  constructor
  · unfold forwardMatchAt
    simp only [mappingsFor_eq, rollupResultsFor_eq, hro]
    have : asked env as id t = [] := by unfold asked; rw [hm]; rfl
    rw [this]
    rfl
  · rw [forward_rollups]
    unfold generated
    rw [hro]
    rfl

/-- C40: a generated rollup identifier carries exactly the pipeline of the target that generated it. -/
theorem C40_rollup_pipeline (env : Env) (as : ActiveRuleSet) (id : Bytes) (t : Int) (y : IDWithMetadatas)
    (h : y ∈ (forwardMatchAt env as id t).forNewRollupIDs) :
    ∃ name tags s tg p, env.nameAndTags id = some (name, tags) ∧ s ∈ live (matchingR env as.rollupRules id t) ∧
      tg ∈ s.targets ∧ targetResult env tags tg = some (some y.id, p) ∧
      y.metadatas.map (fun m => (m.pipelines, m.tombstoned)) = [([p], false)] := by
  obtain ⟨q, hq, hm⟩ := generated_one env as id t y h
  unfold generated rolled at hq
  cases hn : env.nameAndTags id with
  | none => simp [hn] at hq
  | some nt =>
    simp only [hn, List.mem_filterMap] at hq
    obtain ⟨a, ⟨tg, htg, ha⟩, hr⟩ := hq
    unfold targetsAt at htg
    obtain ⟨s, hs, hst⟩ := List.mem_flatMap.mp htg
    refine ⟨nt.1, nt.2, s, tg, q, rfl, hs, hst, ?_, by rw [hm]; rfl⟩
    cases ha1 : a.1 with
    | none => simp [ha1] at hr
    | some x =>
      simp only [ha1, Option.map_some, Option.some.injEq, Prod.mk.injEq] at hr
      rw [ha, ← hr.1, ← hr.2, ← ha1]

/-- Two mapping rules asking for the same, and a rollup rule for the metric itself. -/
def exPoint : ActiveRuleSet :=
  newActiveRuleSet 1 [⟨bs "1", [exSnap "city:s*" 10 4]⟩, ⟨bs "2", [exSnap "city:sf" 5 4]⟩, ⟨bs "3", [exSnap "host:a" 5 8]⟩]
    [⟨bs "4", [exRollup 5 false [exTarget]]⟩]

example : DropsValid exPoint ∧ ¬ Dropped m3Env exPoint exID 15 ∧
    (live (matchingM m3Env exPoint.mappingRules exID 15)).length = 3 ∧
    (forwardMatchAt m3Env exPoint exID 15).forExistingID.pipelines.length = 3 := by
  refine ⟨?_, ?_, by decide +kernel, by decide +kernel⟩
  · intro r hr s hs
    simp only [exPoint, newActiveRuleSet, List.mem_cons, List.not_mem_nil, or_false] at hr
    rcases hr with rfl | rfl | rfl <;> simp only [List.mem_cons, List.not_mem_nil, or_false] at hs <;> subst hs <;> exact Or.inl rfl
  · rw [← dropped_iff]
    decide +kernel

/-! ### C41, C42 -/

/-- C42: a metric that a live mapping rule with the must-drop policy applies to gets exactly the drop pipeline. -/
theorem C42_must_drop (env : Env) (as : ActiveRuleSet) (hv : DropsValid as) (id : Bytes) (t : Int)
    (s : MappingSnapshot) (hs : s ∈ live (matchingM env as.mappingRules id t)) (hd : s.drop = 1) :
    (forwardMatchAt env as id t).forExistingID.pipelines = [{ drop := 1 }] := by
  rw [pipelines_eq env as hv, if_pos ((dropped_iff ..).mpr (Or.inl ⟨s, hs, hd⟩))]

/-- C41, part that holds: the metric is dropped only if some mapping rule that applies says it must be, or if all
mapping rules that apply (and at least one does) ask for a drop. -/
theorem C41_dropped_iff_partial (env : Env) (as : ActiveRuleSet) (hv : DropsValid as) (id : Bytes) (t : Int) :
    (∃ p ∈ (forwardMatchAt env as id t).forExistingID.pipelines, p.drop ≠ 0) ↔ Dropped env as id t := by
  constructor
  · rintro ⟨p, hp, h0⟩
    rcases C40_sound env as hv id t p hp with ⟨h, _⟩ | ⟨_, h⟩
    · exact h
    · exfalso
      rcases h with ⟨s, _, hs0, rfl⟩ | ⟨_, tags, _, s, _, tg, _, h⟩ | ⟨rfl, _⟩
      · exact h0 hs0
      · exact h0 (targetResult_drop h)
      · exact h0 rfl
  · intro h
    rw [pipelines_eq env as hv, if_pos ((dropped_iff ..).mpr h)]
    exact ⟨_, List.mem_singleton.mpr rfl, by simp⟩

/-- C41, as far as mapping rules go: a drop-if-only-match rule does not drop the metric when another mapping rule
without a drop policy applies. -/
theorem C41_other_mapping_partial (env : Env) (as : ActiveRuleSet) (hv : DropsValid as) (id : Bytes) (t : Int)
    (s : MappingSnapshot) (hs : s ∈ live (matchingM env as.mappingRules id t)) (h0 : s.drop = 0)
    (hno : ∀ s' ∈ live (matchingM env as.mappingRules id t), s'.drop ≠ 1) :
    ∀ p ∈ (forwardMatchAt env as id t).forExistingID.pipelines, p.drop = 0 := by
  intro p hp
  apply Classical.byContradiction
  intro hne
  rcases (C41_dropped_iff_partial env as hv id t).mp ⟨p, hp, hne⟩ with ⟨s', hs', h1⟩ | ⟨_, hall⟩
  · exact hno s' hs' h1
  · exact hall s hs h0

def exDrop (raw : String) (cut : Int) (d : Nat) : MappingSnapshot := { exSnap raw cut 0 with drop := d }

/-- C41 is violated: a drop-if-only-match mapping rule drops a metric although a rollup rule applies to it and asks
for a pipeline for the metric itself. -/
theorem C41_violated : ∃ as id t, Built as ∧ DropsValid as ∧
    (live (matchingM m3Env as.mappingRules id t)).map (·.drop) = [2] ∧
    (live (matchingR m3Env as.rollupRules id t)).length = 1 ∧ (rolledExisting m3Env as id t).length = 1 ∧
    (forwardMatchAt m3Env as id t).forExistingID.pipelines = [{ drop := 1 }] := by
  refine ⟨newActiveRuleSet 1 [⟨bs "1", [exDrop "city:s*" 10 2]⟩] [⟨bs "4", [exRollup 5 false [exTarget]]⟩], exID, 15,
    ⟨1, _, _, rfl⟩, ?_, by decide +kernel, by decide +kernel, by decide +kernel, by decide +kernel⟩
  intro r hr s hs
  simp only [newActiveRuleSet, List.mem_singleton] at hr
  subst hr
  simp only [List.mem_singleton] at hs
  subst hs
  exact Or.inr (Or.inr rfl)

/-- Must-drop among other rules, and drop-if-only-match with another rule. -/
example :
    (forwardMatchAt m3Env (newActiveRuleSet 1 [⟨bs "1", [exDrop "city:s*" 10 1]⟩, ⟨bs "2", [exSnap "city:sf" 5 4]⟩] []) exID
      15).forExistingID.pipelines = [{ drop := 1 }] ∧
    (forwardMatchAt m3Env (newActiveRuleSet 1 [⟨bs "1", [exDrop "city:s*" 10 2]⟩, ⟨bs "2", [exSnap "city:sf" 5 4]⟩] []) exID
      15).forExistingID.pipelines = [{ aggID := 4 }] := by decide +kernel

/-! ### C43 -/

/-- Tags in ascending order of names. -/
def TagsAsc (ps : List TagPair) : Prop := ps.Pairwise fun a b => bytesLt b.name a.name = false

/-- Target tags in strictly ascending order. -/
def NamesAsc (ts : List Bytes) : Prop := ts.Pairwise fun a b => bytesLt a b = true

theorem rollupTagLoop_spec : ∀ (ps : List TagPair) (ts : List Bytes) (acc l : List TagPair), TagsAsc ps → NamesAsc ts →
    (rollupTagLoop ps ts acc = some l ↔
      ∃ picked, l = acc ++ picked ∧ picked.map (·.name) = ts ∧
        ∀ p ∈ picked, ps.find? (fun q => decide (q.name = p.name)) = some p)
  | ps, [], acc, l, _, _ => by
    cases ps <;> simp only [rollupTagLoop, Option.some.injEq, List.map_eq_nil_iff]
    all_goals
      constructor
      · rintro rfl; exact ⟨[], by simp, rfl, by simp⟩
      · rintro ⟨picked, h1, rfl, _⟩; simpa using h1.symm
  | [], t :: ts, acc, l, _, _ => by
    simp only [rollupTagLoop, reduceCtorEq, false_iff]
    rintro ⟨picked, _, h2, h3⟩
    cases picked with
    | nil => simp at h2
    | cons p _ => have := h3 p (by simp); simp at this
  | p :: ps, t :: ts, acc, l, hp, ht => by
    obtain ⟨hp1, hp2⟩ := List.pairwise_cons.mp hp
    obtain ⟨ht1, ht2⟩ := List.pairwise_cons.mp ht
    rw [rollupTagLoop]
    by_cases he : p.name = t
    · rw [if_pos he, rollupTagLoop_spec ps ts (acc ++ [p]) l hp2 ht2]
      have hskip : ∀ q : TagPair, q.name ∈ ts → ¬ p.name = q.name := by
        intro q hq hpq
        have := ht1 q.name hq
        rw [← hpq, he, bytesLt_irrefl] at this
        cases this
      constructor
      · rintro ⟨picked, h1, h2, h3⟩
        refine ⟨p :: picked, by simp [h1], by simp [he, h2], ?_⟩
        intro q hq
        rcases List.mem_cons.mp hq with rfl | hq
        · simp
        · have hn : q.name ∈ ts := by rw [← h2]; exact List.mem_map_of_mem hq
          rw [List.find?_cons_of_neg (by simpa using hskip q hn)]
          exact h3 q hq
      · rintro ⟨picked, h1, h2, h3⟩
        cases picked with
        | nil => simp at h2
        | cons q qs =>
          simp only [List.map_cons, List.cons.injEq] at h2
          have hq := h3 q (by simp)
          rw [List.find?_cons_of_pos (by simp [he, h2.1])] at hq
          simp only [Option.some.injEq] at hq
          subst hq
          refine ⟨qs, by simp [h1], h2.2, ?_⟩
          intro r hr
          have hn : r.name ∈ ts := by rw [← h2.2]; exact List.mem_map_of_mem hr
          have := h3 r (by simp [hr])
          rwa [List.find?_cons_of_neg (by simpa using hskip r hn)] at this
    · rw [if_neg he]
      by_cases hl : bytesLt t p.name = true
      · rw [if_pos hl]
        simp only [reduceCtorEq, false_iff]
        rintro ⟨picked, _, h2, h3⟩
        cases picked with
        | nil => simp at h2
        | cons q qs =>
          simp only [List.map_cons, List.cons.injEq] at h2
          have hq := h3 q (by simp)
          have hmem := List.mem_of_find?_eq_some hq
          rcases List.mem_cons.mp hmem with rfl | hmem
          · exact he h2.1
          · have := hp1 q hmem
            rw [h2.1, hl] at this
            cases this
      · rw [if_neg hl, rollupTagLoop_spec ps (t :: ts) acc l hp2 ht]
        have hlt : bytesLt p.name t = true := by
          rcases bytesLt_tri p.name t with h | h | h
          · exact h
          · exact absurd h he
          · exact absurd h hl
        have hskip : ∀ q : TagPair, q.name ∈ t :: ts → ¬ p.name = q.name := by
          intro q hq hpq
          have : bytesLt p.name q.name = true := by
            rcases List.mem_cons.mp hq with h | h
            · rw [h]; exact hlt
            · exact bytesLt_trans _ _ _ hlt (ht1 _ h)
          rw [← hpq, bytesLt_irrefl] at this
          cases this
        constructor
        · rintro ⟨picked, h1, h2, h3⟩
          refine ⟨picked, h1, h2, ?_⟩
          intro q hq
          have hn : q.name ∈ t :: ts := by rw [← h2]; exact List.mem_map_of_mem hq
          rw [List.find?_cons_of_neg (by simpa using hskip q hn)]
          exact h3 q hq
        · rintro ⟨picked, h1, h2, h3⟩
          refine ⟨picked, h1, h2, ?_⟩
          intro q hq
          have hn : q.name ∈ t :: ts := by rw [← h2]; exact List.mem_map_of_mem hq
          have := h3 q hq
          rwa [List.find?_cons_of_neg (by simpa using hskip q hn)] at this

/-- C43: for a metric with ascending tags and a target with strictly ascending tags, a rollup identifier is produced
exactly for the target tags with the values the metric has for them. -/
theorem C43_identifier (env : Env) (tags newName : Bytes) (ts : List Bytes) (x : Bytes)
    (hp : TagsAsc (env.tagPairs tags)) (ht : NamesAsc ts) :
    matchRollupTarget env tags newName ts = some x ↔
      ∃ picked, x = env.newRollupID newName picked ∧ picked.map (·.name) = ts ∧
        ∀ p ∈ picked, (env.tagPairs tags).find? (fun q => decide (q.name = p.name)) = some p := by
  unfold matchRollupTarget
  simp only [Option.map_eq_some_iff]
  constructor
  · rintro ⟨l, hl, rfl⟩
    obtain ⟨picked, h1, h2, h3⟩ := (rollupTagLoop_spec _ _ _ _ hp ht).mp hl
    exact ⟨picked, by simp [h1], h2, h3⟩
  · rintro ⟨picked, rfl, h2, h3⟩
    exact ⟨picked, (rollupTagLoop_spec _ _ _ _ hp ht).mpr ⟨picked, rfl, h2, h3⟩, rfl⟩

/-- C43: the target applies exactly if every target tag occurs in the metric. -/
theorem C43_applies (env : Env) (tags newName : Bytes) (ts : List Bytes)
    (hp : TagsAsc (env.tagPairs tags)) (ht : NamesAsc ts) :
    (∃ x, matchRollupTarget env tags newName ts = some x) ↔ ∀ t ∈ ts, ∃ p ∈ env.tagPairs tags, p.name = t := by
  constructor
  · rintro ⟨x, hx⟩ t htm
    obtain ⟨picked, _, h2, h3⟩ := (C43_identifier env tags newName ts x hp ht).mp hx
    rw [← h2] at htm
    obtain ⟨p, hpm, rfl⟩ := List.mem_map.mp htm
    exact ⟨p, List.mem_of_find?_eq_some (h3 p hpm), rfl⟩
  · intro h
    have hex : ∃ picked : List TagPair, picked.map (·.name) = ts ∧
        ∀ p ∈ picked, (env.tagPairs tags).find? (fun q => decide (q.name = p.name)) = some p := by
      clear ht
      induction ts with
      | nil => exact ⟨[], rfl, by simp⟩
      | cons t ts ih =>
        obtain ⟨picked, h1, h2⟩ := ih fun t ht => h t (by simp [ht])
        obtain ⟨p, hpm, hpn⟩ := h t (by simp)
        cases hf : (env.tagPairs tags).find? (fun q => decide (q.name = t)) with
        | none =>
          rw [List.find?_eq_none] at hf
          exact absurd (by simpa using hpn) (hf p hpm)
        | some q =>
          have hqn : q.name = t := by simpa using List.find?_some hf
          refine ⟨q :: picked, by simp [h1, hqn], ?_⟩
          intro r hr
          rcases List.mem_cons.mp hr with rfl | hr
          · rw [hqn]; exact hf
          · exact h2 r hr
    obtain ⟨picked, h1, h2⟩ := hex
    exact ⟨_, (C43_identifier env tags newName ts _ hp ht).mpr ⟨picked, rfl, h1, h2⟩⟩

end Verif.Active
