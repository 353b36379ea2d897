import Verif.Lemmas.Active
/- Lemmas about forward matching over a range. -/
namespace Verif.Active
open Verif.Agg Verif.Policy Verif.Meta Verif.Id Verif.TagsFlt Verif.Rules Verif.Spec.Rules Verif.Spec

/-! ### Point matching in closed form -/

/-- What the mapping rules ask for. -/
def asked (env : Env) (as : ActiveRuleSet) (id : Bytes) (t : Int) : List PipelineMetadata :=
  (live (matchingM env as.mappingRules id t)).map mappingPipeline

/-- The targets of the rollup rules that apply. -/
def targetsAt (env : Env) (as : ActiveRuleSet) (id : Bytes) (t : Int) : List RollupTarget :=
  (live (matchingR env as.rollupRules id t)).flatMap (·.targets)

/-- What the rollup rules produce: a pipeline for the metric itself (`none`) or for a rollup identifier. -/
def rolled (env : Env) (as : ActiveRuleSet) (id : Bytes) (t : Int) : List (Option Bytes × PipelineMetadata) :=
  match env.nameAndTags id with
  | none => []
  | some (_, tags) => (targetsAt env as id t).filterMap (targetResult env tags)

/-- The latest change among the mapping rules that apply. -/
def mappingCut (env : Env) (as : ActiveRuleSet) (id : Bytes) (t : Int) : Int :=
  latest ((matchingM env as.mappingRules id t).map (·.cutoverNanos))

/-- The change time reported for the rollup rules. -/
def rollupCut (env : Env) (as : ActiveRuleSet) (id : Bytes) (t : Int) : Int :=
  if targetsAt env as id t = [] ∨ env.nameAndTags id = none then 0
  else latest ((matchingR env as.rollupRules id t).map (·.cutoverNanos))

theorem mappingsFor_eq (env : Env) (as : ActiveRuleSet) (id : Bytes) (t : Int) :
    mappingsFor env as id t =
      { cutoverNanos := mappingCut env as id t
        pipelines := if (applyPipelines (asked env as id t)).1 = [] then [{}]
          else (applyPipelines (asked env as id t)).1 } := by
  unfold mappingsFor
  simp only [mappingLoop_eq, List.nil_append, List.length_eq_zero_iff]
  rfl

theorem rollupResultsFor_eq (env : Env) (as : ActiveRuleSet) (id : Bytes) (t : Int) :
    rollupResultsFor env as id t =
      { forExistingID :=
          { cutoverNanos := rollupCut env as id t
            pipelines := (rolled env as id t).filterMap (fun r => if r.1 = none then some r.2 else none) }
        forNewRollupIDs := (rolled env as id t).filterMap
          (fun r => r.1.map fun x => (x, { cutoverNanos := rollupCut env as id t, pipelines := [r.2] })) } := by
  unfold rollupResultsFor toRollupResults rollupCut rolled
  simp only [rollupLoop_eq, List.nil_append, List.length_eq_zero_iff, List.map_eq_nil_iff]
  by_cases h : targetsAt env as id t = []
  · have h' : List.flatMap (fun x => x.targets) (live (matchingR env as.rollupRules id t)) = [] := h
    simp only [h', h, true_or, if_true]
    cases env.nameAndTags id <;> rfl
  · have h' : ¬ List.flatMap (fun x => x.targets) (live (matchingR env as.rollupRules id t)) = [] := h
    simp only [h', h, if_false, false_or]
    cases hn : env.nameAndTags id with
    | none => rfl
    | some nt =>
      simp only [reduceCtorEq, if_false, targetLoop_eq, List.nil_append, List.filterMap_map]
      have : (targetResult env nt.2 ∘ cloneTarget) = targetResult env nt.2 := by
        funext x; exact targetResult_clone env nt.2 x
      rw [this]
      rfl

theorem targetResult_drop {env : Env} {tags : Bytes} {t : RollupTarget} {r : Option Bytes × PipelineMetadata}
    (h : targetResult env tags t = some r) : r.2.drop = 0 := by
  unfold targetResult at h
  cases hp : t.pipeline with
  | nil => simp [hp] at h
  | cons op ops =>
    simp only [hp] at h
    generalize (if op.type = Pipe.AggregationOpType then _ else _) = st at h
    cases st with
    | none => simp at h
    | some st =>
      obtain ⟨a, b, c⟩ := st
      simp only at h
      cases ha : applyIDToPipeline env tags c with
      | none => simp [ha] at h
      | some ap => simp only [ha, Option.some.injEq] at h; subst h; rfl

theorem rolled_drop {env : Env} {as : ActiveRuleSet} {id : Bytes} {t : Int} {r : Option Bytes × PipelineMetadata}
    (h : r ∈ rolled env as id t) : r.2.drop = 0 := by
  unfold rolled at h
  split at h
  · cases h
  · simp only [List.mem_filterMap] at h
    obtain ⟨x, _, h⟩ := h
    exact targetResult_drop h

/-! ### `unique` -/

/-- Keep the first of every group of equal pipelines. -/
def dedupStep (acc : List PipelineMetadata) (p : PipelineMetadata) : List PipelineMetadata :=
  if acc.any (fun q => q.equal p) then acc else acc ++ [p]

theorem uniqueLoop_eq : ∀ (n : Nat) (arr : List PipelineMetadata) (i curr : Nat), curr < i → i + n = arr.length →
    (uniqueLoop n arr i curr).1.take ((uniqueLoop n arr i curr).2 + 1) =
      (arr.drop i).foldl dedupStep (arr.take (curr + 1))
  | 0, arr, i, curr, h, hn => by
    simp only [uniqueLoop]
    rw [List.drop_eq_nil_of_le (by omega)]
    rfl
  | n + 1, arr, i, curr, h, hn => by
    have hi : i < arr.length := by omega
    rw [uniqueLoop, List.getElem?_eq_getElem hi, List.drop_eq_getElem_cons hi, List.foldl_cons]
    simp only
    by_cases ha : (arr.take (curr + 1)).any (fun q => q.equal arr[i]) = true
    · rw [if_pos ha, uniqueLoop_eq n arr (i + 1) curr (by omega) (by omega)]
      simp only [dedupStep, ha, if_true]
    · rw [if_neg ha, uniqueLoop_eq n _ (i + 1) (curr + 1) (by omega) (by simp; omega)]
      simp only [dedupStep, ha]
      rw [List.drop_set_of_lt (by omega), List.take_set]
      have hlen : curr + 1 < arr.length := by omega
      rw [List.take_succ_eq_append_getElem hlen]
      congr 1
      rw [List.set_append_right _ _ (by simp; omega)]
      simp [Nat.min_eq_left (Nat.le_of_lt hlen)]

theorem unique_eq (res : MatchRes) (h0 : ∀ p ∈ res.pipelines, ValidDrop p) :
    res.unique = { res with pipelines := if dropEffective res.pipelines then [{ drop := 1 }]
      else (res.pipelines.filter (fun p => p.drop == 0)).foldl dedupStep [] } := by
  unfold MatchRes.unique
  cases res with
  | mk c ps =>
  simp only [List.length_eq_zero_iff]
  by_cases hp : ps = []
  · subst hp; rfl
  · rw [if_neg hp, C14_pipelines ps h0]
    unfold resolve
    by_cases hd : dropEffective ps = true
    · simp [hd]
    · simp only [hd]
      simp only [Bool.not_eq_true] at hd
      cases hl : ps.filter (fun p => p.drop == 0) with
      | nil => simp [uniqueLoop]
      | cons a l =>
        have := uniqueLoop_eq l.length (a :: l) 1 0 (by omega) (by simp; omega)
        simp only [List.length_cons, Nat.add_sub_cancel, Bool.false_eq_true, if_false]
        rw [this]
        rfl

theorem dedup_spec : ∀ (l acc : List PipelineMetadata), acc.Pairwise (fun q p => q.equal p = false) →
    (l.foldl dedupStep acc).Pairwise (fun q p => q.equal p = false) ∧
    (∀ q ∈ l.foldl dedupStep acc, q ∈ acc ∨ q ∈ l) ∧ (∀ q ∈ acc, q ∈ l.foldl dedupStep acc) ∧
    (∀ p ∈ l, ∃ q ∈ l.foldl dedupStep acc, q.equal p = true)
  | [], acc, h => by simp [h]
  | p :: l, acc, h => by
    have hstep : (dedupStep acc p).Pairwise (fun q p => q.equal p = false) := by
      unfold dedupStep
      split
      · exact h
      · rename_i hn
        rw [List.pairwise_append]
        refine ⟨h, by simp, ?_⟩
        intro a ha b hb
        simp only [List.mem_singleton] at hb
        subst hb
        simp only [List.any_eq_true, not_exists, not_and] at hn
        simpa using hn a ha
    obtain ⟨h1, h2, h3, h4⟩ := dedup_spec l (dedupStep acc p) hstep
    refine ⟨h1, ?_, ?_, ?_⟩
    · intro q hq
      rcases h2 q hq with hq | hq
      · unfold dedupStep at hq
        split at hq
        · exact Or.inl hq
        · simp only [List.mem_append, List.mem_singleton] at hq
          rcases hq with hq | rfl
          · exact Or.inl hq
          · exact Or.inr (by simp)
      · exact Or.inr (by simp [hq])
    · intro q hq
      apply h3
      unfold dedupStep
      split
      · exact hq
      · simp [hq]
    · intro q hq
      simp only [List.mem_cons] at hq
      rcases hq with rfl | hq
      · by_cases ha : acc.any (fun x => x.equal q) = true
        · obtain ⟨x, hx, hxq⟩ := List.any_eq_true.mp ha
          exact ⟨x, h3 x (by unfold dedupStep; rw [if_pos ha]; exact hx), hxq⟩
        · refine ⟨q, h3 q (by unfold dedupStep; rw [if_neg ha]; simp), ?_⟩
          rw [equal_iff]
          exact ⟨rfl, .refl _, listEqualBy_refl _ (fun u => (Applied.op_equal_iff u u).mpr ⟨rfl, by simp⟩) _, rfl⟩
      · exact h4 q hq

/-! ### The forward match at a time -/

/-- Pipelines of the rollup rules for the metric itself. -/
def rolledExisting (env : Env) (as : ActiveRuleSet) (id : Bytes) (t : Int) : List PipelineMetadata :=
  (rolled env as id t).filterMap (fun r => if r.1 = none then some r.2 else none)

/-- Rollup identifiers generated, with their pipelines. -/
def generated (env : Env) (as : ActiveRuleSet) (id : Bytes) (t : Int) : List (Bytes × PipelineMetadata) :=
  (rolled env as id t).filterMap (fun r => r.1.map fun x => (x, r.2))

theorem generated_drop {env : Env} {as : ActiveRuleSet} {id : Bytes} {t : Int} {r : Bytes × PipelineMetadata}
    (h : r ∈ generated env as id t) : r.2.drop = 0 := by
  unfold generated at h
  simp only [List.mem_filterMap] at h
  obtain ⟨x, hx, h⟩ := h
  cases hx1 : x.1 with
  | none => simp [hx1] at h
  | some _ => simp only [hx1, Option.map_some, Option.some.injEq] at h; subst h; exact rolled_drop hx

theorem rolledExisting_drop {env : Env} {as : ActiveRuleSet} {id : Bytes} {t : Int} {p : PipelineMetadata}
    (h : p ∈ rolledExisting env as id t) : p.drop = 0 := by
  unfold rolledExisting at h
  simp only [List.mem_filterMap] at h
  obtain ⟨x, hx, h⟩ := h
  split at h
  · simp only [Option.some.injEq] at h; subst h; exact rolled_drop hx
  · cases h

theorem unique_single (c : Int) (p : PipelineMetadata) (h : p.drop = 0) :
    (MatchRes.unique { cutoverNanos := c, pipelines := [p] }) = { cutoverNanos := c, pipelines := [p] } := by
  rw [unique_eq _ (by intro q hq; simp at hq; subst hq; exact Or.inl h)]
  simp [dropEffective, h, dedupStep]

/-- The staged metadata of a generated rollup identifier. -/
def stagedOf (env : Env) (as : ActiveRuleSet) (id : Bytes) (t : Int) (p : PipelineMetadata) : StagedMetadata :=
  { cutoverNanos := rollupCut env as id t, tombstoned := false, pipelines := [p] }

theorem forward_rollups (env : Env) (as : ActiveRuleSet) (id : Bytes) (t : Int) :
    (forwardMatchAt env as id t).forNewRollupIDs =
      sortByID ((generated env as id t).map fun r => ⟨r.1, [stagedOf env as id t r.2]⟩) := by
  unfold forwardMatchAt
  simp only [rollupResultsFor_eq]
  congr 1
  unfold generated
  rw [List.map_filterMap, List.map_filterMap]
  apply filterMap_congr'
  intro r hr
  cases hr1 : r.1 with
  | none => rfl
  | some x =>
    simp only [Option.map_some, unique_single _ _ (rolled_drop hr)]
    rfl

/-- The cutover reported for the metric itself. -/
theorem existing_cutover (env : Env) (as : ActiveRuleSet) (id : Bytes) (t : Int) :
    (forwardMatchAt env as id t).forExistingID.cutoverNanos =
      max (mappingCut env as id t) (rollupCut env as id t) := by
  unfold forwardMatchAt MatchRes.toStaged MatchRes.merge
  simp only [mappingsFor_eq, rollupResultsFor_eq]
  have : ∀ r : MatchRes, r.unique.cutoverNanos = r.cutoverNanos := by
    intro r
    unfold MatchRes.unique
    split
    · rfl
    · simp only
      split <;> rfl
  rw [this]
  simp only
  split <;> omega

theorem existing_tombstoned (env : Env) (as : ActiveRuleSet) (id : Bytes) (t : Int) :
    (forwardMatchAt env as id t).forExistingID.tombstoned = false := rfl

/-! ### Point matching between rule changes -/

theorem current_congr {S : Type} [Snap S] {rules : List (Rule S)} {t t' : Int}
    (h : ∀ r ∈ rules, ∀ s ∈ r.snapshots, Snap.cutover s ≤ t ↔ Snap.cutover s ≤ t') : current rules t = current rules t' := by
  unfold current
  apply filterMap_congr'
  intro r hr
  exact inForce_congr (h r hr)

/-- No rule changes after `t` up to `t'`. -/
def Quiet (as : ActiveRuleSet) (t t' : Int) : Prop :=
  ∀ c, IsRuleTime as.mappingRules as.rollupRules c → ¬ (t < c ∧ c ≤ t')

theorem matching_congr (env : Env) (as : ActiveRuleSet) (id : Bytes) {t t' : Int} (htt : t ≤ t') (h : Quiet as t t') :
    matchingM env as.mappingRules id t = matchingM env as.mappingRules id t' ∧
    matchingR env as.rollupRules id t = matchingR env as.rollupRules id t' := by
  constructor
  · unfold matchingM
    rw [current_congr (t := t) (t' := t')]
    intro r hr s hs
    have := h (Snap.cutover s) (Or.inl ⟨r, hr, s, hs, rfl⟩)
    omega
  · unfold matchingR
    rw [current_congr (t := t) (t' := t')]
    intro r hr s hs
    have := h (Snap.cutover s) (Or.inr ⟨r, hr, s, hs, rfl⟩)
    omega

theorem mappingsFor_congr (env : Env) (as as' : ActiveRuleSet) (id : Bytes) {t t' : Int}
    (hM : matchingM env as.mappingRules id t = matchingM env as'.mappingRules id t') :
    mappingsFor env as id t = mappingsFor env as' id t' := by
  rw [mappingsFor_eq, mappingsFor_eq]
  unfold asked mappingCut
  rw [hM]

theorem forwardMatchAt_congr' (env : Env) (as as' : ActiveRuleSet) (id : Bytes) {t t' : Int}
    (hM : matchingM env as.mappingRules id t = matchingM env as'.mappingRules id t')
    (hR : matchingR env as.rollupRules id t = matchingR env as'.rollupRules id t') :
    forwardMatchAt env as id t = forwardMatchAt env as' id t' := by
  unfold forwardMatchAt
  have h2 : rollupResultsFor env as id t = rollupResultsFor env as' id t' := by
    rw [rollupResultsFor_eq, rollupResultsFor_eq]
    unfold rolled rollupCut targetsAt
    rw [hR]
  rw [mappingsFor_congr env as as' id hM, h2]

theorem forwardMatchAt_congr (env : Env) (as : ActiveRuleSet) (id : Bytes) {t t' : Int} (htt : t ≤ t')
    (h : Quiet as t t') : forwardMatchAt env as id t = forwardMatchAt env as id t' := by
  obtain ⟨hM, hR⟩ := matching_congr env as id htt h
  exact forwardMatchAt_congr' env as as id hM hR

/-! ### The loop of `ForwardMatch` -/

theorem forwardLoop_eq (env : Env) (as : ActiveRuleSet) (id : Bytes) (to : Int) : ∀ (cs : List Int)
    (ex : List StagedMetadata) (ids : List IDWithMetadatas), cs.Pairwise (· < ·) →
    forwardLoop env as id to cs ex ids =
      (((cs.filter (fun c => decide (to ≤ c))).head?).getD timeNanosMax,
       (cs.filter (fun c => decide (c < to))).foldl
          (fun ex c => mergeExisting ex (forwardMatchAt env as id c).forExistingID c) ex,
       (cs.filter (fun c => decide (c < to))).foldl
          (fun ids c => mergeRollup ids (forwardMatchAt env as id c).forNewRollupIDs c) ids)
  | [], ex, ids, _ => by simp [forwardLoop]
  | c :: cs, ex, ids, hs => by
    rw [forwardLoop]
    by_cases hc : c < to
    · have h' : ¬ to ≤ c := by omega
      rw [if_pos hc]
      simp only
      rw [forwardLoop_eq env as id to cs _ _ (List.pairwise_cons.mp hs).2]
      simp [hc, h']
    · rw [if_neg hc]
      have hall : ∀ d ∈ cs, ¬ d < to := by
        intro d hd
        have := (List.pairwise_cons.mp hs).1 d hd
        omega
      have : cs.filter (fun c => decide (c < to)) = [] := by
        rw [List.filter_eq_nil_iff]; intro d hd; simpa using hall d hd
      have h' : to ≤ c := by omega
      simp [hc, this, h']

/-- The rule changes strictly inside the range. -/
def stages (as : ActiveRuleSet) (frm to : Int) : List Int :=
  as.cutoverTimesAsc.filter (fun c => decide (frm < c) && decide (c < to))

/-- An active rule set as built from its rules. -/
def Built (as : ActiveRuleSet) : Prop := ∃ v ms rs, as = newActiveRuleSet v ms rs

theorem Built.sorted {as : ActiveRuleSet} (h : Built as) : as.cutoverTimesAsc.Pairwise (· < ·) := by
  obtain ⟨v, ms, rs, rfl⟩ := h
  exact (newActive_cutovers v ms rs).1

theorem Built.mem {as : ActiveRuleSet} (h : Built as) (c : Int) :
    c ∈ as.cutoverTimesAsc ↔ IsRuleTime as.mappingRules as.rollupRules c := by
  obtain ⟨v, ms, rs, rfl⟩ := h
  exact (newActive_cutovers v ms rs).2 c

theorem forwardMatch_eq (env : Env) (as : ActiveRuleSet) (h : Built as) (id : Bytes) (frm to : Int) :
    forwardMatch env as id frm to =
      { version := as.version
        expireAtNanos := ((as.cutoverTimesAsc.filter (fun c => decide (frm < c) && decide (to ≤ c))).head?).getD timeNanosMax
        forExistingID := (stages as frm to).foldl
          (fun ex c => mergeExisting ex (forwardMatchAt env as id c).forExistingID c)
          [(forwardMatchAt env as id frm).forExistingID]
        forNewRollupIDs := (stages as frm to).foldl
          (fun ids c => mergeRollup ids (forwardMatchAt env as id c).forNewRollupIDs c)
          (forwardMatchAt env as id frm).forNewRollupIDs } := by
  unfold forwardMatch
  rw [nextCutover_drop as h.sorted]
  simp only [forwardLoop_eq env as id to _ _ _ (h.sorted.filter _), List.filter_filter, stages]
  congr 1 <;> congr 1 <;> (try congr 1) <;> (try congr 1) <;> (funext c; exact Bool.and_comm _ _)

end Verif.Active
