import Verif.Model.Resolve
import Verif.Props.Metadata
import Verif.Props.MatchPoint
import Verif.Props.ForwardRange
/-
C93: what resolving drop policies of staged metadatas does to what is in force at each time.
C94: callers that resolve drop policies of the answers from one match result.
-/
namespace Verif.Meta
open Verif.Spec

/-! ### C15: what the tests for defaults and drops recognise -/

/-- C15: exactly the default list is recognised as the default. -/
theorem C15_default_iff (sms : List StagedMetadata) :
    stagedIsDefault sms = true ↔ sms = [{ pipelines := [{}], cutoverNanos := 0, tombstoned := false }] := by
  match sms with
  | [] => simp [stagedIsDefault]
  | _ :: _ :: _ => simp [stagedIsDefault]
  | [⟨ps, c, tb⟩] =>
    match ps with
    | [] => simp [stagedIsDefault, StagedMetadata.isDefault, metadataIsDefault]
    | _ :: _ :: _ => simp [stagedIsDefault, StagedMetadata.isDefault, metadataIsDefault]
    | [⟨a, sp, p, d⟩] =>
      simp [stagedIsDefault, StagedMetadata.isDefault, metadataIsDefault, PipelineMetadata.isDefault, Agg.ID.isDefault, Agg.DefaultID,
        Policy.DropNone]
      constructor
      · rintro ⟨⟨h1, h2⟩, ⟨⟨h3, h4⟩, h5⟩, h6⟩; exact ⟨⟨h3, h4, h5, h6⟩, h1, h2⟩
      · rintro ⟨⟨h3, h4, h5, h6⟩, h1, h2⟩; exact ⟨⟨h1, h2⟩, ⟨⟨h3, h4⟩, h5⟩, h6⟩

/-- C15: after resolving stages that are not tombstoned, a drop is recognised exactly if it was applied. -/
theorem C15_drop_recognised (sms : List StagedMetadata) (hv : ∀ s ∈ sms, ∀ m ∈ s.pipelines, ValidDrop m)
    (ht : ∀ s ∈ sms, s.tombstoned = false) :
    stagedIsDropPolicyApplied (applyStaged sms).1 = true ↔ (applyStaged sms).2 = .applied := by
  obtain ⟨g1, g2⟩ := C15_staged sms hv
  by_cases hall : sms ≠ [] ∧ ∀ s ∈ sms, dropEffective s.pipelines = true
  · obtain ⟨i, hi, h1, _⟩ := g1 hall.1 hall.2
    have hm := List.getElem_mem hi
    rw [h1]
    simp [stagedIsDropPolicyApplied, StagedMetadata.isDropPolicyApplied, metadataIsDropPolicyApplied, resolveStage, resolve,
      hall.2 _ hm, ht _ hm, PipelineMetadata.isDropPolicyApplied, Agg.ID.isDefault, Agg.DefaultID, Policy.DropNone]
  · have h2 := g2 (by
      by_cases he : sms = []
      · exact .inl he
      · refine .inr ?_
        have := fun h => hall ⟨he, h⟩
        simpa using this)
    rw [h2]
    simp only [reduceCtorEq, iff_false, Bool.not_eq_true]
    cases hl : (sms.filter (fun s => !dropEffective s.pipelines)).map resolveStage with
    | nil => rfl
    | cons r rest =>
      cases rest with
      | cons _ _ => rfl
      | nil =>
        have hr : r ∈ (sms.filter (fun s => !dropEffective s.pipelines)).map resolveStage := by rw [hl]; simp
        obtain ⟨s, hs, rfl⟩ := List.mem_map.mp hr
        have hd : dropEffective s.pipelines = false := by simpa using (List.mem_filter.mp hs).2
        simp only [stagedIsDropPolicyApplied, StagedMetadata.isDropPolicyApplied, resolveStage, resolve, hd, Bool.false_eq_true, if_false]
        cases hf : s.pipelines.filter (fun m => m.drop == 0) with
        | nil => simp [metadataIsDropPolicyApplied]
        | cons p ps =>
          cases ps with
          | cons _ _ => simp [metadataIsDropPolicyApplied]
          | nil =>
            have hp : p ∈ s.pipelines.filter (fun m => m.drop == 0) := by rw [hf]; simp
            have h0 : p.drop = 0 := by simpa using (List.mem_filter.mp hp).2
            simp [metadataIsDropPolicyApplied, PipelineMetadata.isDropPolicyApplied, h0, Policy.DropNone]

example : stagedIsDropPolicyApplied (applyStaged [{ pipelines := [{ drop := 2 }], cutoverNanos := 4 }]).1 = true := by decide

/-- A tombstoned drop is not recognised. -/
example : stagedIsDropPolicyApplied (applyStaged [{ pipelines := [{ drop := 2 }], tombstoned := true }]).1 = false := by decide

/-! ### C93 -/

/-- The stage in force at `t`: the last one that has cut over. -/
def stageAt (t : Int) (sms : List StagedMetadata) : Option StagedMetadata :=
  (sms.filter (fun s => decide (s.cutoverNanos ≤ t))).getLast?

/-- The metric is dropped in this stage. -/
def DropStage (s : StagedMetadata) : Prop := dropEffective s.pipelines = true

theorem dropped_resolve (s : StagedMetadata) (h : DropStage s) : (resolveStage s).pipelines = [{ drop := 1 }] := by
  unfold DropStage at h
  simp [resolveStage, resolve, h]

theorem stageAt_resolved (t : Int) (l : List StagedMetadata) : stageAt t (l.map resolveStage) = (stageAt t l).map resolveStage := by
  unfold stageAt
  rw [List.filter_map]
  have : (fun s : StagedMetadata => decide (s.cutoverNanos ≤ t)) ∘ resolveStage = fun s => decide (s.cutoverNanos ≤ t) := by
    funext s; rfl
  rw [this, List.getLast?_map]

theorem getLast?_filter_of {α : Type} {p : α → Bool} {l : List α} {a : α} (h : l.getLast? = some a) (hp : p a = true) :
    (l.filter p).getLast? = some a := by
  obtain ⟨ys, rfl⟩ := List.getLast?_eq_some_iff.mp h
  rw [List.filter_append]
  simp [hp]

/-- C93, in part: a stage in force that is not dropped stays in force, without its drop policies. -/
theorem C93_kept_partial (sms : List StagedMetadata) (hv : ∀ s ∈ sms, ∀ m ∈ s.pipelines, ValidDrop m) (t : Int) (s : StagedMetadata)
    (hs : stageAt t sms = some s) (hk : ¬ DropStage s) : stageAt t (applyStaged sms).1 = some (resolveStage s) := by
  have hk' : dropEffective s.pipelines = false := by unfold DropStage at hk; simpa using hk
  have hm : s ∈ sms := by
    have := List.mem_of_getLast? hs
    exact (List.mem_filter.mp this).1
  rw [(C15_staged sms hv).2 (.inr ⟨s, hm, hk'⟩), stageAt_resolved]
  have : stageAt t (sms.filter fun s => !dropEffective s.pipelines) = some s := by
    unfold stageAt at hs ⊢
    rw [List.filter_filter]
    have hc : (fun a : StagedMetadata => decide (a.cutoverNanos ≤ t) && !dropEffective a.pipelines) =
        fun a => (!dropEffective a.pipelines) && decide (a.cutoverNanos ≤ t) := by funext a; exact Bool.and_comm _ _
    rw [hc, ← List.filter_filter]
    exact getLast?_filter_of hs (by simp [hk'])
  rw [this]
  rfl

/-- C93, in part: if every stage is dropped, the metric is dropped from the first cutover on, as before. -/
theorem C93_all_partial (sms : List StagedMetadata) (hv : ∀ s ∈ sms, ∀ m ∈ s.pipelines, ValidDrop m) (hne : sms ≠ [])
    (hall : ∀ s ∈ sms, DropStage s) (t : Int) :
    ((stageAt t (applyStaged sms).1).isSome = (stageAt t sms).isSome) ∧
    ∀ s, stageAt t (applyStaged sms).1 = some s → s.pipelines = [{ drop := 1 }] := by
  obtain ⟨i, hi, h1, h2⟩ := (C15_staged sms hv).1 hne hall
  rw [h1]
  constructor
  · unfold stageAt
    rw [Bool.eq_iff_iff, List.getLast?_isSome, List.getLast?_isSome]
    constructor
    · intro h
      obtain ⟨x, hx⟩ := List.exists_mem_of_ne_nil _ h
      have hx := List.mem_filter.mp hx
      have hx1 : x = resolveStage sms[i] := by simpa using hx.1
      have hx2 : sms[i].cutoverNanos ≤ t := by have := hx.2; rw [hx1] at this; exact of_decide_eq_true this
      exact List.ne_nil_of_mem (List.mem_filter.mpr ⟨List.getElem_mem hi, by simpa using hx2⟩)
    · intro h
      obtain ⟨x, hx⟩ := List.exists_mem_of_ne_nil _ h
      have hx := List.mem_filter.mp hx
      obtain ⟨j, hj, rfl⟩ := List.mem_iff_getElem.mp hx.1
      have := (h2 j hj).1
      have h3 : sms[j].cutoverNanos ≤ t := by simpa using hx.2
      refine List.ne_nil_of_mem (List.mem_filter.mpr ⟨List.mem_singleton.mpr rfl, ?_⟩)
      exact decide_eq_true (show sms[i].cutoverNanos ≤ t by omega)
  · intro s hs
    have hm := (List.mem_filter.mp (List.mem_of_getLast? hs)).1
    have : s = resolveStage sms[i] := by simpa using hm
    rw [this]
    exact dropped_resolve _ (hall _ (List.getElem_mem hi))

/-- C93: what is in force at any time, if some stage is not dropped: the last one of these that has cut over.  So a drop is undone by
any stage before it that is not dropped. -/
theorem C93_exact (sms : List StagedMetadata) (hv : ∀ s ∈ sms, ∀ m ∈ s.pipelines, ValidDrop m) (hk : ∃ s ∈ sms, ¬ DropStage s) (t : Int) :
    stageAt t (applyStaged sms).1 = (stageAt t (sms.filter fun s => !dropEffective s.pipelines)).map resolveStage := by
  obtain ⟨s, hs, hd⟩ := hk
  rw [(C15_staged sms hv).2 (.inr ⟨s, hs, by unfold DropStage at hd; simpa using hd⟩), stageAt_resolved]

/-- C93: at the time of the answer itself (the head of the stages is in force, later ones are not yet) the metric is never kept if it is
dropped. -/
theorem C93_now_partial (sms : List StagedMetadata) (hv : ∀ s ∈ sms, ∀ m ∈ s.pipelines, ValidDrop m) (t : Int) (s : StagedMetadata)
    (rest : List StagedMetadata) (he : sms = s :: rest) (hc : s.cutoverNanos ≤ t) (hr : ∀ x ∈ rest, t < x.cutoverNanos) :
    (¬ DropStage s → stageAt t (applyStaged sms).1 = some (resolveStage s)) ∧
    (DropStage s → ∀ x, stageAt t (applyStaged sms).1 = some x → x.pipelines = [{ drop := 1 }]) := by
  subst he
  have hf : rest.filter (fun s => decide (s.cutoverNanos ≤ t)) = [] := by
    rw [List.filter_eq_nil_iff]
    intro x hx
    have := hr x hx
    simp only [decide_eq_true_eq]
    omega
  have hs : stageAt t (s :: rest) = some s := by
    unfold stageAt
    rw [List.filter_cons_of_pos (by simpa using hc), hf]
    rfl
  refine ⟨fun hk => C93_kept_partial _ hv t s hs hk, fun hd x hx => ?_⟩
  by_cases hall : ∀ y ∈ s :: rest, DropStage y
  · exact (C93_all_partial _ hv (by simp) hall t).2 x hx
  · have hex : ∃ y ∈ s :: rest, ¬ DropStage y := by
      simp only [Classical.not_forall] at hall
      obtain ⟨y, hy, h⟩ := hall
      exact ⟨y, hy, h⟩
    rw [C93_exact _ hv hex] at hx
    obtain ⟨y, hy, _⟩ := Option.map_eq_some_iff.mp hx
    have hy' := List.mem_filter.mp (List.mem_of_getLast? hy)
    have hyk := List.mem_filter.mp hy'.1
    have hyt : y.cutoverNanos ≤ t := by simpa using hy'.2
    rcases List.mem_cons.mp hyk.1 with rfl | hm
    · unfold DropStage at hd
      simp [hd] at hyk
    · have := hr y hm
      omega

end Verif.Meta

namespace Verif.Active
open Verif.Agg Verif.Policy Verif.Meta Verif.Id Verif.TagsFlt Verif.Rules Verif.Spec.Rules Verif.Spec

/-! ### C94 -/

/-- No stage that is not dropped comes after one that is. -/
def DropsLast (sms : List StagedMetadata) : Prop := sms.Pairwise fun a b => DropStage a → DropStage b

/-- The drop policies of each stage are resolved. -/
def Resolved (sms : List StagedMetadata) : Prop := ∀ s ∈ sms, (∀ m ∈ s.pipelines, ValidDrop m) ∧ resolve s.pipelines = s.pipelines

theorem stagedLoop_same (k : Nat) (st : StagedLoop) (hk : k ≤ st.len) (hr : Resolved st.arr) (hd : DropsLast st.arr)
    (hl : st.len ≤ st.arr.length) (hor : st.len = k ∨ ∀ s ∈ st.arr.take k, ¬ DropStage s) : (stagedLoop k st).arr = st.arr := by
  induction k generalizing st with
  | zero => rfl
  | succ i ih =>
    have hi : i < st.arr.length := by omega
    have hm := List.getElem_mem hi
    obtain ⟨hv, hres⟩ := hr _ hm
    have hset : st.arr.set i { st.arr[i] with pipelines := (applyPipelines st.arr[i].pipelines).1 } = st.arr := by
      rw [C14_pipelines _ hv]
      simp only [hres]
      exact List.set_getElem_self hi
    unfold stagedLoop
    simp only [List.getElem?_eq_getElem hi, hset]
    by_cases hdr : DropStage st.arr[i]
    · have hap : (applyPipelines st.arr[i].pipelines).2 = .applied := by
        rw [C14_pipelines _ hv]
        unfold DropStage at hdr
        simp [hdr]
      have hlen : st.len = i + 1 := by
        rcases hor with h | h
        · exact h
        · exact absurd hdr (h _ (List.mem_take_iff_getElem.mpr ⟨i, by omega, rfl⟩))
      have hrm : removeAt st.arr st.len i = (st.arr, i) := by
        unfold removeAt
        rw [if_pos (by omega)]
      simp only [hap, hrm]
      exact ih _ (Nat.le_refl _) hr hd (Nat.le_of_lt hi) (.inl rfl)
    · have hap : (applyPipelines st.arr[i].pipelines).2 = .removed := by
        rw [C14_pipelines _ hv]
        unfold DropStage at hdr
        simp [hdr]
      simp only [hap]
      refine ih _ (by simp only; omega) hr hd hl (.inr ?_)
      intro s hs hds
      obtain ⟨j, hj, rfl⟩ := List.mem_take_iff_getElem.mp hs
      exact hdr (List.pairwise_iff_getElem.mp hd j i (by omega) hi (by omega) hds)

theorem stagedArray_same {sms : List StagedMetadata} (hr : Resolved sms) (hd : DropsLast sms) : stagedArray sms = sms := by
  unfold stagedArray
  split
  · rfl
  · exact stagedLoop_same _ _ (Nat.le_refl _) hr hd (Nat.le_refl _) (.inl rfl)

/-- What is active at a time is the end of the list. -/
theorem active_suffix (ms : List StagedMetadata) (t : Int) : activeStagedMetadatasAt ms t <:+ ms := by
  rcases activeStaged_spec ms t with ⟨_, h⟩ | ⟨pre, m, post, rfl, _, _, h⟩
  · rw [h]; exact List.suffix_refl _
  · rw [h]; exact List.suffix_append _ _

theorem resolveAt_same {arr : List StagedMetadata} (hr : Resolved arr) (hd : DropsLast arr) (t : Int) : (resolveAt arr t).2 = arr := by
  obtain ⟨pre, he⟩ := active_suffix arr t
  have hs : stagedArray (activeStagedMetadatasAt arr t) = activeStagedMetadatasAt arr t := by
    refine stagedArray_same (fun s hs => hr s ?_) (List.Pairwise.sublist ?_ hd)
    · exact (active_suffix arr t).subset hs
    · exact (active_suffix arr t).sublist
  unfold resolveAt
  simp only [hs]
  have hl : arr.length - (activeStagedMetadatasAt arr t).length = pre.length := by
    have := congrArg List.length he
    simp at this
    omega
  rw [hl]
  have : arr.take pre.length = pre := by
    conv => lhs; rw [← he]
    simp
  rw [this, he]

theorem resolves_same {arr : List StagedMetadata} (hr : Resolved arr) (hd : DropsLast arr) (ts : List Int) : resolves arr ts = arr := by
  induction ts with
  | nil => rfl
  | cons t ts ih => rw [resolves, resolveAt_same hr hd, ih]

/-- The stages of a match are resolved. -/
theorem match_resolved (env : Env) (as : ActiveRuleSet) (h : Built as) (hv : DropsValid as) (id : Bytes) (frm to : Int) (h0 : 0 ≤ frm) :
    Resolved (forwardMatch env as id frm to).forExistingID := by
  intro s hs
  have hc := C38_count env as h id frm to h0
  have hp : s.pipelines ∈ (forwardMatch env as id frm to).forExistingID.map (·.pipelines) := List.mem_map_of_mem hs
  rw [hc] at hp
  obtain ⟨t, _, ht⟩ := List.mem_map.mp hp
  rw [← ht, pipelines_eq env as hv]
  by_cases hd : dropEffective (asked env as id t) = true
  · rw [if_pos hd]
    exact ⟨by simp [ValidDrop], by decide⟩
  · rw [if_neg hd]
    obtain ⟨_, h2, _, _⟩ := dedup_spec (contributed env as id t) [] List.Pairwise.nil
    have hall : ∀ p ∈ (contributed env as id t).foldl dedupStep [], p.drop = 0 := by
      intro p hp
      rcases h2 p hp with h | h
      · exact absurd h (by simp)
      · unfold contributed at h
        rcases List.mem_append.mp h with h | h
        · split at h
          · simp only [List.mem_singleton] at h; subst h; rfl
          · simpa using (List.mem_filter.mp h).2
        · exact rolledExisting_drop h
    refine ⟨fun p hp => .inl (hall p hp), ?_⟩
    generalize (contributed env as id t).foldl dedupStep [] = l at hall
    have hde : dropEffective l = false := by
      unfold dropEffective
      cases l with
      | nil => rfl
      | cons a l =>
        simp only [Bool.or_eq_false_iff, List.any_eq_false, Bool.and_eq_false_iff]
        exact ⟨fun p hp => by simp [hall p hp], Or.inr (by simp [hall a (by simp)])⟩
    unfold resolve
    rw [hde]
    exact List.filter_eq_self.mpr (fun p hp => by simp [hall p hp])

/-- C94, in part: if in a match result no stage is kept after one that is dropped, then callers that resolve the drop policies of what
they get from it do not disturb each other: each gets at its time what the first one would. -/
theorem C94_partial (env : Env) (as : ActiveRuleSet) (h : Built as) (hv : DropsValid as) (id : Bytes) (frm to : Int) (h0 : 0 ≤ frm)
    (hd : DropsLast (forwardMatch env as id frm to).forExistingID) (ts : List Int) (t : Int) :
    (resolveAt (resolves (forwardMatch env as id frm to).forExistingID ts) t).1 =
      (resolveAt (forwardMatch env as id frm to).forExistingID t).1 := by
  rw [resolves_same (match_resolved env as h hv id frm to h0) hd]

/-- A mapping rule that keeps metrics from 10 on, drops them from 20 on and keeps them, aggregated otherwise, from 30 on. -/
def exOnOff : List MappingRule := [⟨bs "1", [exSnap "city:sf" 10 4, { exSnap "city:sf" 20 0 with drop := 1 }, exSnap "city:sf" 30 8]⟩]

theorem exOnOff_valid : DropsValid (newActiveRuleSet 1 exOnOff []) := by
  unfold DropsValid
  decide +kernel

/-- The hypotheses of `C94_partial` are met between 12 and 25: kept, then dropped. -/
example : DropsLast (forwardMatch m3Env (newActiveRuleSet 1 exOnOff []) exID 12 25).forExistingID ∧
    (forwardMatch m3Env (newActiveRuleSet 1 exOnOff []) exID 12 25).forExistingID.length = 2 := by
  unfold DropsLast DropStage
  constructor <;> decide +kernel

/-- C93 is violated: over [12, 25) the metric is kept and then, from 20 on, dropped.  Once the drop policies are resolved, the first
stage is in force at 22 too. -/
theorem C93_violated : ∃ as id, Built as ∧ DropsValid as ∧
    (stageAt 22 (forwardMatch m3Env as id 12 25).forExistingID).map (·.pipelines) = some [{ drop := 1 }] ∧
    (stageAt 22 (applyStaged (forwardMatch m3Env as id 12 25).forExistingID).1).map (·.pipelines) = some [{ aggID := 4 }] :=
  ⟨newActiveRuleSet 1 exOnOff [], exID, ⟨1, _, [], rfl⟩, exOnOff_valid, by decide +kernel, by decide +kernel⟩

/-- C94 is violated: of two callers that ask for the stages at 22, when the metric is dropped, and resolve them, the first gets what
follows from 30 on; the second gets in addition the stage from 10 on, by which the metric is kept at 22. -/
theorem C94_violated : ∃ as id, Built as ∧ DropsValid as ∧
    (resolveAt (forwardMatch m3Env as id 12 40).forExistingID 22).1.1.map (fun s => (s.cutoverNanos, s.pipelines)) =
      [(30, [{ aggID := 8 }])] ∧
    (resolveAt (resolves (forwardMatch m3Env as id 12 40).forExistingID [22]) 22).1.1.map (fun s => (s.cutoverNanos, s.pipelines)) =
      [(10, [{ aggID := 4 }]), (30, [{ aggID := 8 }]), (30, [{ aggID := 8 }])] :=
  ⟨newActiveRuleSet 1 exOnOff [], exID, ⟨1, _, [], rfl⟩, exOnOff_valid, by decide +kernel, by decide +kernel⟩

end Verif.Active
