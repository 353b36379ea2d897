import Verif.Spec.Metadata
import Verif.Props.Pipeline
/- C12–C15: metadata. -/
namespace Verif.Meta
open Verif.Agg Verif.Spec Verif.Policy

/-! ### C14 -/

theorem dropScan_spec (ms : List PipelineMetadata) : ∀ o n,
    dropScan ms o n = if ms.any (fun m => m.drop == 1) then none
      else some (o + (ms.filter fun m => m.drop == 2).length, n + (ms.filter fun m => m.drop != 2).length) := by
  induction ms with
  | nil => simp [dropScan]
  | cons m ms ih =>
    intro o n
    simp only [dropScan, DropMust, DropIfOnlyMatch, ih]
    by_cases h1 : m.drop = 1
    · simp [h1]
    · by_cases h2 : m.drop = 2
      · simp only [List.any_cons, h2, List.filter_cons]
        simp [Nat.add_assoc, Nat.add_comm 1]
      · simp only [List.any_cons, List.filter_cons]
        simp [h1, h2, Nat.add_assoc, Nat.add_comm 1]

theorem removeAt_spec (arr : List α) (len i : Nat) (hi : i < len) (hl : len ≤ arr.length) :
    (removeAt arr len i).2 = len - 1 ∧ (removeAt arr len i).1.length = arr.length ∧
    (removeAt arr len i).1.take i = arr.take i ∧
    (removeAt arr len i).1.take (len - 1) = arr.take i ++ (arr.take len).drop (i + 1) := by
  unfold removeAt
  by_cases h : i = len - 1
  · rw [if_pos h]
    refine ⟨h, rfl, rfl, ?_⟩
    have : (arr.take len).drop (i + 1) = [] := by
      apply List.drop_eq_nil_of_le; simp; omega
    rw [this, ← h]; simp
  · rw [if_neg h]
    refine ⟨rfl, by simp; omega, ?_, ?_⟩
    · rw [List.append_assoc, List.take_left' (by simp; omega)]
    · rw [List.take_left']
      simp; omega

theorem dropRemoveLoop_spec : ∀ (k : Nat) (arr : List PipelineMetadata) (len : Nat),
    k ≤ len → len ≤ arr.length →
    (dropRemoveLoop k arr len).1.take (dropRemoveLoop k arr len).2 =
      (arr.take k).filter (fun m => m.drop == 0) ++ (arr.take len).drop k
  | 0, arr, len, _, _ => by simp [dropRemoveLoop]
  | i + 1, arr, len, hk, hl => by
    have hi : i < arr.length := by omega
    have htake : arr.take (i + 1) = arr.take i ++ [arr[i]] := by
      rw [List.take_succ_eq_append_getElem hi]
    have hdrop : (arr.take len).drop i = arr[i] :: (arr.take len).drop (i + 1) := by
      rw [List.drop_eq_getElem_cons (by simp; omega)]
      simp
    unfold dropRemoveLoop
    rw [List.getElem?_eq_getElem hi]
    simp only [DropNone]
    by_cases hd : arr[i].drop = 0
    · simp only [hd, ne_eq, not_true_eq_false, if_false]
      rw [dropRemoveLoop_spec i arr len (by omega) hl, htake, hdrop, List.filter_append]
      simp [hd]
    · simp only [hd, ne_eq, not_false_eq_true, if_true]
      obtain ⟨h1, h2, h3, h4⟩ := removeAt_spec arr len i (by omega) hl
      rw [dropRemoveLoop_spec i _ _ (by rw [h1]; omega) (by rw [h1, h2]; omega), h3, h1, h4, htake, List.filter_append]
      have : (arr.take i ++ (arr.take len).drop (i + 1)).drop i = (arr.take len).drop (i + 1) := by
        rw [List.drop_left']; simp; omega
      rw [this]
      simp [hd]

/-- C14: with valid drop policies the pipelines are resolved exactly as specified: a single drop
pipeline when the drop is effective, else the pipelines without a drop policy in order. -/
theorem C14_pipelines (ms : List PipelineMetadata) (hv : ∀ m ∈ ms, ValidDrop m) :
    applyPipelines ms = (resolve ms, if dropEffective ms then .applied else .removed) := by
  unfold applyPipelines resolve dropEffective
  rw [dropScan_spec]
  by_cases hany : ms.any (fun m => m.drop == 1) = true
  · simp [hany, dropPipelineMetadatas, DropMust]
  · simp only [Bool.not_eq_true] at hany
    have hno : ∀ m ∈ ms, m.drop ≠ 1 := by
      simpa [List.any_eq_false] using hany
    simp only [hany, Bool.false_eq_true, if_false, Nat.zero_add, Bool.false_or]
    by_cases ho : (ms.filter fun m => m.drop == 2).length = 0
    · have h2 : ∀ m ∈ ms, m.drop ≠ 2 := by simpa using ho
      have h0 : ∀ m ∈ ms, m.drop = 0 := by
        intro m hm
        have := h2 m hm
        have := hno m hm
        rcases hv m hm with h | h | h <;> simp_all
      simp only [ho, if_true]
      have hfil : ms.filter (fun m => m.drop == 0) = ms := by
        rw [List.filter_eq_self]; intro m hm; simp [h0 m hm]
      cases ms with
      | nil => simp
      | cons m ms =>
        have : ((m :: ms).all fun m => m.drop != 0) = false := by
          rw [List.all_eq_false]; exact ⟨m, by simp, by simp [h0 m (by simp)]⟩
        simp [this, hfil]
    · simp only [ho, if_false]
      have hne : ms ≠ [] := by intro h; simp [h] at ho
      by_cases hn : (ms.filter fun m => m.drop != 2).length = 0
      · have h2 : ∀ m ∈ ms, m.drop = 2 := by simpa using hn
        have : (ms.all fun m => m.drop != 0) = true := by
          rw [List.all_eq_true]; intro m hm; simp [h2 m hm]
        simp [hn, this, hne, dropPipelineMetadatas, DropMust]
      · obtain ⟨m, hm, hm2⟩ : ∃ m ∈ ms, m.drop ≠ 2 := by
          simpa using hn
        have hm0 : m.drop = 0 := by
          have := hno m hm
          rcases hv m hm with h | h | h <;> simp_all
        have : (ms.all fun m => m.drop != 0) = false := by
          rw [List.all_eq_false]; exact ⟨m, hm, by simp [hm0]⟩
        simp only [hn, if_false, this, Bool.and_false, Bool.false_eq_true]
        rw [dropRemoveLoop_spec ms.length ms ms.length (by omega) (by omega)]
        simp

/-- C14, the three outcomes spelled out. -/
theorem C14_outcomes (ms : List PipelineMetadata) (hv : ∀ m ∈ ms, ValidDrop m) :
    ((∃ m ∈ ms, m.drop = 1) → applyPipelines ms = ([{ drop := 1 }], .applied)) ∧
    (ms ≠ [] → (∀ m ∈ ms, m.drop ≠ 0) → applyPipelines ms = ([{ drop := 1 }], .applied)) ∧
    ((∀ m ∈ ms, m.drop ≠ 1) → (ms = [] ∨ ∃ m ∈ ms, m.drop = 0) →
      applyPipelines ms = (ms.filter (fun m => m.drop == 0), .removed)) := by
  rw [C14_pipelines ms hv]
  refine ⟨?_, ?_, ?_⟩
  · rintro ⟨m, hm, h⟩
    have : dropEffective ms = true := by
      unfold dropEffective
      rw [List.any_eq_true.mpr ⟨m, hm, by simp [h]⟩]; rfl
    simp [resolve, this]
  · intro hne hall
    have : dropEffective ms = true := by
      unfold dropEffective
      rw [List.all_eq_true.mpr (fun m hm => by simp [hall m hm])]
      simp [hne]
    simp [resolve, this]
  · intro hno h
    have : dropEffective ms = false := by
      unfold dropEffective
      rw [List.any_eq_false.mpr (fun m hm => by simp [hno m hm])]
      rcases h with rfl | ⟨m, hm, h0⟩
      · rfl
      · rw [List.all_eq_false.mpr ⟨m, hm, by simp [h0]⟩]; simp
    simp [resolve, this]

example : ∃ ms : List PipelineMetadata, (∀ m ∈ ms, ValidDrop m) ∧ ms.length = 4 ∧
    dropEffective ms = false ∧ (resolve ms).length = 2 :=
  ⟨[{ drop := 2 }, { aggID := 2 }, { drop := 2 }, { aggID := 4 }], by simp [ValidDrop], rfl, by decide, by decide⟩

/-- C14: validity is needed – with a drop policy value that does not exist the pipelines vanish: the
result is empty and reported as "nothing dropped". -/
theorem C14_invalid_value :
    applyPipelines [{ drop := 7 }, { drop := 2 }] = ([], .removed) := by decide

/-! ### C15 -/

/-- Bookkeeping of the earliest dropped stage over the unresolved prefix (helper). -/
def earliestStep (sm : StagedMetadata) (p : Nat × StagedMetadata) : Nat × StagedMetadata :=
  match (applyPipelines sm.pipelines).2 with
  | .applied =>
    let s : StagedMetadata := { sm with pipelines := (applyPipelines sm.pipelines).1 }
    (p.1 + 1, if p.1 + 1 = 1 ∨ s.cutoverNanos < p.2.cutoverNanos then s else p.2)
  | .removed => p

def keeps (s : StagedMetadata) : Bool := (applyPipelines s.pipelines).2 == .removed
def resolved (s : StagedMetadata) : StagedMetadata :=
  { s with pipelines := (applyPipelines s.pipelines).1 }

theorem stagedLoop_spec : ∀ (k : Nat) (st : StagedLoop), k ≤ st.len → st.len ≤ st.arr.length →
    (stagedLoop k st).arr.take (stagedLoop k st).len =
      ((st.arr.take k).filter keeps).map resolved ++ (st.arr.take st.len).drop k ∧
    (stagedLoop k st).nonDrops = st.nonDrops + ((st.arr.take k).filter keeps).length ∧
    ((stagedLoop k st).drops, (stagedLoop k st).earliest) =
      (st.arr.take k).foldr earliestStep (st.drops, st.earliest)
  | 0, st, _, _ => by simp [stagedLoop]
  | i + 1, st, hk, hl => by
    have hi : i < st.arr.length := by omega
    have htake : st.arr.take (i + 1) = st.arr.take i ++ [st.arr[i]] := by
      rw [List.take_succ_eq_append_getElem hi]
    rw [htake]
    unfold stagedLoop
    rw [List.getElem?_eq_getElem hi]
    simp only
    generalize hsm : st.arr[i] = sm
    have hset : ∀ s : StagedMetadata, (st.arr.set i s).take i = st.arr.take i := by
      intro s; rw [List.take_set_of_le (by omega)]
    have hset' : ∀ s : StagedMetadata, ((st.arr.set i s).take st.len).drop (i + 1) =
        (st.arr.take st.len).drop (i + 1) := by
      intro s
      rw [List.take_set, List.drop_set_of_lt (by omega)]
    cases hr : (applyPipelines sm.pipelines).2 with
    | applied =>
      simp only
      generalize harr : st.arr.set i { sm with pipelines := (applyPipelines sm.pipelines).1 } = arr
      have hlen : arr.length = st.arr.length := by rw [← harr]; simp
      obtain ⟨h1, h2, h3, h4⟩ := removeAt_spec arr st.len i (by omega) (by omega)
      have ih := stagedLoop_spec i
        { arr := (removeAt arr st.len i).1, len := (removeAt arr st.len i).2, drops := st.drops + 1,
          nonDrops := st.nonDrops,
          earliest := if st.drops + 1 = 1 ∨ sm.cutoverNanos < st.earliest.cutoverNanos then
            { sm with pipelines := (applyPipelines sm.pipelines).1 } else st.earliest }
        (by simp only [h1]; omega) (by simp only [h1, h2]; omega)
      simp only at ih
      obtain ⟨ih1, ih2, ih3⟩ := ih
      have hk : keeps sm = false := by simp [keeps, hr]
      have hti : arr.take i = st.arr.take i := by rw [← harr]; exact hset _
      refine ⟨?_, ?_, ?_⟩
      · rw [ih1, h3, h1, h4, hti]
        have hd : (st.arr.take i ++ (arr.take st.len).drop (i + 1)).drop i = (arr.take st.len).drop (i + 1) := by
          rw [List.drop_left']; simp; omega
        rw [hd]
        have : (arr.take st.len).drop (i + 1) = (st.arr.take st.len).drop (i + 1) := by
          rw [← harr]; exact hset' _
        rw [this]
        simp [hk]
      · rw [ih2, h3, hti]; simp [hk]
      · rw [ih3, h3, hti]
        simp [List.foldr_append, earliestStep, hr]
    | removed =>
      simp only
      have ih := stagedLoop_spec i
        { st with arr := st.arr.set i { sm with pipelines := (applyPipelines sm.pipelines).1 },
                  nonDrops := st.nonDrops + 1 }
        (by simp only; omega) (by simp only [List.length_set]; omega)
      simp only at ih
      obtain ⟨ih1, ih2, ih3⟩ := ih
      have hk : keeps sm = true := by simp [keeps, hr]
      refine ⟨?_, ?_, ?_⟩
      · rw [ih1, hset]
        have : ((st.arr.set i { sm with pipelines := (applyPipelines sm.pipelines).1 }).take st.len).drop i =
            resolved sm :: (st.arr.take st.len).drop (i + 1) := by
          rw [List.drop_eq_getElem_cons (by simp; omega), hset']
          simp [resolved]
        rw [this]
        simp [hk]
      · rw [ih2, hset]; simp [hk]; omega
      · rw [ih3, hset]
        simp [List.foldr_append, earliestStep, hr]

theorem foldr_earliest (l : List StagedMetadata) (hne : l ≠ []) (h : ∀ s ∈ l, keeps s = false)
    (e : StagedMetadata) :
    0 < (l.foldr earliestStep (0, e)).1 ∧
    ∃ i, ∃ hi : i < l.length, (l.foldr earliestStep (0, e)).2 = resolved l[i] ∧
      ∀ j (hj : j < l.length), l[i].cutoverNanos ≤ l[j].cutoverNanos ∧
        (i < j → l[i].cutoverNanos < l[j].cutoverNanos) := by
  induction l with
  | nil => exact absurd rfl hne
  | cons s l ih =>
    have hs : (applyPipelines s.pipelines).2 = .applied := by
      have := h s (by simp)
      unfold keeps at this
      cases hr : (applyPipelines s.pipelines).2 with
      | applied => rfl
      | removed => simp [hr] at this
    rw [List.foldr_cons]
    cases l with
    | nil =>
      refine ⟨by simp [earliestStep, hs], 0, by simp, ?_, ?_⟩
      · simp [earliestStep, hs, resolved]
      · intro j hj
        have : j = 0 := by simpa using hj
        subst this; simp
    | cons t l =>
      obtain ⟨h1, i, hi, h2, h3⟩ := ih (by simp) (fun s hs => h s (by simp [hs]))
      generalize hf : List.foldr earliestStep (0, e) (t :: l) = p at h1 h2 h3
      have hstep : earliestStep s p = (p.1 + 1, if s.cutoverNanos < p.2.cutoverNanos then resolved s else p.2) := by
        have : ¬ p.1 = 0 := by omega
        simp [earliestStep, hs, this, resolved]
      rw [hstep]
      refine ⟨by simp, ?_⟩
      simp only
      have hc : p.2.cutoverNanos = (t :: l)[i].cutoverNanos := by rw [h2]; rfl
      by_cases hlt : s.cutoverNanos < p.2.cutoverNanos
      · refine ⟨0, by simp, by simp [hlt], ?_⟩
        intro j hj
        cases j with
        | zero => simp
        | succ j =>
          have := (h3 j (by simpa using hj)).1
          simp only [List.getElem_cons_zero, List.getElem_cons_succ]
          omega
      · refine ⟨i + 1, by simpa using hi, by rw [if_neg hlt, h2]; rfl, ?_⟩
        intro j hj
        cases j with
        | zero =>
          simp only [List.getElem_cons_zero, List.getElem_cons_succ]
          omega
        | succ j =>
          have := h3 j (by simpa using hj)
          simp only [List.getElem_cons_succ]
          exact ⟨this.1, fun hij => this.2 (by omega)⟩

theorem applyStaged_general (sms : List StagedMetadata) :
    (sms ≠ [] → (∀ s ∈ sms, keeps s = false) → ∃ i, ∃ hi : i < sms.length,
      applyStaged sms = ([resolved sms[i]], .applied) ∧
      ∀ j (hj : j < sms.length), sms[i].cutoverNanos ≤ sms[j].cutoverNanos ∧
        (i < j → sms[i].cutoverNanos < sms[j].cutoverNanos)) ∧
    ((sms = [] ∨ ∃ s ∈ sms, keeps s = true) →
      applyStaged sms = ((sms.filter keeps).map resolved, .removed)) := by
  obtain ⟨h1, h2, h3⟩ := stagedLoop_spec sms.length
    { arr := sms, len := sms.length, drops := 0, nonDrops := 0, earliest := {} } (by simp) (by simp)
  simp only [List.take_length, List.drop_length, List.append_nil, Nat.zero_add] at h1 h2 h3
  constructor
  · intro hne hall
    obtain ⟨_, i, hi, he, hmin⟩ := foldr_earliest sms hne hall {}
    refine ⟨i, hi, ?_, hmin⟩
    have hl : sms.length ≠ 0 := by simpa using hne
    have hf : (sms.filter keeps).length = 0 := by
      rw [List.length_eq_zero_iff, List.filter_eq_nil_iff]
      intro s hs; simp [hall s hs]
    rw [hf] at h2
    have h3' := congrArg Prod.snd h3
    simp only at h3'
    simp only [applyStaged, hl, if_false, h2, if_true, h3', he]
  · rintro h
    by_cases hl : sms.length = 0
    · have : sms = [] := by simpa using hl
      subst this; rfl
    · have hne : sms ≠ [] := by simpa using hl
      rcases h with h | ⟨s, hs, hk⟩
      · exact absurd h hne
      · have hf : (sms.filter keeps).length ≠ 0 := by
          intro h0
          rw [List.length_eq_zero_iff, List.filter_eq_nil_iff] at h0
          exact h0 s hs hk
        rw [← h2] at hf
        simp only [applyStaged, hl, if_false, hf, h1]

/-- C15: staged metadatas with valid drop policies. If every stage is an effective drop the result is a
single stage – the resolved one with the smallest cutover (the last of those) – reported as applied;
otherwise exactly the stages that are not dropped remain, in order and resolved. -/
theorem C15_staged (sms : List StagedMetadata) (hv : ∀ s ∈ sms, ∀ m ∈ s.pipelines, ValidDrop m) :
    (sms ≠ [] → (∀ s ∈ sms, dropEffective s.pipelines = true) → ∃ i, ∃ hi : i < sms.length,
      applyStaged sms = ([resolveStage sms[i]], .applied) ∧
      ∀ j (hj : j < sms.length), sms[i].cutoverNanos ≤ sms[j].cutoverNanos ∧
        (i < j → sms[i].cutoverNanos < sms[j].cutoverNanos)) ∧
    ((sms = [] ∨ ∃ s ∈ sms, dropEffective s.pipelines = false) →
      applyStaged sms =
        ((sms.filter (fun s => !dropEffective s.pipelines)).map resolveStage, .removed)) := by
  have hk : ∀ s ∈ sms, keeps s = !dropEffective s.pipelines := by
    intro s hs
    unfold keeps
    rw [C14_pipelines _ (hv s hs)]
    cases dropEffective s.pipelines <;> rfl
  have hr : ∀ s ∈ sms, resolved s = resolveStage s := by
    intro s hs
    unfold resolved resolveStage
    rw [C14_pipelines _ (hv s hs)]
  obtain ⟨g1, g2⟩ := applyStaged_general sms
  constructor
  · intro hne hall
    obtain ⟨i, hi, h1, h2⟩ := g1 hne (fun s hs => by rw [hk s hs, hall s hs]; rfl)
    exact ⟨i, hi, by rw [h1, hr _ (List.getElem_mem hi)], h2⟩
  · intro h
    rw [g2]
    · have hf : sms.filter keeps = sms.filter (fun s => !dropEffective s.pipelines) :=
        List.filter_congr hk
      rw [hf]
      congr 1
      apply List.map_congr_left
      intro s hs
      exact hr s ((List.mem_filter.mp hs).1)
    · rcases h with h | ⟨s, hs, h⟩
      · exact .inl h
      · exact .inr ⟨s, hs, by rw [hk s hs, h]; rfl⟩

example : ∃ sms : List StagedMetadata, (∀ s ∈ sms, ∀ m ∈ s.pipelines, ValidDrop m) ∧
    sms.length = 3 ∧ applyStaged sms = ([{ pipelines := [{ aggID := 2 }], cutoverNanos := 5 }], .removed) :=
  ⟨[{ pipelines := [{ drop := 2 }], cutoverNanos := 1 },
    { pipelines := [{ drop := 2 }, { aggID := 2 }], cutoverNanos := 5 },
    { pipelines := [{ drop := 1 }], cutoverNanos := 7 }], by simp [ValidDrop], rfl, by decide⟩

example : ∃ sms : List StagedMetadata, (∀ s ∈ sms, dropEffective s.pipelines = true) ∧ sms.length = 2 ∧
    (∀ s ∈ sms, ∀ m ∈ s.pipelines, ValidDrop m) :=
  ⟨[{ pipelines := [{ drop := 2 }], cutoverNanos := 1 }, { pipelines := [{ drop := 1 }] }],
    by decide, rfl, by simp [ValidDrop]⟩

/-! ### C13 -/

theorem equal_iff (a b : PipelineMetadata) : a.equal b = true ↔
    a.aggID = b.aggID ∧ a.storagePolicies.Perm b.storagePolicies ∧
      Applied.pipelineEqual a.pipeline b.pipeline = true ∧ a.drop = b.drop := by
  unfold PipelineMetadata.equal
  simp [C07_equal_iff_perm, and_assoc]

/-- C13 (false in general): a clone equals its original exactly when there is no drop policy. -/
theorem C13_clone_equal_iff (m : PipelineMetadata) : m.equal m.clone = true ↔ m.drop = 0 := by
  rw [equal_iff]
  unfold PipelineMetadata.clone
  simp [Applied.C11_clone]

/-- C13 is violated: cloning loses a drop policy. -/
theorem C13_violated : ∃ m : PipelineMetadata, ValidDrop m ∧ m.equal m.clone = false :=
  ⟨{ drop := 1 }, .inr (.inl rfl), by decide⟩

/-- C13, the part that holds: metadatas without drop policies. -/
theorem C13_clone_partial (l : List PipelineMetadata) (h : ∀ m ∈ l, m.drop = 0) :
    pipelineMetadatasEqual l (pipelineMetadatasClone l) = true :=
  listEqualBy_map _ _ _ fun m hm => (C13_clone_equal_iff m).mpr (h m hm)

/-- C13: everything but the drop policy survives cloning, for every metadata. -/
theorem C13_clone_rest_partial (m : PipelineMetadata) :
    { m with drop := 0 }.equal m.clone = true := by
  rw [equal_iff]
  simp [PipelineMetadata.clone, Applied.C11_clone]

example : ∃ m : PipelineMetadata, m.drop = 0 ∧ m.pipeline ≠ [] ∧ m.storagePolicies ≠ [] :=
  ⟨{ pipeline := [{ type := 2, transformation := 1 }], storagePolicies := [⟨⟨10, 1⟩, 100⟩] },
   rfl, by decide, by decide⟩

/-! ### C12 protobuf round trips -/

/-- The pipeline metadata with applied operations reduced to the payload of their kind. -/
def stripMeta (m : PipelineMetadata) : PipelineMetadata := { m with pipeline := m.pipeline.map Applied.strip }

theorem pm_toProto_spec (x : XTime) (d : PBPipelineMetadata) (m : PipelineMetadata) :
    m.toProto x d = match mapOpt (Applied.OpUnion.toProto {}) m.pipeline with
      | none => none
      | some p => match mapOpt (fun s => StoragePolicy.toProto x s {}) m.storagePolicies with
        | none => none
        | some sps => some ⟨m.aggID, sps, p, dropToProto m.drop⟩ := by
  unfold PipelineMetadata.toProto
  simp only [Applied.pipelineToProto_eq]
  cases mapOpt (Applied.OpUnion.toProto {}) m.pipeline with
  | none => rfl
  | some p =>
    simp only
    rw [convLoop_reuse (fun d s => StoragePolicy.toProto x s d) (fun s => StoragePolicy.toProto x s {}) {}
      (fun d s => by simp only [C08_toProto_spec])]
    cases mapOpt (fun s => StoragePolicy.toProto x s {}) m.storagePolicies <;> rfl

theorem sp_fromProto_dst (x : XTime) (d d' : StoragePolicy) (s : PBStoragePolicy) :
    StoragePolicy.fromProto x d s = StoragePolicy.fromProto x d' s := by
  apply Option.ext
  intro p
  rw [C08_fromProto_spec, C08_fromProto_spec]

theorem pm_fromProto_spec (x : XTime) (d : PipelineMetadata) (pb : PBPipelineMetadata) :
    d.fromProto x pb = match mapOpt (Applied.OpUnion.fromProto {}) pb.pipeline with
      | none => none
      | some p => match mapOpt (StoragePolicy.fromProto x EmptyStoragePolicy) pb.storagePolicies with
        | none => none
        | some sps => some ⟨pb.aggregationId, sps, p, dropFromProto pb.dropPolicy⟩ := by
  unfold PipelineMetadata.fromProto
  simp only [Applied.pipelineFromProto_eq]
  cases mapOpt (Applied.OpUnion.fromProto {}) pb.pipeline with
  | none => rfl
  | some p =>
    simp only
    rw [convLoop_reuse (fun d s => StoragePolicy.fromProto x d s)
      (StoragePolicy.fromProto x EmptyStoragePolicy) EmptyStoragePolicy
      (fun d s => sp_fromProto_dst x d _ s)]
    cases mapOpt (StoragePolicy.fromProto x EmptyStoragePolicy) pb.storagePolicies <;> rfl

theorem drop_roundtrip (d : Nat) (h : d < 2 ^ 31) : dropFromProto (dropToProto d) = d := by
  unfold dropFromProto dropToProto
  have h1 : (BitVec.ofNat 32 d).toInt = (d : Int) := by
    rw [BitVec.toInt_eq_toNat_cond, BitVec.toNat_ofNat, Nat.mod_eq_of_lt (by omega), if_pos (by omega)]
  rw [h1]
  rw [BitVec.toNat_ofInt]
  omega

/-- Assumptions on a pipeline metadata for its round trip: its units are in the unit table and its
drop policy fits the 32-bit enum. -/
def MetaOK (x : XTime) (m : PipelineMetadata) : Prop :=
  (∀ p ∈ m.storagePolicies, UnitTableOK x p.resolution.precision) ∧ m.drop < 2 ^ 31

theorem pm_roundtrip (x : XTime) (m : PipelineMetadata) (hok : MetaOK x m)
    (pb : PBPipelineMetadata) (h : m.toProto x {} = some pb) :
    PipelineMetadata.fromProto x {} pb = some (stripMeta m) := by
  rw [pm_toProto_spec] at h
  cases hp : mapOpt (Applied.OpUnion.toProto {}) m.pipeline with
  | none => simp [hp] at h
  | some p =>
    cases hs : mapOpt (fun s => StoragePolicy.toProto x s {}) m.storagePolicies with
    | none => simp [hp, hs] at h
    | some sps =>
      simp only [hp, hs, Option.some.injEq] at h
      subst h
      rw [pm_fromProto_spec]
      have h1 := mapOpt_roundtrip (Applied.OpUnion.toProto {}) (Applied.OpUnion.fromProto {}) Applied.strip
        m.pipeline p (fun u _ pb hpb => Applied.op_roundtrip u pb hpb) hp
      have h2 := mapOpt_roundtrip (fun s => StoragePolicy.toProto x s {})
        (StoragePolicy.fromProto x EmptyStoragePolicy) id m.storagePolicies sps
        (fun s hs t ht => C08_roundtrip x s EmptyStoragePolicy {} t (hok.1 s hs) ht) hs
      simp only [List.map_id_fun, id_eq] at h2
      simp only [h1, h2, stripMeta, drop_roundtrip _ hok.2]

theorem metadataToProto_eq (x : XTime) (d : List PBPipelineMetadata) (ms : List PipelineMetadata) :
    metadataToProto x d ms = mapOpt (PipelineMetadata.toProto x {}) ms :=
  convLoop_reuse (PipelineMetadata.toProto x) (PipelineMetadata.toProto x {}) {}
    (fun d s => by simp only [pm_toProto_spec]) d ms

theorem metadataFromProto_eq (x : XTime) (d : List PipelineMetadata) (ms : List PBPipelineMetadata) :
    metadataFromProto x d ms = mapOpt (PipelineMetadata.fromProto x {}) ms :=
  convLoop_reuse (PipelineMetadata.fromProto x) (PipelineMetadata.fromProto x {}) {}
    (fun d s => by simp only [pm_fromProto_spec]) d ms

def stripStage (s : StagedMetadata) : StagedMetadata := { s with pipelines := s.pipelines.map stripMeta }

theorem staged_toProto_dst (x : XTime) (d d' : PBStagedMetadata) (s : StagedMetadata) :
    s.toProto x d = s.toProto x d' := by
  unfold StagedMetadata.toProto
  simp only [metadataToProto_eq]

theorem staged_fromProto_dst (x : XTime) (d d' : StagedMetadata) (pb : PBStagedMetadata) :
    d.fromProto x pb = d'.fromProto x pb := by
  unfold StagedMetadata.fromProto
  simp only [metadataFromProto_eq]

theorem stagedToProto_eq (x : XTime) (d : List PBStagedMetadata) (ms : List StagedMetadata) :
    stagedToProto x d ms = mapOpt (StagedMetadata.toProto x {}) ms :=
  convLoop_reuse (StagedMetadata.toProto x) (StagedMetadata.toProto x {}) {}
    (fun d s => staged_toProto_dst x d {} s) d ms

theorem stagedFromProto_eq (x : XTime) (d : List StagedMetadata) (ms : List PBStagedMetadata) :
    stagedFromProto x d ms = mapOpt (StagedMetadata.fromProto x {}) ms :=
  convLoop_reuse (StagedMetadata.fromProto x) (StagedMetadata.fromProto x {}) {}
    (fun d s => staged_fromProto_dst x d {} s) d ms

theorem stage_roundtrip (x : XTime) (s : StagedMetadata) (hok : ∀ m ∈ s.pipelines, MetaOK x m)
    (pb : PBStagedMetadata) (h : s.toProto x {} = some pb) :
    StagedMetadata.fromProto x {} pb = some (stripStage s) := by
  unfold StagedMetadata.toProto at h
  rw [metadataToProto_eq] at h
  cases hp : mapOpt (PipelineMetadata.toProto x {}) s.pipelines with
  | none => simp only [hp] at h; simp at h
  | some p =>
    simp only [hp, Option.some.injEq] at h
    subst h
    unfold StagedMetadata.fromProto
    rw [metadataFromProto_eq]
    rw [mapOpt_roundtrip (PipelineMetadata.toProto x {}) (PipelineMetadata.fromProto x {}) stripMeta
      s.pipelines p (fun m hm pb hpb => pm_roundtrip x m (hok m hm) pb hpb) hp]
    rfl

theorem stripMeta_equal (m : PipelineMetadata) : m.equal (stripMeta m) = true := by
  rw [equal_iff]
  refine ⟨rfl, .refl _, ?_, rfl⟩
  exact listEqualBy_map _ _ _ fun u _ => (Applied.op_equal_iff _ _).mpr (Applied.sameOp_strip u)

theorem stripStage_equal (s : StagedMetadata) : s.equal (stripStage s) = true := by
  unfold StagedMetadata.equal stripStage pipelineMetadatasEqual
  rw [listEqualBy_map _ _ _ fun m _ => stripMeta_equal m]
  simp

/-- C12: what the equality of the round trip means, stage by stage and pipeline by pipeline: everything coincides, but the storage
policies may come in another order. -/
theorem C12_equal_iff (a b : List StagedMetadata) : stagedEqual a b = true ↔ a.length = b.length ∧
    ∀ i (h₁ : i < a.length) (h₂ : i < b.length), a[i].cutoverNanos = b[i].cutoverNanos ∧ a[i].tombstoned = b[i].tombstoned ∧
      a[i].pipelines.length = b[i].pipelines.length ∧
      ∀ j (h₃ : j < a[i].pipelines.length) (h₄ : j < b[i].pipelines.length),
        a[i].pipelines[j].aggID = b[i].pipelines[j].aggID ∧
        a[i].pipelines[j].storagePolicies.Perm b[i].pipelines[j].storagePolicies ∧
        Applied.pipelineEqual a[i].pipelines[j].pipeline b[i].pipelines[j].pipeline = true ∧
        a[i].pipelines[j].drop = b[i].pipelines[j].drop := by
  unfold stagedEqual
  rw [listEqualBy_iff]
  refine and_congr_right fun _ => forall_congr' fun i => forall_congr' fun h₁ => forall_congr' fun h₂ => ?_
  unfold StagedMetadata.equal pipelineMetadatasEqual
  simp only [Bool.and_eq_true, beq_iff_eq, listEqualBy_iff, equal_iff]
  constructor
  · rintro ⟨⟨⟨h1, h2⟩, h3⟩, h4⟩; exact ⟨h3, h4, h1, h2⟩
  · rintro ⟨h3, h4, h1, h2⟩; exact ⟨⟨⟨h1, h2⟩, h3⟩, h4⟩

example : stagedEqual [{ pipelines := [{ aggID := 2, storagePolicies := [⟨⟨1, 1⟩, 5⟩, ⟨⟨2, 1⟩, 5⟩] }], cutoverNanos := 4 }]
      [{ pipelines := [{ aggID := 2, storagePolicies := [⟨⟨2, 1⟩, 5⟩, ⟨⟨1, 1⟩, 5⟩] }], cutoverNanos := 4 }] = true ∧
    stagedEqual [{ cutoverNanos := 4 }] [{ cutoverNanos := 5 }] = false := by decide

/-- All applied operations carry only the payload of their kind (as everything built by the rule
engine or decoded from protobuf does, `C11_no_history`). -/
def CanonicalMeta (m : PipelineMetadata) : Prop := ∀ u ∈ m.pipeline, Applied.Canonical u

theorem stripMeta_canonical (m : PipelineMetadata) (h : CanonicalMeta m) : stripMeta m = m := by
  unfold stripMeta
  rw [Applied.map_strip _ h]

theorem stripStage_canonical (s : StagedMetadata) (h : ∀ m ∈ s.pipelines, CanonicalMeta m) :
    stripStage s = s := by
  unfold stripStage
  have : s.pipelines.map stripMeta = s.pipelines := by
    rw [List.map_congr_left (g := id) fun m hm => stripMeta_canonical m (h m hm)]; simp
  rw [this]

/-- C12: staged metadatas survive the protobuf round trip, whatever the reused objects contained: the
result is equal, and identical for canonical metadata. -/
theorem C12_staged_roundtrip (x : XTime) (s old : List StagedMetadata) (dst pb : List PBStagedMetadata)
    (hok : ∀ m ∈ s, ∀ p ∈ m.pipelines, MetaOK x p) (h : stagedToProto x dst s = some pb) :
    ∃ s', stagedFromProto x old pb = some s' ∧ stagedEqual s s' = true ∧
      ((∀ m ∈ s, ∀ p ∈ m.pipelines, CanonicalMeta p) → s' = s) := by
  rw [stagedToProto_eq] at h
  refine ⟨s.map stripStage, ?_, ?_, ?_⟩
  · rw [stagedFromProto_eq]
    exact mapOpt_roundtrip _ _ _ s pb (fun m hm pb hpb => stage_roundtrip x m (hok m hm) pb hpb) h
  · exact listEqualBy_map _ _ _ fun m _ => stripStage_equal m
  · intro hc
    rw [List.map_congr_left (g := id) fun m hm => stripStage_canonical m (hc m hm)]; simp

/-- C12 for one pipeline metadata. -/
theorem C12_pipeline_metadata_roundtrip (x : XTime) (m old : PipelineMetadata) (dst pb : PBPipelineMetadata)
    (hok : MetaOK x m) (h : m.toProto x dst = some pb) :
    ∃ m', old.fromProto x pb = some m' ∧ m.equal m' = true ∧ (CanonicalMeta m → m' = m) := by
  have h' : m.toProto x {} = some pb := by rw [pm_toProto_spec] at h ⊢; exact h
  refine ⟨stripMeta m, ?_, stripMeta_equal m, stripMeta_canonical m⟩
  rw [← pm_roundtrip x m hok pb h', pm_fromProto_spec, pm_fromProto_spec]

/-- C12: no conversion depends on the previous contents of its destination (the failure included). -/
theorem C12_no_history (x : XTime) :
    (∀ (d d' : List PBStagedMetadata) s, stagedToProto x d s = stagedToProto x d' s) ∧
    (∀ (d d' : List StagedMetadata) pb, stagedFromProto x d pb = stagedFromProto x d' pb) ∧
    (∀ (d d' : PBForwardMetadata) (m : ForwardMetadata), m.toProto x d = m.toProto x d') ∧
    (∀ (d d' : ForwardMetadata) (pb : PBForwardMetadata), d.fromProto x pb = d'.fromProto x pb) ∧
    (∀ (d d' : PBTimedMetadata) (m : TimedMetadata), m.toProto x d = m.toProto x d') ∧
    (∀ (d d' : TimedMetadata) (pb : PBTimedMetadata), d.fromProto x pb = d'.fromProto x pb) := by
  refine ⟨fun d d' s => ?_, fun d d' pb => ?_, fun d d' m => ?_, fun d d' pb => ?_, fun d d' m => ?_,
    fun d d' pb => ?_⟩
  · rw [stagedToProto_eq, stagedToProto_eq]
  · rw [stagedFromProto_eq, stagedFromProto_eq]
  · unfold ForwardMetadata.toProto
    simp only [C08_toProto_spec, Applied.pipelineToProto_eq]
  · unfold ForwardMetadata.fromProto
    simp only [Applied.pipelineFromProto_eq]
    rw [sp_fromProto_dst x d.storagePolicy d'.storagePolicy]
  · unfold TimedMetadata.toProto
    simp only [C08_toProto_spec]
  · unfold TimedMetadata.fromProto
    simp only
    rw [sp_fromProto_dst x d.storagePolicy d'.storagePolicy]

theorem toInt32_of_range (n : Int) (h1 : -2 ^ 31 ≤ n) (h2 : n < 2 ^ 31) : toInt32 n = n := by
  unfold toInt32
  rw [BitVec.toInt_ofInt]
  rw [Int.bmod_eq_of_le] <;> omega

/-- C12 for forward metadata whose forwarded count fits 32 bits. -/
theorem C12_forward_roundtrip (x : XTime) (m old : ForwardMetadata) (dst pb : PBForwardMetadata)
    (hu : UnitTableOK x m.storagePolicy.resolution.precision)
    (h1 : -2 ^ 31 ≤ m.numForwardedTimes) (h2 : m.numForwardedTimes < 2 ^ 31)
    (h : m.toProto x dst = some pb) :
    old.fromProto x pb = some { m with pipeline := m.pipeline.map Applied.strip } ∧
    Applied.pipelineEqual m.pipeline (m.pipeline.map Applied.strip) = true ∧
    ((∀ u ∈ m.pipeline, Applied.Canonical u) → old.fromProto x pb = some m) := by
  have hmain : old.fromProto x pb = some { m with pipeline := m.pipeline.map Applied.strip } := by
    unfold ForwardMetadata.toProto at h
    simp only at h
    cases hs : m.storagePolicy.toProto x dst.storagePolicy with
    | none => simp [hs] at h
    | some sp =>
      cases hp : Applied.pipelineToProto dst.pipeline m.pipeline with
      | none => simp [hs, hp] at h
      | some p =>
        simp only [hs, hp, Option.some.injEq] at h
        subst h
        unfold ForwardMetadata.fromProto
        simp only [C08_roundtrip x m.storagePolicy old.storagePolicy _ sp hu hs]
        rw [Applied.pipelineToProto_eq] at hp
        rw [Applied.pipelineFromProto_eq, mapOpt_roundtrip (Applied.OpUnion.toProto {})
          (Applied.OpUnion.fromProto {}) Applied.strip m.pipeline p
          (fun u _ pb hpb => Applied.op_roundtrip u pb hpb) hp]
        simp only [toInt32_of_range _ h1 h2]
  refine ⟨hmain, listEqualBy_map _ _ _ fun u _ => (Applied.op_equal_iff _ _).mpr (Applied.sameOp_strip u), ?_⟩
  intro hc
  rw [hmain, Applied.map_strip _ hc]

/-- C12: outside the 32-bit range the forwarded count is changed by the round trip. -/
theorem C12_forward_count_truncated : toInt32 (2 ^ 31) = -2 ^ 31 := by decide

/-- C12 for timed metadata. -/
theorem C12_timed_roundtrip (x : XTime) (m old : TimedMetadata) (dst pb : PBTimedMetadata)
    (hu : UnitTableOK x m.storagePolicy.resolution.precision) (h : m.toProto x dst = some pb) :
    old.fromProto x pb = some m := by
  unfold TimedMetadata.toProto at h
  simp only at h
  cases hs : m.storagePolicy.toProto x dst.storagePolicy with
  | none => simp [hs] at h
  | some sp =>
    simp only [hs, Option.some.injEq] at h
    subst h
    unfold TimedMetadata.fromProto
    simp only [C08_roundtrip x m.storagePolicy old.storagePolicy _ sp hu hs]

/-- A unit table with one unit, to show that the hypotheses can be met. -/
def unitX : XTime where
  unitValue u := if u = 1 then some 1000000000 else none
  unitFromDuration d := if d = 1000000000 then some 1 else none
  maxUnit _ := 1
  extString _ := []
  parseExt _ := none
  unitString _ := []

example : ∃ (s : List StagedMetadata) (dst pb : List PBStagedMetadata),
    (∀ m ∈ s, ∀ p ∈ m.pipelines, MetaOK unitX p) ∧ stagedToProto unitX dst s = some pb ∧
    s.length = 2 ∧ dst.length = 3 ∧ (∀ m ∈ s, ∀ p ∈ m.pipelines, CanonicalMeta p) :=
  ⟨[{ pipelines := [{ aggID := 2, storagePolicies := [⟨⟨10, 1⟩, 100⟩], drop := 1 }], cutoverNanos := 4 },
    { pipelines := [{ pipeline := [{ type := 3, rollup := ⟨bs "x", 2⟩ }] }], tombstoned := true }],
   [{}, { pipelines := [{ dropPolicy := 5, pipeline := [{}] }] }, {}],
   [{ pipelines := [{ aggregationId := 2, storagePolicies := [⟨some ⟨10, 1000000000⟩, some ⟨100⟩⟩], dropPolicy := 1 }],
      cutoverNanos := 4 },
    { pipelines := [{ pipeline := [{ type := 2, rollup := some ⟨bs "x", 2⟩ }] }], tombstoned := true }],
   by simp [MetaOK, UnitTableOK, unitX],
   by decide +kernel, rfl, rfl, by simp [CanonicalMeta, Applied.Canonical]⟩

end Verif.Meta
