import Verif.Spec.Messages
import Verif.Props.Metadata
/-
C65: the message kinds and protobuf.
-/
namespace Verif.Msg
open Verif.Policy Verif.Meta Verif.Wire Verif.Spec.Msg

theorem isSome_mapOpt (g : σ → Option τ) (l : List σ) : (mapOpt g l).isSome = true ↔ ∀ a ∈ l, (g a).isSome = true := by
  constructor
  · intro h a ha
    refine Classical.byContradiction fun hc => ?_
    have := (mapOpt_eq_none_iff g l).mpr ⟨a, ha, by simpa using hc⟩
    simp [this] at h
  · intro h
    refine Classical.byContradiction fun hc => ?_
    obtain ⟨a, ha, e⟩ := (mapOpt_eq_none_iff g l).mp (by simpa using hc)
    have := h a ha
    simp [e] at this

theorem policy_form (x : XTime) (p : StoragePolicy) (d : PBStoragePolicy) : (p.toProto x d).isSome = true ↔ PolicyForm x p := by
  rw [C08_toProto_spec]
  simp [PolicyForm, Option.isSome_iff_exists]

theorem op_form (u : Applied.OpUnion) (d : Applied.PBOp) : (u.toProto d).isSome = true ↔ OpForm u := by
  unfold Applied.OpUnion.toProto OpForm Pipe.TransformationOpType Pipe.RollupOpType Pipe.transToProto
  by_cases h2 : u.type = 2
  · by_cases h1 : u.transformation = 1
    · simp [h2, h1]
    · by_cases h3 : u.transformation = 2 <;> simp [h2, h1, h3]
  · by_cases h3 : u.type = 3 <;> simp [h2, h3]

theorem staged_form (x : XTime) (d : List PBStagedMetadata) (s : List StagedMetadata) :
    (stagedToProto x d s).isSome = true ↔ ∀ m ∈ s, StagedForm x m := by
  rw [stagedToProto_eq, isSome_mapOpt]
  refine forall_congr' fun m => forall_congr' fun _ => ?_
  unfold StagedMetadata.toProto StagedForm
  rw [metadataToProto_eq]
  have h : (mapOpt (PipelineMetadata.toProto x {}) m.pipelines).isSome = true ↔
      ∀ p ∈ m.pipelines, (∀ q ∈ p.storagePolicies, PolicyForm x q) ∧ ∀ u ∈ p.pipeline, OpForm u := by
    rw [isSome_mapOpt]
    refine forall_congr' fun p => forall_congr' fun _ => ?_
    rw [pm_toProto_spec]
    have h1 := isSome_mapOpt (Applied.OpUnion.toProto {}) p.pipeline
    have h2 := isSome_mapOpt (fun s => StoragePolicy.toProto x s {}) p.storagePolicies
    simp only [op_form] at h1
    simp only [policy_form] at h2
    rw [← h1, ← h2]
    cases mapOpt (Applied.OpUnion.toProto {}) p.pipeline with
    | none => simp
    | some _ => cases mapOpt (fun s => StoragePolicy.toProto x s {}) p.storagePolicies <;> simp
  rw [← h]
  cases mapOpt (PipelineMetadata.toProto x {}) m.pipelines <;> simp

theorem type_form (t : Int) : (typeToProto t).isSome = true ↔ TypeForm t := by
  unfold typeToProto TypeForm CounterType TimerType GaugeType
  by_cases h1 : t = 1
  · simp [h1]
  · by_cases h2 : t = 2
    · simp [h2]
    · by_cases h3 : t = 3 <;> simp [h1, h2, h3]

theorem type_pb_form (t : Int) : (typeFromProto t).isSome = true ↔ TypeForm t := by
  unfold typeFromProto TypeForm CounterType TimerType GaugeType
  by_cases h1 : t = 1
  · simp [h1]
  · by_cases h2 : t = 2
    · simp [h2]
    · by_cases h3 : t = 3 <;> simp [h1, h2, h3]

/-- A metric type comes back. -/
theorem type_roundtrip (t p : Int) (h : typeToProto t = some p) : typeFromProto p = some t ∧ 1 ≤ p ∧ p ≤ 3 := by
  unfold typeToProto CounterType TimerType GaugeType at h
  unfold typeFromProto CounterType TimerType GaugeType
  split at h
  · cases h; simp [*]
  · split at h
    · cases h; simp [*]
    · split at h
      · cases h; simp [*]
      · cases h

theorem policy_pb_form (x : XTime) (o : StoragePolicy) (p : PBStoragePolicy) :
    (o.fromProto x p).isSome = true ↔ PBPolicyForm x p := by
  rw [Option.isSome_iff_exists]
  unfold PBPolicyForm
  constructor
  · rintro ⟨q, h⟩
    obtain ⟨r, t, h1, h2, h3, _⟩ := (C08_fromProto_spec x o p q).mp h
    exact ⟨by simp [h2], r, h1, _, h3⟩
  · rintro ⟨h1, r, h2, u, h3⟩
    obtain ⟨t, ht⟩ := Option.ne_none_iff_exists'.mp h1
    exact ⟨⟨⟨r.windowSize, u⟩, t.period⟩, (C08_fromProto_spec x o p _).mpr ⟨r, t, h2, ht, h3, rfl, rfl⟩⟩

theorem op_pb_form (o : Applied.OpUnion) (p : Applied.PBOp) : (o.fromProto p).isSome = true ↔ PBOpForm p := by
  unfold Applied.OpUnion.fromProto PBOpForm Pipe.transFromProto
  by_cases h1 : p.type = 1
  · cases ht : p.transformation with
    | none => simp [h1]
    | some t => by_cases h2 : t = 1
                · simp [h1, h2]
                · by_cases h3 : t = 2 <;> simp [h1, h2, h3]
  · by_cases h2 : p.type = 2
    · cases hr : p.rollup <;> simp [h2]
    · simp [h1, h2]

theorem staged_pb_form (x : XTime) (d : List StagedMetadata) (s : List PBStagedMetadata) :
    (stagedFromProto x d s).isSome = true ↔ ∀ m ∈ s, PBStagedForm x m := by
  rw [stagedFromProto_eq, isSome_mapOpt]
  refine forall_congr' fun m => forall_congr' fun _ => ?_
  unfold StagedMetadata.fromProto PBStagedForm
  rw [metadataFromProto_eq]
  have h : (mapOpt (PipelineMetadata.fromProto x {}) m.pipelines).isSome = true ↔
      ∀ p ∈ m.pipelines, (∀ q ∈ p.storagePolicies, PBPolicyForm x q) ∧ ∀ u ∈ p.pipeline, PBOpForm u := by
    rw [isSome_mapOpt]
    refine forall_congr' fun p => forall_congr' fun _ => ?_
    rw [pm_fromProto_spec]
    have h1 := isSome_mapOpt (Applied.OpUnion.fromProto {}) p.pipeline
    have h2 := isSome_mapOpt (StoragePolicy.fromProto x EmptyStoragePolicy) p.storagePolicies
    simp only [op_pb_form] at h1
    simp only [policy_pb_form] at h2
    rw [← h1, ← h2]
    cases mapOpt (Applied.OpUnion.fromProto {}) p.pipeline with
    | none => simp
    | some _ => cases mapOpt (StoragePolicy.fromProto x EmptyStoragePolicy) p.storagePolicies <;> simp
  rw [← h]
  cases mapOpt (PipelineMetadata.fromProto x {}) m.pipelines <;> simp

/-- C65: conversion to protobuf succeeds exactly for the messages that have a protobuf form, whatever the destination held. -/
theorem C65_toProto (x : XTime) :
    (∀ d m, (counterToProto x d m).isSome = true ↔ Form x (.counter m)) ∧
    (∀ d m, (batchTimerToProto x d m).isSome = true ↔ Form x (.batchTimer m)) ∧
    (∀ d m, (gaugeToProto x d m).isSome = true ↔ Form x (.gauge m)) ∧
    (∀ d m, (forwardedToProto x d m).isSome = true ↔ Form x (.forwarded m)) ∧
    (∀ d m, (timedToProto x d m).isSome = true ↔ Form x (.timed m)) := by
  refine ⟨fun d m => ?_, fun d m => ?_, fun d m => ?_, fun d m => ?_, fun d m => ?_⟩
  · simp only [Form, ← staged_form x d.metadata m.metadata, counterToProto]
    cases stagedToProto x d.metadata m.metadata <;> simp
  · simp only [Form, ← staged_form x d.metadata m.metadata, batchTimerToProto]
    cases stagedToProto x d.metadata m.metadata <;> simp
  · simp only [Form, ← staged_form x d.metadata m.metadata, gaugeToProto]
    cases stagedToProto x d.metadata m.metadata <;> simp
  · have h1 := isSome_mapOpt (Applied.OpUnion.toProto {}) m.metadata.pipeline
    simp only [op_form] at h1
    simp only [Form, ← type_form, ← policy_form x m.metadata.storagePolicy d.metadata.storagePolicy, ← h1, forwardedToProto,
      ForwardedMetric.toProto, ForwardMetadata.toProto, Applied.pipelineToProto_eq]
    cases typeToProto m.metric.type with
    | none => simp
    | some t => cases m.metadata.storagePolicy.toProto x d.metadata.storagePolicy with
      | none => simp
      | some s => cases mapOpt (Applied.OpUnion.toProto {}) m.metadata.pipeline <;> simp
  · simp only [Form, ← type_form, ← policy_form x m.metadata.storagePolicy d.metadata.storagePolicy, timedToProto,
      Metric.toProto, TimedMetadata.toProto]
    cases typeToProto m.metric.type with
    | none => simp
    | some t => cases m.metadata.storagePolicy.toProto x d.metadata.storagePolicy <;> simp

/-- C65: conversion from protobuf succeeds exactly for messages that are there and contain what they say, whatever the
destination held. -/
theorem C65_fromProto (x : XTime) :
    (∀ o pb, (counterFromProto x o pb).isSome = true ↔ ∃ p, pb = some p ∧ ∀ s ∈ p.metadata, PBStagedForm x s) ∧
    (∀ o pb, (batchTimerFromProto x o pb).isSome = true ↔ ∃ p, pb = some p ∧ ∀ s ∈ p.metadata, PBStagedForm x s) ∧
    (∀ o pb, (gaugeFromProto x o pb).isSome = true ↔ ∃ p, pb = some p ∧ ∀ s ∈ p.metadata, PBStagedForm x s) ∧
    (∀ o pb, (forwardedFromProto x o pb).isSome = true ↔ ∃ p, pb = some p ∧ TypeForm p.metric.type ∧
      PBPolicyForm x p.metadata.storagePolicy ∧ ∀ u ∈ p.metadata.pipeline, PBOpForm u) ∧
    (∀ o pb, (timedFromProto x o pb).isSome = true ↔ ∃ p, pb = some p ∧ TypeForm p.metric.type ∧
      PBPolicyForm x p.metadata.storagePolicy) := by
  refine ⟨fun o pb => ?_, fun o pb => ?_, fun o pb => ?_, fun o pb => ?_, fun o pb => ?_⟩ <;> cases pb with
  | none => simp [counterFromProto, batchTimerFromProto, gaugeFromProto, forwardedFromProto, timedFromProto]
  | some p => ?_
  · simp only [Option.some.injEq, exists_eq_left', ← staged_pb_form x o.metadata p.metadata, counterFromProto]
    cases stagedFromProto x o.metadata p.metadata <;> simp
  · simp only [Option.some.injEq, exists_eq_left', ← staged_pb_form x o.metadata p.metadata, batchTimerFromProto]
    cases stagedFromProto x o.metadata p.metadata <;> simp
  · simp only [Option.some.injEq, exists_eq_left', ← staged_pb_form x o.metadata p.metadata, gaugeFromProto]
    cases stagedFromProto x o.metadata p.metadata <;> simp
  · have h1 := isSome_mapOpt (Applied.OpUnion.fromProto {}) p.metadata.pipeline
    simp only [op_pb_form] at h1
    simp only [Option.some.injEq, exists_eq_left', ← type_pb_form, ← policy_pb_form x o.metadata.storagePolicy p.metadata.storagePolicy,
      ← h1, forwardedFromProto, ForwardedMetric.fromProto, ForwardMetadata.fromProto, Applied.pipelineFromProto_eq]
    cases typeFromProto p.metric.type with
    | none => simp
    | some t => cases o.metadata.storagePolicy.fromProto x p.metadata.storagePolicy with
      | none => simp
      | some s => cases mapOpt (Applied.OpUnion.fromProto {}) p.metadata.pipeline <;> simp
  · simp only [Option.some.injEq, exists_eq_left', ← type_pb_form, ← policy_pb_form x o.metadata.storagePolicy p.metadata.storagePolicy,
      timedFromProto, Metric.fromProto, TimedMetadata.fromProto]
    cases typeFromProto p.metric.type with
    | none => simp
    | some t => cases o.metadata.storagePolicy.fromProto x p.metadata.storagePolicy <;> simp

/-- C65: no conversion depends on what the destination held before. -/
theorem C65_no_history (x : XTime) :
    (∀ d d' m, counterToProto x d m = counterToProto x d' m) ∧ (∀ o o' pb, counterFromProto x o pb = counterFromProto x o' pb) ∧
    (∀ d d' m, batchTimerToProto x d m = batchTimerToProto x d' m) ∧
    (∀ o o' pb, batchTimerFromProto x o pb = batchTimerFromProto x o' pb) ∧
    (∀ d d' m, gaugeToProto x d m = gaugeToProto x d' m) ∧ (∀ o o' pb, gaugeFromProto x o pb = gaugeFromProto x o' pb) ∧
    (∀ d d' m, forwardedToProto x d m = forwardedToProto x d' m) ∧
    (∀ o o' pb, forwardedFromProto x o pb = forwardedFromProto x o' pb) ∧
    (∀ d d' m, timedToProto x d m = timedToProto x d' m) ∧ (∀ o o' pb, timedFromProto x o pb = timedFromProto x o' pb) := by
  obtain ⟨h1, h2, h3, h4, h5, h6⟩ := C12_no_history x
  refine ⟨?_, ?_, ?_, ?_, ?_, ?_, ?_, ?_, ?_, ?_⟩
  · intro d d' m; simp only [counterToProto, h1 d.metadata d'.metadata]; rfl
  · intro o o' pb; cases pb with
    | none => rfl
    | some p => simp only [counterFromProto, h2 o.metadata o'.metadata]; rfl
  · intro d d' m; simp only [batchTimerToProto, h1 d.metadata d'.metadata]; rfl
  · intro o o' pb; cases pb with
    | none => rfl
    | some p => simp only [batchTimerFromProto, h2 o.metadata o'.metadata]; rfl
  · intro d d' m; simp only [gaugeToProto, h1 d.metadata d'.metadata]; rfl
  · intro o o' pb; cases pb with
    | none => rfl
    | some p => simp only [gaugeFromProto, h2 o.metadata o'.metadata]; rfl
  · intro d d' m; simp only [forwardedToProto, h3 d.metadata d'.metadata]; rfl
  · intro o o' pb; cases pb with
    | none => rfl
    | some p => simp only [forwardedFromProto, h4 o.metadata o'.metadata]; rfl
  · intro d d' m; simp only [timedToProto, h5 d.metadata d'.metadata]; rfl
  · intro o o' pb; cases pb with
    | none => rfl
    | some p => simp only [timedFromProto, h6 o.metadata o'.metadata]; rfl

theorem canonOp_eq : canonOp = Applied.strip := rfl
theorem canonStaged_eq : canonStaged = stripStage := by
  funext s
  rfl

theorem staged_back (x : XTime) (s o : List StagedMetadata) (d pb : List PBStagedMetadata)
    (hok : ∀ m ∈ s, ∀ p ∈ m.pipelines, MetaOK x p) (h : stagedToProto x d s = some pb) :
    stagedFromProto x o pb = some (s.map canonStaged) := by
  rw [stagedToProto_eq] at h
  rw [stagedFromProto_eq, canonStaged_eq]
  exact mapOpt_roundtrip _ _ _ s pb (fun m hm pb hpb => stage_roundtrip x m (hok m hm) pb hpb) h

/-- C65: what was converted to protobuf comes back unchanged, apart from what an operation holds for another kind than its
own, whatever the destinations held before. -/
theorem C65_roundtrip (x : XTime) :
    (∀ d o m pb, Fits x (.counter m) → counterToProto x d m = some pb →
      (counterFromProto x o (some pb)).map Message.counter = some (canon (.counter m))) ∧
    (∀ d o m pb, Fits x (.batchTimer m) → batchTimerToProto x d m = some pb →
      (batchTimerFromProto x o (some pb)).map Message.batchTimer = some (canon (.batchTimer m))) ∧
    (∀ d o m pb, Fits x (.gauge m) → gaugeToProto x d m = some pb →
      (gaugeFromProto x o (some pb)).map Message.gauge = some (canon (.gauge m))) ∧
    (∀ d o m pb, Fits x (.forwarded m) → forwardedToProto x d m = some pb →
      (forwardedFromProto x o (some pb)).map Message.forwarded = some (canon (.forwarded m))) ∧
    (∀ d o m pb, Fits x (.timed m) → timedToProto x d m = some pb →
      (timedFromProto x o (some pb)).map Message.timed = some (canon (.timed m))) := by
  refine ⟨?_, ?_, ?_, ?_, ?_⟩
  · intro d o m pb hf h
    unfold counterToProto at h
    cases hs : stagedToProto x d.metadata m.metadata with
    | none => simp [hs] at h
    | some md =>
      simp only [hs, Option.some.injEq] at h
      subst h
      simp [counterFromProto, staged_back x m.metadata o.metadata d.metadata md hf hs, canon, Counter.fromProto, Counter.toProto]
  · intro d o m pb hf h
    unfold batchTimerToProto at h
    cases hs : stagedToProto x d.metadata m.metadata with
    | none => simp [hs] at h
    | some md =>
      simp only [hs, Option.some.injEq] at h
      subst h
      simp [batchTimerFromProto, staged_back x m.metadata o.metadata d.metadata md hf hs, canon, BatchTimer.fromProto,
        BatchTimer.toProto]
  · intro d o m pb hf h
    unfold gaugeToProto at h
    cases hs : stagedToProto x d.metadata m.metadata with
    | none => simp [hs] at h
    | some md =>
      simp only [hs, Option.some.injEq] at h
      subst h
      simp [gaugeFromProto, staged_back x m.metadata o.metadata d.metadata md hf hs, canon, Gauge.fromProto, Gauge.toProto]
  · intro d o m pb hf h
    unfold forwardedToProto ForwardedMetric.toProto at h
    cases ht : typeToProto m.metric.type with
    | none => simp [ht] at h
    | some t =>
      simp only [ht] at h
      cases hm : m.metadata.toProto x d.metadata with
      | none => simp [hm] at h
      | some md =>
        simp only [hm, Option.some.injEq] at h
        subst h
        have := (C12_forward_roundtrip x m.metadata o.metadata d.metadata md hf.1 hf.2.1 hf.2.2 hm).1
        simp [forwardedFromProto, ForwardedMetric.fromProto, (type_roundtrip _ _ ht).1, this, canon, canonOp_eq]
  · intro d o m pb hf h
    unfold timedToProto Metric.toProto at h
    cases ht : typeToProto m.metric.type with
    | none => simp [ht] at h
    | some t =>
      simp only [ht] at h
      cases hm : m.metadata.toProto x d.metadata with
      | none => simp [hm] at h
      | some md =>
        simp only [hm, Option.some.injEq] at h
        subst h
        have := C12_timed_roundtrip x m.metadata o.metadata d.metadata md hf hm
        simp [timedFromProto, Metric.fromProto, (type_roundtrip _ _ ht).1, this, canon]

/-- C65: what `canon` drops makes no difference to `Equal` of the metadata. -/
theorem C65_canon_equal (s : List StagedMetadata) (p : Applied.Pipeline) :
    stagedEqual s (s.map canonStaged) = true ∧ Applied.pipelineEqual p (p.map canonOp) = true :=
  ⟨listEqualBy_map _ _ _ fun m _ => stripStage_equal m,
    listEqualBy_map _ _ _ fun u _ => (Applied.op_equal_iff _ _).mpr (Applied.sameOp_strip u)⟩

/-- C65: a counter, timer or gauge goes through a union unchanged. -/
theorem C65_union : (∀ c : Counter, c.toUnion.type = 1 ∧ c.toUnion.counter = c) ∧
    (∀ t : BatchTimer, t.toUnion.type = 2 ∧ t.toUnion.batchTimer = t) ∧ (∀ g : Gauge, g.toUnion.type = 3 ∧ g.toUnion.gauge = g) :=
  ⟨fun _ => ⟨rfl, rfl⟩, fun _ => ⟨rfl, rfl⟩, fun _ => ⟨rfl, rfl⟩⟩

/-- C65: the names of the metric types are read back, and nothing else is. -/
theorem C65_parse (s : Bytes) (t : Int) : (parseType s = some t ↔ (t, s) ∈ typeNames) ∧
    typeString t = (typeNames.lookup t).getD (bs "unknown") := by
  have hs : ∀ t, typeString t = (typeNames.lookup t).getD (bs "unknown") := by
    intro t
    unfold typeString typeNames CounterType TimerType GaugeType
    simp only [List.lookup]
    by_cases h1 : t = 1
    · subst h1; rfl
    by_cases h2 : t = 2
    · subst h2; rfl
    by_cases h3 : t = 3
    · subst h3; rfl
    simp [h1, h2, h3, beq_false_of_ne h1, beq_false_of_ne h2, beq_false_of_ne h3]
  refine ⟨?_, hs t⟩
  unfold parseType validTypes CounterType TimerType GaugeType typeNames
  simp only [List.mem_cons, List.not_mem_nil, or_false, Prod.mk.injEq]
  constructor
  · intro h
    have h1 := List.mem_of_find?_eq_some h
    have h2 := List.find?_some h
    simp only [beq_iff_eq] at h2
    simp only [List.mem_cons, List.not_mem_nil, or_false] at h1
    rcases h1 with rfl | rfl | rfl <;> subst h2 <;> decide
  · rintro (⟨rfl, rfl⟩ | ⟨rfl, rfl⟩ | ⟨rfl, rfl⟩) <;> decide

/-! Concrete messages that meet the hypotheses. -/

def exStaged : List StagedMetadata :=
  [{ pipelines := [{ aggID := 2, storagePolicies := [⟨⟨10, 1⟩, 100⟩], drop := 1 }], cutoverNanos := 4 },
   { pipelines := [{ pipeline := [{ type := 3, rollup := ⟨bs "x", 2⟩ }, { type := 2, transformation := 2 }] }], tombstoned := true }]

def exForwarded : ForwardedMetricWithMetadata :=
  ⟨{ type := 2, id := bs "f", timeNanos := 7, values := [1, 2] },
   { aggID := 1, storagePolicy := ⟨⟨10, 1⟩, 100⟩, pipeline := [{ type := 2, transformation := 1 }], sourceID := 3, numForwardedTimes := 2 }⟩

example : Fits unitX (.counter ⟨{ id := bs "a", value := -3 }, exStaged⟩) ∧ Form unitX (.counter ⟨{ id := bs "a", value := -3 }, exStaged⟩) ∧
    (counterToProto unitX ⟨{ id := bs "old" }, [{}, {}, {}]⟩ ⟨{ id := bs "a", value := -3 }, exStaged⟩).isSome = true :=
  ⟨by simp [Fits, Fits.UnitOK, exStaged, unitX], by simp [Form, StagedForm, PolicyForm, OpForm, exStaged, unitX], by decide +kernel⟩

example : Fits unitX (.forwarded exForwarded) ∧ Form unitX (.forwarded exForwarded) ∧
    (forwardedToProto unitX ⟨{}, {}⟩ exForwarded).isSome = true :=
  ⟨by simp [Fits, Fits.UnitOK, exForwarded, unitX], by simp [Form, TypeForm, PolicyForm, OpForm, exForwarded, unitX], by decide +kernel⟩

/-- A metric of unknown type and an unknown unit have no protobuf form. -/
example : forwardedToProto unitX ⟨{}, {}⟩ ⟨{ type := 4 }, {}⟩ = none ∧ timedToProto unitX ⟨{}, {}⟩ ⟨{ type := 1 }, { storagePolicy := ⟨⟨1, 7⟩, 1⟩ }⟩ = none := by
  decide +kernel

end Verif.Msg
