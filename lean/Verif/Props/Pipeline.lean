import Verif.Lemmas.Conv
import Verif.Props.Policy
import Verif.Props.Aggregation
/- C09, C10, C11: pipelines and applied pipelines. -/
namespace Verif.Pipe
open Verif.Agg Verif.Spec Verif.Policy

/-! ### C09 rollup operation identity -/

theorem sameTransform_iff (a b : RollupOp) :
    a.sameTransform b = true ↔ a.newName = b.newName ∧ a.tags.Perm b.tags := by
  unfold RollupOp.sameTransform
  by_cases hn : a.newName = b.newName
  · by_cases hl : a.tags.length = b.tags.length
    · have hl' : (sortBy bytesLt a.tags).length = (sortBy bytesLt b.tags).length := by
        simp [length_sortBy, hl]
      simp only [hn, hl, bne_self_eq_false, BEq.rfl, Bool.not_true, Bool.false_eq_true, if_false,
        true_and]
      rw [allEq_iff _ _ hl', sortBy_eq_iff_perm bytesLt_strictTotal]
    · have : ¬ a.tags.Perm b.tags := fun h => hl h.length_eq
      simp [hn, hl, this]
  · simp [hn]

/-- C09: two rollup operations transform a metric identically exactly when they have the same new name
and the same tags up to order (with multiplicity). -/
theorem C09_same_transform_iff (a b : RollupOp) :
    a.sameTransform b = true ↔ a.newName = b.newName ∧ a.tags.Perm b.tags := sameTransform_iff a b

/-- C09: equality additionally requires the same aggregation ID. -/
theorem C09_equal_iff (a b : RollupOp) :
    a.equal b = true ↔ a.aggID = b.aggID ∧ a.newName = b.newName ∧ a.tags.Perm b.tags := by
  unfold RollupOp.equal
  by_cases h : a.aggID = b.aggID
  · simp [h, sameTransform_iff]
  · simp [h]

/-- C09: both relations are equivalence relations. -/
theorem C09_equivalence :
    (∀ a : RollupOp, a.equal a = true ∧ a.sameTransform a = true) ∧
    (∀ a b : RollupOp, (a.equal b = true → b.equal a = true) ∧
      (a.sameTransform b = true → b.sameTransform a = true)) ∧
    (∀ a b c : RollupOp, (a.equal b = true → b.equal c = true → a.equal c = true) ∧
      (a.sameTransform b = true → b.sameTransform c = true → a.sameTransform c = true)) := by
  simp only [C09_equal_iff, sameTransform_iff]
  refine ⟨fun a => ⟨⟨trivial, trivial, .refl _⟩, trivial, .refl _⟩,
    fun a b => ⟨fun h => ⟨h.1.symm, h.2.1.symm, h.2.2.symm⟩, fun h => ⟨h.1.symm, h.2.symm⟩⟩,
    fun a b c => ⟨fun h h' => ⟨h.1.trans h'.1, h.2.1.trans h'.2.1, h.2.2.trans h'.2.2⟩,
      fun h h' => ⟨h.1.trans h'.1, h.2.trans h'.2⟩⟩⟩

example : RollupOp.equal ⟨bs "n", [bs "b", bs "a", bs "a"], 6⟩ ⟨bs "n", [bs "a", bs "b", bs "a"], 6⟩ = true ∧
    RollupOp.sameTransform ⟨bs "n", [bs "a", bs "a", bs "b"], 6⟩ ⟨bs "n", [bs "a", bs "b", bs "b"], 6⟩ = false := by
  decide +kernel

/-! ### C10 pipelines -/

theorem rollup_equal_refl (r : RollupOp) : r.equal r = true := (C09_equivalence.1 r).1

/-- What two equal operations have in common: the same kind, and the payload of that kind agrees. -/
def SameOp (u v : OpUnion) : Prop :=
  u.type = v.type ∧ (u.type = 1 → u.aggregation = v.aggregation) ∧
    (u.type = 2 → u.transformation = v.transformation) ∧
    (u.type = 3 → u.rollup.aggID = v.rollup.aggID ∧ u.rollup.newName = v.rollup.newName ∧
      u.rollup.tags.Perm v.rollup.tags)

theorem op_equal_iff (u v : OpUnion) : u.equal v = true ↔ SameOp u v := by
  unfold OpUnion.equal SameOp AggregationOpType TransformationOpType RollupOpType
  by_cases h : u.type = v.type
  · rw [h]
    simp only [BEq.rfl, Bool.not_true, Bool.false_eq_true, if_false, true_and]
    by_cases h1 : v.type = 1
    · simp [h1]
    · by_cases h2 : v.type = 2
      · simp [h2]
      · by_cases h3 : v.type = 3
        · simp [h3, C09_equal_iff]
        · simp [h1, h2, h3]
  · simp [h]

/-- C10: pipeline equality is position-wise sameness of operations. -/
theorem C10_equal_iff (p q : Pipeline) :
    pipelineEqual p q = true ↔ p.length = q.length ∧
      ∀ i (h₁ : i < p.length) (h₂ : i < q.length), SameOp p[i] q[i] := by
  unfold pipelineEqual
  rw [listEqualBy_iff]
  simp only [op_equal_iff]

theorem sameOp_clone (u : OpUnion) : SameOp u u.clone := by
  unfold SameOp OpUnion.clone RollupOp.clone AggregationOpType TransformationOpType RollupOpType
  split
  · next h => simp [h]
  · split
    · next h => simp [h]
    · split
      · next h => simp [h]
      · simp_all

/-- C10: a clone equals its original. -/
theorem C10_clone (p : Pipeline) : pipelineEqual p (pipelineClone p) = true :=
  listEqualBy_map _ _ _ fun u _ => (op_equal_iff u u.clone).mpr (sameOp_clone u)

/-- The operation a reader of the protobuf gets: only the payload of its kind, rollup tags sorted. -/
def readBack (u : OpUnion) : OpUnion :=
  if u.type = 1 then { type := 1, aggregation := u.aggregation }
  else if u.type = 2 then { type := 2, transformation := u.transformation }
  else { type := 3, rollup := { u.rollup with tags := sortBy bytesLt u.rollup.tags } }

theorem transRoundtrip (t p : Int) (h : transToProto t = some p) : transFromProto p = some t := by
  unfold transToProto at h
  unfold transFromProto
  split at h
  · simp_all
  · split at h
    · simp only [Option.some.injEq] at h; subst h; simp_all
    · simp at h

theorem rollup_roundtrip (r : RollupOp) (pb : PBRollupOp) (h : r.proto = some pb) :
    newRollupOpFromProto (some pb) = some { r with tags := sortBy bytesLt r.tags } := by
  unfold RollupOp.proto at h
  cases ht : r.aggID.types with
  | none => simp [ht] at h
  | some ts =>
    have hv : ∀ t ∈ ts, ValidAggType t := by
      intro t hm
      have h0 := C02_reencode 0 r.aggID ts ht
      by_cases hval : ValidAggType t
      · exact hval
      · have := (C01_fails_iff 0 ts).mpr ⟨t, hm, hval⟩
        rw [this] at h0; simp at h0
    have htp := typesProto_valid ts hv
    simp only [ht, htp.1, Option.some.injEq] at h
    subst h
    have h0 := C02_reencode 0 r.aggID ts ht
    simp only [newRollupOpFromProto, newIDFromProto, htp.2]
    simp only [compressTypes]
    rw [h0]

/-- The kinds of operations the protobuf form can carry. -/
theorem op_proto_type (u : OpUnion) (pb : PBOp) (h : u.proto = some pb) :
    u.type = 1 ∨ u.type = 2 ∨ u.type = 3 := by
  unfold OpUnion.proto AggregationOpType TransformationOpType RollupOpType at h
  split at h
  · simp_all
  · split at h
    · simp_all
    · split at h
      · simp_all
      · simp at h

theorem op_roundtrip (u : OpUnion) (pb : PBOp) (h : u.proto = some pb)
    (hagg : u.type = 1 → u.aggregation ≠ 0) : newOpUnionFromProto pb = some (readBack u) := by
  unfold OpUnion.proto AggregationOpType TransformationOpType RollupOpType at h
  unfold readBack
  split at h
  · next h1 =>
    cases hp : typeProto u.aggregation with
    | none => simp [hp] at h
    | some p =>
      simp only [hp, Option.map_some, Option.some.injEq] at h
      subst h
      have hne := hagg h1
      have hr : newTypeFromProto p = some u.aggregation := by
        unfold typeProto at hp
        split at hp
        · next hr =>
          simp only [Option.some.injEq] at hp
          subst hp
          have := (isValid_iff u.aggregation).mpr (by omega)
          simp [newTypeFromProto, this]
        · simp at hp
      simp [newOpUnionFromProto, hr, h1, AggregationOpType]
  · next h1 =>
    split at h
    · next h2 =>
      cases hp : transToProto u.transformation with
      | none => simp [hp] at h
      | some p =>
        simp only [hp, Option.map_some, Option.some.injEq] at h
        subst h
        simp [newOpUnionFromProto, transRoundtrip _ _ hp, h2, TransformationOpType]
    · split at h
      · next h3 =>
        cases hp : u.rollup.proto with
        | none => simp [hp] at h
        | some p =>
          simp only [hp, Option.map_some, Option.some.injEq] at h
          subst h
          simp [newOpUnionFromProto, rollup_roundtrip _ _ hp, h3, RollupOpType]
      · simp at h

theorem pipelineProto_eq (p : Pipeline) : pipelineProto p = mapOpt OpUnion.proto p := by
  induction p with
  | nil => rfl
  | cons u p ih =>
    simp only [pipelineProto, mapOpt, ih]
    cases u.proto with
    | none => rfl
    | some _ => cases mapOpt OpUnion.proto p <;> rfl

theorem pipelineFromProto_eq (p : List PBOp) :
    newPipelineFromProtoOps p = mapOpt newOpUnionFromProto p := by
  induction p with
  | nil => rfl
  | cons u p ih =>
    simp only [newPipelineFromProtoOps, mapOpt, ih]
    cases newOpUnionFromProto u with
    | none => rfl
    | some _ => cases mapOpt newOpUnionFromProto p <;> rfl

theorem sameOp_readBack (u : OpUnion) (h : u.type = 1 ∨ u.type = 2 ∨ u.type = 3) :
    SameOp u (readBack u) := by
  unfold SameOp readBack
  rcases h with h | h | h <;> simp [h, (sortBy_perm _ _).symm]

/-- C10: a pipeline that converts to protobuf (and whose aggregation steps have a real aggregation
type) is read back equal, with the tags of its rollup steps in sorted order. -/
theorem C10_roundtrip (p : Pipeline) (pbs : List PBOp) (h : pipelineProto p = some pbs)
    (hagg : ∀ u ∈ p, u.type = 1 → u.aggregation ≠ 0) :
    ∃ q, newPipelineFromProto (some pbs) = some q ∧ pipelineEqual p q = true ∧
      ∀ u ∈ q, u.type = 3 → u.rollup.tags.Pairwise fun a b => bytesLt b a = false := by
  rw [pipelineProto_eq] at h
  refine ⟨p.map readBack, ?_, ?_, ?_⟩
  · rw [newPipelineFromProto, pipelineFromProto_eq]
    exact mapOpt_roundtrip _ _ _ p pbs (fun u hu pb hpb => op_roundtrip u pb hpb (hagg u hu)) h
  · refine listEqualBy_map _ _ _ fun u hu => (op_equal_iff _ _).mpr (sameOp_readBack u ?_)
    have hn : OpUnion.proto u ≠ none := by
      intro hn
      have := (mapOpt_eq_none_iff OpUnion.proto p).mpr ⟨u, hu, hn⟩
      simp [this] at h
    obtain ⟨pb, hpb⟩ := Option.ne_none_iff_exists'.mp hn
    exact op_proto_type u pb hpb
  · intro u hu h3
    obtain ⟨v, _, rfl⟩ := List.mem_map.mp hu
    unfold readBack at h3 ⊢
    split
    · next h1 => simp [h1] at h3
    · next h1 =>
      split
      · next h2 => simp [h2] at h3
      · exact sortBy_sorted bytesLt_strictTotal _

/-- C10: conversion succeeds exactly for pipelines whose every step is of a known kind with a
representable payload. -/
theorem C10_proto_succeeds_iff (p : Pipeline) :
    (pipelineProto p).isSome = true ↔ ∀ u ∈ p,
      (u.type = 1 ∧ 0 ≤ u.aggregation ∧ u.aggregation ≤ 22) ∨
      (u.type = 2 ∧ (u.transformation = 1 ∨ u.transformation = 2)) ∨
      (u.type = 3 ∧ u.rollup.aggID.types.isSome = true) := by
  have key : ∀ u : OpUnion, u.proto ≠ none ↔ ((u.type = 1 ∧ 0 ≤ u.aggregation ∧ u.aggregation ≤ 22) ∨
      (u.type = 2 ∧ (u.transformation = 1 ∨ u.transformation = 2)) ∨
      (u.type = 3 ∧ u.rollup.aggID.types.isSome = true)) := by
    intro u
    unfold OpUnion.proto AggregationOpType TransformationOpType RollupOpType
    by_cases h1 : u.type = 1
    · simp only [h1, if_true, true_and]
      unfold typeProto
      split
      · next h => simp; omega
      · next h => simp; omega
    · by_cases h2 : u.type = 2
      · simp only [h2, if_true, true_and]
        unfold transToProto
        by_cases ha : u.transformation = 1
        · simp [ha]
        · by_cases hb : u.transformation = 2
          · simp [hb]
          · simp [ha, hb]
      · by_cases h3 : u.type = 3
        · simp only [h3, if_true, true_and]
          cases ht : u.rollup.aggID.types with
          | none => simp [RollupOp.proto, ht]
          | some ts =>
            have hv : ∀ t ∈ ts, ValidAggType t := by
              intro t hm
              have h0 := C02_reencode 0 u.rollup.aggID ts ht
              by_cases hval : ValidAggType t
              · exact hval
              · have := (C01_fails_iff 0 ts).mpr ⟨t, hm, hval⟩
                rw [this] at h0; simp at h0
            simp [RollupOp.proto, ht, (typesProto_valid ts hv).1]
        · simp [h1, h2, h3]
  rw [Option.isSome_iff_ne_none, pipelineProto_eq, ne_eq, mapOpt_eq_none_iff]
  constructor
  · intro h u hu
    exact (key u).mp fun hn => h ⟨u, hu, hn⟩
  · rintro h ⟨u, hu, hn⟩
    exact (key u).mpr (h u hu) hn

/-- C10: unknown kinds, nil payloads and a nil pipeline are rejected on reading. -/
theorem C10_reader_rejects :
    newPipelineFromProto none = none ∧
    (∀ pb : PBOp, ¬(pb.type = 1 ∨ pb.type = 2 ∨ pb.type = 3) → newOpUnionFromProto pb = none) ∧
    (∀ pb : PBOp, pb.type = 1 → pb.aggregation = none → newOpUnionFromProto pb = none) ∧
    (∀ pb : PBOp, pb.type = 2 → pb.transformation = none → newOpUnionFromProto pb = none) ∧
    (∀ pb : PBOp, pb.type = 3 → pb.rollup = none → newOpUnionFromProto pb = none) ∧
    (∀ pbs : List PBOp, (∃ pb ∈ pbs, newOpUnionFromProto pb = none) →
      newPipelineFromProto (some pbs) = none) := by
  refine ⟨rfl, ?_, ?_, ?_, ?_, ?_⟩
  · intro pb h
    have h1 : pb.type ≠ 1 := fun e => h (.inl e)
    have h2 : pb.type ≠ 2 := fun e => h (.inr (.inl e))
    have h3 : pb.type ≠ 3 := fun e => h (.inr (.inr e))
    simp [newOpUnionFromProto, h1, h2, h3]
  · intro pb h h'; simp [newOpUnionFromProto, h, h']
  · intro pb h h'; simp [newOpUnionFromProto, h, h']
  · intro pb h h'; simp [newOpUnionFromProto, h, h', newRollupOpFromProto]
  · intro pbs h
    rw [newPipelineFromProto, pipelineFromProto_eq]
    exact (mapOpt_eq_none_iff _ _).mpr h

/-- The hypothesis of `C10_roundtrip` on aggregation types cannot be dropped: the writer accepts the
unknown aggregation type, the reader does not. -/
theorem C10_unknown_aggregation :
    ∃ p pbs, pipelineProto p = some pbs ∧ newPipelineFromProto (some pbs) = none :=
  ⟨[{ type := 1, aggregation := 0 }], [{ type := 1, aggregation := some 0 }], by decide, by decide⟩

example : ∃ p pbs, pipelineProto p = some pbs ∧ p.length = 3 ∧ (∀ u ∈ p, u.type = 1 → u.aggregation ≠ 0) :=
  ⟨[{ type := 1, aggregation := 6 }, { type := 2, transformation := 2 },
    { type := 3, rollup := ⟨bs "n", [bs "b", bs "a"], 0⟩ }],
   [{ type := 1, aggregation := some 6 }, { type := 2, transformation := some 2 },
    { type := 3, rollup := some ⟨bs "n", [bs "b", bs "a"], []⟩ }], by decide +kernel, rfl, by decide⟩

/-! ### Sub-pipelines -/

/-- C10: of the pipeline that is the first `len` elements of its array, a sub-pipeline between two positions in it is the contiguous
part between them, whatever the array holds after it; and there is a panic exactly when the positions are not in order or not in
the array. -/
theorem C10_sub_pipeline (array : List α) (len : Nat) (hlen : len ≤ array.length) (i j : Int) :
    (0 ≤ i → i ≤ j → j ≤ len → ∃ q, subPipeline array i j = some q ∧ (q.length : Int) = j - i ∧
      ∀ k : Nat, (k : Int) < j - i → q[k]? = (array.take len)[i.toNat + k]?) ∧
    (subPipeline array i j = none ↔ ¬(0 ≤ i ∧ i ≤ j ∧ j ≤ array.length)) := by
  unfold subPipeline
  constructor
  · intro hi hij hj
    rw [if_pos ⟨hi, hij, by omega⟩]
    refine ⟨_, rfl, by simp; omega, fun k hk => ?_⟩
    rw [List.getElem?_drop, List.getElem?_take, List.getElem?_take, if_pos (by omega), if_pos (by omega)]
  · split <;> simp_all

/-- Consecutive sub-pipelines are the pipeline together. -/
theorem C10_sub_pipelines (array : List α) (len i : Nat) (hlen : len ≤ array.length) (hi : i ≤ len) :
    ∃ q r, subPipeline array 0 i = some q ∧ subPipeline array i len = some r ∧ q ++ r = array.take len := by
  refine ⟨_, _, if_pos ⟨by omega, by omega, by omega⟩, if_pos ⟨by omega, by omega, by omega⟩, ?_⟩
  simp only [Int.toNat_natCast, Int.toNat_zero, List.drop_zero]
  have : array.take i = (array.take len).take i := by rw [List.take_take, Nat.min_eq_left hi]
  rw [this, List.take_append_drop]

/-- A position after the end of the pipeline is not always refused: when its array is longer (as that of a list that was grown
by `append` is), the sub-pipeline has operations that are not in the pipeline. -/
theorem C10_sub_pipeline_past_end : ∃ (array : List OpUnion) (len : Nat) (q : Pipeline), len ≤ array.length ∧
    subPipeline array 0 (len + 1) = some q ∧ q ≠ array.take len ∧ q[len]? = some {} :=
  ⟨[{ type := 1, aggregation := 6 }, {}], 1, [{ type := 1, aggregation := 6 }, {}], by decide, by decide, by decide, by decide⟩

example : subPipeline [1, 2, 3, 4] 1 3 = some [2, 3] := by decide

end Verif.Pipe

namespace Verif.Applied
open Verif.Agg Verif.Spec Verif.Policy

/-! ### C11 applied pipelines -/

/-- An operation with only the payload of its kind set. -/
def Canonical (u : OpUnion) : Prop :=
  (u.type = 2 ∧ u.rollup = {}) ∨ (u.type = 3 ∧ u.transformation = 0)

/-- The operation without the payload of the other kind. -/
def strip (u : OpUnion) : OpUnion :=
  if u.type = 2 then { u with rollup := {} } else { u with transformation := 0 }

theorem toProto_dst (u : OpUnion) (d d' : PBOp) : u.toProto d = u.toProto d' := rfl

theorem fromProto_dst (pb : PBOp) (d d' : OpUnion) : d.fromProto pb = d'.fromProto pb := rfl

theorem pipelineToProto_eq (dst : List PBOp) (p : Pipeline) :
    pipelineToProto dst p = mapOpt (OpUnion.toProto {}) p :=
  convLoop_reuse OpUnion.toProto (OpUnion.toProto {}) {} (fun _ _ => rfl) dst p

theorem pipelineFromProto_eq (dst : Pipeline) (p : List PBOp) :
    pipelineFromProto dst p = mapOpt (OpUnion.fromProto {}) p :=
  convLoop_reuse OpUnion.fromProto (OpUnion.fromProto {}) {} (fun _ _ => rfl) dst p

theorem op_roundtrip (u : OpUnion) (pb : PBOp) (h : u.toProto {} = some pb) :
    OpUnion.fromProto {} pb = some (strip u) := by
  obtain ⟨ty, tr, r⟩ := u
  unfold OpUnion.toProto PBOp.reset Pipe.TransformationOpType Pipe.RollupOpType at h
  unfold strip
  split at h
  · next h2 =>
    cases hp : Pipe.transToProto tr with
    | none => simp [hp] at h
    | some p =>
      simp only [hp, Option.map_some, Option.some.injEq] at h
      subst h
      simp only at h2
      simp [OpUnion.fromProto, OpUnion.reset, Pipe.transRoundtrip _ _ hp, Pipe.TransformationOpType, h2]
  · next h2 =>
    split at h
    · next h3 =>
      simp only [Option.some.injEq] at h
      subst h
      simp only at h3
      simp [OpUnion.fromProto, OpUnion.reset, Pipe.RollupOpType, h3]
    · simp at h

theorem strip_canonical (u : OpUnion) (h : Canonical u) : strip u = u := by
  obtain ⟨ty, tr, r⟩ := u
  rcases h with ⟨h1, h2⟩ | ⟨h1, h2⟩ <;> simp_all [strip]

theorem map_strip (p : Pipeline) (h : ∀ u ∈ p, Canonical u) : p.map strip = p := by
  induction p with
  | nil => rfl
  | cons u p ih =>
    simp [strip_canonical u (h u (by simp)), ih (fun v hv => h v (by simp [hv]))]

/-- What equal applied operations agree on. -/
def SameOp (u v : OpUnion) : Prop :=
  u.type = v.type ∧ (u.type = 2 → u.transformation = v.transformation) ∧ (u.type = 3 → u.rollup = v.rollup)

theorem op_equal_iff (u v : OpUnion) : u.equal v = true ↔ SameOp u v := by
  obtain ⟨ty, tr, ⟨i, a⟩⟩ := u
  obtain ⟨ty', tr', ⟨i', a'⟩⟩ := v
  unfold OpUnion.equal SameOp RollupOp.equal Pipe.TransformationOpType Pipe.RollupOpType
  by_cases h : ty = ty'
  · subst h
    by_cases h2 : ty = 2
    · simp [h2]
    · by_cases h3 : ty = 3
      · simp [h3, and_comm]
      · simp [h2, h3]
  · simp [h]

/-- C11: equality of applied pipelines is position-wise. -/
theorem C11_equal_iff (p q : Pipeline) :
    pipelineEqual p q = true ↔ p.length = q.length ∧
      ∀ i (h₁ : i < p.length) (h₂ : i < q.length), SameOp p[i] q[i] := by
  unfold pipelineEqual
  rw [listEqualBy_iff]
  simp only [op_equal_iff]

theorem sameOp_strip (u : OpUnion) : SameOp u (strip u) := by
  unfold SameOp strip
  split <;> simp_all

/-- C11: the round trip through protobuf, with arbitrary previous contents of the written message and
of the pipeline read into, yields an equal pipeline – the very same one if no step carries the payload
of another kind. -/
theorem C11_roundtrip (dst : List PBOp) (old p : Pipeline) (pb : List PBOp)
    (h : pipelineToProto dst p = some pb) :
    ∃ q, pipelineFromProto old pb = some q ∧ pipelineEqual p q = true ∧
      ((∀ u ∈ p, Canonical u) → q = p) := by
  rw [pipelineToProto_eq] at h
  refine ⟨p.map strip, ?_, ?_, map_strip p⟩
  · rw [pipelineFromProto_eq]
    exact mapOpt_roundtrip _ _ _ p pb (fun u _ pb hpb => op_roundtrip u pb hpb) h
  · exact listEqualBy_map _ _ _ fun u _ => (op_equal_iff _ _).mpr (sameOp_strip u)

/-- C11: neither direction depends on the previous contents of its destination, and the message has
one entry per step carrying only the payload of its kind. -/
theorem C11_no_history (dst dst' : List PBOp) (old old' p : Pipeline) (pb : List PBOp) :
    pipelineToProto dst p = pipelineToProto dst' p ∧
    pipelineFromProto old pb = pipelineFromProto old' pb ∧
    (∀ q, pipelineToProto dst p = some q → q.length = p.length ∧ ∀ i (h : i < q.length),
      (q[i].type = 1 ∧ q[i].rollup = none) ∨ (q[i].type = 2 ∧ q[i].transformation = none)) ∧
    (∀ q, pipelineFromProto old pb = some q → q.length = pb.length ∧ ∀ u ∈ q, Canonical u) := by
  refine ⟨by rw [pipelineToProto_eq, pipelineToProto_eq],
    by rw [pipelineFromProto_eq, pipelineFromProto_eq], ?_, ?_⟩
  · intro q h
    rw [pipelineToProto_eq, mapOpt_eq_some_iff] at h
    have hl : p.length = q.length := by simpa using congrArg List.length h
    refine ⟨hl.symm, fun i hi => ?_⟩
    have hi' : i < p.length := by omega
    have := congrArg (fun l => l[i]?) h
    simp only [List.getElem?_map, List.getElem?_eq_getElem hi, List.getElem?_eq_getElem hi',
      Option.map_some, Option.some.injEq] at this
    unfold OpUnion.toProto PBOp.reset at this
    split at this
    · cases ht : Pipe.transToProto p[i].transformation with
      | none => simp [ht] at this
      | some t =>
        simp only [ht, Option.map_some, Option.some.injEq] at this
        rw [← this]; exact .inl ⟨rfl, rfl⟩
    · split at this
      · simp only [Option.some.injEq] at this
        rw [← this]; exact .inr ⟨rfl, rfl⟩
      · simp at this
  · intro q h
    rw [pipelineFromProto_eq, mapOpt_eq_some_iff] at h
    have hl : pb.length = q.length := by simpa using congrArg List.length h
    refine ⟨hl.symm, fun u hu => ?_⟩
    have : some u ∈ q.map some := List.mem_map.mpr ⟨u, hu, rfl⟩
    rw [← h] at this
    obtain ⟨b, _, hb⟩ := List.mem_map.mp this
    unfold OpUnion.fromProto OpUnion.reset at hb
    split at hb
    · split at hb
      · simp at hb
      · next t _ =>
        cases ht : Pipe.transFromProto t with
        | none => simp [ht] at hb
        | some t' =>
          simp only [ht, Option.map_some, Option.some.injEq] at hb
          rw [← hb]; exact .inl ⟨rfl, rfl⟩
    · split at hb
      · split at hb
        · simp at hb
        · simp only [Option.some.injEq] at hb
          rw [← hb]; exact .inr ⟨rfl, rfl⟩
      · simp at hb

/-- C11: conversion fails exactly if some step is of an unknown kind or transformation. -/
theorem C11_fails_iff (dst : List PBOp) (p : Pipeline) :
    pipelineToProto dst p = none ↔ ∃ u ∈ p,
      ¬((u.type = 2 ∧ (u.transformation = 1 ∨ u.transformation = 2)) ∨ u.type = 3) := by
  rw [pipelineToProto_eq, mapOpt_eq_none_iff]
  have key : ∀ u : OpUnion, u.toProto {} = none ↔
      ¬((u.type = 2 ∧ (u.transformation = 1 ∨ u.transformation = 2)) ∨ u.type = 3) := by
    intro u
    unfold OpUnion.toProto Pipe.TransformationOpType Pipe.RollupOpType
    by_cases h2 : u.type = 2
    · simp only [h2, if_true, Option.map_eq_none_iff]
      unfold Pipe.transToProto
      by_cases ha : u.transformation = 1
      · simp [ha]
      · by_cases hb : u.transformation = 2
        · simp [hb]
        · simp [ha, hb]
    · by_cases h3 : u.type = 3
      · simp [h3]
      · simp [h2, h3]
  simp only [key]

theorem C11_clone (p : Pipeline) : pipelineEqual p (pipelineClone p) = true := by
  refine listEqualBy_map _ _ _ fun u _ => (op_equal_iff _ _).mpr ?_
  unfold SameOp OpUnion.clone Pipe.TransformationOpType Pipe.RollupOpType
  split
  · next h => simp [h]
  · split
    · next h => simp [h]
    · simp_all

example : ∃ dst p pb, pipelineToProto dst p = some pb ∧ dst.length = 3 ∧ p.length = 2 ∧
    ∀ u ∈ p, Canonical u :=
  ⟨[{ type := 2, rollup := some ⟨bs "stale", 9⟩ }, { type := 1, transformation := some 1 }, {}],
   [{ type := 2, transformation := 2 }, { type := 3, rollup := ⟨bs "id", 6⟩ }],
   [{ type := 1, transformation := some 2 }, { type := 2, rollup := some ⟨bs "id", 6⟩ }],
   by decide, rfl, rfl, by simp [Canonical]⟩

end Verif.Applied
