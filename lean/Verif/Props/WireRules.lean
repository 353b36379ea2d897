import Verif.Props.WireUnknown
import Verif.Props.RuleSetProto
import Verif.Props.Store
import Verif.Lemmas.ProtoStream
import Verif.Model.StoreBytes
import Verif.Spec.StoredRules
/- C79: rules and namespaces survive being stored as bytes. -/
namespace Verif.Wire
open Verif.Policy Verif.Rules Verif.RuleSet Verif.Meta Verif.PIter

/-! ### Messages made from rule sets -/

theorem typesProto_ok : ∀ {ts : List Int} {is : List Int}, Agg.typesProto ts = some is → TypesOK is
  | [], is, h => by simp [Agg.typesProto] at h; subst h; simp [TypesOK]
  | t :: ts, is, h => by
    simp only [Agg.typesProto, Agg.typeProto] at h
    split at h
    · cases h
    · rename_i p hp
      split at hp
      · rename_i ht
        cases hq : Agg.typesProto ts with
        | none => simp [hq] at h
        | some js =>
          simp only [hq, Option.map_some, Option.some.injEq, Option.some.injEq] at h hp
          subst h hp
          intro v hv
          rcases List.mem_cons.mp hv with rfl | hv
          · exact ⟨ht.1, by unfold I32; omega⟩
          · exact typesProto_ok hq v hv
      · cases hp

theorem storagePolicies_ok {x : XTime} : ∀ {ps : List StoragePolicy} {pbs : List (Option PBStoragePolicy)},
    (∀ p ∈ ps, Spec.Msg.PolicyRange x p) → storagePoliciesProto x ps = some pbs → AllSome StoragePolicyOK pbs
  | [], pbs, _, h => by simp [storagePoliciesProto] at h; subst h; simp [AllSome]
  | p :: ps, pbs, hp, h => by
    simp only [storagePoliciesProto] at h
    cases h1 : p.toProto x {} with
    | none => simp [h1] at h
    | some q =>
      cases h2 : storagePoliciesProto x ps with
      | none => simp [h1, h2] at h
      | some qs =>
        simp only [h1, h2, Option.some.injEq] at h
        subst h
        intro o ho
        rcases List.mem_cons.mp ho with rfl | ho
        · exact ⟨q, rfl, policy_range (hp p (by simp)) h1⟩
        · exact storagePolicies_ok (fun p hp' => hp p (by simp [hp'])) h2 o ho

theorem opProto_ok {u : Pipe.OpUnion} {o : Pipe.PBOp} (h : u.proto = some o) : PipelineOpOK o := by
  unfold Pipe.OpUnion.proto at h
  split at h
  · unfold Agg.typeProto at h
    split at h
    · rename_i ht
      simp only [Option.map_some, Option.some.injEq] at h
      subst h
      refine ⟨by simp [I32], ?_, by simp, by simp⟩
      intro t ht'
      cases ht'
      unfold I32; omega
    · cases h
  split at h
  · unfold Pipe.transToProto at h
    split at h
    · cases h
      refine ⟨by simp [I32], by simp, by simp [I32], by simp⟩
    split at h
    · cases h
      refine ⟨by simp [I32], by simp, by simp [I32], by simp⟩
    · cases h
  split at h
  · unfold Pipe.RollupOp.proto at h
    split at h
    · cases h
    split at h
    · cases h
    · rename_i is his
      cases h
      refine ⟨by simp [I32], by simp, by simp, ?_⟩
      intro r hr
      cases hr
      exact typesProto_ok his
  · cases h

theorem pipelineProto_ok : ∀ {p : Pipe.Pipeline} {os : List Pipe.PBOp}, Pipe.pipelineProto p = some os → ∀ o ∈ os, PipelineOpOK o
  | [], os, h => by simp [Pipe.pipelineProto] at h; subst h; simp
  | u :: us, os, h => by
    simp only [Pipe.pipelineProto] at h
    cases h1 : u.proto with
    | none => simp [h1] at h
    | some q =>
      cases h2 : Pipe.pipelineProto us with
      | none => simp [h1, h2] at h
      | some qs =>
        simp only [h1, h2, Option.some.injEq] at h
        subst h
        intro o ho
        rcases List.mem_cons.mp ho with rfl | ho
        · exact opProto_ok h1
        · exact pipelineProto_ok h2 o ho

theorem allSome_map {p : A → Prop} {l : List A} (h : ∀ a ∈ l, p a) : AllSome p (l.map some) := by
  intro o ho
  obtain ⟨a, ha, rfl⟩ := List.mem_map.mp ho
  exact ⟨a, rfl, h a ha⟩

theorem mappingProto_ok {x : XTime} {s : MappingSnapshot} {pb : PBMappingSnapshot} (hc : Spec.Msg.Int64 s.cutoverNanos)
    (hu : Spec.Msg.Int64 s.lastUpdatedAtNanos) (hp : ∀ p ∈ s.storagePolicies, Spec.Msg.PolicyRange x p)
    (h : mappingSnapshotProto x s = some pb) : MappingSnapshotOK pb := by
  unfold mappingSnapshotProto at h
  split at h
  · cases h
  split at h
  · cases h
  rename_i is his
  split at h
  · cases h
  rename_i sps hsps
  cases h
  exact ⟨hc, (by intro o ho; cases ho), hu, typesProto_ok his, storagePolicies_ok hp hsps, dropToProto_range _⟩

theorem targetProto_ok {x : XTime} {t : RollupTarget} {pb : PBRollupTargetV2} (hp : ∀ p ∈ t.storagePolicies, Spec.Msg.PolicyRange x p)
    (h : rollupTargetProto x t = some pb) : TargetOK pb := by
  unfold rollupTargetProto at h
  split at h
  · cases h
  rename_i os hos
  split at h
  · cases h
  rename_i sps hsps
  cases h
  exact ⟨fun p hp => by cases hp; exact pipelineProto_ok hos, storagePolicies_ok hp hsps⟩

theorem rollupProto_ok {x : XTime} {s : RollupSnapshot} {pb : PBRollupSnapshot} (hc : Spec.Msg.Int64 s.cutoverNanos)
    (hu : Spec.Msg.Int64 s.lastUpdatedAtNanos) (hp : ∀ t ∈ s.targets, ∀ p ∈ t.storagePolicies, Spec.Msg.PolicyRange x p)
    (h : rollupSnapshotProto x s = some pb) : RollupSnapshotOK pb := by
  unfold rollupSnapshotProto at h
  split at h
  · cases h
  rename_i ts hts
  cases h
  refine ⟨hc, (by intro o ho; cases ho), hu, allSome_map fun t ht => ?_⟩
  obtain ⟨a, ha, e⟩ := mapM'_some_mem hts t ht
  exact targetProto_ok (hp a ha) e

theorem ruleProto_ok {S P : Type} {f : S → Option P} {p : P → Prop} {r : Rule S} {pb : PBRule P}
    (hf : ∀ s ∈ r.snapshots, ∀ q, f s = some q → p q) (h : ruleProto f r = some pb) : AllSome p pb.snapshots := by
  unfold ruleProto at h
  split at h
  · cases h
  rename_i ss hss
  cases h
  refine allSome_map fun q hq => ?_
  obtain ⟨a, ha, e⟩ := mapM'_some_mem hss q hq
  exact hf a ha q e

theorem mapProto_ok {A B : Type} {f : A → Option B} {p : B → Prop} {l : List A} {l' : List B}
    (hf : ∀ a ∈ l, ∀ b, f a = some b → p b) (h : mapM' f l = some l') : AllSome p (l'.map some) :=
  allSome_map fun b hb => by
    obtain ⟨a, ha, e⟩ := mapM'_some_mem h b hb
    exact hf a ha b e

theorem proto_ok {x : XTime} {rs : RuleSet} {pb : PBRuleSet} (hr : Spec.StoredRules.InRange x rs) (h : rs.proto x = some pb) :
    RuleSetOK pb := by
  unfold RuleSet.proto at h
  split at h
  · cases h
  rename_i ms hms
  split at h
  · cases h
  rename_i rr hrr
  cases h
  exact ⟨hr.created, hr.updated, hr.cutover,
    mapProto_ok (fun r hr' q hq => ruleProto_ok (fun s hs t ht =>
      mappingProto_ok (hr.mapping r hr' s hs).1 (hr.mapping r hr' s hs).2.1 (hr.mapping r hr' s hs).2.2 ht) hq) hms,
    mapProto_ok (fun r hr' q hq => ruleProto_ok (fun s hs t ht =>
      rollupProto_ok (hr.rollup r hr' s hs).1 (hr.rollup r hr' s hs).2.1 (hr.rollup r hr' s hs).2.2 ht) hq) hrr⟩

theorem nssProto_ok {nss : NS.Namespaces} {pb : NS.PBNamespaces} (hr : Spec.StoredRules.NamespacesInRange nss)
    (h : nss.proto = some pb) : NamespacesOK pb := by
  unfold NS.Namespaces.proto at h
  cases hm : mapM' NS.Namespace.proto nss.namespaces with
  | none => simp [hm] at h
  | some l =>
    simp only [hm, Option.map_some, Option.some.injEq] at h
    subst h
    refine mapProto_ok (fun n hn q hq => ?_) hm
    unfold NS.Namespace.proto at hq
    cases hs : n.snapshots with
    | none => simp [hs] at hq
    | some ss =>
      simp only [hs, Option.some.injEq] at hq
      subst hq
      intro o ho
      obtain ⟨s, hs', rfl⟩ := List.mem_map.mp ho
      exact ⟨s.proto, rfl, toInt32_range _, hr n hn s (by simp [NS.Namespace.snaps, hs, hs'])⟩

/-! ### C79 -/

/-- C79: a stored rule set without nil elements and with numbers in their ranges, none of its aggregation types negative, comes back
from its bytes, legacy fields included. -/
theorem C79_message (m : PBRuleSet) (h : RuleSetOK m) (hl : (ruleSet.marshal m).length < 9223372036854775808) :
    ruleSet.unmarshal (ruleSet.marshal m) ruleSet.zero = .ok m := ruleSet_rt m h hl

/-- C79: the same for stored namespaces. -/
theorem C79_namespaces_message (m : NS.PBNamespaces) (h : NamespacesOK m)
    (hl : (namespacesMsg.marshal m).length < 9223372036854775808) :
    namespacesMsg.unmarshal (namespacesMsg.marshal m) namespacesMsg.zero = .ok m := namespacesMsg_rt m h hl

/-- C79: every rule set that has a stored form comes back from the bytes of that form as it does from the form itself, which
is what C51 is about. -/
theorem C79_ruleSet {x : XTime} (key : Bytes) (v : Int) (rs : RuleSet) (hr : Spec.StoredRules.InRange x rs)
    (hl : ∀ pb, rs.proto x = some pb → (ruleSet.marshal pb).length < 9223372036854775808) :
    ((rs.proto x).bind fun pb => match ruleSet.unmarshal (ruleSet.marshal pb) ruleSet.zero with
      | .ok pb' => newRuleSetFromProto x key v (some pb')
      | _ => none) = reload x key v rs := by
  unfold reload
  cases h : rs.proto x with
  | none => rfl
  | some pb =>
    simp only [Option.bind_some]
    rw [C79_message pb (proto_ok hr h) (hl pb h)]

/-- C79: namespaces that can be stored come back from the bytes the same. -/
theorem C79_namespaces (v : Int) (nss : NS.Namespaces) (hs : nss.Storable) (hr : Spec.StoredRules.NamespacesInRange nss)
    (hl : ∀ pb, nss.proto = some pb → (namespacesMsg.marshal pb).length < 9223372036854775808) :
    (nss.proto.bind fun pb => match namespacesMsg.unmarshal (namespacesMsg.marshal pb) namespacesMsg.zero with
      | .ok pb' => NS.newNamespaces v (some pb')
      | _ => none) = some { nss with version := v } := by
  rw [← NS.C55_roundtrip hs v]
  cases h : nss.proto with
  | none => rfl
  | some pb =>
    simp only [Option.bind_some]
    rw [C79_namespaces_message pb (nssProto_ok hr h) (hl pb h)]

/-- C79: reading stored bytes without a number from 2^62 to 2^63, whatever they are, does not panic. -/
theorem C79_no_panic (d : Bytes) (hq : Quiet d) (hl : d.length < big) (m : PBRuleSet) (n : NS.PBNamespaces) :
    ruleSet.unmarshal d m ≠ .panic ∧ namespacesMsg.unmarshal d n ≠ .panic :=
  ⟨ruleSet_calm d m hq hl, namespacesMsg_calm d n hq hl⟩

/-- C79: two rule sets with a stored form that store the same bytes have the same stored form. -/
theorem C79_injective {x : XTime} (rs rs' : RuleSet) (pb pb' : PBRuleSet) (hr : Spec.StoredRules.InRange x rs)
    (hr' : Spec.StoredRules.InRange x rs') (h : rs.proto x = some pb) (h' : rs'.proto x = some pb')
    (hl : (ruleSet.marshal pb).length < 9223372036854775808) (e : ruleSet.marshal pb = ruleSet.marshal pb') : pb = pb' := by
  have h1 := C79_message pb (proto_ok hr h) hl
  have h2 := C79_message pb' (proto_ok hr' h') (e ▸ hl)
  rw [e, h2] at h1
  exact (Out.ok.inj h1).symm

/-- Outside of C79, as `Types.Proto` does not make negative types: a negative aggregation type is written as one byte with its
high bit set, and what follows is read as a part of it. -/
theorem C79_negative_type : mappingRuleSnapshot.marshal { aggregationTypes := [-1] } = [66, 1, 255] ∧
    mappingRuleSnapshot.unmarshal [66, 1, 255] mappingRuleSnapshot.zero = .err := by
  refine ⟨rfl, rfl⟩

end Verif.Wire
