import Verif.Lemmas.RuleProto
import Verif.Props.RuleSetEdits
/- C51: storing a rule set and reading it back. -/
namespace Verif.RuleSet
open Verif.Agg Verif.Policy Verif.Meta Verif.Rules Verif.Active Verif.Spec.Rules Verif.TagsFlt Verif.Flt

/-! ### Specification -/

/-- The mapping snapshots a reader accepts. -/
structure MappingReadable (x : XTime) (s : MappingSnapshot) : Prop where
  types : s.aggID.types.isSome = true
  units : ∀ p ∈ s.storagePolicies, KnownUnit x p
  empty : s.storagePolicies = [] → s.drop ≠ 0 ∨ s.tombstoned = true
  nonempty : s.storagePolicies ≠ [] → s.drop = 0
  filter : filterValid s.rawFilter = true

/-- The pipeline steps a reader accepts. -/
def OpReadable (u : Pipe.OpUnion) : Prop :=
  (u.type = 1 ∧ 1 ≤ u.aggregation ∧ u.aggregation ≤ 22) ∨
  (u.type = 2 ∧ (u.transformation = 1 ∨ u.transformation = 2)) ∨
  (u.type = 3 ∧ u.rollup.aggID.types.isSome = true)

structure TargetReadable (x : XTime) (t : RollupTarget) : Prop where
  ops : ∀ u ∈ t.pipeline, OpReadable u
  units : ∀ p ∈ t.storagePolicies, KnownUnit x p

/-- The rollup snapshots a reader accepts. -/
structure RollupReadable (x : XTime) (s : RollupSnapshot) : Prop where
  targets : ∀ t ∈ s.targets, TargetReadable x t
  empty : s.targets = [] → s.tombstoned = true
  filter : filterValid s.rawFilter = true

structure Readable (x : XTime) (rs : RuleSet) : Prop where
  mapping : ∀ r ∈ rs.mappingRules, ∀ s ∈ r.snapshots, MappingReadable x s
  rollup : ∀ r ∈ rs.rollupRules, ∀ s ∈ r.snapshots, RollupReadable x s

/-- A mapping snapshot as a reader gets it: the filter is built from its text, and without storage policies there is no
aggregation either; everything else is as written. -/
def asReadM (key : Bytes) (s : MappingSnapshot) : MappingSnapshot :=
  { s with filter := compileFilter key s.rawFilter
           aggID := if s.storagePolicies = [] then 0 else s.aggID }

def asReadT (t : RollupTarget) : RollupTarget := { t with pipeline := t.pipeline.map Pipe.readBack }

/-- A rollup snapshot as a reader gets it: the filter is built from its text, every pipeline step has the payload of its
kind only, with sorted tags. -/
def asReadR (key : Bytes) (s : RollupSnapshot) : RollupSnapshot :=
  { s with filter := compileFilter key s.rawFilter, targets := s.targets.map asReadT }

def asReadRule (f : S → S) (r : Rule S) : Rule S := { r with snapshots := r.snapshots.map f }

/-- The rule set as a reader gets it, with the version of the stored value. -/
def asRead (key : Bytes) (version : Int) (rs : RuleSet) : RuleSet :=
  { rs with version := version
            mappingRules := rs.mappingRules.map (asReadRule (asReadM key))
            rollupRules := rs.rollupRules.map (asReadRule (asReadR key)) }

/-- The drop policies are known ones (a `DropPolicy` outside these is cut to 32 bits when stored). -/
def KnownDrops (rs : RuleSet) : Prop := ∀ r ∈ rs.mappingRules, ∀ s ∈ r.snapshots, s.drop ≤ 2

/-- Writing and reading back. -/
def reload (x : XTime) (key : Bytes) (version : Int) (rs : RuleSet) : Option RuleSet :=
  (rs.proto x).bind fun pb => newRuleSetFromProto x key version (some pb)

/-! ### Snapshots -/

theorem mapping_reload {x : XTime} (hx : UnitsOK x) (key : Bytes) (s s' : MappingSnapshot) (hd : s.drop ≤ 2) :
    ((mappingSnapshotProto x s).bind fun pb => newMappingSnapshotFromProto x key (some pb)) = some s' ↔
      MappingReadable x s ∧ s' = asReadM key s := by
  have hmr : MappingReadable x s ↔ (s.aggID.types.isSome = true ∧ (∀ p ∈ s.storagePolicies, KnownUnit x p) ∧
      (s.storagePolicies = [] → s.drop ≠ 0 ∨ s.tombstoned = true) ∧ (s.storagePolicies ≠ [] → s.drop = 0) ∧
      filterValid s.rawFilter = true) :=
    ⟨fun ⟨a, b, c, d, e⟩ => ⟨a, b, c, d, e⟩, fun ⟨a, b, c, d, e⟩ => ⟨a, b, c, d, e⟩⟩
  rw [hmr]
  unfold mappingSnapshotProto
  cases ht : s.aggID.types with
  | none => simp
  | some ts =>
    obtain ⟨h1, h2⟩ := aggID_roundtrip ht
    have hunits := sps_proto x s.storagePolicies
    simp only [h1]
    cases hp : storagePoliciesProto x s.storagePolicies with
    | none =>
      rw [hp] at hunits
      simp only [Option.bind_none, reduceCtorEq, false_iff]
      rintro ⟨⟨_, hu, _⟩, _⟩
      simpa using hunits.mpr hu
    | some pbs =>
      rw [hp] at hunits
      have hu := hunits.mp rfl
      have hlen := sps_proto_length hp
      obtain ⟨hd1, hd2⟩ := drop_roundtrip s.drop hd
      have hread := C08_list_roundtrip x s.storagePolicies pbs (fun p _ => hx.toUnit _) hp
      have hdrop : pbDropPolicy (dropToProto s.drop) = some s.drop := by
        unfold pbDropPolicy
        by_cases h0 : s.drop = 0
        · have : dropToProto s.drop = 0 := hd2.mpr h0
          rw [if_neg (by simp [this]), h0]; rfl
        · have : dropToProto s.drop ≠ 0 := fun h => h0 (hd2.mp h)
          rw [if_pos this, hd1]
          have : s.drop = 1 ∨ s.drop = 2 := by omega
          rcases this with h | h <;> rw [h] <;> rfl
      have hpol : pbMappingPolicies x
          { name := s.name, tombstoned := s.tombstoned, cutoverNanos := s.cutoverNanos, filter := s.rawFilter,
            lastUpdatedAtNanos := s.lastUpdatedAtNanos, lastUpdatedBy := s.lastUpdatedBy,
            aggregationTypes := ts, storagePolicies := pbs, dropPolicy := dropToProto s.drop } =
          some (if s.storagePolicies = [] then 0 else s.aggID, s.storagePolicies) := by
        unfold pbMappingPolicies
        simp only [List.length_nil, gt_iff_lt, Nat.lt_irrefl, if_false]
        by_cases he : s.storagePolicies = []
        · have : pbs.length = 0 := by rw [hlen, he]; rfl
          rw [if_neg (by omega), if_pos he, he]; rfl
        · have : 0 < pbs.length := by rw [hlen]; exact List.length_pos_iff.mpr he
          rw [if_pos this, if_neg he, h2, hread]
      simp only [Option.bind_some, newMappingSnapshotFromProto, hpol, hdrop]
      have hf := compileFilter_isSome key s.rawFilter
      have hc1 : (!s.tombstoned && s.storagePolicies.length == 0 && s.drop == DropNone) = true ↔
          ¬ (s.storagePolicies = [] → s.drop ≠ 0 ∨ s.tombstoned = true) := by
        have : (s.drop == DropNone) = true ↔ s.drop = 0 := beq_iff_eq
        simp only [Bool.and_eq_true, this]
        cases s.tombstoned <;> simp [List.length_eq_zero_iff]
      have hc2 : (decide (s.storagePolicies.length > 0) && !(s.drop == DropNone)) = true ↔
          ¬ (s.storagePolicies ≠ [] → s.drop = 0) := by
        have : (s.drop == DropNone) = true ↔ s.drop = 0 := beq_iff_eq
        simp only [Bool.and_eq_true, Bool.not_eq_true', ← Bool.not_eq_true, this]
        simp [List.length_pos_iff]
      by_cases k1 : (s.storagePolicies = [] → s.drop ≠ 0 ∨ s.tombstoned = true)
      · rw [if_neg (fun h => hc1.mp h k1)]
        by_cases k2 : (s.storagePolicies ≠ [] → s.drop = 0)
        · rw [if_neg (fun h => hc2.mp h k2)]
          cases hc : compileFilter key s.rawFilter with
          | none =>
            rw [hc] at hf
            simp only [reduceCtorEq, false_iff]
            rintro ⟨⟨_, _, _, _, k⟩, _⟩
            rw [k] at hf
            cases hf
          | some f =>
            rw [hc] at hf
            have : asReadM key s = { s with filter := some f, aggID := if s.storagePolicies = [] then 0 else s.aggID } := by
              simp only [asReadM, hc]
            rw [this, hd1]
            simp only [Option.some.injEq]
            exact ⟨fun h => ⟨⟨rfl, hu, k1, k2, hf.symm⟩, h.symm⟩, fun h => h.2.symm⟩
        · rw [if_pos (hc2.mpr k2)]
          simp only [reduceCtorEq, false_iff]
          exact fun h => k2 h.1.2.2.2.1
      · rw [if_pos (hc1.mpr k1)]
        simp only [reduceCtorEq, false_iff]
        exact fun h => k1 h.1.2.2.1

theorem op_reload (u v : Pipe.OpUnion) :
    (u.proto.bind Pipe.newOpUnionFromProto) = some v ↔ OpReadable u ∧ v = Pipe.readBack u := by
  cases hp : u.proto with
  | none =>
    simp only [Option.bind_none, reduceCtorEq, false_iff]
    rintro ⟨h, _⟩
    have := (Pipe.C10_proto_succeeds_iff [u]).mpr (by
      intro w hw
      simp only [List.mem_singleton] at hw
      subst hw
      rcases h with ⟨h1, h2, h3⟩ | h | h
      · exact Or.inl ⟨h1, by omega, h3⟩
      · exact Or.inr (Or.inl h)
      · exact Or.inr (Or.inr h))
    simp [Pipe.pipelineProto, hp] at this
  | some pb =>
    have hs := (Pipe.C10_proto_succeeds_iff [u]).mp (by simp [Pipe.pipelineProto, hp]) u (by simp)
    simp only [Option.bind_some]
    by_cases h0 : u.type = 1 ∧ u.aggregation = 0
    · have hn : Pipe.newOpUnionFromProto pb = none := by
        unfold Pipe.OpUnion.proto Pipe.AggregationOpType at hp
        rw [if_pos h0.1, h0.2] at hp
        have hp' : some ({ type := 1, aggregation := some 0 } : Pipe.PBOp) = some pb := hp
        cases hp'
        rfl
      rw [hn]
      simp only [reduceCtorEq, false_iff]
      rintro ⟨h, _⟩
      rcases h with h | h | h <;> omega
    · rw [Pipe.op_roundtrip u pb hp (fun h1 h2 => h0 ⟨h1, h2⟩)]
      simp only [Option.some.injEq]
      refine ⟨fun h => ⟨?_, h.symm⟩, fun h => h.2.symm⟩
      rcases hs with h | h | h
      · exact Or.inl ⟨h.1, by have := fun e => h0 ⟨h.1, e⟩; omega, h.2.2⟩
      · exact Or.inr (Or.inl h)
      · exact Or.inr (Or.inr h)

theorem mapM'_bind {α β γ : Type} (f : α → Option β) (g : β → Option γ) : ∀ l : List α,
    (mapM' f l).bind (fun bs => mapM' g bs) = mapM' (fun a => (f a).bind g) l := by
  intro l
  have := mapM'_compose f (fun b => b.bind g) l
  simp only [Option.bind_some] at this
  rw [← this]
  congr 1
  funext bs
  induction bs with
  | nil => rfl
  | cons b bs ih => simp only [mapM', List.map_cons, ih, Option.bind_some]

theorem pipeline_reload (p q : Pipe.Pipeline) :
    ((Pipe.pipelineProto p).bind fun pb => Pipe.newPipelineFromProto (some pb)) = some q ↔
      (∀ u ∈ p, OpReadable u) ∧ q = p.map Pipe.readBack := by
  have h1 : Pipe.pipelineProto p = mapM' Pipe.OpUnion.proto p := by rw [mapM'_eq, Pipe.pipelineProto_eq]
  have h2 : ∀ pb, Pipe.newPipelineFromProto (some pb) = mapM' Pipe.newOpUnionFromProto pb := by
    intro pb; rw [mapM'_eq]; exact Pipe.pipelineFromProto_eq pb
  simp only [h1, h2]
  rw [mapM'_bind, mapM'_char _ OpReadable Pipe.readBack p q (fun u _ v => op_reload u v)]

theorem target_reload {x : XTime} (hx : UnitsOK x) (t t' : RollupTarget) :
    ((rollupTargetProto x t).bind fun pb => newRollupTargetFromV2Proto x (some pb)) = some t' ↔
      TargetReadable x t ∧ t' = asReadT t := by
  have hmr : TargetReadable x t ↔ (∀ u ∈ t.pipeline, OpReadable u) ∧ ∀ p ∈ t.storagePolicies, KnownUnit x p :=
    ⟨fun ⟨a, b⟩ => ⟨a, b⟩, fun ⟨a, b⟩ => ⟨a, b⟩⟩
  rw [hmr]
  have hpl := pipeline_reload t.pipeline
  have hunits := sps_proto x t.storagePolicies
  unfold rollupTargetProto
  cases hp : Pipe.pipelineProto t.pipeline with
  | none =>
    simp only [hp, Option.bind_none, reduceCtorEq, false_iff] at hpl
    simp only [Option.bind_none, reduceCtorEq, false_iff]
    exact fun h => hpl _ ⟨h.1.1, rfl⟩
  | some pb =>
    simp only [hp, Option.bind_some] at hpl
    cases hs : storagePoliciesProto x t.storagePolicies with
    | none =>
      rw [hs] at hunits
      simp only [Option.bind_none, reduceCtorEq, false_iff]
      exact fun h => by simpa using hunits.mpr h.1.2
    | some pbs =>
      rw [hs] at hunits
      have hread := C08_list_roundtrip x t.storagePolicies pbs (fun p _ => hx.toUnit _) hs
      simp only [Option.bind_some, newRollupTargetFromV2Proto, hread]
      cases hq : Pipe.newPipelineFromProto (some pb) with
      | none =>
        simp only [hq, reduceCtorEq, false_iff] at hpl
        simp only [reduceCtorEq, false_iff]
        exact fun h => hpl _ ⟨h.1.1, rfl⟩
      | some q =>
        obtain ⟨h1, h2⟩ := (hpl q).mp hq
        subst h2
        simp only [Option.some.injEq]
        exact ⟨fun h => ⟨⟨h1, hunits.mp rfl⟩, h.symm⟩, fun h => h.2.symm⟩

theorem rollup_reload {x : XTime} (hx : UnitsOK x) (key : Bytes) (s s' : RollupSnapshot) :
    ((rollupSnapshotProto x s).bind fun pb => newRollupSnapshotFromProto x key (some pb)) = some s' ↔
      RollupReadable x s ∧ s' = asReadR key s := by
  have hmr : RollupReadable x s ↔ (∀ t ∈ s.targets, TargetReadable x t) ∧ (s.targets = [] → s.tombstoned = true) ∧
      filterValid s.rawFilter = true :=
    ⟨fun ⟨a, b, c⟩ => ⟨a, b, c⟩, fun ⟨a, b, c⟩ => ⟨a, b, c⟩⟩
  rw [hmr]
  have hts := mapM'_char (fun t => (rollupTargetProto x t).bind fun pb => newRollupTargetFromV2Proto x (some pb))
    (TargetReadable x) asReadT s.targets
  have hts := fun l' => hts l' (fun t _ t' => target_reload hx t t')
  simp only [← mapM'_compose] at hts
  unfold rollupSnapshotProto
  have hf := compileFilter_isSome key s.rawFilter
  cases hp : mapM' (rollupTargetProto x) s.targets with
  | none =>
    simp only [hp, Option.bind_none, reduceCtorEq, false_iff] at hts
    simp only [Option.bind_none, reduceCtorEq, false_iff]
    exact fun h => hts _ ⟨h.1.1, rfl⟩
  | some ts =>
    simp only [hp, Option.bind_some] at hts
    have hlen := mapM'_length hp
    simp only [Option.bind_some, newRollupSnapshotFromProto, pbRollupTargets, List.length_nil, gt_iff_lt, Nat.lt_irrefl,
      if_false, List.length_map]
    by_cases he : s.targets = []
    · have h0 : ts = [] := List.length_eq_zero_iff.mp (by rw [hlen, he]; rfl)
      subst h0
      simp only [List.length_nil, Nat.lt_irrefl, if_false, he]
      cases htb : s.tombstoned with
      | false => simp
      | true =>
        cases hc : compileFilter key s.rawFilter with
        | none =>
          rw [hc] at hf
          simp [← hf]
        | some f =>
          rw [hc] at hf
          have : asReadR key s = { s with filter := some f } := by
            simp only [asReadR, hc, he, List.map_nil]
          rw [this]
          simp only [Bool.not_true, Bool.false_eq_true, if_false, Option.some.injEq]
          rw [← hf]
          simp only [List.not_mem_nil, false_implies, implies_true, Option.isSome_some, and_self, true_and]
          rw [← htb, ← he]
          exact eq_comm
    · have h0 : 0 < ts.length := by rw [hlen]; exact List.length_pos_iff.mpr he
      rw [if_pos h0]
      cases hq : mapM' (newRollupTargetFromV2Proto x) (ts.map some) with
      | none =>
        simp only [hq, reduceCtorEq, false_iff] at hts
        simp only [reduceCtorEq, false_iff]
        exact fun h => hts _ ⟨h.1.1, rfl⟩
      | some q =>
        obtain ⟨h1, h2⟩ := (hts q).mp hq
        subst h2
        cases hc : compileFilter key s.rawFilter with
        | none =>
          rw [hc] at hf
          simp [← hf]
        | some f =>
          rw [hc] at hf
          have : asReadR key s = { s with filter := some f, targets := s.targets.map asReadT } := by
            simp only [asReadR, hc]
          rw [this]
          simp only [Option.some.injEq]
          exact ⟨fun h => ⟨⟨h1, fun h => absurd h he, hf.symm⟩, h.symm⟩, fun h => h.2.symm⟩

theorem rule_reload {S P : Type} (f : S → Option P) (g : Option P → Option S) (R : S → Prop) (n : S → S) (r r' : Rule S)
    (h : ∀ s ∈ r.snapshots, ∀ s', ((f s).bind fun p => g (some p)) = some s' ↔ R s ∧ s' = n s) :
    ((ruleProto f r).bind fun pb => newRuleFromProto g (some pb)) = some r' ↔
      (∀ s ∈ r.snapshots, R s) ∧ r' = asReadRule n r := by
  have hl := fun l' => mapM'_char (fun s => (f s).bind fun p => g (some p)) R n r.snapshots l' h
  simp only [← mapM'_compose] at hl
  unfold ruleProto
  cases hp : mapM' f r.snapshots with
  | none =>
    simp only [hp, Option.bind_none, reduceCtorEq, false_iff] at hl
    simp only [Option.bind_none, reduceCtorEq, false_iff]
    exact fun h => hl _ ⟨h.1, rfl⟩
  | some ps =>
    simp only [hp, Option.bind_some] at hl
    simp only [Option.bind_some, newRuleFromProto]
    cases hq : mapM' g (ps.map some) with
    | none =>
      simp only [hq, reduceCtorEq, false_iff] at hl
      simp only [reduceCtorEq, false_iff]
      exact fun h => hl _ ⟨h.1, rfl⟩
    | some q =>
      obtain ⟨h1, h2⟩ := (hl q).mp hq
      subst h2
      simp only [Option.some.injEq]
      exact ⟨fun h => ⟨h1, h.symm⟩, fun h => h.2.symm⟩

/-! ### C51 -/

/-- C51, part: a rule set can be written and read back exactly when every snapshot is one the reader accepts, and then
comes back with the same metadata, the same rules in the same order with the same histories, filters built from their
texts.  Missing for the full claim: a mapping snapshot without storage policies loses its aggregation types
(`C51_violated`). -/
theorem C51_reload_partial {x : XTime} (hx : UnitsOK x) (key : Bytes) (version : Int) (rs rs' : RuleSet)
    (hd : KnownDrops rs) :
    reload x key version rs = some rs' ↔ Readable x rs ∧ rs' = asRead key version rs := by
  have hmr : Readable x rs ↔ (∀ r ∈ rs.mappingRules, ∀ s ∈ r.snapshots, MappingReadable x s) ∧
      ∀ r ∈ rs.rollupRules, ∀ s ∈ r.snapshots, RollupReadable x s :=
    ⟨fun ⟨a, b⟩ => ⟨a, b⟩, fun ⟨a, b⟩ => ⟨a, b⟩⟩
  rw [hmr]
  have hm := fun l' => mapM'_char (fun r => (ruleProto (mappingSnapshotProto x) r).bind fun pb =>
      newRuleFromProto (newMappingSnapshotFromProto x key) (some pb))
    (fun r => ∀ s ∈ r.snapshots, MappingReadable x s) (asReadRule (asReadM key)) rs.mappingRules l'
    (fun r hr r' => rule_reload _ _ _ _ r r' (fun s hs s' => mapping_reload hx key s s' (hd r hr s hs)))
  have hr := fun l' => mapM'_char (fun r => (ruleProto (rollupSnapshotProto x) r).bind fun pb =>
      newRuleFromProto (newRollupSnapshotFromProto x key) (some pb))
    (fun r => ∀ s ∈ r.snapshots, RollupReadable x s) (asReadRule (asReadR key)) rs.rollupRules l'
    (fun r hr r' => rule_reload _ _ _ _ r r' (fun s hs s' => rollup_reload hx key s s'))
  simp only [← mapM'_compose] at hm hr
  unfold reload RuleSet.proto
  cases hp : mapM' (ruleProto (mappingSnapshotProto x)) rs.mappingRules with
  | none =>
    simp only [hp, Option.bind_none, reduceCtorEq, false_iff] at hm
    simp only [Option.bind_none, reduceCtorEq, false_iff]
    exact fun h => hm _ ⟨h.1.1, rfl⟩
  | some pm =>
    simp only [hp, Option.bind_some] at hm
    cases hq : mapM' (ruleProto (rollupSnapshotProto x)) rs.rollupRules with
    | none =>
      simp only [hq, Option.bind_none, reduceCtorEq, false_iff] at hr
      simp only [Option.bind_none, reduceCtorEq, false_iff]
      exact fun h => hr _ ⟨h.1.2, rfl⟩
    | some pr =>
      simp only [hq, Option.bind_some] at hr
      simp only [Option.bind_some, newRuleSetFromProto]
      cases hms : mapM' (newRuleFromProto (newMappingSnapshotFromProto x key)) (pm.map some) with
      | none =>
        simp only [hms, reduceCtorEq, false_iff] at hm
        simp only [reduceCtorEq, false_iff]
        exact fun h => hm _ ⟨h.1.1, rfl⟩
      | some ms =>
        obtain ⟨a1, a2⟩ := (hm ms).mp hms
        cases hrs : mapM' (newRuleFromProto (newRollupSnapshotFromProto x key)) (pr.map some) with
        | none =>
          simp only [hrs, reduceCtorEq, false_iff] at hr
          simp only [reduceCtorEq, false_iff]
          exact fun h => hr _ ⟨h.1.2, rfl⟩
        | some rr =>
          obtain ⟨b1, b2⟩ := (hr rr).mp hrs
          subst a2 b2
          simp only [Option.some.injEq]
          exact ⟨fun h => ⟨⟨a1, b1⟩, h.symm⟩, fun h => h.2.symm⟩

def exNoUnits : XTime := ⟨fun _ => none, fun _ => none, fun _ => 0, fun _ => [], fun _ => none, fun _ => []⟩

/-- A rule that drops metrics, with an aggregation. -/
def exDropAgg : RuleSet :=
  { exEmpty with mappingRules := [⟨bs "1", [⟨bs "a", false, 5, none, bs "city:sf", 4, [], 1, 0, []⟩]⟩] }

/-- C51 is violated: the rule of an accepted rule set loses its aggregation types in storage. -/
theorem C51_violated : ∃ (x : XTime) (key : Bytes) (rs rs' : RuleSet), UnitsOK x ∧ KnownDrops rs ∧
    reload x key 1 rs = some rs' ∧
    (rs.mappingRules.map fun r => r.snapshots.map fun s => s.aggID) = [[4]] ∧
    (rs'.mappingRules.map fun r => r.snapshots.map fun s => s.aggID) = [[0]] := by
  have hrs : ∃ rs', reload exNoUnits [] 1 exDropAgg = some rs' ∧
      (rs'.mappingRules.map fun r => r.snapshots.map fun s => s.aggID) = [[0]] := by
    have : ((reload exNoUnits [] 1 exDropAgg).map fun rs' => rs'.mappingRules.map fun r => r.snapshots.map fun s => s.aggID) =
      some [[0]] := by decide +kernel
    exact Option.map_eq_some_iff.mp this
  obtain ⟨rs', h1, h2⟩ := hrs
  refine ⟨exNoUnits, [], exDropAgg, rs', ⟨by intro u d h; simp [exNoUnits] at h, by intro d u h; simp [exNoUnits] at h⟩,
    ?_, h1, by decide +kernel, h2⟩
  intro r hr s hs
  simp only [exDropAgg, List.mem_singleton] at hr
  subst hr
  simp only [List.mem_singleton] at hs
  subst hs
  decide

/-! ### Rule sets that were read -/

theorem mapping_loaded {x : XTime} (hx : UnitsOK x) {key : Bytes} {pb : Option PBMappingSnapshot} {s : MappingSnapshot}
    (h : newMappingSnapshotFromProto x key pb = some s) : MappingReadable x s ∧ asReadM key s = s ∧ s.drop ≤ 2 := by
  cases pb with
  | none => simp [newMappingSnapshotFromProto] at h
  | some r =>
    unfold newMappingSnapshotFromProto at h
    cases hp : pbMappingPolicies x r with
    | none => simp [hp] at h
    | some q =>
      obtain ⟨id, sps⟩ := q
      simp only [hp] at h
      cases hd : pbDropPolicy r.dropPolicy with
      | none => simp [hd] at h
      | some drop =>
        simp only [hd] at h
        have hdr : dropFromProto r.dropPolicy = drop ∧ drop ≤ 2 := by
          unfold pbDropPolicy at hd
          split at hd
          · simp only at hd
            split at hd
            · cases hd
            · next hv =>
              simp only [Option.some.injEq] at hd
              refine ⟨hd, ?_⟩
              rw [hd] at hv
              simp only [dropIsValid, validDropPolicies, DropNone, DropMust, DropIfOnlyMatch, List.any_cons, List.any_nil,
                Bool.or_false, Bool.not_eq_true', Bool.not_eq_false, Bool.or_eq_true, beq_iff_eq] at hv
              omega
          · next h0 =>
            simp only [Option.some.injEq] at hd
            have h0 : r.dropPolicy = 0 := Classical.not_not.mp h0
            rw [h0, ← hd]
            decide
        have hpol : id.types.isSome = true ∧ (∀ p ∈ sps, KnownUnit x p) ∧ (sps = [] → id = 0) := by
          unfold pbMappingPolicies at hp
          split at hp
          · next hl =>
            obtain ⟨h1, h2, h3⟩ := convert_known hx hp
            exact ⟨h1, h2, fun h0 => absurd h0 (h3 (List.length_pos_iff.mp hl))⟩
          · split at hp
            · next hl =>
              cases hn : newIDFromProto r.aggregationTypes with
              | none => simp [hn] at hp
              | some id' =>
                cases hs : newStoragePoliciesFromProto x r.storagePolicies with
                | none => simp [hn, hs] at hp
                | some sps' =>
                  simp only [hn, hs, Option.some.injEq, Prod.mk.injEq] at hp
                  obtain ⟨rfl, rfl⟩ := hp
                  obtain ⟨h1, h2⟩ := newSPs_known hx hs
                  refine ⟨newID_types hn, h1, fun h0 => ?_⟩
                  rw [h0] at h2
                  simp only [List.length_nil] at h2
                  omega
            · simp only [Option.some.injEq, Prod.mk.injEq] at hp
              obtain ⟨rfl, rfl⟩ := hp
              exact ⟨by decide, by simp, fun _ => rfl⟩
        split at h
        · simp at h
        · next hc1 =>
          split at h
          · simp at h
          · next hc2 =>
            cases hf : compileFilter key r.filter with
            | none => simp [hf] at h
            | some f =>
              simp only [hf, Option.some.injEq] at h
              subst h
              have hbeq : (drop == DropNone) = true ↔ drop = 0 := beq_iff_eq
              refine ⟨⟨hpol.1, hpol.2.1, ?_, ?_, ?_⟩, ?_, by simpa [hdr.1] using hdr.2⟩
              · simp only [hdr.1]
                intro h0
                simp only [Bool.and_eq_true, hbeq, h0] at hc1
                cases htb : r.tombstoned with
                | true => exact Or.inr rfl
                | false =>
                  refine Or.inl fun hd0 => hc1 ?_
                  simp [htb, hd0]
              · simp only [hdr.1]
                intro h0
                apply Classical.byContradiction
                intro hd0
                apply hc2
                simp only [Bool.and_eq_true, Bool.not_eq_true', ← Bool.not_eq_true, hbeq, decide_eq_true_eq]
                exact ⟨List.length_pos_iff.mpr h0, hd0⟩
              · rw [← compileFilter_isSome key, hf]; rfl
              · simp only [asReadM, hf]
                congr 1
                split
                · next h0 => exact (hpol.2.2 h0).symm
                · rfl

theorem op_loaded {pb : Pipe.PBOp} {u : Pipe.OpUnion} (h : Pipe.newOpUnionFromProto pb = some u) :
    OpReadable u ∧ Pipe.readBack u = u := by
  unfold Pipe.newOpUnionFromProto at h
  split at h
  · cases ha : pb.aggregation with
    | none => simp [ha] at h
    | some t =>
      simp only [ha] at h
      unfold newTypeFromProto at h
      split at h
      · next hv =>
        simp only [Option.map_some, Option.some.injEq] at h
        subst h
        exact ⟨Or.inl ⟨rfl, (isValid_iff t).mp hv⟩, rfl⟩
      · simp at h
  · split at h
    · cases ha : pb.transformation with
      | none => simp [ha] at h
      | some t =>
        simp only [ha] at h
        unfold Pipe.transFromProto at h
        split at h
        · next ht =>
          simp only [Option.map_some, Option.some.injEq] at h
          subst h
          exact ⟨Or.inr (Or.inl ⟨rfl, by first | exact Or.inl rfl | exact Or.inr rfl⟩), rfl⟩
        · split at h
          · next ht =>
            simp only [Option.map_some, Option.some.injEq] at h
            subst h
            exact ⟨Or.inr (Or.inl ⟨rfl, by first | exact Or.inl rfl | exact Or.inr rfl⟩), rfl⟩
          · simp at h
    · split at h
      · unfold Pipe.newRollupOpFromProto at h
        cases hr : pb.rollup with
        | none => simp [hr] at h
        | some ro =>
          simp only [hr] at h
          cases hn : newIDFromProto ro.aggTypes with
          | none => simp [hn] at h
          | some id =>
            simp only [hn, Option.map_some, Option.some.injEq] at h
            subst h
            refine ⟨Or.inr (Or.inr ⟨rfl, newID_types hn⟩), ?_⟩
            simp only [Pipe.readBack, Pipe.RollupOpType, sortBy_idem bytesLt_strictTotal]
            rfl
      · simp at h

theorem map_readBack_self {p : Pipe.Pipeline} (h : ∀ u ∈ p, Pipe.readBack u = u) : p.map Pipe.readBack = p := by
  have := List.map_congr_left h
  rw [this]
  exact List.map_id' p

theorem rollup_loaded {x : XTime} (hx : UnitsOK x) {key : Bytes} {pb : Option PBRollupSnapshot} {s : RollupSnapshot}
    (h : newRollupSnapshotFromProto x key pb = some s) : RollupReadable x s ∧ asReadR key s = s := by
  cases pb with
  | none => simp [newRollupSnapshotFromProto] at h
  | some r =>
    unfold newRollupSnapshotFromProto at h
    cases hp : pbRollupTargets x r with
    | none => simp [hp] at h
    | some ts =>
      have hts : (∀ t ∈ ts, TargetReadable x t ∧ asReadT t = t) ∧ (ts = [] → r.tombstoned = true) := by
        unfold pbRollupTargets at hp
        split at hp
        · next hl =>
          refine ⟨?_, fun h0 => ?_⟩
          · intro t ht
            obtain ⟨pt, _, hpt⟩ := mapM'_some_mem hp t ht
            cases pt with
            | none => simp [newRollupTargetFromV1Proto] at hpt
            | some pt =>
              unfold newRollupTargetFromV1Proto at hpt
              cases hc : toAggIDAndStoragePolicies x pt.policies with
              | none => simp [hc] at hpt
              | some q =>
                obtain ⟨id, sps⟩ := q
                simp only [hc, Option.some.injEq] at hpt
                subst hpt
                obtain ⟨h1, h2, _⟩ := convert_known hx hc
                refine ⟨⟨?_, h2⟩, ?_⟩
                · intro u hu
                  simp only [List.mem_singleton] at hu
                  subst hu
                  exact Or.inr (Or.inr ⟨rfl, h1⟩)
                · simp only [asReadT, List.map_cons, List.map_nil, Pipe.readBack, Pipe.RollupOpType,
                    sortBy_idem bytesLt_strictTotal]
                  rfl
          · have := mapM'_length hp
            rw [h0] at this
            simp only [List.length_nil] at this
            omega
        · split at hp
          · next hl =>
            refine ⟨?_, fun h0 => ?_⟩
            · intro t ht
              obtain ⟨pt, _, hpt⟩ := mapM'_some_mem hp t ht
              cases pt with
              | none => simp [newRollupTargetFromV2Proto] at hpt
              | some pt =>
                unfold newRollupTargetFromV2Proto at hpt
                cases hq : Pipe.newPipelineFromProto pt.pipeline with
                | none => simp [hq] at hpt
                | some q =>
                  cases hs : newStoragePoliciesFromProto x pt.storagePolicies with
                  | none => simp [hq, hs] at hpt
                  | some sps =>
                    simp only [hq, hs, Option.some.injEq] at hpt
                    subst hpt
                    have hops : ∀ u ∈ q, OpReadable u ∧ Pipe.readBack u = u := by
                      cases hpb : pt.pipeline with
                      | none => rw [hpb] at hq; cases hq
                      | some pl =>
                        rw [hpb] at hq
                        have : mapM' Pipe.newOpUnionFromProto pl = some q := by
                          rw [mapM'_eq, ← Pipe.pipelineFromProto_eq]; exact hq
                        intro u hu
                        obtain ⟨_, _, hv⟩ := mapM'_some_mem this u hu
                        exact op_loaded hv
                    refine ⟨⟨fun u hu => (hops u hu).1, (newSPs_known hx hs).1⟩, ?_⟩
                    simp only [asReadT, map_readBack_self fun u hu => (hops u hu).2]
            · have := mapM'_length hp
              rw [h0] at this
              simp only [List.length_nil] at this
              omega
          · split at hp
            · simp at hp
            · next htb =>
              simp only [Option.some.injEq] at hp
              subst hp
              exact ⟨by simp, fun _ => by simpa using htb⟩
      simp only [hp] at h
      cases hf : compileFilter key r.filter with
      | none => simp [hf] at h
      | some f =>
        simp only [hf, Option.some.injEq] at h
        subst h
        refine ⟨⟨fun t ht => (hts.1 t ht).1, hts.2, by rw [← compileFilter_isSome key, hf]; rfl⟩, ?_⟩
        simp only [asReadR, hf]
        congr 1
        have := List.map_congr_left (fun t ht => (hts.1 t ht).2 : ∀ t ∈ ts, asReadT t = id t)
        rw [this]
        exact List.map_id' _

/-- What reading guarantees of every rule. -/
theorem loaded {x : XTime} (hx : UnitsOK x) {key : Bytes} {v : Int} {pb : Option PBRuleSet} {rs : RuleSet}
    (h : newRuleSetFromProto x key v pb = some rs) :
    (∀ r ∈ rs.mappingRules, ∀ s ∈ r.snapshots, MappingReadable x s ∧ asReadM key s = s ∧ s.drop ≤ 2) ∧
    ∀ r ∈ rs.rollupRules, ∀ s ∈ r.snapshots, RollupReadable x s ∧ asReadR key s = s := by
  cases pb with
  | none => simp [newRuleSetFromProto] at h
  | some p =>
    unfold newRuleSetFromProto at h
    cases hm : mapM' (newRuleFromProto (newMappingSnapshotFromProto x key)) p.mappingRules with
    | none => simp [hm] at h
    | some ms =>
      cases hr : mapM' (newRuleFromProto (newRollupSnapshotFromProto x key)) p.rollupRules with
      | none => simp [hm, hr] at h
      | some rr =>
        simp only [hm, hr, Option.some.injEq] at h
        subst h
        have key : ∀ {S P : Type} {f : Option P → Option S} {pr : Option (PBRule P)} {r : Rule S},
            newRuleFromProto f pr = some r → ∀ s ∈ r.snapshots, ∃ ps, f ps = some s := by
          intro S P f pr r h s hs
          cases pr with
          | none => simp [newRuleFromProto] at h
          | some q =>
            unfold newRuleFromProto at h
            cases hq : mapM' f q.snapshots with
            | none => simp [hq] at h
            | some ss =>
              simp only [hq, Option.some.injEq] at h
              subst h
              obtain ⟨ps, _, hps⟩ := mapM'_some_mem hq s hs
              exact ⟨ps, hps⟩
        constructor
        · intro r hr' s hs
          obtain ⟨pr, _, h1⟩ := mapM'_some_mem hm r hr'
          obtain ⟨ps, h2⟩ := key h1 s hs
          exact mapping_loaded hx h2
        · intro r hr' s hs
          obtain ⟨pr, _, h1⟩ := mapM'_some_mem hr r hr'
          obtain ⟨ps, h2⟩ := key h1 s hs
          exact rollup_loaded hx h2

theorem asReadRule_self {S : Type} {f : S → S} {l : List (Rule S)} (h : ∀ r ∈ l, ∀ s ∈ r.snapshots, f s = s) :
    l.map (asReadRule f) = l := by
  have : ∀ r ∈ l, asReadRule f r = id r := by
    intro r hr
    unfold asReadRule
    have := List.map_congr_left (fun s hs => h r hr s hs : ∀ s ∈ r.snapshots, f s = id s)
    rw [this, List.map_id']
    rfl
  rw [List.map_congr_left this, List.map_id]

/-- C51: a rule set that was read can be written again, and reading that back gives exactly the same rule set, with the
version it is stored under. -/
theorem C51_loaded {x : XTime} (hx : UnitsOK x) (key : Bytes) (v v' : Int) (pb : Option PBRuleSet) (rs : RuleSet)
    (h : newRuleSetFromProto x key v pb = some rs) : reload x key v' rs = some { rs with version := v' } := by
  obtain ⟨hm, hr⟩ := loaded hx h
  rw [C51_reload_partial hx key v' rs _ (fun r hr s hs => (hm r hr s hs).2.2)]
  refine ⟨⟨fun r h s hs => (hm r h s hs).1, fun r h s hs => (hr r h s hs).1⟩, ?_⟩
  unfold asRead
  rw [asReadRule_self (fun r h s hs => (hm r h s hs).2.1), asReadRule_self (fun r h s hs => (hr r h s hs).2)]

/-- C51: rules that were read have a filter, the one of their text. -/
theorem C51_filters {x : XTime} (hx : UnitsOK x) (key : Bytes) (v : Int) (pb : Option PBRuleSet) (rs : RuleSet)
    (h : newRuleSetFromProto x key v pb = some rs) :
    (∀ r ∈ rs.mappingRules, ∀ s ∈ r.snapshots, s.filter ≠ none ∧ s.filter = compileFilter key s.rawFilter) ∧
    ∀ r ∈ rs.rollupRules, ∀ s ∈ r.snapshots, s.filter ≠ none ∧ s.filter = compileFilter key s.rawFilter := by
  obtain ⟨hm, hr⟩ := loaded hx h
  have some_of : ∀ raw, filterValid raw = true → compileFilter key raw ≠ none := by
    intro raw hv h0
    rw [← compileFilter_isSome key, h0] at hv
    cases hv
  constructor
  · intro r h s hs
    obtain ⟨h1, h2, _⟩ := hm r h s hs
    have : s.filter = compileFilter key s.rawFilter := by rw [← h2]; rfl
    exact ⟨this ▸ some_of _ h1.filter, this⟩
  · intro r h s hs
    obtain ⟨h1, h2⟩ := hr r h s hs
    have : s.filter = compileFilter key s.rawFilter := by rw [← h2]; rfl
    exact ⟨this ▸ some_of _ h1.filter, this⟩

/-! ### Edits, storing, reading, matching -/

theorem grows_asRead {S : Type} {P : S → Prop} {f : S → S} (hP : ∀ s, P s → P (f s)) {old new : List (Rule S)}
    (h : Grows P old new) : Grows P (old.map (asReadRule f)) (new.map (asReadRule f)) := by
  obtain ⟨kept, added, rfl, h1, h2⟩ := h
  refine ⟨kept.map (asReadRule f), added.map (asReadRule f), by simp, ?_, ?_⟩
  · clear h2
    induction h1 with
    | nil => exact .nil
    | cons hab _ ih =>
      refine .cons ?_ ih
      obtain ⟨a1, ex, a2, a3⟩ := hab
      refine ⟨a1, ex.map f, by simp [asReadRule, a2], ?_⟩
      intro s hs
      obtain ⟨s', hs', rfl⟩ := List.mem_map.mp hs
      exact hP _ (a3 s' hs')
  · intro r hr s hs
    obtain ⟨r', hr', rfl⟩ := List.mem_map.mp hr
    obtain ⟨s', hs', rfl⟩ := List.mem_map.mp hs
    exact hP _ (h2 r' hr' s' hs')

/-- C46 through storage: a rule set that was read is edited by commands with cutover times from `T` on, written and read
again; matching over any range before `T` gives the same as before, forwards and in reverse. -/
theorem C46_reloaded {x : XTime} (hx : UnitsOK x) (key : Bytes) (v v' : Int) (pb : Option PBRuleSet) (rs rs' : RuleSet)
    (h : newRuleSetFromProto x key v pb = some rs) (env : Env) (cs : List (Cmd × UpdateMeta)) (T : Int)
    (hT : ∀ c ∈ cs, T ≤ c.2.cutoverNanos) (hd : KnownDrops (rs.commands cs)) (hr : reload x key v' (rs.commands cs) = some rs')
    (id : Bytes) (t0 frm to : Int) (h0 : t0 ≤ frm) (hf : frm < T) (ht : to ≤ T) :
    (forwardMatch env (rs'.activeSet t0) id frm to).forExistingID =
      (forwardMatch env (rs.activeSet t0) id frm to).forExistingID ∧
    (forwardMatch env (rs'.activeSet t0) id frm to).forNewRollupIDs =
      (forwardMatch env (rs.activeSet t0) id frm to).forNewRollupIDs ∧
    ∀ mt at' multi o, (reverseMatch env (rs'.activeSet t0) id frm to mt at' multi o).forExistingID =
      (reverseMatch env (rs.activeSet t0) id frm to mt at' multi o).forExistingID := by
  obtain ⟨_, rfl⟩ := (C51_reload_partial hx key v' _ _ hd).mp hr
  obtain ⟨lm, lr⟩ := loaded hx h
  obtain ⟨es, h1, h2⟩ := commands_run cs rs
  have hes : ∀ e ∈ es, T ≤ e.2.cutoverNanos := by
    intro e he
    obtain ⟨c, hc, hce⟩ := commands_meta h2 e he
    rw [← hce]
    exact hT c hc
  obtain ⟨gm, gr⟩ := run_grows T es rs hes
  have gm' := grows_asRead (f := asReadM key) (fun s hs => hs) gm
  have gr' := grows_asRead (f := asReadR key) (fun s hs => hs) gr
  rw [asReadRule_self (fun r h s hs => (lm r h s hs).2.1)] at gm'
  rw [asReadRule_self (fun r h s hs => (lr r h s hs).2)] at gr'
  rw [h1]
  exact grows_match env _ _ T gm' gr' id t0 frm to h0 hf ht

theorem live_asRead {S : Type} [Snap S] {f : S → S} (hc : ∀ s, Snap.cutover (f s) = Snap.cutover s)
    (ht : ∀ s, Snap.tombstoned (f s) = Snap.tombstoned s) (rules : List (Rule S)) (t : Int) :
    live (current (rules.map (asReadRule f)) t) = (live (current rules t)).map f := by
  have h1 : ∀ l : List S, inForce (l.map f) t = (inForce l t).map f := by
    intro l
    unfold inForce
    rw [List.filter_map, List.getLast?_map]
    congr 3
    funext s
    simp [hc]
  unfold live current
  rw [List.filterMap_map, ← List.filterMap_eq_map, List.filterMap_filter, ← List.filterMap_eq_filter,
    List.filterMap_filterMap, List.filterMap_filterMap]
  apply filterMap_congr'
  intro r _
  simp only [Function.comp_apply, asReadRule, h1]
  cases inForce r.snapshots t with
  | none => rfl
  | some s => simp [ht, Option.guard]

theorem erase_asRead {S : Type} (f : S → S) (l : List (Rule S)) (i : Nat) :
    (l.map (asReadRule f)).eraseIdx i = (l.eraseIdx i).map (asReadRule f) := by
  induction l generalizing i with
  | nil => rfl
  | cons a l ih => cases i <;> simp [ih]

/-- C47 through storage: once a deletion has taken effect the rule stays without effect when the rule set has been written
and read again. -/
theorem C47_mapping_reloaded {x : XTime} (hx : UnitsOK x) (key : Bytes) (v : Int) (env : Env) (rs : RuleSet) (rid : Bytes)
    (m : UpdateMeta) (h : (rs.deleteMappingRule rid m).2 = true) (cs : List (Cmd × UpdateMeta)) (rs' : RuleSet)
    (hd : KnownDrops ((rs.deleteMappingRule rid m).1.commands cs))
    (hr : reload x key v ((rs.deleteMappingRule rid m).1.commands cs) = some rs') :
    ∃ (i : Nat) (r : MappingRule) (n : Bytes), rs.mappingRules[i]? = some r ∧ r.uuid = rid ∧
      r.name = some n ∧ ((∀ c ∈ cs, ∀ e ∈ c.1.edits, e.AvoidsMapping rid n) →
        ∀ t0 t id, t0 ≤ t → m.cutoverNanos ≤ t →
          outputs env (rs'.activeSet t0) id t =
            outputs env (RuleSet.activeSet { rs' with mappingRules := rs'.mappingRules.eraseIdx i } t0) id t) := by
  obtain ⟨_, rfl⟩ := (C51_reload_partial hx key v _ _ hd).mp hr
  obtain ⟨i, r, n, h1, h2, h3, h4⟩ := mapping_stops_live rs rid m h cs
  refine ⟨i, r, n, h1, h2, h3, ?_⟩
  intro hav t0 t id ht0 ht
  apply outputs_congr
  · rw [current_mapping _ ht0, current_mapping _ ht0]
    simp only [asRead, erase_asRead]
    rw [live_asRead (f := asReadM key) (fun _ => rfl) (fun _ => rfl),
      live_asRead (f := asReadM key) (fun _ => rfl) (fun _ => rfl), h4 hav _ rfl t ht]
  · rfl

/-- C47 through storage for rollup rules. -/
theorem C47_rollup_reloaded {x : XTime} (hx : UnitsOK x) (key : Bytes) (v : Int) (env : Env) (rs : RuleSet) (rid : Bytes)
    (m : UpdateMeta) (h : (rs.deleteRollupRule rid m).2 = true) (cs : List (Cmd × UpdateMeta)) (rs' : RuleSet)
    (hd : KnownDrops ((rs.deleteRollupRule rid m).1.commands cs))
    (hr : reload x key v ((rs.deleteRollupRule rid m).1.commands cs) = some rs') :
    ∃ (i : Nat) (r : RollupRule) (n : Bytes), rs.rollupRules[i]? = some r ∧ r.uuid = rid ∧
      r.name = some n ∧ ((∀ c ∈ cs, ∀ e ∈ c.1.edits, e.AvoidsRollup rid n) →
        ∀ t0 t id, t0 ≤ t → m.cutoverNanos ≤ t →
          outputs env (rs'.activeSet t0) id t =
            outputs env (RuleSet.activeSet { rs' with rollupRules := rs'.rollupRules.eraseIdx i } t0) id t) := by
  obtain ⟨_, rfl⟩ := (C51_reload_partial hx key v _ _ hd).mp hr
  obtain ⟨i, r, n, h1, h2, h3, h4⟩ := rollup_stops_live rs rid m h cs
  refine ⟨i, r, n, h1, h2, h3, ?_⟩
  intro hav t0 t id ht0 ht
  apply outputs_congr
  · rfl
  · rw [current_rollup _ ht0, current_rollup _ ht0]
    simp only [asRead, erase_asRead]
    rw [live_asRead (f := asReadR key) (fun _ => rfl) (fun _ => rfl),
      live_asRead (f := asReadR key) (fun _ => rfl) (fun _ => rfl), h4 hav _ rfl t ht]

/-! ### Concrete cases -/

/-- A table that knows seconds only. -/
def exUnits : XTime :=
  { exNoUnits with unitValue := fun u => if u = 1 then some 1000000000 else none
                   unitFromDuration := fun d => if d = 1000000000 then some 1 else none }

theorem exUnits_ok : UnitsOK exUnits where
  toUnit u d h := by
    simp only [exUnits] at h ⊢
    split at h
    · next hu => cases h; simp [hu]
    · cases h
  toLength d u h := by
    simp only [exUnits] at h ⊢
    split at h
    · next hu => cases h; simp [hu]
    · cases h

/-- A stored rule set with a mapping rule in the old format, one in the new, a deleted one, and a rollup rule with
unsorted tags. -/
def exStored : PBRuleSet :=
  let sp : Option PBStoragePolicy := some ⟨some ⟨10000000000, 1000000000⟩, some ⟨3600⟩⟩
  { uuid := bs "u", namespace_ := bs "ns",
    mappingRules := [
      some ⟨bs "1", [some { name := bs "a", cutoverNanos := 5, filter := bs "city:sf", policies := [some ⟨sp, [2]⟩, some ⟨sp, [2]⟩] }]⟩,
      some ⟨bs "2", [some { name := bs "b", cutoverNanos := 5, filter := bs "city:s*", storagePolicies := [sp], aggregationTypes := [3] },
        some { name := bs "b", cutoverNanos := 8, filter := bs "city:s*", tombstoned := true }]⟩],
    rollupRules := [some ⟨bs "3", [some {
      name := bs "r", cutoverNanos := 6, filter := bs "city:sf",
      targetsV2 := [some ⟨some [{ type := 3, rollup := some ⟨bs "n", [bs "z", bs "c"], []⟩ }], [sp]⟩] }]⟩] }

/-- Beside C51: the rule set is read, edited (a rule is added, one is deleted), written and read; the histories are kept,
the tags come back sorted, the new rule has a filter. -/
example :
    let rs' := ((newRuleSetFromProto exUnits [] 1 (some exStored)).bind fun rs =>
      reload exUnits [] 2 (rs.commands [(.one (.addMapping (bs "7") (exData "z" "city:sf")), exMeta 16),
        (.one (.deleteMapping (bs "1")), exMeta 17)])).getD exEmpty
    rs'.version = 2 ∧ (rs'.mappingRules.map fun r => r.snapshots.map fun s => (s.cutoverNanos, s.tombstoned, s.filter.isSome)) =
      [[(5, false, true), (17, true, true)], [(5, false, true), (8, true, true)], [(16, false, true)]] ∧
    (rs'.rollupRules.flatMap fun r => r.snapshots.flatMap fun s => s.targets.flatMap fun t => t.pipeline.map fun u =>
      u.rollup.tags) = [[bs "c", bs "z"]] := by decide +kernel

/-- Beside C51: a snapshot the reader does not accept makes the whole rule set unreadable. -/
example : (reload exUnits [] 2 { exEmpty with mappingRules := [⟨bs "1", [exSnap "city:sf" 5 4]⟩] }).isNone = true := by
  decide +kernel

end Verif.RuleSet
