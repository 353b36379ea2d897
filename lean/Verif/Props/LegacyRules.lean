import Verif.Props.RuleSetProto
/-
C73: rules stored in the older (v1) form, in which every rule has a list of policies (storage policy plus aggregations).
-/
namespace Verif.Rules
open Verif.Agg Verif.Policy Verif.Meta Verif.Flt Verif.RuleSet

/-! ### Specification -/

/-- The list is in the fixed order of storage policies, without repetition, and has the given elements. -/
def IsSetOf (out given : List StoragePolicy) : Prop :=
  out.Pairwise (fun a b => spLess a b = true) ∧ ∀ p, p ∈ out ↔ p ∈ given

/-! ### Proofs -/

theorem isSetOf_unique {a b l : List StoragePolicy} (ha : IsSetOf a l) (hb : IsSetOf b l) : a = b := by
  have key : ∀ {c}, IsSetOf c l → c.Nodup := fun h => h.1.imp fun {x y} hxy e => by
    subst e; rw [C07_order.irrefl] at hxy; cases hxy
  have hp : a.Perm b := by
    rw [List.perm_ext_iff_of_nodup (key ha) (key hb)]
    intro x; rw [ha.2, hb.2]
  have hs : ∀ {c}, IsSetOf c l → sortBy spLess c = c := fun h =>
    sortBy_of_sorted _ (h.1.imp fun {x y} hxy => C07_order.asymm hxy)
  rw [← hs ha, ← hs hb]
  exact (sortBy_eq_iff_perm C07_order _ _).mpr hp

theorem convertLoop_iff (x : XTime) : ∀ (ps : List (Option PBPolicy)) (agg : Option Agg.ID) (sps : List StoragePolicy)
    (id : Agg.ID) (out : List StoragePolicy), sps.Nodup →
    ((convertLoop x ps agg sps = some (id, out) → out.Nodup) ∧
     ((∃ out, convertLoop x ps agg sps = some (id, out)) ↔ ∃ ql : List Policy, ps.map (newPolicyFromProto x) = ql.map some ∧
        (∀ q ∈ ql, q.aggID = id) ∧ (∀ a, agg = some a → id = a) ∧ (ql = [] → agg = none → id = DefaultID)) ∧
     (convertLoop x ps agg sps = some (id, out) → ∀ ql : List Policy, ps.map (newPolicyFromProto x) = ql.map some →
        ∀ p, p ∈ out ↔ p ∈ sps ∨ p ∈ ql.map (·.sp)))
  | [], agg, sps, id, out, hn => by
    refine ⟨?_, ?_, ?_⟩
    · intro h
      simp only [convertLoop, Option.some.injEq, Prod.mk.injEq] at h
      rw [← h.2]; exact hn
    · simp only [convertLoop, Option.some.injEq, Prod.mk.injEq, exists_eq_right', List.map_nil]
      constructor
      · intro h
        refine ⟨[], rfl, by simp, ?_, ?_⟩
        · rintro a rfl; simpa using h.symm
        · rintro _ rfl; simpa using h.symm
      · rintro ⟨ql, hq, _, h1, h2⟩
        have : ql = [] := by cases ql <;> simp_all
        cases agg with
        | none => simpa using (h2 this rfl).symm
        | some a => simpa using (h1 a rfl).symm
    · intro h ql hq p
      simp only [convertLoop, Option.some.injEq, Prod.mk.injEq] at h
      have : ql = [] := by cases ql <;> simp_all
      subst this
      simp [h.2]
  | none :: ps, agg, sps, id, out, hn => by
    refine ⟨by simp [convertLoop], ?_, by simp [convertLoop]⟩
    simp only [convertLoop, reduceCtorEq, exists_false, false_iff]
    rintro ⟨ql, hq, _⟩
    cases ql <;> simp [newPolicyFromProto] at hq
  | some p :: ps, agg, sps, id, out, hn => by
    cases hp : newStoragePolicyFromProto x p.storagePolicy with
    | none =>
      simp only [convertLoop, hp, reduceCtorEq, exists_false, false_iff, false_implies, true_and, and_true]
      rintro ⟨ql, hq, _⟩
      cases ql <;> simp [newPolicyFromProto, hp] at hq
    | some sp =>
      cases ha : newIDFromProto p.aggregationTypes with
      | none =>
        simp only [convertLoop, hp, ha, reduceCtorEq, exists_false, false_iff, false_implies, true_and, and_true]
        rintro ⟨ql, hq, _⟩
        cases ql <;> simp [newPolicyFromProto, hp, ha] at hq
      | some new =>
        have hn' : (if sps.contains sp then sps else sps ++ [sp]).Nodup := by
          split
          · exact hn
          · next hc =>
            simp only [List.contains_iff_mem, Bool.not_eq_true, decide_eq_false_iff_not] at hc
            rw [List.nodup_append]
            refine ⟨hn, by simp, ?_⟩
            intro a ha' b hb e
            simp only [List.mem_singleton] at hb
            subst hb; subst e
            exact hc (by simpa using ha')
        have hmem : ∀ q, q ∈ (if sps.contains sp then sps else sps ++ [sp]) ↔ q ∈ sps ∨ q = sp := by
          intro q
          split
          · next hc =>
            have hc' : sp ∈ sps := by simpa using hc
            constructor
            · exact Or.inl
            · rintro (h | rfl)
              · exact h
              · exact hc'
          · simp
        have hread : newPolicyFromProto x (some p) = some ⟨sp, new⟩ := by simp [newPolicyFromProto, hp, ha]
        have hsplit : ∀ ql : List Policy, (some p :: ps).map (newPolicyFromProto x) = ql.map some ↔
            ∃ ql', ql = ⟨sp, new⟩ :: ql' ∧ ps.map (newPolicyFromProto x) = ql'.map some := by
          intro ql
          cases ql with
          | nil => simp
          | cons q ql =>
            simp only [List.map_cons, hread, List.cons.injEq, Option.some.injEq]
            constructor
            · rintro ⟨rfl, h⟩; exact ⟨ql, ⟨rfl, rfl⟩, h⟩
            · rintro ⟨ql', ⟨rfl, rfl⟩, h⟩; exact ⟨rfl, h⟩
        -- the loop continues with the aggregation ID of this policy
        have cont : ∀ agg', agg' = some new →
            (convertLoop x (some p :: ps) agg sps = convertLoop x ps agg' (if sps.contains sp then sps else sps ++ [sp])) →
            (∀ a, agg = some a → a = new) →
            ((convertLoop x (some p :: ps) agg sps = some (id, out) → out.Nodup) ∧
             ((∃ out, convertLoop x (some p :: ps) agg sps = some (id, out)) ↔
               ∃ ql : List Policy, (some p :: ps).map (newPolicyFromProto x) = ql.map some ∧
                (∀ q ∈ ql, q.aggID = id) ∧ (∀ a, agg = some a → id = a) ∧ (ql = [] → agg = none → id = DefaultID)) ∧
             (convertLoop x (some p :: ps) agg sps = some (id, out) →
               ∀ ql : List Policy, (some p :: ps).map (newPolicyFromProto x) = ql.map some →
               ∀ q, q ∈ out ↔ q ∈ sps ∨ q ∈ ql.map (·.sp))) := by
            intro agg' hagg' heq hcons
            have ih := convertLoop_iff x ps agg' _ id out hn'
            rw [heq]
            refine ⟨ih.1, ?_, ?_⟩
            · rw [ih.2.1]
              constructor
              · rintro ⟨ql, h1, h2, h3, _⟩
                have hid : id = new := h3 new hagg'
                refine ⟨⟨sp, new⟩ :: ql, (hsplit _).mpr ⟨ql, rfl, h1⟩, ?_, ?_, by simp⟩
                · intro q hq
                  rcases List.mem_cons.mp hq with rfl | hq
                  · exact hid.symm
                  · exact h2 q hq
                · intro a hagg; rw [hid, hcons a hagg]
              · rintro ⟨ql, h1, h2, h3, _⟩
                obtain ⟨ql', rfl, h1'⟩ := (hsplit _).mp h1
                have hid : new = id := h2 ⟨sp, new⟩ (by simp)
                refine ⟨ql', h1', fun q hq => h2 q (by simp [hq]), ?_, ?_⟩
                · intro a hagg; rw [hagg'] at hagg; cases hagg; exact hid.symm
                · intro _ hagg; rw [hagg'] at hagg; cases hagg
            · intro h ql hq q
              obtain ⟨ql', rfl, hq'⟩ := (hsplit _).mp hq
              rw [ih.2.2 h ql' hq' q, hmem]
              simp [or_assoc]
        cases agg with
        | none => exact cont (some new) rfl (by simp only [convertLoop, hp, ha]) (by simp)
        | some a =>
          by_cases hne : a = new
          · subst hne
            exact cont (some a) rfl (by simp only [convertLoop, hp, ha, beq_self_eq_true, Bool.not_true, Bool.false_eq_true, if_false])
              (by simp)
          · have : convertLoop x (some p :: ps) (some a) sps = none := by
              simp [convertLoop, hp, ha, hne]
            simp only [this, reduceCtorEq, exists_false, false_iff, false_implies, true_and, and_true]
            rintro ⟨ql, hq, h2, h3, _⟩
            obtain ⟨ql', rfl, _⟩ := (hsplit _).mp hq
            have h4 := h2 ⟨sp, new⟩ (by simp)
            have h5 := h3 a rfl
            exact hne (by rw [← h5]; exact h4.symm)

/-- C73: policies stored in the old form are accepted exactly if all of them can be read and all have the same
aggregations; the result is the common aggregation ID, the default one if there are no policies, and the set of storage
policies in the fixed order. -/
theorem C73_convert (x : XTime) (ps : List (Option PBPolicy)) (id : Agg.ID) (out : List StoragePolicy) :
    toAggIDAndStoragePolicies x ps = some (id, out) ↔ ∃ ql : List Policy, ps.map (newPolicyFromProto x) = ql.map some ∧
      (∀ q ∈ ql, q.aggID = id) ∧ (ql = [] → id = DefaultID) ∧ IsSetOf out (ql.map (·.sp)) := by
  have key : ∀ out', convertLoop x ps none [] = some (id, out') → ∀ ql : List Policy, ps.map (newPolicyFromProto x) = ql.map some →
      IsSetOf (sortBy spLess out') (ql.map (·.sp)) := by
    intro out' h ql hq
    obtain ⟨h1, _, h3⟩ := convertLoop_iff x ps none [] id out' (by simp)
    refine ⟨?_, fun p => ?_⟩
    · have := sortByKey_strict C07_order (fun p : StoragePolicy => p) out' (by simpa using h1 h)
      simpa using this
    · rw [mem_sortBy, h3 h ql hq p]; simp
  unfold toAggIDAndStoragePolicies
  constructor
  · intro h
    cases hc : convertLoop x ps none [] with
    | none => simp [hc] at h
    | some r =>
      obtain ⟨id', out'⟩ := r
      simp only [hc, Option.map_some, Option.some.injEq, Prod.mk.injEq] at h
      obtain ⟨rfl, rfl⟩ := h
      obtain ⟨ql, h1, h2, _, h4⟩ := (convertLoop_iff x ps none [] id' out' (by simp)).2.1.mp ⟨out', hc⟩
      exact ⟨ql, h1, h2, fun h => h4 h rfl, key out' hc ql h1⟩
  · rintro ⟨ql, h1, h2, h3, h4⟩
    obtain ⟨out', hc⟩ := (convertLoop_iff x ps none [] id [] (by simp)).2.1.mpr ⟨ql, h1, h2, by simp, fun h _ => h3 h⟩
    rw [hc, Option.map_some, isSetOf_unique (key out' hc ql h1) h4]

/-- C73: policies written in the old form by an earlier version (each of them convertible) are read exactly if they all have
the same aggregations, and then nothing is lost. -/
theorem C73_roundtrip (x : XTime) (ql : List Policy) (pbs : List PBPolicy)
    (hu : ∀ q ∈ ql, UnitTableOK x q.sp.resolution.precision) (h : ql.map (Policy.proto x) = pbs.map some)
    (id : Agg.ID) (out : List StoragePolicy) :
    toAggIDAndStoragePolicies x (pbs.map some) = some (id, out) ↔
      (∀ q ∈ ql, q.aggID = id) ∧ (ql = [] → id = DefaultID) ∧ IsSetOf out (ql.map (·.sp)) := by
  have hread : (pbs.map some).map (newPolicyFromProto x) = ql.map some := by
    clear id out
    induction ql generalizing pbs with
    | nil => cases pbs <;> simp_all
    | cons q ql ih =>
      cases pbs with
      | nil => simp at h
      | cons pb pbs =>
        simp only [List.map_cons, List.cons.injEq] at h
        simp only [List.map_cons, C08_policy_roundtrip x q pb (hu q (by simp)) h.1, List.cons.injEq, true_and]
        exact ih pbs (fun q hq => hu q (by simp [hq])) h.2
  rw [C73_convert]
  constructor
  · rintro ⟨ql', h1, h2⟩
    have : ql' = ql := by
      have := h1.symm.trans hread
      exact List.map_inj_right (by intro a b h; exact Option.some.inj h) |>.mp this
    rw [this] at h2; exact h2
  · exact fun h => ⟨ql, hread, h⟩

/-- C73: a mapping snapshot in the old form is read exactly if its policies are (as above), it has no drop policy and its
filter can be compiled; the new-form fields are ignored. -/
theorem C73_mapping (x : XTime) (key : Bytes) (r : PBMappingSnapshot) (hr : r.policies ≠ []) (s : MappingSnapshot) :
    newMappingSnapshotFromProto x key (some r) = some s ↔
    ∃ (ql : List Policy) (f : TagsFlt.TagsFilter), r.policies.map (newPolicyFromProto x) = ql.map some ∧
      (∀ q ∈ ql, q.aggID = s.aggID) ∧ IsSetOf s.storagePolicies (ql.map (·.sp)) ∧
      pbDropPolicy r.dropPolicy = some DropNone ∧ compileFilter key r.filter = some f ∧
      s = { name := r.name, tombstoned := r.tombstoned, cutoverNanos := r.cutoverNanos, filter := some f, rawFilter := r.filter,
            aggID := s.aggID, storagePolicies := s.storagePolicies, drop := dropFromProto r.dropPolicy,
            lastUpdatedAtNanos := r.lastUpdatedAtNanos, lastUpdatedBy := r.lastUpdatedBy } := by
  have hlen : r.policies.length > 0 := List.length_pos_iff.mpr hr
  have hqne : ∀ ql : List Policy, r.policies.map (newPolicyFromProto x) = ql.map some → ql ≠ [] := by
    rintro ql h rfl
    simp at h; exact hr h
  have hpos : ∀ {id sps}, toAggIDAndStoragePolicies x r.policies = some (id, sps) → sps.length > 0 := by
    intro id sps h
    obtain ⟨ql, h1, _, _, h4⟩ := (C73_convert x _ _ _).mp h
    obtain ⟨q, hq⟩ := List.exists_mem_of_ne_nil _ (hqne ql h1)
    exact List.length_pos_of_mem ((h4.2 q.sp).mpr (List.mem_map_of_mem hq))
  simp only [newMappingSnapshotFromProto, pbMappingPolicies, hlen, if_true]
  constructor
  · intro h
    cases hc : toAggIDAndStoragePolicies x r.policies with
    | none => simp [hc] at h
    | some a =>
      obtain ⟨id, sps⟩ := a
      have hp := hpos hc
      have hp0 : sps.length ≠ 0 := by omega
      simp only [hc] at h
      cases hd : pbDropPolicy r.dropPolicy with
      | none => simp [hd] at h
      | some drop =>
        simp only [hd] at h
        by_cases hdn : drop = DropNone
        · subst hdn
          cases hf : compileFilter key r.filter with
          | none => simp [hf, hp0] at h
          | some f =>
            simp only [hf, hp0, beq_self_eq_true, Bool.not_true, Bool.and_false, Bool.false_eq_true, if_false,
              beq_eq_false_iff_ne.mpr hp0, Bool.and_true, Option.some.injEq] at h
            obtain ⟨ql, h1, h2, _, h4⟩ := (C73_convert x _ _ _).mp hc
            subst h
            exact ⟨ql, f, h1, h2, h4, rfl, rfl, rfl⟩
        · simp [hp, hp0, hdn] at h
  · rintro ⟨ql, f, h1, h2, h3, h4, h5, h6⟩
    have hc := (C73_convert x r.policies s.aggID s.storagePolicies).mpr ⟨ql, h1, h2, fun h => absurd h (hqne ql h1), h3⟩
    have hp := hpos hc
    have hp0 : s.storagePolicies.length ≠ 0 := by omega
    simp only [hc, h4, h5, beq_eq_false_iff_ne.mpr hp0, beq_self_eq_true, Bool.not_true, Bool.and_false, Bool.false_eq_true,
      if_false, Bool.and_true]
    exact congrArg some h6.symm

/-- C73: a rollup target in the old form is read as a pipeline of one rollup step with that name, the tags in order and
the common aggregations, and the set of storage policies. -/
theorem C73_rollup_target (x : XTime) (pb : PBRollupTargetV1) (t : RollupTarget) :
    newRollupTargetFromV1Proto x (some pb) = some t ↔
    ∃ (ql : List Policy) (id : Agg.ID), pb.policies.map (newPolicyFromProto x) = ql.map some ∧ (∀ q ∈ ql, q.aggID = id) ∧
      (ql = [] → id = DefaultID) ∧ IsSetOf t.storagePolicies (ql.map (·.sp)) ∧
      ∃ tags, tags.Perm pb.tags ∧ tags.Pairwise (fun a b => bytesLt b a = false) ∧
        t.pipeline = [{ type := 3, rollup := { newName := pb.name, tags := tags, aggID := id } }] := by
  simp only [newRollupTargetFromV1Proto]
  constructor
  · intro h
    cases hc : toAggIDAndStoragePolicies x pb.policies with
    | none => simp [hc] at h
    | some a =>
      obtain ⟨id, sps⟩ := a
      simp only [hc, Option.some.injEq] at h
      subst h
      obtain ⟨ql, h1, h2, h3, h4⟩ := (C73_convert x _ _ _).mp hc
      exact ⟨ql, id, h1, h2, h3, h4, _, sortBy_perm _ _, sortBy_sorted bytesLt_strictTotal _, rfl⟩
  · rintro ⟨ql, id, h1, h2, h3, h4, tags, h5, h6, h7⟩
    have hc := (C73_convert x pb.policies id t.storagePolicies).mpr ⟨ql, h1, h2, h3, h4⟩
    have ht : sortBy bytesLt pb.tags = tags := by
      rw [← sortBy_of_sorted tags h6]
      exact (sortBy_eq_iff_perm bytesLt_strictTotal _ _).mpr h5.symm
    simp only [hc, ht]
    cases t
    simp only at h7
    rw [h7]; rfl

/-- Concrete case: three old policies, two of them the same; and two with different aggregations, which are refused. -/
example :
    let sp (w : Int) : PBStoragePolicy := ⟨some ⟨w, 1000000000⟩, some ⟨3600000000000⟩⟩
    toAggIDAndStoragePolicies exUnits [some ⟨some (sp 60000000000), [1]⟩, some ⟨some (sp 10000000000), [1]⟩, some ⟨some (sp 60000000000), [1]⟩]
      = some (2, [⟨⟨10000000000, 1⟩, 3600000000000⟩, ⟨⟨60000000000, 1⟩, 3600000000000⟩]) ∧
    toAggIDAndStoragePolicies exUnits [some ⟨some (sp 60000000000), [1]⟩, some ⟨some (sp 10000000000), [2]⟩] = none ∧
    toAggIDAndStoragePolicies exUnits [] = some (0, []) := by decide +kernel

end Verif.Rules
