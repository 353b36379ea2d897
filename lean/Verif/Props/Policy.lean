import Verif.Model.Policy
import Verif.Props.Aggregation
/-
Properties C06–C08 (storage policies and policies: text form, list equality, protobuf form).
-/
namespace Verif.Policy
open Verif.Agg Verif.Spec

/-! ### C06 -/

theorem cutAt_none_iff (sep : UInt8) : ∀ s, cutAt sep s = none ↔ sep ∉ s
  | [] => by simp [cutAt]
  | c :: cs => by
    have ih := cutAt_none_iff sep cs
    simp only [cutAt]
    by_cases h : c = sep
    · simp [h]
    · simp [h, ih, Ne.symm h]

theorem cutAt_append (sep : UInt8) : ∀ a b, sep ∉ a → cutAt sep (a ++ sep :: b) = some (a, b)
  | [], b, _ => by simp [cutAt]
  | c :: cs, b, h => by
    have hc : c ≠ sep := fun e => h (by simp [e])
    have ih := cutAt_append sep cs b (fun hm => h (by simp [hm]))
    simp [cutAt, hc, ih]

/-- What is assumed of the external duration printer and parser for one duration. -/
structure DurationOK (x : XTime) (d : Int) : Prop where
  roundtrip : x.parseExt (x.extString d) = some d
  noAt : (64 : UInt8) ∉ x.extString d
  noColon : (58 : UInt8) ∉ x.extString d
  noBar : (124 : UInt8) ∉ x.extString d

/-- What is assumed of the external unit printer for one unit: "1" followed by its name parses to a
duration that is that unit. -/
structure UnitOK (x : XTime) (u : Nat) : Prop where
  roundtrip : ∃ d, x.parseExt (49 :: x.unitString u) = some d ∧ x.unitFromDuration d = some u
  noColon : (58 : UInt8) ∉ x.unitString u
  noBar : (124 : UInt8) ∉ x.unitString u

theorem parseResolution_string (x : XTime) (r : Resolution) (hw : DurationOK x r.window)
    (hu : UnitOK x r.precision) : parseResolution x (r.string x) = some r := by
  unfold Resolution.string
  split
  · rename_i h
    rw [parseResolution, (cutAt_none_iff _ _).mpr hw.noAt]
    simp [hw.roundtrip, h]
  · rw [parseResolution, cutAt_append _ _ _ hw.noAt]
    obtain ⟨d, h1, h2⟩ := hu.roundtrip
    simp [hw.roundtrip, h1, h2]

theorem not_mem_resolution_string (x : XTime) (r : Resolution) (c : UInt8) (h1 : c ≠ 64) (h2 : c ≠ 49)
    (hw : c ∉ x.extString r.window) (hu : c ∉ x.unitString r.precision) : c ∉ r.string x := by
  unfold Resolution.string
  split
  · exact hw
  · simp [hw, hu, h1, h2]

/-- C06: storage policies survive printing and parsing. -/
theorem C06_storage_policy_roundtrip (x : XTime) (p : StoragePolicy)
    (hw : DurationOK x p.resolution.window) (hr : DurationOK x p.retention)
    (hu : UnitOK x p.resolution.precision) :
    parseStoragePolicy x (p.string x) = some p := by
  unfold StoragePolicy.string parseStoragePolicy
  have hc : (58 : UInt8) ∉ p.resolution.string x :=
    not_mem_resolution_string x _ 58 (by decide) (by decide) hw.noColon hu.noColon
  rw [splitOn_append _ _ _ hc, splitOn_of_not_mem _ _ hr.noColon]
  simp [parseResolution_string x _ hw hu, hr.roundtrip]

theorem noBar_storage_policy_string (x : XTime) (p : StoragePolicy)
    (hw : DurationOK x p.resolution.window) (hr : DurationOK x p.retention)
    (hu : UnitOK x p.resolution.precision) : (124 : UInt8) ∉ p.string x := by
  unfold StoragePolicy.string
  have := not_mem_resolution_string x p.resolution 124 (by decide) (by decide) hw.noBar hu.noBar
  simp [this, hr.noBar]

theorem noBar_typesString (ts : List Int) (h : ∀ t ∈ ts, ValidAggType t) :
    (124 : UInt8) ∉ typesString ts := by
  have hall : ∀ t ∈ ValidTypes, (124 : UInt8) ∉ typeNameAt t.toNat := by decide +kernel
  have h1 : ∀ t ∈ ts, (124 : UInt8) ∉ typeString goOutOfRange t := by
    intro t ht
    have hv := h t ht
    have := hall t ((mem_validTypes_iff t).mpr hv)
    unfold ValidAggType at hv
    rw [typeString, if_neg (by omega)]
    exact this
  have hj : ∀ ps : List Bytes, (∀ p ∈ ps, (124 : UInt8) ∉ p) → (124 : UInt8) ∉ joinWith 44 ps := by
    intro ps
    induction ps with
    | nil => simp [joinWith]
    | cons p ps ih =>
      intro hp
      cases ps with
      | nil => simpa [joinWith] using hp
      | cons q qs =>
        have := ih (fun r hr => hp r (List.mem_cons_of_mem _ hr))
        simp [joinWith, hp p (by simp), this]
  unfold typesString
  split
  · simp
  · apply hj
    intro p hp
    obtain ⟨t, ht, rfl⟩ := List.mem_map.mp hp
    exact h1 t ht

/-- C06: policies whose aggregation ID is readable survive printing and parsing. -/
theorem C06_policy_roundtrip (x : XTime) (p : Policy)
    (hw : DurationOK x p.sp.resolution.window) (hr : DurationOK x p.sp.retention)
    (hu : UnitOK x p.sp.resolution.precision) (hid : ∃ l, p.aggID.types = some l) :
    parsePolicy x (p.string x) = some p := by
  have hsp := C06_storage_policy_roundtrip x p.sp hw hr hu
  have hbar := noBar_storage_policy_string x p.sp hw hr hu
  unfold Policy.string
  split
  · rename_i hd
    unfold parsePolicy
    rw [splitOn_of_not_mem _ _ hbar]
    have : p.aggID = DefaultID := by simpa [Agg.ID.isDefault] using hd
    simp [hsp, ← this]
  · rename_i hd
    obtain ⟨l, hl⟩ := hid
    have hre := C02_reencode 0 p.aggID l hl
    have hv : ∀ t ∈ l, ValidAggType t := by
      intro t ht
      rcases Classical.em (ValidAggType t) with hv | hv
      · exact hv
      · have := (C01_fails_iff 0 l).mpr ⟨t, ht, hv⟩; rw [hre] at this; cases this
    have hne : l ≠ [] := by
      intro e; subst e
      exact hd ((C02_default_iff p.aggID).mpr hl)
    have hs : aggIDString p.aggID = typesString l := by simp [aggIDString, hl]
    unfold parsePolicy
    rw [hs, splitOn_append _ _ _ hbar, splitOn_of_not_mem _ _ (noBar_typesString l hv)]
    have : compressTypes l = some p.aggID := hre
    simp [hsp, C03_roundtrip l hne hv, this]

/-- A concrete duration printer used only to show that the hypotheses above can be met: durations are
printed in unary seconds followed by `s`, units as `s`. -/
def toyXTime : XTime where
  unitValue := fun u => if u = 1 then some 1000000000 else none
  unitFromDuration := fun d => if d = 1000000000 then some 1 else none
  maxUnit := fun d => if d % 2000000000 = 0 then 5 else 1
  extString := fun d => List.replicate (d / 1000000000).toNat 49 ++ bs "s"
  parseExt := fun s => some (((s.length - 1 : Nat) : Int) * 1000000000)
  unitString := fun _ => bs "s"

example : ∃ p : Policy, DurationOK toyXTime p.sp.resolution.window ∧ DurationOK toyXTime p.sp.retention ∧
    UnitOK toyXTime p.sp.resolution.precision ∧ (∃ l, p.aggID.types = some l) ∧
    p.string toyXTime = bs "11s@1s:111s|Last,P99" := by
  refine ⟨⟨⟨⟨2000000000, 1⟩, 3000000000⟩, 0x100002⟩, ⟨?_, ?_, ?_, ?_⟩, ⟨?_, ?_, ?_, ?_⟩,
    ⟨⟨1000000000, ?_, ?_⟩, ?_, ?_⟩, ⟨[Last, P99], ?_⟩, ?_⟩ <;> decide

/-- C06 (drop policies): parsing inverts printing on the valid drop policies and accepts nothing
else. -/
theorem C06_drop_policy (s : Bytes) (p : DropPolicy) :
    parseDropPolicy s = some p ↔ (p = 0 ∨ p = 1 ∨ p = 2) ∧ s =
      (if p = 1 then bs "drop_must" else if p = 2 then bs "drop_if_only_match" else bs "drop_none") := by
  constructor
  · intro h
    have hm := List.mem_of_find?_eq_some h
    have hs : dropString p = s := by simpa using List.find?_some h
    simp [validDropPolicies, DropNone, DropMust, DropIfOnlyMatch] at hm
    refine ⟨hm, ?_⟩
    rw [← hs]
    rcases hm with rfl | rfl | rfl <;> decide
  · rintro ⟨hp | hp | hp, hs⟩ <;> subst hp <;> subst hs <;> decide

/-- C06 (drop policies): a number that is no drop policy is printed as the default one. -/
theorem C06_drop_text (p : DropPolicy) (h : dropIsValid p = false) : dropString p = bs "drop_none" ∧ parseDropPolicy (dropString p) = some 0 := by
  have hn : p ≠ 0 ∧ p ≠ 1 ∧ p ≠ 2 := by
    refine ⟨?_, ?_, ?_⟩ <;> (rintro rfl; exact absurd h (by decide))
  have e : dropString p = bs "drop_none" := by
    unfold dropString DropNone DropMust DropIfOnlyMatch
    rw [if_neg hn.1, if_neg hn.2.1, if_neg hn.2.2]
  exact ⟨e, by rw [e]; decide⟩

example : dropIsValid 7 = false := by decide

/-- The known resolutions: windows of 1 and 10 s to the second, of 1, 5 and 10 min to the minute. -/
def knownResolutions : List (Int × Resolution) :=
  [(1, ⟨1000000000, 1⟩), (2, ⟨10000000000, 1⟩), (3, ⟨60000000000, 5⟩), (4, ⟨300000000000, 5⟩), (5, ⟨600000000000, 5⟩)]

/-- The known retentions, in hours. -/
def knownRetentions : List (Int × Int) := [(1, 1), (2, 6), (3, 12), (4, 24), (5, 48), (6, 168), (7, 336), (8, 720), (9, 1080)]

/-- Known resolution/retention values are those listed, and invert each other (whole finite tables). -/
theorem C06_known_values :
    (∀ v r, resolutionOfValue v = some r ↔ (v, r) ∈ knownResolutions) ∧
    (∀ v r, retentionOfValue v = some r ↔ ∃ h, (v, h) ∈ knownRetentions ∧ r = h * 3600000000000) ∧
    (∀ v r, resolutionOfValue v = some r → valueFromResolution r = some v) ∧
    (∀ v r, valueFromResolution r = some v → resolutionOfValue v = some r) ∧
    (∀ v r, retentionOfValue v = some r → valueFromRetention r = some v) ∧
    (∀ v r, valueFromRetention r = some v → retentionOfValue v = some r) := by
  have lk : ∀ {α β : Type} [BEq α] [LawfulBEq α] (l : List (α × β)) (k : α) (v : β),
      l.lookup k = some v → (k, v) ∈ l := by
    intro α β _ _ l k v h
    induction l with
    | nil => simp at h
    | cons p l ih =>
      obtain ⟨a, b⟩ := p
      simp only [List.lookup_cons] at h
      split at h
      · rename_i e
        have : k = a := by simpa using e
        simp only [Option.some.injEq] at h
        subst this; subst h; simp
      · exact List.mem_cons_of_mem _ (ih h)
  refine ⟨?_, ?_, ?_, ?_, ?_, ?_⟩
  · intro v r
    constructor
    · intro h
      have hall : ∀ p ∈ valuesToResolution, p ∈ knownResolutions := by decide
      exact hall _ (lk _ _ _ h)
    · intro h
      have hall : ∀ p ∈ knownResolutions, resolutionOfValue p.1 = some p.2 := by decide
      exact hall _ h
  · intro v r
    constructor
    · intro h
      have hall : ∀ p ∈ valuesToRetention, (p.1, p.2 / 3600000000000) ∈ knownRetentions ∧ p.2 = p.2 / 3600000000000 * 3600000000000 := by
        decide
      exact ⟨_, hall _ (lk _ _ _ h)⟩
    · rintro ⟨h, h1, rfl⟩
      have hall : ∀ p ∈ knownRetentions, retentionOfValue p.1 = some (p.2 * 3600000000000) := by decide
      exact hall _ h1
  · intro v r h
    have hall : ∀ p ∈ valuesToResolution, valueFromResolution p.2 = some p.1 := by decide
    exact hall _ (lk _ _ _ h)
  · intro v r h
    have hall : ∀ p ∈ valuesToResolution.map (fun p => (p.2, p.1)), resolutionOfValue p.2 = some p.1 := by
      decide
    exact hall _ (lk _ _ _ h)
  · intro v r h
    have hall : ∀ p ∈ valuesToRetention, valueFromRetention p.2 = some p.1 := by decide
    exact hall _ (lk _ _ _ h)
  · intro v r h
    have hall : ∀ p ∈ valuesToRetention.map (fun p => (p.2, p.1)), retentionOfValue p.2 = some p.1 := by
      decide
    exact hall _ (lk _ _ _ h)

example : valueFromResolution ⟨600000000000, 5⟩ = some 5 ∧ valueFromRetention 172800000000000 = some 5 := by
  decide

/-! ### C07 -/

/-- C07: the ordering used for sorting is a strict total order agreeing with field equality. -/
theorem C07_order : StrictTotal spLess := by
  refine ⟨?_, ?_, ?_⟩
  · intro a; simp [spLess]
  · intro a b c h1 h2
    simp only [spLess] at h1 h2 ⊢
    grind
  · intro a b
    obtain ⟨⟨w1, p1⟩, r1⟩ := a
    obtain ⟨⟨w2, p2⟩, r2⟩ := b
    simp only [spLess, StoragePolicy.mk.injEq, Resolution.mk.injEq]
    grind

/-- C07: the order is by ascending window, then by descending retention, then by ascending precision. -/
theorem C07_order_by (a b : StoragePolicy) : spLess a b = true ↔
    a.resolution.window < b.resolution.window ∨ a.resolution.window = b.resolution.window ∧
      (b.retention < a.retention ∨ a.retention = b.retention ∧ a.resolution.precision < b.resolution.precision) := by
  simp only [spLess]
  grind

example : spLess ⟨⟨10, 1⟩, 5⟩ ⟨⟨20, 1⟩, 9⟩ = true ∧ spLess ⟨⟨10, 1⟩, 9⟩ ⟨⟨10, 1⟩, 5⟩ = true ∧ spLess ⟨⟨10, 1⟩, 5⟩ ⟨⟨10, 2⟩, 5⟩ = true := by decide

theorem allEq_iff [BEq α] [LawfulBEq α] : ∀ (l₁ l₂ : List α), l₁.length = l₂.length →
    (allEq l₁ l₂ = true ↔ l₁ = l₂)
  | [], [], _ => by simp [allEq]
  | [], _ :: _, h => by simp at h
  | _ :: _, [], h => by simp at h
  | a :: as, b :: bs, h => by
    have ih := allEq_iff as bs (by simpa using h)
    simp only [allEq]
    by_cases e : a = b
    · subst e; simp [ih]
    · have : (a == b) = false := by simpa using e
      simp [this, e]

/-- C07: two storage policy lists are equal exactly when one is a permutation of the other. -/
theorem C07_equal_iff_perm (a b : List StoragePolicy) :
    storagePoliciesEqual a b = true ↔ a.Perm b := by
  unfold storagePoliciesEqual
  split
  · rename_i h
    have h : a.length ≠ b.length := by simpa using h
    constructor
    · intro h'; cases h'
    · intro p; exact absurd p.length_eq h
  · rename_i h
    have h : a.length = b.length := by simpa using h
    rw [allEq_iff _ _ (by simp [length_sortBy, h])]
    exact sortBy_eq_iff_perm C07_order a b

/-- C07: hence equality is an equivalence relation. -/
theorem C07_equivalence :
    (∀ a, storagePoliciesEqual a a = true) ∧
    (∀ a b, storagePoliciesEqual a b = storagePoliciesEqual b a) ∧
    (∀ a b c, storagePoliciesEqual a b = true → storagePoliciesEqual b c = true →
      storagePoliciesEqual a c = true) := by
  refine ⟨fun a => (C07_equal_iff_perm a a).mpr (List.Perm.refl _), ?_, ?_⟩
  · intro a b
    have h1 := C07_equal_iff_perm a b
    have h2 := C07_equal_iff_perm b a
    have : a.Perm b ↔ b.Perm a := ⟨List.Perm.symm, List.Perm.symm⟩
    cases x : storagePoliciesEqual a b <;> cases y : storagePoliciesEqual b a <;> simp_all
  · intro a b c h1 h2
    exact (C07_equal_iff_perm a c).mpr
      (((C07_equal_iff_perm a b).mp h1).trans ((C07_equal_iff_perm b c).mp h2))

example : storagePoliciesEqual [⟨⟨10, 1⟩, 5⟩, ⟨⟨10, 1⟩, 7⟩, ⟨⟨10, 1⟩, 5⟩] [⟨⟨10, 1⟩, 7⟩, ⟨⟨10, 1⟩, 5⟩, ⟨⟨10, 1⟩, 5⟩] = true ∧
    storagePoliciesEqual [⟨⟨10, 1⟩, 5⟩, ⟨⟨10, 1⟩, 7⟩] [⟨⟨10, 1⟩, 5⟩, ⟨⟨10, 1⟩, 5⟩] = false := by decide

/-- C07 (companion): plain policy lists are equal exactly when identical, order included. -/
theorem C07_policies_equals_iff (a b : List Policy) : policiesEquals a b = true ↔ a = b := by
  unfold policiesEquals
  split
  · rename_i h
    have h : a.length ≠ b.length := by simpa using h
    constructor
    · intro h'; cases h'
    · intro e; exact absurd (congrArg List.length e) h
  · rename_i h
    have h : a.length = b.length := by simpa using h
    exact allEq_iff _ _ h

/-! ### C08 -/

/-- What is assumed of the external unit table for one unit: its length maps back to it. -/
def UnitTableOK (x : XTime) (u : Nat) : Prop :=
  ∀ d, x.unitValue u = some d → x.unitFromDuration d = some u

/-- C08: protobuf round trip whatever the earlier contents of both destinations. -/
theorem C08_roundtrip (x : XTime) (p old : StoragePolicy) (pbOld pb : PBStoragePolicy)
    (hu : UnitTableOK x p.resolution.precision) (h : p.toProto x pbOld = some pb) :
    old.fromProto x pb = some p := by
  unfold StoragePolicy.toProto Resolution.toProto at h
  cases hv : x.unitValue p.resolution.precision with
  | none => simp [hv] at h
  | some d =>
    simp only [hv, Option.some.injEq] at h
    subst h
    simp [StoragePolicy.fromProto, Resolution.fromProto, hu d hv]

/-- C08: conversion to protobuf does not depend on the previous contents of the destination, and
fails exactly for units without a length. -/
theorem C08_toProto_spec (x : XTime) (p : StoragePolicy) (pbOld : PBStoragePolicy) :
    p.toProto x pbOld = (x.unitValue p.resolution.precision).map fun d =>
      { resolution := some { windowSize := p.resolution.window, precision := d },
        retention := some { period := p.retention } } := by
  unfold StoragePolicy.toProto Resolution.toProto
  cases hv : x.unitValue p.resolution.precision <;> simp

/-- C08: reading does not depend on the previous contents of the destination; it fails exactly when a
part is missing or the precision is no unit. -/
theorem C08_fromProto_spec (x : XTime) (old : StoragePolicy) (pb : PBStoragePolicy) (p : StoragePolicy) :
    old.fromProto x pb = some p ↔ ∃ res ret, pb.resolution = some res ∧ pb.retention = some ret ∧
      x.unitFromDuration res.precision = some p.resolution.precision ∧
      p.resolution.window = res.windowSize ∧ p.retention = ret.period := by
  obtain ⟨⟨w, u⟩, r⟩ := p
  unfold StoragePolicy.fromProto Resolution.fromProto
  cases h1 : pb.resolution with
  | none => simp
  | some res =>
    cases h2 : x.unitFromDuration res.precision with
    | none => simp [h2]
    | some u' =>
      cases h3 : pb.retention with
      | none => simp [h2]
      | some ret =>
        simp only [h2, Option.some.injEq, StoragePolicy.mk.injEq, Resolution.mk.injEq]
        constructor
        · rintro ⟨⟨rfl, rfl⟩, rfl⟩; exact ⟨res, ret, rfl, rfl, h2, rfl, rfl⟩
        · rintro ⟨res', ret', rfl, rfl, h, rfl, rfl⟩
          rw [h2] at h
          simpa using h

/-- C08: nil messages are rejected. -/
theorem C08_nil (x : XTime) : newStoragePolicyFromProto x none = none := rfl

/-- C08 for whole lists. -/
theorem C08_list_roundtrip (x : XTime) : ∀ (ps : List StoragePolicy) (pbs),
    (∀ p ∈ ps, UnitTableOK x p.resolution.precision) →
    storagePoliciesProto x ps = some pbs → newStoragePoliciesFromProto x pbs = some ps
  | [], pbs, _, h => by simp [storagePoliciesProto] at h; subst h; rfl
  | p :: ps, pbs, hu, h => by
    simp only [storagePoliciesProto] at h
    cases hp : p.toProto x {} with
    | none => simp [hp] at h
    | some pb =>
      cases hps : storagePoliciesProto x ps with
      | none => simp [hp, hps] at h
      | some pbs' =>
        simp only [hp, hps, Option.some.injEq] at h
        subst h
        have h1 := C08_roundtrip x p EmptyStoragePolicy {} pb (hu p (by simp)) hp
        have h2 := C08_list_roundtrip x ps pbs' (fun q hq => hu q (by simp [hq])) hps
        simp [newStoragePoliciesFromProto, newStoragePolicyFromProto, h1, h2]

theorem typesProto_valid : ∀ (ts : List Int), (∀ t ∈ ts, ValidAggType t) →
    typesProto ts = some ts ∧ newTypesFromProto ts = some ts
  | [], _ => ⟨rfl, rfl⟩
  | t :: ts, h => by
    obtain ⟨h1, h2⟩ := typesProto_valid ts (fun u hu => h u (by simp [hu]))
    have hv := h t (by simp)
    have hv' := (isValid_iff t).mpr hv
    unfold ValidAggType at hv
    have : 0 ≤ t ∧ t ≤ 22 := by omega
    simp [typesProto, newTypesFromProto, typeProto, newTypeFromProto, this, h1, h2, hv']

/-- C08 for policies (storage policy plus aggregation ID): a policy that converts to protobuf is read
back unchanged. -/
theorem C08_policy_roundtrip (x : XTime) (p : Policy) (pb : PBPolicy)
    (hu : UnitTableOK x p.sp.resolution.precision) (h : p.proto x = some pb) :
    newPolicyFromProto x (some pb) = some p := by
  unfold Policy.proto at h
  cases hsp : p.sp.toProto x {} with
  | none => simp [hsp] at h
  | some sp =>
    cases ht : p.aggID.types with
    | none => simp [hsp, ht] at h
    | some ts =>
      have hre := C02_reencode 0 p.aggID ts ht
      have hv : ∀ t ∈ ts, ValidAggType t := by
        intro t ht
        rcases Classical.em (ValidAggType t) with hv | hv
        · exact hv
        · have := (C01_fails_iff 0 ts).mpr ⟨t, ht, hv⟩; rw [hre] at this; cases this
      obtain ⟨h1, h2⟩ := typesProto_valid ts hv
      simp only [hsp, ht, h1, Option.some.injEq] at h
      subst h
      have hr := C08_roundtrip x p.sp EmptyStoragePolicy {} sp hu hsp
      have hre' : compressTypes ts = some p.aggID := hre
      simp [newPolicyFromProto, newStoragePolicyFromProto, hr, newIDFromProto, h2, hre']

/-- C08: lists of policies are read one by one, in order; one that cannot be read makes the whole list fail. -/
theorem C08_policies (x : XTime) : ∀ (pbs : List (Option PBPolicy)),
    (∀ ps, newPoliciesFromProto x pbs = some ps ↔ pbs.map (newPolicyFromProto x) = ps.map some) ∧
    (newPoliciesFromProto x pbs = none ↔ ∃ pb ∈ pbs, newPolicyFromProto x pb = none)
  | [] => by
    refine ⟨fun ps => ?_, by simp [newPoliciesFromProto]⟩
    cases ps <;> simp [newPoliciesFromProto]
  | pb :: pbs => by
    obtain ⟨h1, h2⟩ := C08_policies x pbs
    unfold newPoliciesFromProto
    cases hp : newPolicyFromProto x pb with
    | none =>
      refine ⟨fun ps => ⟨(fun h => by cases h), fun h => ?_⟩, by simp [hp]⟩
      cases ps with
      | nil => simp at h
      | cons p ps => simp [hp] at h
    | some p =>
      cases hps : newPoliciesFromProto x pbs with
      | none =>
        refine ⟨fun ps => ⟨(fun h => by cases h), fun h => ?_⟩, ?_⟩
        · cases ps with
          | nil => simp at h
          | cons q qs =>
            simp only [List.map_cons, List.cons.injEq] at h
            rw [(h1 qs).mpr h.2] at hps
            cases hps
        · simpa [hp] using h2.mp hps
      | some ps =>
        have := (h1 ps).mp hps
        refine ⟨fun qs => ?_, ?_⟩
        · cases qs with
          | nil => simp
          | cons q qs =>
            simp only [Option.some.injEq, List.cons.injEq, List.map_cons, hp]
            rw [this]
            constructor
            · rintro ⟨rfl, rfl⟩; exact ⟨rfl, rfl⟩
            · rintro ⟨rfl, h⟩
              exact ⟨rfl, by simpa using congrArg (List.filterMap id) h⟩
        · simp only [reduceCtorEq, false_iff]
          rintro ⟨q, hq, hn⟩
          rcases List.mem_cons.mp hq with rfl | hq
          · rw [hp] at hn; cases hn
          · rw [h2.mpr ⟨q, hq, hn⟩] at hps; cases hps

/-- C08: so a list that was written is read back. -/
theorem C08_policies_roundtrip (x : XTime) (ps : List Policy) (pbs : List PBPolicy) (hu : ∀ p ∈ ps, UnitTableOK x p.sp.resolution.precision)
    (h : ps.map (Policy.proto x) = pbs.map some) : newPoliciesFromProto x (pbs.map some) = some ps := by
  rw [(C08_policies x _).1]
  induction ps generalizing pbs with
  | nil => cases pbs <;> simp at h ⊢
  | cons p ps ih =>
    cases pbs with
    | nil => simp at h
    | cons pb pbs =>
      simp only [List.map_cons, List.cons.injEq] at h ⊢
      exact ⟨C08_policy_roundtrip x p pb (hu p (by simp)) h.1, ih pbs (fun q hq => hu q (by simp [hq])) h.2⟩

/-- Two policies, of which one has no aggregation, are written and read back. -/
example : ∃ pbs : List PBPolicy, [(⟨⟨⟨2000000000, 1⟩, 7⟩, 0⟩ : Policy), ⟨⟨⟨1000000000, 1⟩, 9⟩, 4⟩].map (Policy.proto toyXTime) = pbs.map some :=
  ⟨[⟨some ⟨some ⟨2000000000, 1000000000⟩, some ⟨7⟩⟩, []⟩, ⟨some ⟨some ⟨1000000000, 1000000000⟩, some ⟨9⟩⟩, [2]⟩], rfl⟩

example : UnitTableOK toyXTime 1 ∧
    ∃ pb, StoragePolicy.toProto toyXTime ⟨⟨2000000000, 1⟩, 7⟩ { resolution := some ⟨9, 9⟩ } = some pb ∧
      StoragePolicy.fromProto toyXTime ⟨⟨5, 5⟩, 5⟩ pb = some ⟨⟨2000000000, 1⟩, 7⟩ := by
  refine ⟨?_, ⟨some ⟨2000000000, 1000000000⟩, some ⟨7⟩⟩, ?_, ?_⟩
  · intro d h; simp [toyXTime] at h ⊢; exact h.symm
  · decide
  · decide

end Verif.Policy
