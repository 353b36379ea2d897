import Verif.Lemmas.RuleOps
import Verif.Props.TagsParse
import Verif.Props.Policy
import Verif.Props.Pipeline
/- Storing and reading back the parts of a rule set. -/
namespace Verif.RuleSet
open Verif.Agg Verif.Policy Verif.Meta Verif.Rules Verif.TagsFlt Verif.Flt

/-- What is assumed of the external table of time units: the two directions are inverse to each other. -/
structure UnitsOK (x : XTime) : Prop where
  toUnit : ∀ u, UnitTableOK x u
  toLength : ∀ d u, x.unitFromDuration d = some u → x.unitValue u = some d

/-! ### Filters -/

theorem newLoop_cases (key : Bytes) : ∀ (es : TagFilterValueMap) (nf : Option Filter) (tfs : List TagFilter),
    newLoop key es nf tfs ≠ .panic ∧
      ((∃ r, newLoop key es nf tfs = .ok r) ↔ ∀ e ∈ es, ∃ f, newFilterFromFilterValue e.2 = .ok f)
  | [], nf, tfs => by simp [newLoop]
  | e :: es, nf, tfs => by
    simp only [newLoop, List.forall_mem_cons]
    cases h : newFilterFromFilterValue e.2 with
    | ok f =>
      simp only [Out.ok_bind]
      split
      · have := newLoop_cases key es (some f) tfs
        exact ⟨this.1, by rw [this.2]; simp⟩
      · have := newLoop_cases key es nf (tfs ++ [⟨e.1, f⟩])
        exact ⟨this.1, by rw [this.2]; simp⟩
    | err => simp
    | panic => exact absurd h (C29_construction_never_panics e.2.pattern e.2.negate).2

/-- Building the filter of a rule never panics. -/
theorem compileFilter_no_panic (key : Bytes) (m : TagFilterValueMap) (op : LogicalOp) :
    newTagsFilter key m op ≠ .panic := by
  have := (newLoop_cases key m none []).1
  unfold newTagsFilter
  cases h : newLoop key m none [] with
  | ok r => simp
  | err => simp
  | panic => exact absurd h this

/-- The filter of a stored rule can be built exactly when its text passes validation. -/
theorem compileFilter_isSome (key raw : Bytes) : (compileFilter key raw).isSome = filterValid raw := by
  have hnf := compileFilter_no_panic key
  unfold compileFilter filterValid validateTagsFilter
  cases hp : parseTagFilterValueMap raw with
  | none => rfl
  | some m =>
    have h1 := (newLoop_cases key m none []).2
    have h2 := validateLoop_iff m
    simp only
    unfold newTagsFilter
    cases hv : validateLoop m with
    | ok u =>
      obtain ⟨r, hr⟩ := h1.mpr (h2.2.mp hv)
      simp [hr]
    | err =>
      cases hl : newLoop key m none [] with
      | ok r =>
        have := h2.2.mpr (h1.mp ⟨r, hl⟩)
        rw [hv] at this; cases this
      | err => simp
      | panic => exact absurd hl (newLoop_cases key m none []).1
    | panic => exact absurd hv h2.1

/-! ### Lists -/

theorem mapM'_eq (f : α → Option β) : ∀ l : List α, mapM' f l = mapOpt f l
  | [] => rfl
  | a :: l => by
    simp only [mapM', mapOpt, mapM'_eq f l]
    cases f a with
    | none => rfl
    | some b => cases mapOpt f l <;> rfl

/-- Storing a list and reading it back is storing and reading back its elements. -/
theorem mapM'_compose {α β γ : Type} (f : α → Option β) (g : Option β → Option γ) : ∀ l : List α,
    (mapM' f l).bind (fun bs => mapM' g (bs.map some)) = mapM' (fun a => (f a).bind fun b => g (some b)) l
  | [] => rfl
  | a :: l => by
    have ih := mapM'_compose f g l
    simp only [mapM']
    rw [← ih]
    cases f a with
    | none => rfl
    | some b =>
      simp only [Option.bind_some]
      cases mapM' f l with
      | none => simp; cases g (some b) <;> rfl
      | some bs => simp [mapM']

theorem mapM'_char {α β : Type} (f : α → Option β) (P : α → Prop) (n : α → β) : ∀ (l : List α) (l' : List β),
    (∀ a ∈ l, ∀ b, f a = some b ↔ P a ∧ b = n a) → (mapM' f l = some l' ↔ (∀ a ∈ l, P a) ∧ l' = l.map n)
  | [], l', _ => by simp [mapM', eq_comm]
  | a :: l, l', h => by
    have ih := fun m => mapM'_char f P n l m (fun c hc => h c (by simp [hc]))
    have ha := h a (by simp)
    simp only [mapM', List.forall_mem_cons, List.map_cons]
    cases hf : f a with
    | none =>
      simp only [reduceCtorEq, false_iff]
      rintro ⟨⟨hp, _⟩, _⟩
      have := (ha (n a)).mpr ⟨hp, rfl⟩
      rw [hf] at this; cases this
    | some b =>
      obtain ⟨hp, rfl⟩ := (ha b).mp hf
      cases hm : mapM' f l with
      | none =>
        simp only [reduceCtorEq, false_iff]
        rintro ⟨⟨_, hq⟩, _⟩
        have := (ih _).mpr ⟨hq, rfl⟩
        rw [hm] at this; cases this
      | some bs =>
        obtain ⟨hq, rfl⟩ := (ih bs).mp hm
        simp only [Option.some.injEq]
        exact ⟨fun h => ⟨⟨hp, hq⟩, h.symm⟩, fun h => h.2.symm⟩

theorem mapM'_some_mem {α β : Type} {f : α → Option β} : ∀ {l : List α} {l' : List β}, mapM' f l = some l' →
    ∀ b ∈ l', ∃ a ∈ l, f a = some b
  | [], l', h => by simp [mapM'] at h; subst h; simp
  | a :: l, l', h => by
    simp only [mapM'] at h
    cases hf : f a with
    | none => simp [hf] at h
    | some b =>
      cases hm : mapM' f l with
      | none => simp [hf, hm] at h
      | some bs =>
        simp only [hf, hm, Option.some.injEq] at h
        subst h
        intro c hc
        rcases List.mem_cons.mp hc with rfl | hc
        · exact ⟨a, by simp, hf⟩
        · obtain ⟨a', h1, h2⟩ := mapM'_some_mem hm c hc
          exact ⟨a', by simp [h1], h2⟩

theorem mapM'_length {α β : Type} {f : α → Option β} : ∀ {l : List α} {l' : List β}, mapM' f l = some l' →
    l'.length = l.length
  | [], l', h => by simp [mapM'] at h; subst h; simp
  | a :: l, l', h => by
    simp only [mapM'] at h
    cases hf : f a with
    | none => simp [hf] at h
    | some b =>
      cases hm : mapM' f l with
      | none => simp [hf, hm] at h
      | some bs =>
        simp only [hf, hm, Option.some.injEq] at h
        subst h
        simp [mapM'_length hm]

/-! ### Aggregation types and storage policies -/

theorem types_valid {id : Agg.ID} {ts : List Int} (h : id.types = some ts) : ∀ t ∈ ts, Verif.Spec.ValidAggType t := by
  intro t ht
  rcases Classical.em (Verif.Spec.ValidAggType t) with hv | hv
  · exact hv
  · have := (C01_fails_iff 0 ts).mpr ⟨t, ht, hv⟩
    rw [C02_reencode 0 id ts h] at this; cases this

theorem aggID_roundtrip {id : Agg.ID} {ts : List Int} (h : id.types = some ts) :
    typesProto ts = some ts ∧ newIDFromProto ts = some id := by
  obtain ⟨h1, h2⟩ := typesProto_valid ts (types_valid h)
  refine ⟨h1, ?_⟩
  simp only [newIDFromProto, h2]
  exact C02_reencode 0 id ts h

/-- IDs read from their stored form can be listed again. -/
theorem newID_types {is : List Int} {id : Agg.ID} (h : newIDFromProto is = some id) : id.types.isSome = true := by
  unfold newIDFromProto at h
  cases hn : newTypesFromProto is with
  | none => simp [hn] at h
  | some ts =>
    simp only [hn] at h
    have hv : ∀ t ∈ ts, Verif.Spec.ValidAggType t := by
      intro t ht
      rcases Classical.em (Verif.Spec.ValidAggType t) with hv | hv
      · exact hv
      · have := (C01_fails_iff 0 ts).mpr ⟨t, ht, hv⟩
        have h' : compress 0 ts = some id := h
        rw [h'] at this; cases this
    obtain ⟨id', l, h1, h2, _⟩ := C01_roundtrip 0 ts hv
    have h' : compress 0 ts = some id := h
    rw [h'] at h1
    cases h1
    simp [h2]

/-- The storage policy has a unit with a length. -/
def KnownUnit (x : XTime) (p : StoragePolicy) : Prop := (x.unitValue p.resolution.precision).isSome = true

theorem sps_proto (x : XTime) : ∀ ps : List StoragePolicy,
    (storagePoliciesProto x ps).isSome = true ↔ ∀ p ∈ ps, KnownUnit x p
  | [] => by simp [storagePoliciesProto]
  | p :: ps => by
    have ih := sps_proto x ps
    rw [List.forall_mem_cons, ← ih]
    simp only [storagePoliciesProto, KnownUnit]
    rw [C08_toProto_spec]
    cases x.unitValue p.resolution.precision with
    | none => simp
    | some d => cases storagePoliciesProto x ps <;> simp

theorem sps_proto_length {x : XTime} : ∀ {ps : List StoragePolicy} {pbs}, storagePoliciesProto x ps = some pbs →
    pbs.length = ps.length
  | [], pbs, h => by simp [storagePoliciesProto] at h; subst h; rfl
  | p :: ps, pbs, h => by
    simp only [storagePoliciesProto] at h
    cases hp : p.toProto x {} with
    | none => simp [hp] at h
    | some pb =>
      cases hq : storagePoliciesProto x ps with
      | none => simp [hp, hq] at h
      | some q =>
        simp only [hp, hq, Option.some.injEq] at h
        subst h
        simp [sps_proto_length hq]

theorem newSP_known {x : XTime} (hx : UnitsOK x) {pb : Option PBStoragePolicy} {p : StoragePolicy}
    (h : newStoragePolicyFromProto x pb = some p) : KnownUnit x p := by
  cases pb with
  | none => simp [newStoragePolicyFromProto] at h
  | some pb =>
    obtain ⟨res, ret, _, _, hu, _⟩ := (C08_fromProto_spec x EmptyStoragePolicy pb p).mp h
    simp [KnownUnit, hx.toLength _ _ hu]

theorem newSPs_known {x : XTime} (hx : UnitsOK x) : ∀ {pbs : List (Option PBStoragePolicy)} {ps : List StoragePolicy},
    newStoragePoliciesFromProto x pbs = some ps → (∀ p ∈ ps, KnownUnit x p) ∧ ps.length = pbs.length
  | [], ps, h => by simp [newStoragePoliciesFromProto] at h; subst h; simp
  | pb :: pbs, ps, h => by
    simp only [newStoragePoliciesFromProto] at h
    cases hp : newStoragePolicyFromProto x pb with
    | none => simp [hp] at h
    | some p =>
      cases hq : newStoragePoliciesFromProto x pbs with
      | none => simp [hp, hq] at h
      | some q =>
        simp only [hp, hq, Option.some.injEq] at h
        subst h
        obtain ⟨h1, h2⟩ := newSPs_known hx hq
        refine ⟨?_, by simp [h2]⟩
        simp only [List.forall_mem_cons]
        exact ⟨newSP_known hx hp, h1⟩

theorem convertLoop_known {x : XTime} (hx : UnitsOK x) : ∀ {ps : List (Option PBPolicy)} {agg : Option Agg.ID}
    {sps : List StoragePolicy} {id : Agg.ID} {out : List StoragePolicy},
    (∀ a, agg = some a → a.types.isSome = true) → (∀ p ∈ sps, KnownUnit x p) →
    convertLoop x ps agg sps = some (id, out) →
    id.types.isSome = true ∧ (∀ p ∈ out, KnownUnit x p) ∧ (sps ≠ [] ∨ ps ≠ [] → out ≠ [])
  | [], agg, sps, id, out, ha, hs, h => by
    simp only [convertLoop, Option.some.injEq, Prod.mk.injEq] at h
    obtain ⟨rfl, rfl⟩ := h
    refine ⟨?_, hs, by simp⟩
    cases agg with
    | none => decide
    | some a => exact ha a rfl
  | none :: _, _, _, _, _, _, _, h => by simp [convertLoop] at h
  | some p :: ps, agg, sps, id, out, ha, hs, h => by
    simp only [convertLoop] at h
    cases hp : newStoragePolicyFromProto x p.storagePolicy with
    | none => simp [hp] at h
    | some sp =>
      cases hn : newIDFromProto p.aggregationTypes with
      | none => simp [hp, hn] at h
      | some new =>
        simp only [hp, hn] at h
        have hs' : ∀ q ∈ (if sps.contains sp then sps else sps ++ [sp]), KnownUnit x q := by
          intro q hq
          split at hq
          · exact hs q hq
          · rcases List.mem_append.mp hq with hq | hq
            · exact hs q hq
            · simp only [List.mem_singleton] at hq
              subst hq
              exact newSP_known hx hp
        have hne : (if sps.contains sp then sps else sps ++ [sp]) ≠ [] := by
          split
          · next hc => intro h0; subst h0; simp at hc
          · simp
        cases agg with
        | none =>
          obtain ⟨h1, h2, h3⟩ := convertLoop_known hx (by
            intro a ha'; cases ha'; exact newID_types hn) hs' h
          exact ⟨h1, h2, fun _ => h3 (Or.inl hne)⟩
        | some a =>
          simp only at h
          split at h
          · simp at h
          · obtain ⟨h1, h2, h3⟩ := convertLoop_known hx ha hs' h
            exact ⟨h1, h2, fun _ => h3 (Or.inl hne)⟩

theorem convert_known {x : XTime} (hx : UnitsOK x) {ps : List (Option PBPolicy)} {id : Agg.ID} {out : List StoragePolicy}
    (h : toAggIDAndStoragePolicies x ps = some (id, out)) :
    id.types.isSome = true ∧ (∀ p ∈ out, KnownUnit x p) ∧ (ps ≠ [] → out ≠ []) := by
  unfold toAggIDAndStoragePolicies at h
  cases hc : convertLoop x ps none [] with
  | none => simp [hc] at h
  | some r =>
    obtain ⟨id', sps⟩ := r
    simp only [hc, Option.map_some, Option.some.injEq, Prod.mk.injEq] at h
    obtain ⟨rfl, rfl⟩ := h
    obtain ⟨h1, h2, h3⟩ := convertLoop_known hx (by simp) (by simp) hc
    refine ⟨h1, fun p hp => h2 p ((mem_sortBy _).mp hp), fun hne h0 => ?_⟩
    have := length_sortBy spLess sps
    rw [h0] at this
    exact h3 (Or.inr hne) (List.length_eq_zero_iff.mp this.symm)

theorem drop_roundtrip (d : DropPolicy) (h : d ≤ 2) : dropFromProto (dropToProto d) = d ∧ (dropToProto d = 0 ↔ d = 0) := by
  have : d = 0 ∨ d = 1 ∨ d = 2 := by omega
  rcases this with rfl | rfl | rfl <;> decide

end Verif.RuleSet
