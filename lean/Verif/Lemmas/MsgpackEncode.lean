import Verif.Lemmas.Msgpack
/- The encoders write what the relations of Verif.Spec.Msgpack describe, without further fields. -/
namespace Verif.MP
open Verif.Policy Verif.Meta Verif.Wire Verif.Msg Verif.Spec.MP
open Verif.Spec.Msg (Int64)

variable {l : Lib} {x : XTime} {u : Units}

theorem obj_plain (n : Nat) (fields b : Bytes) (hn : n < 10) (h : b = l.putArrayLen n ++ fields) : Obj l n fields b :=
  ⟨0, [], .nil, by unfold Len; omega, by simp [h]⟩

theorem encodeAggID_w (id : Agg.ID) : WAggID l id (encodeAggID l id) := by
  unfold encodeAggID Agg.ID.isDefault Agg.DefaultID
  split
  · next h => exact .inl ⟨by simpa using h, obj_plain 1 _ _ (by decide) rfl⟩
  · exact .inr (.inl (obj_plain 2 _ _ (by decide) (by simp [numFieldsForType, shortAggregationID, metricType, stagedPoliciesType,
      unknownResolutionType, rawMetricWithStoragePolicyAndEncodeTimeType, defaultPoliciesListType, defaultAggregationID])))

theorem known_find {r : Resolution} (h : valueFromResolution u r = some v) : (v, r) ∈ KnownResolution u := by
  have h1 := List.find?_some h
  have h2 := List.mem_of_find?_eq_some h
  simp only [List.mem_cons, List.not_mem_nil, or_false] at h2
  simp only [beq_iff_eq] at h1
  rcases h2 with rfl | rfl | rfl | rfl | rfl <;>
    (have h3 := Option.some.inj h1
     simp [KnownResolution, oneSecond, oneMinute] at h3 ⊢
     simp [← h3])

theorem known_none {r : Resolution} (h : valueFromResolution u r = none) : ∀ v, (v, r) ∉ KnownResolution u := by
  intro v hv
  have h1 := (knownResolution_value hv).1
  have h2 : v ∈ [1, 2, 3, 4, (5 : Int)] := by
    simp only [KnownResolution, List.mem_cons, Prod.mk.injEq, List.not_mem_nil, or_false] at hv
    rcases hv with ⟨rfl, _⟩ | ⟨rfl, _⟩ | ⟨rfl, _⟩ | ⟨rfl, _⟩ | ⟨rfl, _⟩ <;> simp
  have := List.find?_eq_none.mp h v h2
  simp [h1] at this

theorem encodeResolution_w {r : Resolution}
    (h : (Int64 r.window ∧ ValidPrecision x r.precision) ∨ ∃ v, (v, r) ∈ KnownResolution u) :
    WResolution l x u r (encodeResolution l u r) := by
  unfold encodeResolution
  split
  · next v hv => exact .inl ⟨v, known_find hv, obj_plain 2 _ _ (by decide) (by rw [List.append_assoc]; rfl)⟩
  · next hv =>
    rcases h with ⟨h1, h2⟩ | ⟨v, h⟩
    · exact .inr ⟨h1, h2, obj_plain 3 _ _ (by decide) (by simp only [List.append_assoc]; rfl)⟩
    · exact absurd h (known_none hv v)

theorem retention_find (h : valueFromRetention r = some v) : ∃ n, (v, n) ∈ KnownRetention ∧ r = n * 3600000000000 := by
  have h1 := List.find?_some h
  have h2 := List.mem_of_find?_eq_some h
  simp only [List.mem_cons, List.not_mem_nil, or_false] at h2
  simp only [beq_iff_eq] at h1
  rcases h2 with rfl | rfl | rfl | rfl | rfl | rfl | rfl | rfl | rfl <;>
    (have h3 := Option.some.inj h1
     simp [KnownRetention, oneSecond, oneMinute, oneHour] at h3 ⊢
     simp [← h3])

theorem encodeRetention_w (h : Int64 r) : WRetention l r (encodeRetention l r) := by
  unfold encodeRetention
  split
  · next v hv =>
    obtain ⟨n, hn, hr⟩ := retention_find hv
    exact .inl ⟨v, n, hn, hr, obj_plain 2 _ _ (by decide) (by rw [List.append_assoc]; rfl)⟩
  · exact .inr ⟨h, obj_plain 2 _ _ (by decide) (by simp only [List.append_assoc]; rfl)⟩

theorem encodeStoragePolicy_w {p : StoragePolicy} (h : WritableStorage x u p) :
    WStoragePolicy l x u p (encodeStoragePolicy l u p) :=
  ⟨_, _, encodeResolution_w h.1, encodeRetention_w h.2, obj_plain 2 _ _ (by decide) (by
    unfold encodeStoragePolicy; rw [List.append_assoc]; rfl)⟩

theorem encodePolicy_w {p : Policy} (h : WritableStorage x u p.sp) : WPolicy l x u p (encodePolicy l u p) :=
  ⟨_, _, encodeStoragePolicy_w h, encodeAggID_w _, obj_plain 2 _ _ (by decide) (by
    unfold encodePolicy; rw [List.append_assoc]; rfl)⟩

theorem wlist_flatMap {w : α → Bytes → Prop} {f : α → Bytes} : ∀ (as : List α), (∀ a ∈ as, w a (f a)) → WList w as (as.flatMap f) := by
  intro as
  induction as with
  | nil => intro _; rfl
  | cons a as ih => intro h; exact ⟨_, _, h a (by simp), ih fun b hb => h b (by simp [hb]), rfl⟩

theorem encodeStaged_w {p : StagedPolicies} (h1 : Int64 p.cutoverNanos) (h2 : Len p.policies.length)
    (h : ∀ q ∈ p.policies, WritableStorage x u q.sp) : WStaged l x u p (encodeStagedPolicies l u p) :=
  ⟨h1, h2, _, wlist_flatMap _ fun q hq => encodePolicy_w (h q hq), obj_plain 3 _ _ (by decide) (by
    unfold encodeStagedPolicies; simp only [List.append_assoc]; rfl)⟩

theorem isDefaultList_iff (pl : List StagedPolicies) : isDefaultList pl = true ↔ pl = [{}] := by
  match pl with
  | [] => simp [isDefaultList]
  | [⟨c, t, ps⟩] => cases ps <;> simp [isDefaultList, StagedPolicies.isDefault]
  | _ :: _ :: _ => simp [isDefaultList]

theorem encodePolicies_w {pl : List StagedPolicies} (h : WritablePolicies x u pl) :
    WPolicies l x u pl (encodePoliciesList l u pl) := by
  unfold encodePoliciesList
  split
  · next hd => exact .inl ⟨(isDefaultList_iff pl).mp hd, obj_plain 1 _ _ (by decide) rfl⟩
  · exact .inr ⟨h.1, _, wlist_flatMap _ fun s hs => encodeStaged_w (h.2 s hs).1 (h.2 s hs).2.1 (h.2 s hs).2.2,
      obj_plain 2 _ _ (by decide) (by simp only [List.append_assoc]; rfl)⟩

theorem encodeID_w {id : Bytes} (h : Len id.length) (isNil : Bool) : WId l id (encodeRawID l isNil id) := by
  refine ⟨h, ?_⟩
  unfold encodeRawID
  split
  · next hn =>
    simp only [Bool.and_eq_true, List.isEmpty_iff] at hn
    exact .inl ⟨hn.2, rfl⟩
  · exact .inr (.inl rfl)

/-- The bytes of the metric in a message. -/
def metricBytes (l : Lib) (isNil : Bool) : Sample → Bytes
  | .counter c => encodeCounter l isNil c
  | .timer t => encodeBatchTimer l isNil t
  | .gauge g => encodeGauge l isNil g

theorem metricBytes_w {m : Sample} (h : Writable m) (isNil : Bool) : WMetric l m (metricBytes l isNil m) := by
  cases m with
  | counter c => exact ⟨h.2, _, encodeID_w h.1 isNil, obj_plain 2 _ _ (by decide) (by
      simp only [metricBytes, encodeCounter, List.append_assoc]; rfl)⟩
  | timer t => exact ⟨h.2, _, encodeID_w h.1 isNil, obj_plain 2 _ _ (by decide) (by
      unfold metricBytes encodeBatchTimer; simp only [List.append_assoc]; rfl)⟩
  | gauge g => exact ⟨_, encodeID_w h isNil, obj_plain 2 _ _ (by decide) (by
      simp only [metricBytes, encodeGauge, List.append_assoc]; rfl)⟩

theorem encodeMetric_w {m : Sample} (h : Writable m) (isNil : Bool) : WItem l x u (.bare m) (encodeMetric l isNil m) := by
  refine ⟨_, _, metricBytes_w h isNil, obj_plain 2 _ _ (by decide) rfl, ?_⟩
  cases m <;> simp only [encodeMetric, encodeRootObject, metricBytes, List.append_assoc] <;> rfl

theorem encodeMetricWithPolicies_w {m : Sample} {pl : List StagedPolicies} (h : Writable m) (hp : WritablePolicies x u pl)
    (isNil : Bool) : WItem l x u (.policies m pl) (encodeMetricWithPolicies l u isNil pl m) := by
  refine ⟨_, _, _, _, metricBytes_w h isNil, encodePolicies_w hp, obj_plain 2 _ _ (by decide) rfl,
    obj_plain 2 _ _ (by decide) rfl, ?_⟩
  cases m <;> simp only [encodeMetricWithPolicies, encodeRootObject, metricBytes, List.append_assoc] <;> rfl

end Verif.MP
