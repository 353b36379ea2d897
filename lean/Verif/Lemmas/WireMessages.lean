import Verif.Lemmas.Wire
/-
The messages on the wire: their fields are well formed, and `Unmarshal` reads what `MarshalTo` wrote.
-/
namespace Verif.Wire
open Verif.Policy Verif.Meta

/-! ### Ranges -/

/-- The value fits an `int64`. -/
def I64 (v : Int) : Prop := -9223372036854775808 ≤ v ∧ v < 9223372036854775808

/-- The value fits an `int32`. -/
def I32 (v : Int) : Prop := -2147483648 ≤ v ∧ v < 2147483648

instance (v : Int) : Decidable (I64 v) := inferInstanceAs (Decidable (_ ∧ _))
instance (v : Int) : Decidable (I32 v) := inferInstanceAs (Decidable (_ ∧ _))

theorem toU64_lt (v : Int) : toU64 v < 18446744073709551616 := by unfold toU64; omega

theorem toU64_zero {v : Int} (h : I64 v) (hz : toU64 v = 0) : v = 0 := by unfold toU64 at hz; unfold I64 at h; omega

theorem toI64_toU64 {v : Int} (h : I64 v) : toI64 (toU64 v) = v := by
  unfold toI64 toU64
  unfold I64 at h
  split <;> omega

theorem I32.i64 {v : Int} (h : I32 v) : I64 v := by unfold I32 at h; unfold I64; omega

theorem toI32_toU64 {v : Int} (h : I32 v) : toI32 (toU64 v) = v := by
  unfold toI32 toU64
  unfold I32 at h
  split <;> omega

theorem int64_writes {c : Codec M} (hc : c.OK) {num : Nat} {get : M → Int} {set : M → Int → M}
    (hm : int64Field num get set ∈ c.fields) (src acc : M) (h : I64 (get src)) (hz : set acc 0 = acc) :
    Writes c (int64Field num get set) src acc (set acc (get src)) :=
  varintField_writes hc hm src acc (toU64_lt _) (toI64_toU64 h) fun h0 => by rw [toU64_zero h h0]; exact hz

theorem int32_writes {c : Codec M} (hc : c.OK) {num : Nat} {get : M → Int} {set : M → Int → M}
    (hm : int32Field num get set ∈ c.fields) (src acc : M) (h : I32 (get src)) (hz : set acc 0 = acc) :
    Writes c (int32Field num get set) src acc (set acc (get src)) :=
  varintField_writes hc hm src acc (toU64_lt _) (toI32_toU64 h) fun h0 => by rw [toU64_zero h.i64 h0]; exact hz

theorem uint64_writes {c : Codec M} (hc : c.OK) {num : Nat} {get : M → BitVec 64} {set : M → BitVec 64 → M}
    (hm : uint64Field num get set ∈ c.fields) (src acc : M) (hz : set acc 0 = acc) :
    Writes c (uint64Field num get set) src acc (set acc (get src)) :=
  varintField_writes hc hm src acc (get src).isLt (by simp) fun h0 => by
    have : get src = 0 := BitVec.eq_of_toNat_eq (by simpa using h0)
    rw [this]; exact hz

theorem uint32_writes {c : Codec M} (hc : c.OK) {num : Nat} {get : M → BitVec 32} {set : M → BitVec 32 → M}
    (hm : uint32Field num get set ∈ c.fields) (src acc : M) (hz : set acc 0 = acc) :
    Writes c (uint32Field num get set) src acc (set acc (get src)) :=
  varintField_writes hc hm src acc (by have := (get src).isLt; omega) (by simp) fun h0 => by
    have : get src = 0 := BitVec.eq_of_toNat_eq (by simpa using h0)
    rw [this]; exact hz

theorem bool_writes {c : Codec M} (hc : c.OK) {num : Nat} {get : M → Bool} {set : M → Bool → M}
    (hm : boolField num get set ∈ c.fields) (src acc : M) (hz : set acc false = acc) :
    Writes c (boolField num get set) src acc (set acc (get src)) :=
  varintField_writes hc hm src acc (by cases get src <;> simp) (by cases get src <;> rfl) fun h0 => by
    have : get src = false := by cases h : get src <;> simp [h] at h0 ⊢
    rw [this]; exact hz

/-! ### The messages are well formed -/

theorem int64Field_ok {num : Nat} (h0 : 0 < num) (h16 : num < 16) (get : M → Int) (set : M → Int → M) : (int64Field num get set).OK :=
  varintField_ok num h0 h16 _ _ get set
theorem int32Field_ok {num : Nat} (h0 : 0 < num) (h16 : num < 16) (get : M → Int) (set : M → Int → M) : (int32Field num get set).OK :=
  varintField_ok num h0 h16 _ _ get set
theorem uint64Field_ok {num : Nat} (h0 : 0 < num) (h16 : num < 16) (get : M → BitVec 64) (set : M → BitVec 64 → M) : (uint64Field num get set).OK :=
  varintField_ok num h0 h16 _ _ get set
theorem uint32Field_ok {num : Nat} (h0 : 0 < num) (h16 : num < 16) (get : M → BitVec 32) (set : M → BitVec 32 → M) : (uint32Field num get set).OK :=
  varintField_ok num h0 h16 _ _ get set
theorem boolField_ok {num : Nat} (h0 : 0 < num) (h16 : num < 16) (get : M → Bool) (set : M → Bool → M) : (boolField num get set).OK :=
  varintField_ok num h0 h16 _ _ get set

theorem allCons {P : α → Prop} {a : α} {l : List α} (h : P a) (t : ∀ x ∈ l, P x) : ∀ x ∈ a :: l, P x := by
  intro x hx
  rcases List.mem_cons.mp hx with rfl | hx
  · exact h
  · exact t x hx

theorem allNil {P : α → Prop} : ∀ x ∈ ([] : List α), P x := by simp

theorem aggregationID_ok : aggregationID.OK := ⟨allCons (uint64Field_ok (by decide) (by decide) _ _) allNil, by decide⟩

theorem resolution_ok : resolution.OK :=
  ⟨allCons (int64Field_ok (by decide) (by decide) _ _) <| allCons (int64Field_ok (by decide) (by decide) _ _) allNil, by decide⟩

theorem retention_ok : retention.OK := ⟨allCons (int64Field_ok (by decide) (by decide) _ _) allNil, by decide⟩

theorem storagePolicy_ok : storagePolicy.OK :=
  ⟨allCons (optField_ok 1 (by decide) (by decide) resolution_ok _ _) <|
    allCons (optField_ok 2 (by decide) (by decide) retention_ok _ _) allNil, by decide⟩

theorem transformationOp_ok : transformationOp.OK := ⟨allCons (int32Field_ok (by decide) (by decide) _ _) allNil, by decide⟩

theorem appliedRollupOp_ok : appliedRollupOp.OK :=
  ⟨allCons (bytesField_ok 1 (by decide) (by decide) _ _) <|
    allCons (msgField_ok 2 (by decide) (by decide) aggregationID_ok _ _) allNil, by decide⟩

theorem appliedPipelineOp_ok : appliedPipelineOp.OK :=
  ⟨allCons (int32Field_ok (by decide) (by decide) _ _) <|
    allCons (optField_ok 2 (by decide) (by decide) transformationOp_ok _ _) <|
    allCons (optField_ok 3 (by decide) (by decide) appliedRollupOp_ok _ _) allNil, by decide⟩

theorem appliedPipeline_ok : appliedPipeline.OK :=
  ⟨allCons (repField_ok 1 (by decide) (by decide) appliedPipelineOp_ok _ _) allNil, by decide⟩

theorem pipelineMetadata_ok : pipelineMetadata.OK :=
  ⟨allCons (msgField_ok 1 (by decide) (by decide) aggregationID_ok _ _) <|
    allCons (repField_ok 2 (by decide) (by decide) storagePolicy_ok _ _) <|
    allCons (msgField_ok 3 (by decide) (by decide) appliedPipeline_ok _ _) <|
    allCons (int32Field_ok (by decide) (by decide) _ _) allNil, by decide⟩

theorem metadata_ok : metadata.OK :=
  ⟨allCons (repField_ok 1 (by decide) (by decide) pipelineMetadata_ok _ _) allNil, by decide⟩

theorem stagedMetadata_ok : stagedMetadata.OK :=
  ⟨allCons (int64Field_ok (by decide) (by decide) _ _) <|
    allCons (boolField_ok (by decide) (by decide) _ _) <|
    allCons (msgField_ok 3 (by decide) (by decide) metadata_ok _ _) allNil, by decide⟩

theorem stagedMetadatas_ok : stagedMetadatas.OK :=
  ⟨allCons (repField_ok 1 (by decide) (by decide) stagedMetadata_ok _ _) allNil, by decide⟩

theorem forwardMetadata_ok : forwardMetadata.OK :=
  ⟨allCons (msgField_ok 1 (by decide) (by decide) aggregationID_ok _ _) <|
    allCons (msgField_ok 2 (by decide) (by decide) storagePolicy_ok _ _) <|
    allCons (msgField_ok 3 (by decide) (by decide) appliedPipeline_ok _ _) <|
    allCons (uint32Field_ok (by decide) (by decide) _ _) <|
    allCons (int32Field_ok (by decide) (by decide) _ _) allNil, by decide⟩

theorem timedMetadata_ok : timedMetadata.OK :=
  ⟨allCons (msgField_ok 1 (by decide) (by decide) aggregationID_ok _ _) <|
    allCons (msgField_ok 2 (by decide) (by decide) storagePolicy_ok _ _) allNil, by decide⟩

theorem counter_ok : counter.OK :=
  ⟨allCons (bytesField_ok 1 (by decide) (by decide) _ _) <| allCons (int64Field_ok (by decide) (by decide) _ _) allNil, by decide⟩

theorem batchTimer_ok : batchTimer.OK :=
  ⟨allCons (bytesField_ok 1 (by decide) (by decide) _ _) <| allCons (doublesField_ok 2 (by decide) (by decide) _ _) allNil, by decide⟩

theorem gauge_ok : gauge.OK :=
  ⟨allCons (bytesField_ok 1 (by decide) (by decide) _ _) <| allCons (doubleField_ok 2 (by decide) (by decide) _ _) allNil, by decide⟩

theorem timedMetric_ok : timedMetric.OK :=
  ⟨allCons (int32Field_ok (by decide) (by decide) _ _) <| allCons (bytesField_ok 2 (by decide) (by decide) _ _) <|
    allCons (int64Field_ok (by decide) (by decide) _ _) <| allCons (doubleField_ok 4 (by decide) (by decide) _ _) allNil, by decide⟩

theorem forwardedMetric_ok : forwardedMetric.OK :=
  ⟨allCons (int32Field_ok (by decide) (by decide) _ _) <| allCons (bytesField_ok 2 (by decide) (by decide) _ _) <|
    allCons (int64Field_ok (by decide) (by decide) _ _) <| allCons (doublesField_ok 4 (by decide) (by decide) _ _) allNil, by decide⟩

theorem withMetadata_ok {a : Codec A} {b : Codec B} (ha : a.OK) (hb : b.OK) : (withMetadata a b).OK :=
  ⟨allCons (msgField_ok 1 (by decide) (by decide) ha _ _) <| allCons (msgField_ok 2 (by decide) (by decide) hb _ _) allNil, by
    show List.Nodup [1, 2]; decide⟩

theorem metricWithMetadatas_ok : metricWithMetadatas.OK :=
  ⟨allCons (int32Field_ok (by decide) (by decide) _ _) <|
    allCons (optField_ok 2 (by decide) (by decide) (withMetadata_ok counter_ok stagedMetadatas_ok) _ _) <|
    allCons (optField_ok 3 (by decide) (by decide) (withMetadata_ok batchTimer_ok stagedMetadatas_ok) _ _) <|
    allCons (optField_ok 4 (by decide) (by decide) (withMetadata_ok gauge_ok stagedMetadatas_ok) _ _) <|
    allCons (optField_ok 5 (by decide) (by decide) (withMetadata_ok forwardedMetric_ok forwardMetadata_ok) _ _) <|
    allCons (optField_ok 6 (by decide) (by decide) (withMetadata_ok timedMetric_ok timedMetadata_ok) _ _) allNil, by decide⟩

/-! ### What `MarshalTo` writes is read by `Unmarshal` -/

/-- The message comes back, as `m'`, from its bytes read into an empty message. -/
def Codec.RT (c : Codec M) (m m' : M) : Prop :=
  (c.marshal m).length < 9223372036854775808 → c.unmarshal (c.marshal m) c.zero = .ok m'

theorem opt_writes {c : Codec M} (hc : c.OK) {num : Nat} {b : Codec A} (hb : b.OK) {get : M → Option A}
    {set : M → Option A → M} (hm : optField num b get set ∈ c.fields) (norm : A → A) (src acc : M)
    (h : ∀ a ∈ get src, b.RT a (norm a)) (hg : (get acc).getD b.zero = b.zero) (hz : set acc (get acc) = acc) :
    Writes c (optField num b get set) src acc (set acc (((get src).map norm).or (get acc))) := by
  cases hs : get src with
  | none =>
    have := optField_writes_none (c := c) (num := num) (b := b) (get := get) (set := set) src acc hs
    simpa [hz] using this
  | some a =>
    exact optField_writes_some hc hb hm src acc a (norm a) hs (by rw [hg]; exact h a hs)

theorem rep_writes {c : Codec M} (hc : c.OK) {num : Nat} {b : Codec A} (hb : b.OK) {get : M → List A}
    {set : M → List A → M} (hm : repField num b get set ∈ c.fields) (hgs : ∀ m v, get (set m v) = v)
    (hss : ∀ m v w, set (set m v) w = set m w) (src acc : M) (hg : get acc = []) (hz : set acc (get acc) = acc)
    (h : ∀ a ∈ get src, b.RT a a) : Writes c (repField num b get set) src acc (set acc (get src)) := by
  have := repField_writes hc hb hm hgs hss id src acc hz h
  rw [hg] at this
  simpa using this

theorem aggregationID_rt (m : BitVec 64) : aggregationID.RT m m := fun h =>
  Chain.unmarshal (.cons (uint64_writes aggregationID_ok (by simp [aggregationID]) m (0 : BitVec 64) rfl) (.nil _)) h

def ResolutionOK (r : PBResolution) : Prop := I64 r.windowSize ∧ I64 r.precision

theorem resolution_rt (m : PBResolution) (h : ResolutionOK m) : resolution.RT m m := fun hl =>
  Chain.unmarshal (.cons (int64_writes resolution_ok (by simp [resolution]) m {} h.1 rfl)
    (.cons (int64_writes resolution_ok (by simp [resolution]) m _ h.2 rfl) (.nil _))) hl

theorem retention_rt (m : PBRetention) (h : I64 m.period) : retention.RT m m := fun hl =>
  Chain.unmarshal (.cons (int64_writes retention_ok (by simp [retention]) m {} h rfl) (.nil _)) hl

def StoragePolicyOK (m : PBStoragePolicy) : Prop :=
  (∀ r ∈ m.resolution, ResolutionOK r) ∧ (∀ r ∈ m.retention, I64 r.period)

theorem storagePolicy_rt (m : PBStoragePolicy) (h : StoragePolicyOK m) : storagePolicy.RT m m := by
  intro hl
  have := Chain.unmarshal (res := m) (.cons (opt_writes storagePolicy_ok resolution_ok (by simp [storagePolicy]) id m {}
      (fun r hr => resolution_rt r (h.1 r hr)) rfl rfl)
    (.cons (opt_writes storagePolicy_ok retention_ok (by simp [storagePolicy]) id m _
      (fun r hr => retention_rt r (h.2 r hr)) rfl rfl) (by simpa using Chain.nil m))) hl
  exact this

theorem transformationOp_rt (m : Int) (h : I32 m) : transformationOp.RT m m := fun hl =>
  Chain.unmarshal (.cons (int32_writes transformationOp_ok (by simp [transformationOp]) m (0 : Int) h rfl) (.nil _)) hl

theorem appliedRollupOp_rt (m : Applied.PBRollupOp) : appliedRollupOp.RT m m := fun hl =>
  Chain.unmarshal (.cons (bytesField_writes appliedRollupOp_ok (by simp [appliedRollupOp]) m {} rfl)
    (.cons (msgField_writes appliedRollupOp_ok aggregationID_ok (by simp [appliedRollupOp]) m _ _ (aggregationID_rt _)) (.nil _))) hl

def OpOK (m : Applied.PBOp) : Prop := I32 m.type ∧ ∀ t ∈ m.transformation, I32 t

theorem appliedPipelineOp_rt (m : Applied.PBOp) (h : OpOK m) : appliedPipelineOp.RT m m := fun hl =>
  Chain.unmarshal (res := m) (.cons (int32_writes appliedPipelineOp_ok (by simp [appliedPipelineOp]) m {} h.1 rfl)
    (.cons (opt_writes appliedPipelineOp_ok transformationOp_ok (by simp [appliedPipelineOp]) id m _
      (fun r hr => transformationOp_rt r (h.2 r hr)) rfl rfl)
    (.cons (opt_writes appliedPipelineOp_ok appliedRollupOp_ok (by simp [appliedPipelineOp]) id m _
      (fun r _ => appliedRollupOp_rt r) rfl rfl) (by simpa using Chain.nil m)))) hl

theorem appliedPipeline_rt (m : List Applied.PBOp) (h : ∀ o ∈ m, OpOK o) : appliedPipeline.RT m m := fun hl =>
  Chain.unmarshal (.cons (rep_writes appliedPipeline_ok appliedPipelineOp_ok (by simp [appliedPipeline]) (by simp) (by simp) m _ rfl rfl
    (fun a ha => appliedPipelineOp_rt a (h a ha))) (.nil _)) hl

def PipelineMetadataOK (m : PBPipelineMetadata) : Prop :=
  (∀ p ∈ m.storagePolicies, StoragePolicyOK p) ∧ (∀ o ∈ m.pipeline, OpOK o) ∧ I32 m.dropPolicy

theorem pipelineMetadata_rt (m : PBPipelineMetadata) (h : PipelineMetadataOK m) : pipelineMetadata.RT m m := fun hl =>
  Chain.unmarshal (.cons (msgField_writes pipelineMetadata_ok aggregationID_ok (by simp [pipelineMetadata]) m {} _ (aggregationID_rt _))
    (.cons (rep_writes pipelineMetadata_ok storagePolicy_ok (by simp [pipelineMetadata]) (by simp) (by simp) m _ rfl rfl
      (fun a ha => storagePolicy_rt a (h.1 a ha)))
    (.cons (msgField_writes pipelineMetadata_ok appliedPipeline_ok (by simp [pipelineMetadata]) m _ _ (appliedPipeline_rt _ h.2.1))
    (.cons (int32_writes pipelineMetadata_ok (by simp [pipelineMetadata]) m _ h.2.2 rfl) (.nil _))))) hl

theorem metadata_rt (m : List PBPipelineMetadata) (h : ∀ p ∈ m, PipelineMetadataOK p) : metadata.RT m m := fun hl =>
  Chain.unmarshal (.cons (rep_writes metadata_ok pipelineMetadata_ok (by simp [metadata]) (by simp) (by simp) m _ rfl rfl
    (fun a ha => pipelineMetadata_rt a (h a ha))) (.nil _)) hl

def StagedOK (m : PBStagedMetadata) : Prop := I64 m.cutoverNanos ∧ ∀ p ∈ m.pipelines, PipelineMetadataOK p

theorem stagedMetadata_rt (m : PBStagedMetadata) (h : StagedOK m) : stagedMetadata.RT m m := fun hl =>
  Chain.unmarshal (.cons (int64_writes stagedMetadata_ok (by simp [stagedMetadata]) m {} h.1 rfl)
    (.cons (bool_writes stagedMetadata_ok (by simp [stagedMetadata]) m _ rfl)
    (.cons (msgField_writes stagedMetadata_ok metadata_ok (by simp [stagedMetadata]) m _ _ (metadata_rt _ h.2)) (.nil _)))) hl

theorem stagedMetadatas_rt (m : List PBStagedMetadata) (h : ∀ p ∈ m, StagedOK p) : stagedMetadatas.RT m m := fun hl =>
  Chain.unmarshal (.cons (rep_writes stagedMetadatas_ok stagedMetadata_ok (by simp [stagedMetadatas]) (by simp) (by simp) m _ rfl rfl
    (fun a ha => stagedMetadata_rt a (h a ha))) (.nil _)) hl

def ForwardOK (m : PBForwardMetadata) : Prop :=
  StoragePolicyOK m.storagePolicy ∧ (∀ o ∈ m.pipeline, OpOK o) ∧ I32 m.numForwardedTimes

theorem forwardMetadata_rt (m : PBForwardMetadata) (h : ForwardOK m) : forwardMetadata.RT m m := fun hl =>
  Chain.unmarshal (.cons (msgField_writes forwardMetadata_ok aggregationID_ok (by simp [forwardMetadata]) m {} _ (aggregationID_rt _))
    (.cons (msgField_writes forwardMetadata_ok storagePolicy_ok (by simp [forwardMetadata]) m _ _ (storagePolicy_rt _ h.1))
    (.cons (msgField_writes forwardMetadata_ok appliedPipeline_ok (by simp [forwardMetadata]) m _ _ (appliedPipeline_rt _ h.2.1))
    (.cons (uint32_writes forwardMetadata_ok (by simp [forwardMetadata]) m _ rfl)
    (.cons (int32_writes forwardMetadata_ok (by simp [forwardMetadata]) m _ h.2.2 rfl) (.nil _)))))) hl

theorem timedMetadata_rt (m : PBTimedMetadata) (h : StoragePolicyOK m.storagePolicy) : timedMetadata.RT m m := fun hl =>
  Chain.unmarshal (.cons (msgField_writes timedMetadata_ok aggregationID_ok (by simp [timedMetadata]) m {} _ (aggregationID_rt _))
    (.cons (msgField_writes timedMetadata_ok storagePolicy_ok (by simp [timedMetadata]) m _ _ (storagePolicy_rt _ h)) (.nil _))) hl

theorem counter_rt (m : PBCounter) (h : I64 m.value) : counter.RT m m := fun hl =>
  Chain.unmarshal (.cons (bytesField_writes counter_ok (by simp [counter]) m {} rfl)
    (.cons (int64_writes counter_ok (by simp [counter]) m _ h rfl) (.nil _))) hl

theorem batchTimer_rt (m : PBBatchTimer) : batchTimer.RT m m := fun hl =>
  Chain.unmarshal (.cons (bytesField_writes batchTimer_ok (by simp [batchTimer]) m {} rfl)
    (.cons (doublesField_writes batchTimer_ok (by simp [batchTimer]) m _ rfl) (.nil _))) hl

theorem gauge_rt (m : PBGauge) : gauge.RT m { m with value := m.value.norm } := fun hl =>
  Chain.unmarshal (.cons (bytesField_writes gauge_ok (by simp [gauge]) m {} rfl)
    (.cons (doubleField_writes gauge_ok (by simp [gauge]) m _ rfl) (.nil _))) hl

theorem timedMetric_rt (m : PBTimedMetric) (h : I32 m.type) (ht : I64 m.timeNanos) :
    timedMetric.RT m { m with value := m.value.norm } := fun hl =>
  Chain.unmarshal (.cons (int32_writes timedMetric_ok (by simp [timedMetric]) m {} h rfl)
    (.cons (bytesField_writes timedMetric_ok (by simp [timedMetric]) m _ rfl)
    (.cons (int64_writes timedMetric_ok (by simp [timedMetric]) m _ ht rfl)
    (.cons (doubleField_writes timedMetric_ok (by simp [timedMetric]) m _ rfl) (.nil _))))) hl

theorem forwardedMetric_rt (m : PBForwardedMetric) (h : I32 m.type) (ht : I64 m.timeNanos) : forwardedMetric.RT m m := fun hl =>
  Chain.unmarshal (.cons (int32_writes forwardedMetric_ok (by simp [forwardedMetric]) m {} h rfl)
    (.cons (bytesField_writes forwardedMetric_ok (by simp [forwardedMetric]) m _ rfl)
    (.cons (int64_writes forwardedMetric_ok (by simp [forwardedMetric]) m _ ht rfl)
    (.cons (doublesField_writes forwardedMetric_ok (by simp [forwardedMetric]) m _ rfl) (.nil _))))) hl

theorem withMetadata_rt {a : Codec A} {b : Codec B} (ha : a.OK) (hb : b.OK) (m : PBWith A B) (x : A) (y : B)
    (hx : a.RT m.metric x) (hy : b.RT m.metadata y) : (withMetadata a b).RT m ⟨x, y⟩ := fun hl =>
  Chain.unmarshal (.cons (msgField_writes (withMetadata_ok ha hb) ha (by simp [withMetadata]) m ⟨a.zero, b.zero⟩ _ hx)
    (.cons (msgField_writes (withMetadata_ok ha hb) hb (by simp [withMetadata]) m _ _ hy) (.nil _))) hl

/-! ### The message around the metric -/

/-- A field is as after `resetMetricWithMetadatasProto`: not allocated or empty. -/
def CleanOpt (z : A) (o : Option A) : Prop := o = none ∨ o = some z

/-- A message as after `resetMetricWithMetadatasProto`. -/
structure Clean (m : PBMetric) : Prop where
  type : m.type = 0
  counter : CleanOpt ⟨{}, []⟩ m.counter
  batchTimer : CleanOpt ⟨{}, []⟩ m.batchTimer
  gauge : CleanOpt ⟨{}, []⟩ m.gauge
  forwarded : CleanOpt ⟨{}, {}⟩ m.forwarded
  timed : CleanOpt ⟨{}, {}⟩ m.timed

theorem clean_reset (m : PBMetric) : Clean (resetMetric m) where
  type := rfl
  counter := by cases h : m.counter <;> simp [resetMetric, h, CleanOpt, resetCounter]
  batchTimer := by cases h : m.batchTimer <;> simp [resetMetric, h, CleanOpt, resetBatchTimer]
  gauge := by cases h : m.gauge <;> simp [resetMetric, h, CleanOpt, resetGauge]
  forwarded := by cases h : m.forwarded <;> simp [resetMetric, h, CleanOpt, resetForwarded]
  timed := by cases h : m.timed <;> simp [resetMetric, h, CleanOpt, resetTimed]

theorem CleanOpt.getD {z : A} {o : Option A} (h : CleanOpt z o) : o.getD z = z := by
  rcases h with h | h <;> simp [h]

/-- A gauge is read back with a positive zero. -/
def normGauge (m : PBGaugeWithMetadatas) : PBGaugeWithMetadatas := { m with metric := { m.metric with value := m.metric.value.norm } }
def normTimed (m : PBTimedMetricWithMetadata) : PBTimedMetricWithMetadata :=
  { m with metric := { m.metric with value := m.metric.value.norm } }

/-- All numbers of a message are in the range of their types. -/
structure MetricOK (m : PBMetric) : Prop where
  type : I32 m.type
  counter : ∀ c ∈ m.counter, I64 c.metric.value ∧ ∀ p ∈ c.metadata, StagedOK p
  batchTimer : ∀ c ∈ m.batchTimer, ∀ p ∈ c.metadata, StagedOK p
  gauge : ∀ c ∈ m.gauge, ∀ p ∈ c.metadata, StagedOK p
  forwarded : ∀ c ∈ m.forwarded, I32 c.metric.type ∧ I64 c.metric.timeNanos ∧ ForwardOK c.metadata
  timed : ∀ c ∈ m.timed, I32 c.metric.type ∧ I64 c.metric.timeNanos ∧ StoragePolicyOK c.metadata.storagePolicy

/-- What is read back into a message that was reset. -/
def readBack (m old : PBMetric) : PBMetric where
  type := m.type
  counter := m.counter.or old.counter
  batchTimer := m.batchTimer.or old.batchTimer
  gauge := (m.gauge.map normGauge).or old.gauge
  forwarded := m.forwarded.or old.forwarded
  timed := (m.timed.map normTimed).or old.timed

theorem metricWithMetadatas_rt (m old : PBMetric) (h : MetricOK m) (ho : Clean old)
    (hl : (metricWithMetadatas.marshal m).length < 9223372036854775808) :
    metricWithMetadatas.unmarshal (metricWithMetadatas.marshal m) old = .ok (readBack m old) := by
  have hk := metricWithMetadatas_ok
  refine Chain.unmarshal (.cons (int32_writes hk (by simp [metricWithMetadatas]) m old h.type ?_)
    (.cons (opt_writes hk (withMetadata_ok counter_ok stagedMetadatas_ok) (by simp [metricWithMetadatas]) id m _ ?_ ?_ rfl)
    (.cons (opt_writes hk (withMetadata_ok batchTimer_ok stagedMetadatas_ok) (by simp [metricWithMetadatas]) id m _ ?_ ?_ rfl)
    (.cons (opt_writes hk (withMetadata_ok gauge_ok stagedMetadatas_ok) (by simp [metricWithMetadatas]) normGauge m _ ?_ ?_ rfl)
    (.cons (opt_writes hk (withMetadata_ok forwardedMetric_ok forwardMetadata_ok) (by simp [metricWithMetadatas]) id m _ ?_ ?_ rfl)
    (.cons (opt_writes hk (withMetadata_ok timedMetric_ok timedMetadata_ok) (by simp [metricWithMetadatas]) normTimed m _ ?_ ?_ rfl)
      ?_)))))) hl
  · obtain ⟨t, _, _, _, _, _⟩ := old
    have := ho.type
    simp only at this
    subst this
    rfl
  · exact fun a ha => withMetadata_rt counter_ok stagedMetadatas_ok a _ _ (counter_rt _ (h.counter a ha).1)
      (stagedMetadatas_rt _ (h.counter a ha).2)
  · exact ho.counter.getD
  · exact fun a ha => withMetadata_rt batchTimer_ok stagedMetadatas_ok a _ _ (batchTimer_rt _)
      (stagedMetadatas_rt _ (h.batchTimer a ha))
  · exact ho.batchTimer.getD
  · exact fun a ha => withMetadata_rt gauge_ok stagedMetadatas_ok a _ _ (gauge_rt _)
      (stagedMetadatas_rt _ (h.gauge a ha))
  · exact ho.gauge.getD
  · exact fun a ha => withMetadata_rt forwardedMetric_ok forwardMetadata_ok a _ _ (forwardedMetric_rt _ (h.forwarded a ha).1 (h.forwarded a ha).2.1)
      (forwardMetadata_rt _ (h.forwarded a ha).2.2)
  · exact ho.forwarded.getD
  · exact fun a ha => withMetadata_rt timedMetric_ok timedMetadata_ok a _ _ (timedMetric_rt _ (h.timed a ha).1 (h.timed a ha).2.1)
      (timedMetadata_rt _ (h.timed a ha).2.2)
  · exact ho.timed.getD
  · simpa [readBack] using Chain.nil (readBack m old)

end Verif.Wire
