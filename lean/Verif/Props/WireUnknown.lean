import Verif.Lemmas.WireRules
import Verif.Props.ProtoIterator
/- C74: fields a reader does not know are ignored. -/
namespace Verif.Wire
open Verif.Spec.WireFormat

/-! ### Whether data can be read does not depend on what it is read into -/

def Field.Uniform (fd : Field M) : Prop :=
  ∀ l wt r m m' r', fd.unmarshal l wt r m = .ok (m', r') → ∀ m2, ∃ m2', fd.unmarshal l wt r m2 = .ok (m2', r')

def Codec.Uniform (c : Codec M) : Prop := ∀ d m m', c.unmarshal d m = .ok m' → ∀ m2, ∃ m2', c.unmarshal d m2 = .ok m2'

theorem loop_uniform {fs : List (Field M)} (h : ∀ fd ∈ fs, fd.Uniform) (l : Nat) : ∀ (f : Nat) (d : Bytes) (m m' : M),
    unmarshalLoop fs l f d m = .ok m' → ∀ m2, ∃ m2', unmarshalLoop fs l f d m2 = .ok m2'
  | 0, _, _, _, e, _ => by simp [unmarshalLoop] at e
  | f + 1, [], _, _, _, m2 => ⟨m2, rfl⟩
  | f + 1, b :: d, m, m', e, m2 => by
    rw [unmarshalLoop] at e ⊢
    cases hv : readVarint (b :: d) with
    | none => rw [hv] at e; cases e
    | some x =>
      obtain ⟨wire, r⟩ := x
      rw [hv] at e
      simp only at e ⊢
      split at e
      · cases e
      rename_i h4
      split at e
      · cases e
      rename_i h0
      rw [if_neg h4, if_neg h0]
      cases hfi : fs.find? (fun fd => (fd.num : Int) == toI32 (wire / 8)) with
      | some fd =>
        rw [hfi] at e
        simp only at e ⊢
        cases hu : fd.unmarshal l (wire % 8) r m with
        | err => rw [hu] at e; cases e
        | panic => rw [hu] at e; cases e
        | ok y =>
          rw [hu] at e
          obtain ⟨m3, h3⟩ := h fd (List.mem_of_find?_eq_some hfi) _ _ _ _ _ _ hu m2
          rw [h3]
          exact loop_uniform h l f y.2 y.1 m' e m3
      | none =>
        rw [hfi] at e
        simp only at e ⊢
        cases hk : skip ((b :: d).length + 1) (b :: d) with
        | err => rw [hk] at e; cases e
        | panic => rw [hk] at e; cases e
        | ok n =>
          rw [hk] at e
          simp only at e ⊢
          split at e
          · cases e
          rename_i h1
          split at e
          · cases e
          rename_i h2
          split at e
          · cases e
          rename_i h3
          rw [if_neg h1, if_neg h2, if_neg h3]
          exact loop_uniform h l f _ m m' e m2

theorem varintField_uniform (num : Nat) (put : A → Nat) (take : Nat → A) (get : M → A) (set : M → A → M) :
    (varintField num put take get set).Uniform := by
  intro l wt r m m' r' h m2
  simp only [varintField] at h ⊢
  split at h
  · cases h
  rename_i hw
  rw [if_neg hw]
  cases hr : readVarint r with
  | none => rw [hr] at h; cases h
  | some x =>
    rw [hr] at h
    simp only [Out.ok.injEq, Prod.mk.injEq] at h ⊢
    exact ⟨_, rfl, h.2⟩

theorem doubleField_uniform (num : Nat) (get : M → F64) (set : M → F64 → M) : (doubleField num get set).Uniform := by
  intro l wt r m m' r' h m2
  simp only [doubleField] at h ⊢
  split at h
  · cases h
  rename_i hw
  rw [if_neg hw]
  cases hr : readF64 r with
  | none => rw [hr] at h; cases h
  | some x =>
    rw [hr] at h
    simp only [Out.ok.injEq, Prod.mk.injEq] at h ⊢
    exact ⟨_, rfl, h.2⟩

theorem bytesField_uniform (num : Nat) (get : M → Bytes) (set : M → Bytes → M) : (bytesField num get set).Uniform := by
  intro l wt r m m' r' h m2
  simp only [bytesField] at h ⊢
  split at h
  · cases h
  rename_i hw
  rw [if_neg hw]
  cases hr : readSlice l r with
  | err => rw [hr] at h; cases h
  | panic => rw [hr] at h; cases h
  | ok x =>
    rw [hr] at h
    simp only [Out.ok.injEq, Prod.mk.injEq] at h ⊢
    exact ⟨_, rfl, h.2⟩

theorem packedLoop_uniform : ∀ (f n : Nat) (r : Bytes) (acc vs : List F64) (r' : Bytes), packedLoop f n r acc = some (vs, r') →
    ∀ acc2, ∃ vs2, packedLoop f n r acc2 = some (vs2, r')
  | 0, _, _, _, _, _, h, _ => by simp [packedLoop] at h
  | f + 1, n, r, acc, vs, r', h, acc2 => by
    rw [packedLoop] at h ⊢
    split at h
    · rename_i hn
      rw [if_pos hn]
      simp only [Option.some.injEq, Prod.mk.injEq] at h ⊢
      exact ⟨_, rfl, h.2⟩
    · rename_i hn
      rw [if_neg hn]
      cases hr : readF64 r with
      | none => rw [hr] at h; cases h
      | some x =>
        rw [hr] at h
        exact packedLoop_uniform f (n - 8) x.2 _ vs r' h _

theorem doublesField_uniform (num : Nat) (get : M → List F64) (set : M → List F64 → M) : (doublesField num get set).Uniform := by
  intro l wt r m m' r' h m2
  simp only [doublesField] at h ⊢
  split at h
  · rename_i hw
    rw [if_pos hw]
    cases hf : readF64 r with
    | none => rw [hf] at h; cases h
    | some x =>
      rw [hf] at h
      simp only [Out.ok.injEq, Prod.mk.injEq] at h ⊢
      exact ⟨_, rfl, h.2⟩
  rename_i hw
  rw [if_neg hw]
  split at h
  · rename_i hw2
    rw [if_pos hw2]
    cases hn : readLen r with
    | none => rw [hn] at h; cases h
    | some x =>
      rw [hn] at h
      simp only at h ⊢
      split at h
      · rename_i h1
        rw [if_pos h1]
        simp only [Out.ok.injEq, Prod.mk.injEq] at h ⊢
        exact ⟨_, rfl, h.2⟩
      rename_i h1
      rw [if_neg h1]
      split at h
      · cases h
      rename_i h2
      rw [if_neg h2]
      cases hp : packedLoop (x.1 + 1) x.1 x.2 (get m) with
      | none => rw [hp] at h; cases h
      | some y =>
        rw [hp] at h
        obtain ⟨vs2, hv⟩ := packedLoop_uniform _ _ _ _ _ _ hp (get m2)
        rw [hv]
        simp only [Out.ok.injEq, Prod.mk.injEq] at h ⊢
        exact ⟨_, rfl, h.2⟩
  · cases h

theorem strsField_uniform (num : Nat) (get : M → List Bytes) (set : M → List Bytes → M) : (strsField num get set).Uniform := by
  intro l wt r m m' r' h m2
  simp only [strsField] at h ⊢
  split at h
  · cases h
  rename_i hw
  rw [if_neg hw]
  cases hr : readSlice l r with
  | err => rw [hr] at h; cases h
  | panic => rw [hr] at h; cases h
  | ok x =>
    rw [hr] at h
    simp only [Out.ok.injEq, Prod.mk.injEq] at h ⊢
    exact ⟨_, rfl, h.2⟩

theorem enumsLoop_uniform : ∀ (f n : Nat) (r : Bytes) (acc vs : List Int) (r' : Bytes), enumsLoop f n r acc = some (vs, r') →
    ∀ acc2, ∃ vs2, enumsLoop f n r acc2 = some (vs2, r')
  | 0, _, _, _, _, _, h, _ => by simp [enumsLoop] at h
  | f + 1, n, r, acc, vs, r', h, acc2 => by
    rw [enumsLoop] at h ⊢
    split at h
    · rename_i hn
      rw [if_pos hn]
      simp only [Option.some.injEq, Prod.mk.injEq] at h ⊢
      exact ⟨_, rfl, h.2⟩
    · rename_i hn
      rw [if_neg hn]
      cases hr : readVarint r with
      | none => rw [hr] at h; cases h
      | some x =>
        rw [hr] at h
        exact enumsLoop_uniform f _ x.2 _ vs r' h _

theorem enumsField_uniform (num : Nat) (get : M → List Int) (set : M → List Int → M) : (enumsField num get set).Uniform := by
  intro l wt r m m' r' h m2
  simp only [enumsField] at h ⊢
  split at h
  · rename_i hw
    rw [if_pos hw]
    cases hf : readVarint r with
    | none => rw [hf] at h; cases h
    | some x =>
      rw [hf] at h
      simp only [Out.ok.injEq, Prod.mk.injEq] at h ⊢
      exact ⟨_, rfl, h.2⟩
  rename_i hw
  rw [if_neg hw]
  split at h
  · rename_i hw2
    rw [if_pos hw2]
    cases hn : readLen r with
    | none => rw [hn] at h; cases h
    | some x =>
      rw [hn] at h
      simp only at h ⊢
      split at h
      · rename_i h1
        rw [if_pos h1]
        simp only [Out.ok.injEq, Prod.mk.injEq] at h ⊢
        exact ⟨_, rfl, h.2⟩
      rename_i h1
      rw [if_neg h1]
      split at h
      · cases h
      rename_i h2
      rw [if_neg h2]
      cases hp : enumsLoop (x.1 + 1) x.1 x.2 (get m) with
      | none => rw [hp] at h; cases h
      | some y =>
        rw [hp] at h
        obtain ⟨vs2, hv⟩ := enumsLoop_uniform _ _ _ _ _ _ hp (get m2)
        rw [hv]
        simp only [Out.ok.injEq, Prod.mk.injEq] at h ⊢
        exact ⟨_, rfl, h.2⟩
  · cases h

theorem unmarshalMsg_uniform {c : Codec A} (hc : c.Uniform) {l : Nat} {r : Bytes} {a a' : A} {r' : Bytes}
    (h : unmarshalMsg c l r a = .ok (a', r')) (a2 : A) : ∃ a2', unmarshalMsg c l r a2 = .ok (a2', r') := by
  unfold unmarshalMsg at h ⊢
  cases hr : readSlice l r with
  | err => rw [hr] at h; cases h
  | panic => rw [hr] at h; cases h
  | ok x =>
    rw [hr] at h
    simp only at h ⊢
    cases hu : c.unmarshal x.1 a with
    | err => rw [hu] at h; cases h
    | panic => rw [hu] at h; cases h
    | ok y =>
      rw [hu] at h
      obtain ⟨y2, h2⟩ := hc _ _ _ hu a2
      rw [h2]
      simp only [Out.ok.injEq, Prod.mk.injEq] at h ⊢
      exact ⟨_, rfl, h.2⟩

theorem msgField_uniform (num : Nat) {c : Codec A} (hc : c.Uniform) (get : M → A) (set : M → A → M) : (msgField num c get set).Uniform := by
  intro l wt r m m' r' h m2
  simp only [msgField] at h ⊢
  split at h
  · cases h
  rename_i hw
  rw [if_neg hw]
  cases hr : unmarshalMsg c l r (get m) with
  | err => rw [hr] at h; cases h
  | panic => rw [hr] at h; cases h
  | ok x =>
    rw [hr] at h
    obtain ⟨a2, h2⟩ := unmarshalMsg_uniform hc hr (get m2)
    rw [h2]
    simp only [Out.ok.injEq, Prod.mk.injEq] at h ⊢
    exact ⟨_, rfl, h.2⟩

theorem optField_uniform (num : Nat) {c : Codec A} (hc : c.Uniform) (get : M → Option A) (set : M → Option A → M) :
    (optField num c get set).Uniform := by
  intro l wt r m m' r' h m2
  simp only [optField] at h ⊢
  split at h
  · cases h
  rename_i hw
  rw [if_neg hw]
  cases hr : unmarshalMsg c l r ((get m).getD c.zero) with
  | err => rw [hr] at h; cases h
  | panic => rw [hr] at h; cases h
  | ok x =>
    rw [hr] at h
    obtain ⟨a2, h2⟩ := unmarshalMsg_uniform hc hr ((get m2).getD c.zero)
    rw [h2]
    simp only [Out.ok.injEq, Prod.mk.injEq] at h ⊢
    exact ⟨_, rfl, h.2⟩

theorem repField_uniform (num : Nat) {c : Codec A} (hc : c.Uniform) (get : M → List A) (set : M → List A → M) :
    (repField num c get set).Uniform := by
  intro l wt r m m' r' h m2
  simp only [repField] at h ⊢
  split at h
  · cases h
  rename_i hw
  rw [if_neg hw]
  cases hr : unmarshalMsg c l r c.zero with
  | err => rw [hr] at h; cases h
  | panic => rw [hr] at h; cases h
  | ok x =>
    rw [hr] at h
    simp only [Out.ok.injEq, Prod.mk.injEq] at h ⊢
    exact ⟨_, rfl, h.2⟩

/-! ### The messages -/

/-- What the proofs need of a message. -/
structure Codec.Sound (c : Codec M) : Prop where
  ok : c.OK
  steady : ∀ fd ∈ c.fields, fd.Steady
  uniform : ∀ fd ∈ c.fields, fd.Uniform

theorem Codec.Sound.unif {c : Codec M} (h : c.Sound) : c.Uniform := fun d m m' e m2 => loop_uniform h.uniform _ _ d m m' e m2

theorem Codec.Sound.suffix {c : Codec M} (h : c.Sound) : ∀ fd ∈ c.fields, fd.Suffix := fun fd hfd => (h.ok.fields fd hfd).suffix

/-- A field that is sound. -/
def Field.Fine (fd : Field M) : Prop := fd.Steady ∧ fd.Uniform

theorem Codec.OK.sound {c : Codec M} (h : c.OK) (hf : ∀ fd ∈ c.fields, fd.Fine) : c.Sound :=
  ⟨h, fun fd hfd => (hf fd hfd).1, fun fd hfd => (hf fd hfd).2⟩

section
variable {M A : Type}
theorem fineV (num : Nat) (put : A → Nat) (take : Nat → A) (get : M → A) (set : M → A → M) :
    (varintField num put take get set).Fine := ⟨varintField_steady num put take get set, varintField_uniform num put take get set⟩
theorem fineD (num : Nat) (get : M → F64) (set : M → F64 → M) : (doubleField num get set).Fine :=
  ⟨doubleField_steady num get set, doubleField_uniform num get set⟩
theorem fineB (num : Nat) (get : M → Bytes) (set : M → Bytes → M) : (bytesField num get set).Fine :=
  ⟨bytesField_steady num get set, bytesField_uniform num get set⟩
theorem fineDs (num : Nat) (get : M → List F64) (set : M → List F64 → M) : (doublesField num get set).Fine :=
  ⟨doublesField_steady num get set, doublesField_uniform num get set⟩
theorem fineS (num : Nat) (get : M → List Bytes) (set : M → List Bytes → M) : (strsField num get set).Fine :=
  ⟨strsField_steady num get set, strsField_uniform num get set⟩
theorem fineE (num : Nat) (get : M → List Int) (set : M → List Int → M) : (enumsField num get set).Fine :=
  ⟨enumsField_steady num get set, enumsField_uniform num get set⟩
theorem fineM (num : Nat) {c : Codec A} (hc : c.Sound) (get : M → A) (set : M → A → M) : (msgField num c get set).Fine :=
  ⟨msgField_steady num c get set, msgField_uniform _ hc.unif _ _⟩
theorem fineO (num : Nat) {c : Codec A} (hc : c.Sound) (get : M → Option A) (set : M → Option A → M) : (optField num c get set).Fine :=
  ⟨optField_steady num c get set, optField_uniform _ hc.unif _ _⟩
theorem fineR (num : Nat) {c : Codec A} (hc : c.Sound) (get : M → List A) (set : M → List A → M) : (repField num c get set).Fine :=
  ⟨repField_steady num c get set, repField_uniform _ hc.unif _ _⟩
theorem fineP (num : Nat) {c : Codec A} (hc : c.Sound) (get : M → List (Option A)) (set : M → List (Option A) → M) :
    (ptrsField num c get set).Fine := fineR num hc _ _
end

theorem aggregationID_sound : aggregationID.Sound := aggregationID_ok.sound (allCons (fineV _ _ _ _ _) allNil)
theorem resolution_sound : resolution.Sound := resolution_ok.sound (allCons (fineV _ _ _ _ _) (allCons (fineV _ _ _ _ _) allNil))
theorem retention_sound : retention.Sound := retention_ok.sound (allCons (fineV _ _ _ _ _) allNil)
theorem storagePolicy_sound : storagePolicy.Sound :=
  storagePolicy_ok.sound (allCons (fineO _ resolution_sound _ _) (allCons (fineO _ retention_sound _ _) allNil))
theorem transformationOp_sound : transformationOp.Sound := transformationOp_ok.sound (allCons (fineV _ _ _ _ _) allNil)
theorem appliedRollupOp_sound : appliedRollupOp.Sound :=
  appliedRollupOp_ok.sound (allCons (fineB _ _ _) (allCons (fineM _ aggregationID_sound _ _) allNil))
theorem appliedPipelineOp_sound : appliedPipelineOp.Sound :=
  appliedPipelineOp_ok.sound (allCons (fineV _ _ _ _ _) (allCons (fineO _ transformationOp_sound _ _)
    (allCons (fineO _ appliedRollupOp_sound _ _) allNil)))
theorem appliedPipeline_sound : appliedPipeline.Sound := appliedPipeline_ok.sound (allCons (fineR _ appliedPipelineOp_sound _ _) allNil)
theorem pipelineMetadata_sound : pipelineMetadata.Sound :=
  pipelineMetadata_ok.sound (allCons (fineM _ aggregationID_sound _ _) (allCons (fineR _ storagePolicy_sound _ _)
    (allCons (fineM _ appliedPipeline_sound _ _) (allCons (fineV _ _ _ _ _) allNil))))
theorem metadata_sound : metadata.Sound := metadata_ok.sound (allCons (fineR _ pipelineMetadata_sound _ _) allNil)
theorem stagedMetadata_sound : stagedMetadata.Sound :=
  stagedMetadata_ok.sound (allCons (fineV _ _ _ _ _) (allCons (fineV _ _ _ _ _) (allCons (fineM _ metadata_sound _ _) allNil)))
theorem stagedMetadatas_sound : stagedMetadatas.Sound := stagedMetadatas_ok.sound (allCons (fineR _ stagedMetadata_sound _ _) allNil)
theorem forwardMetadata_sound : forwardMetadata.Sound :=
  forwardMetadata_ok.sound (allCons (fineM _ aggregationID_sound _ _) (allCons (fineM _ storagePolicy_sound _ _)
    (allCons (fineM _ appliedPipeline_sound _ _) (allCons (fineV _ _ _ _ _) (allCons (fineV _ _ _ _ _) allNil)))))
theorem timedMetadata_sound : timedMetadata.Sound :=
  timedMetadata_ok.sound (allCons (fineM _ aggregationID_sound _ _) (allCons (fineM _ storagePolicy_sound _ _) allNil))
theorem counter_sound : counter.Sound := counter_ok.sound (allCons (fineB _ _ _) (allCons (fineV _ _ _ _ _) allNil))
theorem batchTimer_sound : batchTimer.Sound := batchTimer_ok.sound (allCons (fineB _ _ _) (allCons (fineDs _ _ _) allNil))
theorem gauge_sound : gauge.Sound := gauge_ok.sound (allCons (fineB _ _ _) (allCons (fineD _ _ _) allNil))
theorem timedMetric_sound : timedMetric.Sound :=
  timedMetric_ok.sound (allCons (fineV _ _ _ _ _) (allCons (fineB _ _ _) (allCons (fineV _ _ _ _ _) (allCons (fineD _ _ _) allNil))))
theorem forwardedMetric_sound : forwardedMetric.Sound :=
  forwardedMetric_ok.sound (allCons (fineV _ _ _ _ _) (allCons (fineB _ _ _) (allCons (fineV _ _ _ _ _) (allCons (fineDs _ _ _) allNil))))
theorem withMetadata_sound {a : Codec A} {b : Codec B} (ha : a.Sound) (hb : b.Sound) : (withMetadata a b).Sound :=
  (withMetadata_ok ha.ok hb.ok).sound (allCons (fineM _ ha _ _) (allCons (fineM _ hb _ _) allNil))
theorem metricWithMetadatas_sound : metricWithMetadatas.Sound :=
  metricWithMetadatas_ok.sound (allCons (fineV _ _ _ _ _)
    (allCons (fineO _ (withMetadata_sound counter_sound stagedMetadatas_sound) _ _)
    (allCons (fineO _ (withMetadata_sound batchTimer_sound stagedMetadatas_sound) _ _)
    (allCons (fineO _ (withMetadata_sound gauge_sound stagedMetadatas_sound) _ _)
    (allCons (fineO _ (withMetadata_sound forwardedMetric_sound forwardMetadata_sound) _ _)
    (allCons (fineO _ (withMetadata_sound timedMetric_sound timedMetadata_sound) _ _) allNil))))))

theorem aggregationOp_sound : aggregationOp.Sound := aggregationOp_ok.sound (allCons (fineV _ _ _ _ _) allNil)
theorem rollupOp_sound : rollupOp.Sound :=
  rollupOp_ok.sound (allCons (fineB _ _ _) (allCons (fineS _ _ _) (allCons (fineE _ _ _) allNil)))
theorem pipelineOp_sound : pipelineOp.Sound :=
  pipelineOp_ok.sound (allCons (fineV _ _ _ _ _) (allCons (fineO _ aggregationOp_sound _ _)
    (allCons (fineO _ transformationOp_sound _ _) (allCons (fineO _ rollupOp_sound _ _) allNil))))
theorem pipeline_sound : pipeline.Sound := pipeline_ok.sound (allCons (fineR _ pipelineOp_sound _ _) allNil)
theorem policy_sound : policy.Sound :=
  policy_ok.sound (allCons (fineO _ storagePolicy_sound _ _) (allCons (fineE _ _ _) allNil))
theorem mappingRuleSnapshot_sound : mappingRuleSnapshot.Sound :=
  mappingRuleSnapshot_ok.sound (allCons (fineB _ _ _) (allCons (fineV _ _ _ _ _)
    (allCons (fineV _ _ _ _ _) (allCons (fineB _ _ _) (allCons (fineP _ policy_sound _ _)
    (allCons (fineV _ _ _ _ _) (allCons (fineB _ _ _) (allCons (fineE _ _ _)
    (allCons (fineP _ storagePolicy_sound _ _) (allCons (fineV _ _ _ _ _) allNil))))))))))
theorem rule_sound {c : Codec P} (hc : c.Sound) : (rule c).Sound :=
  (rule_ok hc.ok).sound (allCons (fineB _ _ _) (allCons (fineP _ hc _ _) allNil))
theorem rollupTarget_sound : rollupTarget.Sound :=
  rollupTarget_ok.sound (allCons (fineB _ _ _) (allCons (fineS _ _ _) (allCons (fineP _ policy_sound _ _) allNil)))
theorem rollupTargetV2_sound : rollupTargetV2.Sound :=
  rollupTargetV2_ok.sound (allCons (fineO _ pipeline_sound _ _) (allCons (fineP _ storagePolicy_sound _ _) allNil))
theorem rollupRuleSnapshot_sound : rollupRuleSnapshot.Sound :=
  rollupRuleSnapshot_ok.sound (allCons (fineB _ _ _) (allCons (fineV _ _ _ _ _)
    (allCons (fineV _ _ _ _ _) (allCons (fineB _ _ _) (allCons (fineP _ rollupTarget_sound _ _)
    (allCons (fineV _ _ _ _ _) (allCons (fineB _ _ _) (allCons (fineP _ rollupTargetV2_sound _ _) allNil))))))))
theorem ruleSet_sound : ruleSet.Sound :=
  ruleSet_ok.sound (allCons (fineB _ _ _) (allCons (fineB _ _ _) (allCons (fineV _ _ _ _ _)
    (allCons (fineV _ _ _ _ _) (allCons (fineV _ _ _ _ _) (allCons (fineV _ _ _ _ _)
    (allCons (fineP _ (rule_sound mappingRuleSnapshot_sound) _ _)
    (allCons (fineP _ (rule_sound rollupRuleSnapshot_sound) _ _) (allCons (fineB _ _ _) allNil)))))))))
theorem namespaceSnapshot_sound : namespaceSnapshot.Sound :=
  namespaceSnapshot_ok.sound (allCons (fineV _ _ _ _ _) (allCons (fineV _ _ _ _ _)
    (allCons (fineV _ _ _ _ _) (allCons (fineB _ _ _) allNil))))
theorem namespaceMsg_sound : namespaceMsg.Sound :=
  namespaceMsg_ok.sound (allCons (fineB _ _ _) (allCons (fineP _ namespaceSnapshot_sound _ _) allNil))
theorem namespacesMsg_sound : namespacesMsg.Sound := namespacesMsg_ok.sound (allCons (fineP _ namespaceMsg_sound _ _) allNil)

/-- The messages on the wire and the stored ones. -/
inductive WireMessage : {M : Type} → Codec M → Prop
  | aggregationID : WireMessage aggregationID
  | resolution : WireMessage resolution
  | retention : WireMessage retention
  | storagePolicy : WireMessage storagePolicy
  | transformationOp : WireMessage transformationOp
  | appliedRollupOp : WireMessage appliedRollupOp
  | appliedPipelineOp : WireMessage appliedPipelineOp
  | appliedPipeline : WireMessage appliedPipeline
  | pipelineMetadata : WireMessage pipelineMetadata
  | metadata : WireMessage metadata
  | stagedMetadata : WireMessage stagedMetadata
  | stagedMetadatas : WireMessage stagedMetadatas
  | forwardMetadata : WireMessage forwardMetadata
  | timedMetadata : WireMessage timedMetadata
  | counter : WireMessage counter
  | batchTimer : WireMessage batchTimer
  | gauge : WireMessage gauge
  | timedMetric : WireMessage timedMetric
  | forwardedMetric : WireMessage forwardedMetric
  | counterWithMetadatas : WireMessage (withMetadata Wire.counter Wire.stagedMetadatas)
  | batchTimerWithMetadatas : WireMessage (withMetadata Wire.batchTimer Wire.stagedMetadatas)
  | gaugeWithMetadatas : WireMessage (withMetadata Wire.gauge Wire.stagedMetadatas)
  | forwardedMetricWithMetadata : WireMessage (withMetadata Wire.forwardedMetric Wire.forwardMetadata)
  | timedMetricWithMetadata : WireMessage (withMetadata Wire.timedMetric Wire.timedMetadata)
  | metricWithMetadatas : WireMessage metricWithMetadatas
  | aggregationOp : WireMessage aggregationOp
  | rollupOp : WireMessage rollupOp
  | pipelineOp : WireMessage pipelineOp
  | pipeline : WireMessage pipeline
  | policy : WireMessage policy
  | mappingRuleSnapshot : WireMessage mappingRuleSnapshot
  | rollupTarget : WireMessage rollupTarget
  | rollupTargetV2 : WireMessage rollupTargetV2
  | rollupRuleSnapshot : WireMessage rollupRuleSnapshot
  | ruleSet : WireMessage ruleSet
  | namespaceSnapshot : WireMessage namespaceSnapshot
  | namespaceMsg : WireMessage namespaceMsg
  | namespacesMsg : WireMessage namespacesMsg
  | mappingRule : WireMessage (rule Wire.mappingRuleSnapshot)
  | rollupRule : WireMessage (rule Wire.rollupRuleSnapshot)

theorem WireMessage.sound {c : Codec M} (h : WireMessage c) : c.Sound := by
  cases h with
  | aggregationID => exact aggregationID_sound
  | resolution => exact resolution_sound
  | retention => exact retention_sound
  | storagePolicy => exact storagePolicy_sound
  | transformationOp => exact transformationOp_sound
  | appliedRollupOp => exact appliedRollupOp_sound
  | appliedPipelineOp => exact appliedPipelineOp_sound
  | appliedPipeline => exact appliedPipeline_sound
  | pipelineMetadata => exact pipelineMetadata_sound
  | metadata => exact metadata_sound
  | stagedMetadata => exact stagedMetadata_sound
  | stagedMetadatas => exact stagedMetadatas_sound
  | forwardMetadata => exact forwardMetadata_sound
  | timedMetadata => exact timedMetadata_sound
  | counter => exact counter_sound
  | batchTimer => exact batchTimer_sound
  | gauge => exact gauge_sound
  | timedMetric => exact timedMetric_sound
  | forwardedMetric => exact forwardedMetric_sound
  | counterWithMetadatas => exact withMetadata_sound counter_sound stagedMetadatas_sound
  | batchTimerWithMetadatas => exact withMetadata_sound batchTimer_sound stagedMetadatas_sound
  | gaugeWithMetadatas => exact withMetadata_sound gauge_sound stagedMetadatas_sound
  | forwardedMetricWithMetadata => exact withMetadata_sound forwardedMetric_sound forwardMetadata_sound
  | timedMetricWithMetadata => exact withMetadata_sound timedMetric_sound timedMetadata_sound
  | metricWithMetadatas => exact metricWithMetadatas_sound
  | aggregationOp => exact aggregationOp_sound
  | rollupOp => exact rollupOp_sound
  | pipelineOp => exact pipelineOp_sound
  | pipeline => exact pipeline_sound
  | policy => exact policy_sound
  | mappingRuleSnapshot => exact mappingRuleSnapshot_sound
  | rollupTarget => exact rollupTarget_sound
  | rollupTargetV2 => exact rollupTargetV2_sound
  | rollupRuleSnapshot => exact rollupRuleSnapshot_sound
  | ruleSet => exact ruleSet_sound
  | namespaceSnapshot => exact namespaceSnapshot_sound
  | namespaceMsg => exact namespaceMsg_sound
  | namespacesMsg => exact namespacesMsg_sound
  | mappingRule => exact rule_sound mappingRuleSnapshot_sound
  | rollupRule => exact rule_sound rollupRuleSnapshot_sound

/-! ### C74 -/

/-- Data that is read to its end by itself. -/
def Whole (c : Codec M) (d : Bytes) : Prop := ∃ m m', c.unmarshal d m = .ok m'

/-- `fd` is a field of embedded messages of the form `b`. -/
def Field.Embeds (fd : Field M) (b : Codec A) : Prop :=
  (∃ num get set, fd = msgField num b get set) ∨ (∃ num get set, fd = optField num b get set) ∨
  (∃ num get set, fd = repField num b get set)

/-- `Newer c d d'`: `d'` is `d` with fields not known to the reader of messages `c` added anywhere between the fields of the message
or of messages embedded in it. -/
inductive Newer : {M : Type} → Codec M → Bytes → Bytes → Prop
  | refl {M : Type} (c : Codec M) (d : Bytes) : Newer c d d
  | trans {M : Type} {c : Codec M} {d e f : Bytes} : Newer c d e → Newer c e f → Newer c d f
  | unknown {M : Type} (c : Codec M) (pre u post : Bytes) : Whole c pre → Unknown (c.fields.map (·.num)) u →
      Newer c (pre ++ post) (pre ++ (u ++ post))
  | embedded {M A : Type} (c : Codec M) (fd : Field M) (b : Codec A) (pre x y lx ly post : Bytes) : fd ∈ c.fields → fd.Embeds b →
      WireMessage b → Newer b x y → Whole c pre → Num x.length lx → Num y.length ly → (lx ++ x).length ≤ (ly ++ y).length →
      Newer c (pre ++ (tag fd.num 2 :: (lx ++ (x ++ post)))) (pre ++ (tag fd.num 2 :: (ly ++ (y ++ post))))

theorem Newer.length_le {c : Codec M} {d e : Bytes} (h : Newer c d e) : d.length ≤ e.length := by
  induction h with
  | refl => exact Nat.le_refl _
  | trans _ _ h1 h2 => exact Nat.le_trans h1 h2
  | unknown => simp only [List.length_append]; omega
  | embedded _ _ _ _ _ _ _ _ _ _ _ _ _ _ _ _ hle _ => simp only [List.length_append, List.length_cons] at hle ⊢; omega

theorem readSlice_num {x lx : Bytes} (h : Num x.length lx) (l : Nat) (post : Bytes) (hl : (lx ++ (x ++ post)).length ≤ l)
    (hb : l < 9223372036854775808) : readSlice l (lx ++ (x ++ post)) = .ok (x, post) := by
  simp only [List.length_append] at hl
  unfold readSlice readLen
  rw [readVarint_num h (by omega)]
  simp only
  rw [if_neg (by omega)]
  simp only [slice, List.length_append]
  rw [if_neg (by omega), if_neg (by omega)]
  simp

theorem unmarshalMsg_num {b : Codec A} {x lx : Bytes} (h : Num x.length lx) (l : Nat) (post : Bytes) (hl : (lx ++ (x ++ post)).length ≤ l)
    (hb : l < 9223372036854775808) (a : A) : unmarshalMsg b l (lx ++ (x ++ post)) a = match b.unmarshal x a with
      | .err => .err
      | .panic => .panic
      | .ok a' => .ok (a', post) := by
  unfold unmarshalMsg
  rw [readSlice_num h l post hl hb]
  simp only
  cases b.unmarshal x a <;> rfl

theorem embeds_reads {fd : Field M} {b : Codec A} (he : fd.Embeds b) {x y lx ly post : Bytes} (hx : Num x.length lx)
    (hy : Num y.length ly) (hr : ∀ a a', b.unmarshal x a = .ok a' → b.unmarshal y a = .ok a') {l l' : Nat}
    (hl : (lx ++ (x ++ post)).length ≤ l) (hb : l < 9223372036854775808) (hl' : (ly ++ (y ++ post)).length ≤ l')
    (hb' : l' < 9223372036854775808) {m m' : M} {r : Bytes} (h : fd.unmarshal l 2 (lx ++ (x ++ post)) m = .ok (m', r)) :
    r = post ∧ fd.unmarshal l' 2 (ly ++ (y ++ post)) m = .ok (m', post) := by
  rcases he with ⟨num, get, set, rfl⟩ | ⟨num, get, set, rfl⟩ | ⟨num, get, set, rfl⟩
  · simp only [msgField, unmarshalMsg_num hx l post hl hb, unmarshalMsg_num hy l' post hl' hb'] at h ⊢
    cases hu : b.unmarshal x (get m) with
    | err => rw [hu] at h; cases h
    | panic => rw [hu] at h; cases h
    | ok a =>
      rw [hu] at h
      rw [hr _ _ hu]
      simp only [ne_eq, not_true_eq_false, if_false, Out.ok.injEq, Prod.mk.injEq] at h ⊢
      exact ⟨h.2.symm, h.1, trivial⟩
  · simp only [optField, unmarshalMsg_num hx l post hl hb, unmarshalMsg_num hy l' post hl' hb'] at h ⊢
    cases hu : b.unmarshal x ((get m).getD b.zero) with
    | err => rw [hu] at h; cases h
    | panic => rw [hu] at h; cases h
    | ok a =>
      rw [hu] at h
      rw [hr _ _ hu]
      simp only [ne_eq, not_true_eq_false, if_false, Out.ok.injEq, Prod.mk.injEq] at h ⊢
      exact ⟨h.2.symm, h.1, trivial⟩
  · simp only [repField, unmarshalMsg_num hx l post hl hb, unmarshalMsg_num hy l' post hl' hb'] at h ⊢
    cases hu : b.unmarshal x b.zero with
    | err => rw [hu] at h; cases h
    | panic => rw [hu] at h; cases h
    | ok a =>
      rw [hu] at h
      rw [hr _ _ hu]
      simp only [ne_eq, not_true_eq_false, if_false, Out.ok.injEq, Prod.mk.injEq] at h ⊢
      exact ⟨h.2.symm, h.1, trivial⟩

/-- The rest of the data is read after whole data. -/
theorem run_whole {c : Codec M} (hc : c.Sound) {pre : Bytes} (hw : Whole c pre) (m : M) :
    ∃ m1, ∀ (tail : Bytes) (l : Nat), (pre ++ tail).length ≤ l → l < 9223372036854775808 → run c.fields l (pre ++ tail) m = run c.fields l tail m1 := by
  obtain ⟨m0, m0', h0⟩ := hw
  obtain ⟨m1, h1⟩ := hc.unif _ _ _ h0 m
  refine ⟨m1, fun tail l hl hb => ?_⟩
  rw [List.length_append] at hl
  exact loop_steady hc.suffix hc.steady pre.length l tail hl hb _ pre m m1 h1 (by omega) (Nat.le_refl _)

/-- Reading at a later position gives the same. -/
theorem run_later {c : Codec M} (hc : c.Sound) {d : Bytes} {l l' : Nat} {m m' : M} (h : run c.fields l d m = .ok m') (hd : d.length ≤ l)
    (hl : l ≤ l') (hb : l' < 9223372036854775808) : run c.fields l' d m = .ok m' := by
  have := loop_steady hc.suffix hc.steady l l' [] (by simpa using hl) hb _ d m m' h (by omega) hd
  rw [List.append_nil] at this
  rw [this]
  rfl

/-- C74: whatever a reader makes of a message it makes of the message with unknown fields added, at any depth, of any wire type,
groups included. -/
theorem C74_ignored {c : Codec M} (hc : WireMessage c) {d d' : Bytes} (h : Newer c d d') (hb : d'.length < 9223372036854775808)
    (m m' : M) (hr : c.unmarshal d m = .ok m') : c.unmarshal d' m = .ok m' := by
  induction h with
  | refl => exact hr
  | trans _ h2 ih1 ih2 => exact ih2 hc hb _ _ (ih1 hc (by have := h2.length_le; omega) _ _ hr)
  | unknown c pre u post hw hu =>
    have hs := hc.sound
    rw [Codec.unmarshal_eq] at hr ⊢
    obtain ⟨m1, h1⟩ := run_whole hs hw m
    rw [h1 post _ (Nat.le_refl _) (by simp only [List.length_append] at hb ⊢; omega)] at hr
    rw [h1 (u ++ post) _ (Nat.le_refl _) hb, run_unknown hs.suffix hu _ post m1 (by simp only [List.length_append]; omega) hb]
    exact run_later hs hr (by simp only [List.length_append]; omega) (by simp only [List.length_append]; omega) hb
  | embedded c fd b pre x y lx ly post hfd he hwm _ hw hx hy hle ih =>
    have hs := hc.sound
    rw [Codec.unmarshal_eq] at hr ⊢
    obtain ⟨m1, h1⟩ := run_whole hs hw m
    simp only [List.length_append, List.length_cons] at hb hle
    rw [h1 _ _ (Nat.le_refl _) (by simp only [List.length_append, List.length_cons]; omega),
      run_field hs.ok hfd _ 2 (by omega) (by omega)] at hr
    rw [h1 _ _ (Nat.le_refl _) (by simp only [List.length_append, List.length_cons]; omega),
      run_field hs.ok hfd _ 2 (by omega) (by omega)]
    cases hu : fd.unmarshal (pre ++ tag fd.num 2 :: (lx ++ (x ++ post))).length 2 (lx ++ (x ++ post)) m1 with
    | err => rw [hu] at hr; cases hr
    | panic => rw [hu] at hr; cases hr
    | ok z =>
      obtain ⟨m2, r⟩ := z
      rw [hu] at hr
      obtain ⟨rfl, h2⟩ := embeds_reads he hx hy (fun a a' h => ih hwm (by omega) a a' h)
        (l' := (pre ++ tag fd.num 2 :: (ly ++ (y ++ post))).length)
        (by simp only [List.length_append, List.length_cons]; omega) (by simp only [List.length_append, List.length_cons]; omega)
        (by simp only [List.length_append, List.length_cons]; omega) (by simp only [List.length_append, List.length_cons]; omega) hu
      rw [h2]
      exact run_later hs hr (by simp only [List.length_append, List.length_cons]; omega)
        (by simp only [List.length_append, List.length_cons]; omega) (by simp only [List.length_append, List.length_cons]; omega)

/-- C74: unknown fields after a message. -/
theorem C74_appended {c : Codec M} (hc : WireMessage c) {d u : Bytes} (hu : Unknown (c.fields.map (·.num)) u)
    (hb : (d ++ u).length < 9223372036854775808) (m m' : M) (hr : c.unmarshal d m = .ok m') : c.unmarshal (d ++ u) m = .ok m' := by
  have h := Newer.unknown c d u [] ⟨m, m', hr⟩ hu
  rw [List.append_nil, List.append_nil] at h
  exact C74_ignored hc h hb m m' hr

/-- C74: unknown fields before a message. -/
theorem C74_prepended {c : Codec M} (hc : WireMessage c) {d u : Bytes} (hu : Unknown (c.fields.map (·.num)) u)
    (hb : (u ++ d).length < 9223372036854775808) (m m' : M) (hr : c.unmarshal d m = .ok m') : c.unmarshal (u ++ d) m = .ok m' :=
  C74_ignored hc (Newer.unknown c [] u d ⟨m, m, rfl⟩ hu) hb m m' hr

/-! An unknown field of each wire type, the numbers 100 and 7. -/

theorem unknown_of_chunk {known : List Nat} {n : Nat} {d : Bytes} (h : n ∉ known) (hc : Chunk (some n) d) : Unknown known d := by
  have := Unknown.cons n d [] h hc .nil
  rwa [List.append_nil] at this

theorem num1 (b : UInt8) (h : b.toNat < 128) : Num b.toNat [b] := ⟨.last b h, by simp⟩

theorem num2 (a b : UInt8) (ha : 128 ≤ a.toNat) (h : b.toNat < 128) : Num (a.toNat - 128 + 128 * b.toNat) [a, b] :=
  ⟨.more a _ _ ha (.last b h), by simp⟩

/-- The least and the greatest field number. -/
example : FieldNumber 1 ∧ FieldNumber 536870911 ∧ ¬ FieldNumber 0 ∧ ¬ FieldNumber 536870912 := by simp [FieldNumber]

/-- A group with a field of four bytes and one of eight in it. -/
theorem exGroup : Chunk (some 100) [163, 6, 61, 1, 2, 3, 4, 57, 1, 2, 3, 4, 5, 6, 7, 8, 164, 6] :=
  .group 100 [163, 6] [61, 1, 2, 3, 4, 57, 1, 2, 3, 4, 5, 6, 7, 8] [164, 6] (by simp [FieldNumber]) (num2 163 6 (by decide) (by decide))
    (.cons 7 [61, 1, 2, 3, 4] _ (.fixed32 7 [61] [1, 2, 3, 4] (by simp [FieldNumber]) (num1 61 (by decide)) rfl)
      (.cons 7 [57, 1, 2, 3, 4, 5, 6, 7, 8] [] (.fixed64 7 [57] _ (by simp [FieldNumber]) (num1 57 (by decide)) rfl) .nil))
    (num2 164 6 (by decide) (by decide))

/-- A counter `a` of value 6, and the same from a sender that added a group between its fields. -/
def exCounter : Bytes := [10, 1, 97, 16, 6]
def exCounterNewer : Bytes := [10, 1, 97, 163, 6, 61, 1, 2, 3, 4, 57, 1, 2, 3, 4, 5, 6, 7, 8, 164, 6, 16, 6]

theorem exCounter_newer : Newer counter exCounter exCounterNewer :=
  Newer.unknown counter [10, 1, 97] [163, 6, 61, 1, 2, 3, 4, 57, 1, 2, 3, 4, 5, 6, 7, 8, 164, 6] [16, 6]
    ⟨counter.zero, { id := bs "a" }, rfl⟩ (unknown_of_chunk (by decide) exGroup)

/-- The example is read. -/
example : (match counter.unmarshal exCounterNewer counter.zero with | .ok m => decide (m.id = bs "a" ∧ m.value = 6) | _ => false) = true := by
  decide +kernel

/-- The counter in a message with metadata. -/
example : Newer (withMetadata counter stagedMetadatas) (10 :: 5 :: exCounter ++ [18, 0]) (10 :: 23 :: exCounterNewer ++ [18, 0]) :=
  Newer.embedded (withMetadata counter stagedMetadatas) _ counter [] exCounter exCounterNewer [5] [23] [18, 0]
    List.mem_cons_self (.inl ⟨_, _, _, rfl⟩) .counter exCounter_newer ⟨(withMetadata counter stagedMetadatas).zero, _, rfl⟩
    (num1 5 (by decide)) (num1 23 (by decide)) (by decide)

end Verif.Wire

namespace Verif.PIter
open Verif.Msg Verif.Wire Verif.Spec.Msg
open Verif.Policy (XTime)

/-- `Next` on a message with unknown fields. -/
theorem next_newer {x : XTime} {fresh : Nat → Bytes} (hf : Enough fresh) {it : Iter} (he : it.err = none) (hc : it.closed = false)
    {u : Union} {m : Message} {pb : PBMetric} (hs : Sent x it.maxMessageSize u m pb) {body : Bytes}
    (hn : Newer metricWithMetadatas (metricWithMetadatas.marshal pb) body) (hb : body.length < 9223372036854775808)
    (hm : (body.length : Int) ≤ it.maxMessageSize) {tail : Bytes} (hr : it.reader = putVarint body.length ++ (body ++ tail)) :
    ∃ it', next x fresh it = .ok (true, it') ∧ it'.reader = tail ∧ it'.err = none ∧ it'.closed = false ∧
      it'.maxMessageSize = it.maxMessageSize ∧ view it'.msg = some (received (canon m)) := by
  obtain ⟨p, hp⟩ := hs.conv
  have hok := toPB_ok hs.view hs.range hp
  have hle := hn.length_le
  unfold next
  rw [he, hc, hr]
  simp only [Option.isSome_none, Bool.false_eq_true, or_self, if_false]
  rw [readZigzag_put _ ⟨by omega, by omega⟩]
  simp only
  rw [if_neg (by omega)]
  unfold decodeMessage
  have hl := ensure_len hf it.buf body.length
  simp only
  rw [if_neg (by omega)]
  have ht : (body.length : Int).toNat = body.length := by omega
  simp only [ht, readFull, List.length_append]
  rw [if_pos (by omega)]
  simp only [List.take_left, List.drop_left]
  rw [C74_ignored .metricWithMetadatas hn hb _ _ (metricWithMetadatas_rt pb _ hok (clean_reset _) (by omega))]
  simp only
  obtain ⟨msg', e1, e2⟩ := convert_back (old := resetMetric it.pb) hs.view hs.fits hp it.msg
  rw [e1]
  exact ⟨_, rfl, rfl, rfl, rfl, rfl, e2⟩

/-- C74: from a stream of a sender that knows more fields, an iterator delivers the messages a sender of its own version would have
sent, then the end of the stream. -/
theorem C74_stream (x : XTime) (fresh : Nat → Nat → Bytes) (hf : ∀ k, Enough (fresh k)) :
    ∀ (ms : List (Bytes × Union × Message × PBMetric)) (n : Nat) (it : Iter), it.err = none → it.closed = false →
      (∀ m ∈ ms, Sent x it.maxMessageSize m.2.1 m.2.2.1 m.2.2.2 ∧ Newer metricWithMetadatas (metricWithMetadatas.marshal m.2.2.2) m.1 ∧
        m.1.length < 9223372036854775808 ∧ (m.1.length : Int) ≤ it.maxMessageSize) →
      it.reader = ms.flatMap (fun m => putVarint m.1.length ++ m.1) → ms.length < n →
      ∃ it', drain x fresh n it = .ok (ms.map (fun m => some (received (canon m.2.2.1))), it') ∧ it'.err = some .eof
  | ms, 0, _, _, _, _, _, hn => absurd hn (by omega)
  | [], n + 1, it, he, hc, _, hr, _ => by
    simp only [List.flatMap_nil] at hr
    refine ⟨{ it with reader := [], err := some .eof }, ?_, rfl⟩
    simp [drain, next, he, hc, hr, readZigzag, uvarintLoop]
  | m :: ms, n + 1, it, he, hc, hs, hr, hn => by
    rw [List.flatMap_cons, List.append_assoc] at hr
    obtain ⟨s1, s2, s3, s4⟩ := hs m (by simp)
    obtain ⟨it', h1, h2, h3, h4, h5, h6⟩ := next_newer (hf n) he hc s1 s2 s3 s4 hr
    obtain ⟨e, h7, h8⟩ := C74_stream x fresh hf ms n it' h3 h4 (fun a ha => h5 ▸ hs a (by simp [ha])) h2 (by simp at hn; omega)
    exact ⟨e, by simp [drain, h1, h7, h6], h8⟩

/-- The example message with a group after it meets the hypotheses. -/
example : Newer metricWithMetadatas (metricWithMetadatas.marshal exPB)
    (metricWithMetadatas.marshal exPB ++ [163, 6, 61, 1, 2, 3, 4, 57, 1, 2, 3, 4, 5, 6, 7, 8, 164, 6]) := by
  obtain ⟨p, hp⟩ := exUnion_sent.conv
  have hok := toPB_ok exUnion_sent.view exUnion_sent.range hp
  have := Newer.unknown metricWithMetadatas (metricWithMetadatas.marshal exPB) _ []
    ⟨_, _, metricWithMetadatas_rt exPB _ hok (clean_reset {}) (by decide +kernel)⟩ (unknown_of_chunk (by decide) exGroup)
  simpa using this

end Verif.PIter
