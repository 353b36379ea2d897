import Verif.Lemmas.Schema
import Verif.Lemmas.SchemaUnique
import Verif.Props.StoreBytes
import Verif.Props.ProtoBuffer
/- C100: what is sent and what is stored follows the published .proto files. -/
namespace Verif.Wire
open Verif.Policy Verif.Rules Verif.RuleSet Verif.Meta Verif.Msg Verif.PIter
open Verif.Spec.Schema (Val Contents Encodes)

namespace Follows
open Verif.Spec.Schema

/-! ### Lists -/

theorem mapOpt_get {g : σ → Option τ} : ∀ {l : List σ} {r : List τ}, mapOpt g l = some r →
    r.length = l.length ∧ ∀ i (h1 : i < l.length) (h2 : i < r.length), g l[i] = some r[i] := by
  intro l r h
  rw [mapOpt_eq_some_iff] at h
  have hl : r.length = l.length := by simpa using (congrArg List.length h).symm
  refine ⟨hl, fun i h1 h2 => ?_⟩
  have := congrArg (·[i]?) h
  simpa [h1, h2] using this

theorem rep {b : Codec A} (hb : b.OK) {msg : Spec.Schema.Message} {get : M → List A} {set : M → List A → M} {name : String}
    {num : Nat} {m : M} {g : σ → Option A} {f : σ → Contents} {l : List σ} (h : num < 16) (hg : mapOpt g l = some (get m))
    (ha : ∀ s ∈ l, ∀ a, g s = some a → b.Follows msg a (f s)) :
    (repField num b get set).Follows (repeated (.msg msg) name num) m (l.map fun s => .msg (f s)) := by
  obtain ⟨h1, h2⟩ := mapOpt_get hg
  have := rep_follows (get := get) (m := m) (msg := msg) (set := set) (name := name) hb (l.map f) h (by simp [h1]) (fun i i1 i2 => by
    have hi : i < l.length := by omega
    simpa using ha l[i] (List.getElem_mem hi) _ (h2 i hi i1))
  rw [List.map_map] at this
  exact this

theorem filterMap_some (l : List A) : (l.map some).filterMap id = l := by
  induction l with
  | nil => rfl
  | cons a l ih => simp [ih]

theorem ptrs {b : Codec A} (hb : b.OK) {msg : Spec.Schema.Message} {get : M → List (Option A)} {set : M → List (Option A) → M}
    {name : String} {num : Nat} {m : M} {g : σ → Option A} {f : σ → Contents} {l : List σ} {r : List A} (h : num < 16)
    (hg : mapOpt g l = some r) (hm : get m = r.map some)
    (ha : ∀ s ∈ l, ∀ a, g s = some a → b.Follows msg a (f s)) :
    (ptrsField num b get set).Follows (repeated (.msg msg) name num) m (l.map fun s => .msg (f s)) :=
  rep hb h (by rw [hm, filterMap_some]; exact hg) ha

theorem ptrs_nil {b : Codec A} (hb : b.OK) {msg : Spec.Schema.Message} {get : M → List (Option A)} {set : M → List (Option A) → M}
    {name : String} {num : Nat} {m : M} (h : num < 16) (hm : get m = []) :
    (ptrsField num b get set).Follows (repeated (.msg msg) name num) m [] :=
  ptrs hb (l := ([] : List Unit)) (g := fun _ => none) (f := fun _ => []) (r := []) h rfl hm (by simp)

/-! ### Parts of messages -/

theorem aggregationID (id : BitVec 64) : Wire.aggregationID.Follows .AggregationID id (Spec.Schema.aggregationID id) :=
  follows (.cons rfl (uint64_follows (by decide)) .nil)

theorem storagePolicy {x : XTime} {p : StoragePolicy} {d q : PBStoragePolicy} (hr : Spec.Msg.PolicyRange x p)
    (e : p.toProto x d = some q) : Wire.storagePolicy.Follows .StoragePolicy q (Spec.Schema.storagePolicy x p) := by
  rw [C08_toProto_spec] at e
  cases hu : x.unitValue p.resolution.precision with
  | none => simp [hu] at e
  | some u =>
    simp only [hu, Option.map_some, Option.some.injEq] at e
    subst e
    unfold Spec.Schema.storagePolicy
    rw [hu]
    refine follows (.cons rfl (opt_follows_some resolution_ok (by decide) rfl ?_)
      (.cons rfl (opt_follows_some retention_ok (by decide) rfl ?_) .nil))
    · exact follows (.cons rfl (int64_follows (by decide) hr.1) (.cons rfl (int64_follows (by decide) (hr.2.2 u hu)) .nil))
    · exact follows (.cons rfl (int64_follows (by decide) hr.2.1) .nil)

theorem transformationOp {t o : Int} (e : Pipe.transToProto t = some o) :
    Wire.transformationOp.Follows .TransformationOp o [("type", [transformationLabel t])] := by
  unfold Pipe.transToProto at e
  split at e
  · next h =>
    cases e; subst h
    exact follows (.cons rfl (enum_follows (l := "ABSOLUTE") (n := 1) (by decide) (by decide) rfl (by decide)) .nil)
  split at e
  · next h =>
    cases e; subst h
    exact follows (.cons rfl (enum_follows (l := "PERSECOND") (n := 2) (by decide) (by decide) rfl (by decide)) .nil)
  · cases e

theorem appliedOp {u : Applied.OpUnion} {d o : Applied.PBOp} (e : u.toProto d = some o) :
    Wire.appliedPipelineOp.Follows .AppliedPipelineOp o (Spec.Schema.appliedOp u) := by
  unfold Applied.OpUnion.toProto Applied.PBOp.reset at e
  unfold Spec.Schema.appliedOp
  split at e
  · next h =>
    rw [if_pos h]
    cases ht : Pipe.transToProto u.transformation with
    | none => simp [ht] at e
    | some t =>
      simp only [ht, Option.map_some, Option.some.injEq] at e
      subst e
      exact follows (.cons rfl (enum_follows (l := "TRANSFORMATION") (n := 1) (by decide) (by decide) rfl (by decide))
        (.cons rfl (opt_follows_some transformationOp_ok (by decide) rfl (transformationOp ht))
        (.cons rfl (opt_follows_none rfl) .nil)))
  split at e
  · next h h' =>
    rw [if_neg h]
    cases e
    exact follows (.cons rfl (enum_follows (l := "ROLLUP") (n := 2) (by decide) (by decide) rfl (by decide))
      (.cons rfl (opt_follows_none rfl)
      (.cons rfl (opt_follows_some appliedRollupOp_ok (by decide) rfl (follows
        (.cons rfl (bytes_follows (by decide)) (.cons rfl (msg_follows aggregationID_ok (by decide) (aggregationID _)) .nil)))) .nil)))
  · cases e

theorem appliedPipeline {p : Applied.Pipeline} {pb : List Applied.PBOp} (e : mapOpt (Applied.OpUnion.toProto {}) p = some pb) :
    Wire.appliedPipeline.Follows .AppliedPipeline pb (Spec.Schema.appliedPipeline p) :=
  follows (.cons rfl (rep appliedPipelineOp_ok (by decide) e fun _ _ _ ha => appliedOp ha) .nil)

theorem drop_enum {get : M → Int} {set : M → Int → M} {name : String} {num : Nat} {m : M} {d : Nat} (h : num < 16) (hd : d ≤ 2)
    (hg : get m = dropToProto d) : (int32Field num get set).Follows (single (.enum .DropPolicy) name num) m [dropLabel d] := by
  have : d = 0 ∨ d = 1 ∨ d = 2 := by omega
  rcases this with rfl | rfl | rfl
  · exact enum_follows (l := "NONE") (n := 0) h (by decide) hg (by decide)
  · exact enum_follows (l := "DROP_MUST") (n := 1) h (by decide) hg (by decide)
  · exact enum_follows (l := "DROP_IF_ONLY_MATCH") (n := 2) h (by decide) hg (by decide)

theorem pipelineMetadata {x : XTime} {m : PipelineMetadata} {d pb : PBPipelineMetadata} (hr : ∀ p ∈ m.storagePolicies, Spec.Msg.PolicyRange x p)
    (hd : m.drop ≤ 2) (e : m.toProto x d = some pb) :
    Wire.pipelineMetadata.Follows .PipelineMetadata pb (Spec.Schema.pipelineMetadata x m) := by
  rw [pm_toProto_spec] at e
  cases h1 : mapOpt (Applied.OpUnion.toProto {}) m.pipeline with
  | none => simp [h1] at e
  | some ops =>
    cases h2 : mapOpt (fun s => StoragePolicy.toProto x s {}) m.storagePolicies with
    | none => simp [h1, h2] at e
    | some sps =>
      simp only [h1, h2, Option.some.injEq] at e
      subst e
      exact follows (.cons rfl (msg_follows aggregationID_ok (by decide) (aggregationID _))
        (.cons rfl (rep storagePolicy_ok (by decide) h2 fun p hp _ ha => storagePolicy (hr p hp) ha)
        (.cons rfl (msg_follows appliedPipeline_ok (by decide) (appliedPipeline h1))
        (.cons rfl (drop_enum (by decide) hd rfl) .nil))))

theorem stagedMetadatas {x : XTime} {s : List StagedMetadata} {d pb : List PBStagedMetadata} (hr : ∀ m ∈ s, Spec.Msg.StagedRange x m)
    (hd : ∀ m ∈ s, ∀ p ∈ m.pipelines, p.drop ≤ 2) (e : stagedToProto x d s = some pb) :
    Wire.stagedMetadatas.Follows .StagedMetadatas pb (Spec.Schema.stagedMetadatas x s) := by
  rw [stagedToProto_eq] at e
  refine follows (.cons rfl (rep stagedMetadata_ok (by decide) e fun m hm q hq => ?_) .nil)
  unfold StagedMetadata.toProto at hq
  rw [metadataToProto_eq] at hq
  cases hp : mapOpt (PipelineMetadata.toProto x {}) m.pipelines with
  | none => rw [hp] at hq; cases hq
  | some ps =>
    rw [hp] at hq
    simp only [Option.some.injEq] at hq
    subst hq
    exact follows (.cons rfl (int64_follows (by decide) (hr m hm).1) (.cons rfl (bool_follows (by decide))
      (.cons rfl (msg_follows metadata_ok (by decide) (follows (.cons rfl
        (rep pipelineMetadata_ok (by decide) hp fun p hp' _ ha => pipelineMetadata ((hr m hm).2 p hp') (hd m hm p hp') ha) .nil))) .nil)))

theorem metric_enum {get : M → Int} {set : M → Int → M} {name : String} {num : Nat} {m : M} {t p : Int} (h : num < 16)
    (ht : typeToProto t = some p) (hg : get m = p) :
    (int32Field num get set).Follows (single (.enum .MetricType) name num) m [metricLabel t] := by
  unfold typeToProto at ht
  split at ht
  · next e =>
    cases ht; subst e
    exact enum_follows (l := "COUNTER") (n := 1) h (by decide) hg (by decide)
  split at ht
  · next e =>
    cases ht; subst e
    exact enum_follows (l := "TIMER") (n := 2) h (by decide) hg (by decide)
  split at ht
  · next e =>
    cases ht; subst e
    exact enum_follows (l := "GAUGE") (n := 3) h (by decide) hg (by decide)
  · cases ht

theorem toInt32_id {n : Int} (h : -2 ^ 31 ≤ n ∧ n < 2 ^ 31) : toInt32 n = n := by
  unfold toInt32
  rw [BitVec.toInt_ofInt]
  simp only [Int.bmod_def]
  omega

/-! ### Types -/

/-- The values of the enumeration whose bits are set. -/
def setValues (id : Agg.ID) : List (String × Nat) :=
  (Enum.values .AggregationType).filter fun v => v.2 ≠ 0 ∧ id.getLsbD v.2 = true

theorem typesOf_eq (id : Agg.ID) : typesOf id = (setValues id).map fun l => .label l.1 := by
  unfold typesOf setValues
  induction Enum.values .AggregationType with
  | nil => rfl
  | cons v l ih =>
    simp only [List.filterMap_cons, List.filter_cons]
    by_cases h : v.2 ≠ 0 ∧ id.getLsbD v.2 = true
    · simp [h, ih]
    · simp [h, ih]

theorem typesProto_id : ∀ {ts is : List Int}, Agg.typesProto ts = some is → is = ts
  | [], is, h => by simp [Agg.typesProto] at h; exact h
  | t :: ts, is, h => by
    simp only [Agg.typesProto, Agg.typeProto] at h
    split at h
    · cases h
    · rename_i p hp
      split at hp
      · cases hp
        cases hq : Agg.typesProto ts with
        | none => simp [hq] at h
        | some js =>
          simp only [hq, Option.map_some, Option.some.injEq] at h
          subst h
          rw [typesProto_id hq]
      · cases hp

theorem values_map : (Enum.values .AggregationType).map (·.2) = List.range 23 := by decide

theorem sorted_ext : ∀ {l r : List Nat}, l.Pairwise (· < ·) → r.Pairwise (· < ·) → (∀ n, n ∈ l ↔ n ∈ r) → l = r
  | [], [], _, _, _ => rfl
  | [], b :: _, _, _, h => by have := (h b).mpr (by simp); cases this
  | a :: _, [], _, _, h => by have := (h a).mp (by simp); cases this
  | a :: l, b :: r, hl, hr, h => by
    rw [List.pairwise_cons] at hl hr
    have hab : a = b := by
      have h1 := (h a).mp (by simp)
      have h2 := (h b).mpr (by simp)
      rcases List.mem_cons.mp h1 with e | h1
      · exact e
      rcases List.mem_cons.mp h2 with e | h2
      · exact e.symm
      have := hl.1 b h2
      have := hr.1 a h1
      omega
    subst hab
    rw [sorted_ext hl.2 hr.2 fun n => ?_]
    constructor
    · intro hn
      rcases List.mem_cons.mp ((h n).mp (by simp [hn])) with e | h'
      · have := hl.1 n hn; omega
      · exact h'
    · intro hn
      rcases List.mem_cons.mp ((h n).mpr (by simp [hn])) with e | h'
      · have := hr.1 n hn; omega
      · exact h'

theorem setValues_sorted (id : Agg.ID) : ((setValues id).map (·.2)).Pairwise (· < ·) := by
  have h : ((Enum.values .AggregationType).map (·.2)).Pairwise (· < ·) := by rw [values_map]; exact List.pairwise_lt_range
  exact h.sublist ((List.filter_sublist).map _)

theorem types_values {id : Agg.ID} {ts : List Int} (h : id.types = some ts) : ts = (setValues id).map fun l => (l.2 : Int) := by
  have h' : Agg.decompress id = some ts := h
  have hv := (Agg.C02_decodes_iff id).mp ⟨ts, h⟩
  rw [Agg.decompress_spec] at h'
  split at h'
  · cases h'
    have : Agg.bitsFrom id 0 = (setValues id).map (·.2) := by
      refine sorted_ext (Agg.bitsFrom_sorted id 0) (setValues_sorted id) fun n => ?_
      rw [Agg.mem_bitsFrom]
      constructor
      · rintro ⟨_, h1, h2⟩
        have := hv n h1 h2
        unfold Spec.ValidAggType at this
        have hm : n ∈ (Enum.values .AggregationType).map (·.2) := by rw [values_map]; exact List.mem_range.mpr (by omega)
        obtain ⟨v, hv', rfl⟩ := List.mem_map.mp hm
        exact List.mem_map.mpr ⟨v, List.mem_filter.mpr ⟨hv', by simp [h2]; omega⟩, rfl⟩
      · intro hn
        obtain ⟨v, hv', rfl⟩ := List.mem_map.mp hn
        obtain ⟨h1, h2⟩ := List.mem_filter.mp hv'
        have hm : v.2 ∈ (Enum.values .AggregationType).map (·.2) := List.mem_map_of_mem h1
        rw [values_map, List.mem_range] at hm
        exact ⟨by omega, by omega, by simpa using (of_decide_eq_true h2).2⟩
    rw [this]
    simp
  · cases h'

theorem types_enum {get : M → List Int} {set : M → List Int → M} {name : String} {num : Nat} {m : M} {id : Agg.ID} {ts is : List Int}
    (h : num < 16) (ht : id.types = some ts) (hi : Agg.typesProto ts = some is) (hg : get m = is) :
    (enumsField num get set).Follows (repeated (.enum .AggregationType) name num) m (typesOf id) := by
  rw [typesOf_eq]
  refine enums_follows (setValues id) h (by rw [hg, typesProto_id hi, types_values ht]) fun l hl => ?_
  have hm := (List.mem_filter.mp hl).1
  refine ⟨hm, ?_⟩
  have : l.2 ∈ (Enum.values .AggregationType).map (·.2) := List.mem_map_of_mem hm
  rw [values_map, List.mem_range] at this
  omega

theorem type_enum {get : M → Int} {set : M → Int → M} {name : String} {num : Nat} {m : M} {t p : Int} (h : num < 16)
    (ht : Agg.typeProto t = some p) (hg : get m = p) :
    (int32Field num get set).Follows (single (.enum .AggregationType) name num) m [typeLabel t] := by
  unfold Agg.typeProto at ht
  split at ht
  · next hr =>
    cases ht
    have hm : t.toNat ∈ List.range 23 := List.mem_range.mpr (by omega)
    have hl : ∀ n ∈ List.range 23, ∃ l, (l, n) ∈ Enum.values .AggregationType ∧ typeLabel (n : Int) = .label l := by
      intro n hn
      have key : ∀ n ∈ List.range 23, (((Spec.Schema.typeLabels.lookup (n : Int)).getD "UNKNOWN", n) ∈ Enum.values .AggregationType) := by
        decide
      exact ⟨_, key n hn, rfl⟩
    obtain ⟨l, h1, h2⟩ := hl t.toNat hm
    have e : ((t.toNat : Nat) : Int) = t := by omega
    rw [e] at h2
    rw [h2]
    exact enum_follows (n := t.toNat) h h1 (by rw [hg, e]) (by omega)
  · cases ht

/-! ### Messages -/

theorem message {x : XTime} {p : PBuf.Protos} {u : Union} {m : Spec.Msg.Message} {pb : PBMetric} (hv : Spec.Msg.view u = some m)
    (hr : Spec.Msg.InRange x m) (hd : Sane m) (h : PBuf.toPB x p u = some pb) :
    metricWithMetadatas.Follows .MetricWithMetadatas pb (Spec.Schema.message x (Spec.Msg.received m)) := by
  unfold Spec.Msg.view at hv
  unfold PBuf.toPB at h
  split at hv
  · next ht =>
    cases hv
    rw [if_pos ht] at h
    simp only [Option.map_eq_some_iff, counterToProto] at h
    obtain ⟨v, h1, h2⟩ := h
    cases hs : stagedToProto x p.cm.metadata u.counter.metadata with
    | none => simp [hs] at h1
    | some md =>
      simp only [hs, Option.some.injEq] at h1
      subst h1 h2
      exact follows (.cons rfl (enum_follows (l := "COUNTER_WITH_METADATAS") (n := 1) (by decide) (by decide) rfl (by decide))
        (.cons rfl (opt_follows_some (withMetadata_ok counter_ok stagedMetadatas_ok) (by decide) rfl (follows
          (.cons rfl (msg_follows counter_ok (by decide) (follows (.cons rfl (bytes_follows (by decide))
            (.cons rfl (int64_follows (by decide) hr.1) .nil))))
          (.cons rfl (msg_follows stagedMetadatas_ok (by decide) (stagedMetadatas hr.2 hd hs)) .nil))))
        (.cons rfl (opt_follows_none rfl) (.cons rfl (opt_follows_none rfl) (.cons rfl (opt_follows_none rfl)
        (.cons rfl (opt_follows_none rfl) .nil))))))
  next ht1 =>
  split at hv
  · next ht =>
    cases hv
    rw [if_neg ht1, if_pos ht] at h
    simp only [Option.map_eq_some_iff, batchTimerToProto] at h
    obtain ⟨v, h1, h2⟩ := h
    cases hs : stagedToProto x p.bm.metadata u.batchTimer.metadata with
    | none => simp [hs] at h1
    | some md =>
      simp only [hs, Option.some.injEq] at h1
      subst h1 h2
      exact follows (.cons rfl (enum_follows (l := "BATCH_TIMER_WITH_METADATAS") (n := 2) (by decide) (by decide) rfl (by decide))
        (.cons rfl (opt_follows_none rfl)
        (.cons rfl (opt_follows_some (withMetadata_ok batchTimer_ok stagedMetadatas_ok) (by decide) rfl (follows
          (.cons rfl (msg_follows batchTimer_ok (by decide) (follows (.cons rfl (bytes_follows (by decide))
            (.cons rfl (doubles_follows (by decide)) .nil))))
          (.cons rfl (msg_follows stagedMetadatas_ok (by decide) (stagedMetadatas hr hd hs)) .nil))))
        (.cons rfl (opt_follows_none rfl) (.cons rfl (opt_follows_none rfl)
        (.cons rfl (opt_follows_none rfl) .nil))))))
  next ht2 =>
  split at hv
  · next ht =>
    cases hv
    rw [if_neg ht1, if_neg ht2, if_pos ht] at h
    simp only [Option.map_eq_some_iff, gaugeToProto] at h
    obtain ⟨v, h1, h2⟩ := h
    cases hs : stagedToProto x p.gm.metadata u.gauge.metadata with
    | none => simp [hs] at h1
    | some md =>
      simp only [hs, Option.some.injEq] at h1
      subst h1 h2
      exact follows (.cons rfl (enum_follows (l := "GAUGE_WITH_METADATAS") (n := 3) (by decide) (by decide) rfl (by decide))
        (.cons rfl (opt_follows_none rfl) (.cons rfl (opt_follows_none rfl)
        (.cons rfl (opt_follows_some (withMetadata_ok gauge_ok stagedMetadatas_ok) (by decide) rfl (follows
          (.cons rfl (msg_follows gauge_ok (by decide) (follows (.cons rfl (bytes_follows (by decide))
            (.cons rfl (double_follows (by decide)) .nil))))
          (.cons rfl (msg_follows stagedMetadatas_ok (by decide) (stagedMetadatas hr hd hs)) .nil))))
        (.cons rfl (opt_follows_none rfl)
        (.cons rfl (opt_follows_none rfl) .nil))))))
  next ht3 =>
  split at hv
  · next ht =>
    cases hv
    rw [if_neg ht1, if_neg ht2, if_neg ht3, if_pos ht] at h
    simp only [Option.map_eq_some_iff, forwardedToProto, ForwardedMetric.toProto, ForwardMetadata.toProto,
      Applied.pipelineToProto_eq] at h
    obtain ⟨v, h1, h2⟩ := h
    cases hty : typeToProto u.forwarded.metric.type with
    | none => simp [hty] at h1
    | some t =>
      cases hsp : u.forwarded.metadata.storagePolicy.toProto x p.fm.metadata.storagePolicy with
      | none => simp [hty, hsp] at h1
      | some sp =>
        cases hpl : mapOpt (Applied.OpUnion.toProto {}) u.forwarded.metadata.pipeline with
        | none => simp [hty, hsp, hpl] at h1
        | some pl =>
          simp only [hty, hsp, hpl, Option.some.injEq, toInt32_id hd] at h1
          subst h1 h2
          exact follows (.cons rfl (enum_follows (l := "FORWARDED_METRIC_WITH_METADATA") (n := 4) (by decide) (by decide) rfl (by decide))
            (.cons rfl (opt_follows_none rfl) (.cons rfl (opt_follows_none rfl) (.cons rfl (opt_follows_none rfl)
            (.cons rfl (opt_follows_some (withMetadata_ok forwardedMetric_ok forwardMetadata_ok) (by decide) rfl (follows
              (.cons rfl (msg_follows forwardedMetric_ok (by decide) (follows (.cons rfl (metric_enum (by decide) hty rfl)
                (.cons rfl (bytes_follows (by decide)) (.cons rfl (int64_follows (by decide) hr.1)
                (.cons rfl (doubles_follows (by decide)) .nil))))))
              (.cons rfl (msg_follows forwardMetadata_ok (by decide) (follows
                (.cons rfl (msg_follows aggregationID_ok (by decide) (aggregationID _))
                (.cons rfl (msg_follows storagePolicy_ok (by decide) (storagePolicy hr.2 hsp))
                (.cons rfl (msg_follows appliedPipeline_ok (by decide) (appliedPipeline hpl))
                (.cons rfl (uint32_follows (by decide)) (.cons rfl (int32_follows (by decide) hd) .nil))))))) .nil))))
            (.cons rfl (opt_follows_none rfl) .nil))))))
  next ht4 =>
  split at hv
  · next ht =>
    cases hv
    rw [if_neg ht1, if_neg ht2, if_neg ht3, if_neg ht4, if_pos ht] at h
    simp only [Option.map_eq_some_iff, timedToProto, Metric.toProto, TimedMetadata.toProto] at h
    obtain ⟨v, h1, h2⟩ := h
    cases hty : typeToProto u.timed.metric.type with
    | none => simp [hty] at h1
    | some t =>
      cases hsp : u.timed.metadata.storagePolicy.toProto x p.tm.metadata.storagePolicy with
      | none => simp [hty, hsp] at h1
      | some sp =>
        simp only [hty, hsp, Option.some.injEq] at h1
        subst h1 h2
        exact follows (.cons rfl (enum_follows (l := "TIMED_METRIC_WITH_METADATA") (n := 5) (by decide) (by decide) rfl (by decide))
          (.cons rfl (opt_follows_none rfl) (.cons rfl (opt_follows_none rfl) (.cons rfl (opt_follows_none rfl)
          (.cons rfl (opt_follows_none rfl)
          (.cons rfl (opt_follows_some (withMetadata_ok timedMetric_ok timedMetadata_ok) (by decide) rfl (follows
            (.cons rfl (msg_follows timedMetric_ok (by decide) (follows (.cons rfl (metric_enum (by decide) hty rfl)
              (.cons rfl (bytes_follows (by decide)) (.cons rfl (int64_follows (by decide) hr.1)
              (.cons rfl (double_follows (by decide)) .nil))))))
            (.cons rfl (msg_follows timedMetadata_ok (by decide) (follows
              (.cons rfl (msg_follows aggregationID_ok (by decide) (aggregationID _))
              (.cons rfl (msg_follows storagePolicy_ok (by decide) (storagePolicy hr.2 hsp)) .nil)))) .nil)))) .nil))))))
  · cases hv

/-! ### Rule sets -/

theorem storagePoliciesProto_eq {x : XTime} : ∀ {l : List StoragePolicy} {pbs : List (Option PBStoragePolicy)},
    storagePoliciesProto x l = some pbs → ∃ r, mapOpt (fun s => StoragePolicy.toProto x s {}) l = some r ∧ pbs = r.map some
  | [], pbs, h => by simp [storagePoliciesProto] at h; subst h; exact ⟨[], rfl, rfl⟩
  | p :: l, pbs, h => by
    simp only [storagePoliciesProto] at h
    cases h1 : p.toProto x {} with
    | none => simp [h1] at h
    | some q =>
      cases h2 : storagePoliciesProto x l with
      | none => simp [h1, h2] at h
      | some qs =>
        simp only [h1, h2, Option.some.injEq] at h
        subst h
        obtain ⟨r, e, rfl⟩ := storagePoliciesProto_eq h2
        exact ⟨q :: r, by simp [mapOpt, h1, e], rfl⟩

theorem pipelineProto_eq : ∀ p : Pipe.Pipeline, Pipe.pipelineProto p = mapOpt Pipe.OpUnion.proto p
  | [] => rfl
  | u :: p => by
    simp only [Pipe.pipelineProto, mapOpt, pipelineProto_eq p]
    cases u.proto with
    | none => rfl
    | some q => cases mapOpt Pipe.OpUnion.proto p <;> rfl

theorem pipelineOp {u : Pipe.OpUnion} {o : Pipe.PBOp} (e : u.proto = some o) :
    Wire.pipelineOp.Follows .PipelineOp o (Spec.Schema.pipelineOp u) := by
  unfold Pipe.OpUnion.proto at e
  unfold Spec.Schema.pipelineOp
  split at e
  · next h =>
    rw [if_pos h]
    cases ht : Agg.typeProto u.aggregation with
    | none => simp [ht] at e
    | some t =>
      simp only [ht, Option.map_some, Option.some.injEq] at e
      subst e
      exact follows (.cons rfl (enum_follows (l := "AGGREGATION") (n := 1) (by decide) (by decide) rfl (by decide))
        (.cons rfl (opt_follows_some aggregationOp_ok (by decide) rfl (follows (.cons rfl (type_enum (by decide) ht rfl) .nil)))
        (.cons rfl (opt_follows_none rfl) (.cons rfl (opt_follows_none rfl) .nil))))
  next h1 =>
  rw [if_neg h1]
  split at e
  · next h =>
    rw [if_pos h]
    cases ht : Pipe.transToProto u.transformation with
    | none => simp [ht] at e
    | some t =>
      simp only [ht, Option.map_some, Option.some.injEq] at e
      subst e
      exact follows (.cons rfl (enum_follows (l := "TRANSFORMATION") (n := 2) (by decide) (by decide) rfl (by decide))
        (.cons rfl (opt_follows_none rfl)
        (.cons rfl (opt_follows_some transformationOp_ok (by decide) rfl (transformationOp ht))
        (.cons rfl (opt_follows_none rfl) .nil))))
  next h2 =>
  rw [if_neg h2]
  split at e
  · unfold Pipe.RollupOp.proto at e
    cases ht : u.rollup.aggID.types with
    | none => simp [ht] at e
    | some ts =>
      cases hi : Agg.typesProto ts with
      | none => simp [ht, hi] at e
      | some is =>
        simp only [ht, hi, Option.map_some, Option.some.injEq] at e
        subst e
        exact follows (.cons rfl (enum_follows (l := "ROLLUP") (n := 3) (by decide) (by decide) rfl (by decide))
          (.cons rfl (opt_follows_none rfl) (.cons rfl (opt_follows_none rfl)
          (.cons rfl (opt_follows_some rollupOp_ok (by decide) rfl (follows (.cons rfl (string_follows (by decide))
            (.cons rfl (strings_follows (by decide)) (.cons rfl (types_enum (by decide) ht hi rfl) .nil))))) .nil))))
  · cases e

theorem mappingSnapshot {x : XTime} {s : MappingSnapshot} {pb : PBMappingSnapshot} (hc : Spec.Msg.Int64 s.cutoverNanos)
    (hu : Spec.Msg.Int64 s.lastUpdatedAtNanos) (hp : ∀ p ∈ s.storagePolicies, Spec.Msg.PolicyRange x p) (hd : s.drop ≤ 2)
    (e : mappingSnapshotProto x s = some pb) :
    mappingRuleSnapshot.Follows .MappingRuleSnapshot pb (Spec.Schema.mappingSnapshot x s) := by
  unfold mappingSnapshotProto at e
  cases ht : s.aggID.types with
  | none => simp [ht] at e
  | some ts =>
    cases hi : Agg.typesProto ts with
    | none => simp [ht, hi] at e
    | some is =>
      cases hs : storagePoliciesProto x s.storagePolicies with
      | none => simp [ht, hi, hs] at e
      | some sps =>
        simp only [ht, hi, hs, Option.some.injEq] at e
        subst e
        obtain ⟨r, hr, hsp⟩ := storagePoliciesProto_eq hs
        exact follows (.cons rfl (string_follows (by decide)) (.cons rfl (bool_follows (by decide))
          (.cons rfl (int64_follows (by decide) hc) (.cons rfl (string_follows (by decide))
          (.cons rfl (ptrs_nil policy_ok (by decide) rfl) (.cons rfl (int64_follows (by decide) hu)
          (.cons rfl (string_follows (by decide)) (.cons rfl (types_enum (by decide) ht hi rfl)
          (.cons rfl (ptrs storagePolicy_ok (by decide) hr hsp fun p hp' _ ha => storagePolicy (hp p hp') ha)
          (.cons rfl (drop_enum (by decide) hd rfl) .nil))))))))))

theorem rollupTarget {x : XTime} {t : RollupTarget} {pb : PBRollupTargetV2} (hp : ∀ p ∈ t.storagePolicies, Spec.Msg.PolicyRange x p)
    (e : rollupTargetProto x t = some pb) : rollupTargetV2.Follows .RollupTargetV2 pb (Spec.Schema.rollupTarget x t) := by
  unfold rollupTargetProto at e
  cases ho : Pipe.pipelineProto t.pipeline with
  | none => simp [ho] at e
  | some os =>
    cases hs : storagePoliciesProto x t.storagePolicies with
    | none => simp [ho, hs] at e
    | some sps =>
      simp only [ho, hs, Option.some.injEq] at e
      subst e
      obtain ⟨r, hr, hsp⟩ := storagePoliciesProto_eq hs
      rw [pipelineProto_eq] at ho
      exact follows (.cons rfl (opt_follows_some pipeline_ok (by decide) rfl (follows (.cons rfl
          (rep pipelineOp_ok (by decide) ho fun _ _ _ ha => pipelineOp ha) .nil)))
        (.cons rfl (ptrs storagePolicy_ok (by decide) hr hsp fun p hp' _ ha => storagePolicy (hp p hp') ha) .nil))

theorem rollupSnapshot {x : XTime} {s : RollupSnapshot} {pb : PBRollupSnapshot} (hc : Spec.Msg.Int64 s.cutoverNanos)
    (hu : Spec.Msg.Int64 s.lastUpdatedAtNanos) (hp : ∀ t ∈ s.targets, ∀ p ∈ t.storagePolicies, Spec.Msg.PolicyRange x p)
    (e : rollupSnapshotProto x s = some pb) :
    rollupRuleSnapshot.Follows .RollupRuleSnapshot pb (Spec.Schema.rollupSnapshot x s) := by
  unfold rollupSnapshotProto at e
  cases ht : mapM' (rollupTargetProto x) s.targets with
  | none => simp [ht] at e
  | some ts =>
    simp only [ht, Option.some.injEq] at e
    subst e
    rw [mapM'_eq] at ht
    exact follows (.cons rfl (string_follows (by decide)) (.cons rfl (bool_follows (by decide))
      (.cons rfl (int64_follows (by decide) hc) (.cons rfl (string_follows (by decide))
      (.cons rfl (ptrs_nil rollupTarget_ok (by decide) rfl) (.cons rfl (int64_follows (by decide) hu)
      (.cons rfl (string_follows (by decide))
      (.cons rfl (ptrs rollupTargetV2_ok (by decide) ht rfl fun t ht' _ ha => rollupTarget (hp t ht') ha) .nil))))))))

theorem rule {S P : Type} {c : Codec P} (hc : c.OK) {f : S → Option P} {g : S → Contents} {r : Rule S} {pb : PBRule P}
    {msg rmsg : Spec.Schema.Message}
    (hm : rmsg.fields = [single .string "uuid" 1, repeated (.msg msg) "snapshots" 2])
    (hf : ∀ s ∈ r.snapshots, ∀ q, f s = some q → c.Follows msg q (g s)) (e : ruleProto f r = some pb) :
    (Wire.rule c).Follows rmsg pb (Spec.Schema.rule g r) := by
  unfold ruleProto at e
  cases hs : mapM' f r.snapshots with
  | none => simp [hs] at e
  | some ss =>
    simp only [hs, Option.some.injEq] at e
    subst e
    rw [mapM'_eq] at hs
    refine follows ?_
    rw [hm]
    exact .cons rfl (string_follows (by decide)) (.cons rfl (ptrs hc (by decide) hs rfl hf) .nil)

theorem ruleSet {x : XTime} {rs : RuleSet} {pb : PBRuleSet} (hr : Spec.StoredRules.InRange x rs)
    (hd : ∀ r ∈ rs.mappingRules, ∀ s ∈ r.snapshots, s.drop ≤ 2) (e : rs.proto x = some pb) :
    Wire.ruleSet.Follows .RuleSet pb (Spec.Schema.ruleSet x rs) := by
  unfold RuleSet.proto at e
  cases h1 : mapM' (ruleProto (mappingSnapshotProto x)) rs.mappingRules with
  | none => simp [h1] at e
  | some ms =>
    cases h2 : mapM' (ruleProto (rollupSnapshotProto x)) rs.rollupRules with
    | none => simp [h1, h2] at e
    | some rr =>
      simp only [h1, h2, Option.some.injEq] at e
      subst e
      rw [mapM'_eq] at h1 h2
      exact follows (.cons rfl (string_follows (by decide)) (.cons rfl (string_follows (by decide))
        (.cons rfl (int64_follows (by decide) hr.created) (.cons rfl (int64_follows (by decide) hr.updated)
        (.cons rfl (bool_follows (by decide)) (.cons rfl (int64_follows (by decide) hr.cutover)
        (.cons rfl (ptrs (rule_ok mappingRuleSnapshot_ok) (by decide) h1 rfl fun r hr' q hq =>
          rule (rmsg := .MappingRule) mappingRuleSnapshot_ok rfl (fun s hs q hq => mappingSnapshot (hr.mapping r hr' s hs).1
            (hr.mapping r hr' s hs).2.1 (hr.mapping r hr' s hs).2.2 (hd r hr' s hs) hq) hq)
        (.cons rfl (ptrs (rule_ok rollupRuleSnapshot_ok) (by decide) h2 rfl fun r hr' q hq =>
          rule (rmsg := .RollupRule) rollupRuleSnapshot_ok rfl (fun s hs q hq => rollupSnapshot (hr.rollup r hr' s hs).1
            (hr.rollup r hr' s hs).2.1 (hr.rollup r hr' s hs).2.2 hq) hq)
        (.cons rfl (string_follows (by decide)) .nil)))))))))

theorem namespaces {nss : NS.Namespaces} {pb : NS.PBNamespaces} (hr : Spec.StoredRules.NamespacesInRange nss)
    (hv : ∀ n ∈ nss.namespaces, ∀ s ∈ n.snaps, -2 ^ 31 ≤ s.forRuleSetVersion ∧ s.forRuleSetVersion < 2 ^ 31) (e : nss.proto = some pb) :
    namespacesMsg.Follows .Namespaces pb (Spec.Schema.namespaces nss) := by
  unfold NS.Namespaces.proto at e
  cases hm : mapM' NS.Namespace.proto nss.namespaces with
  | none => simp [hm] at e
  | some l =>
    simp only [hm, Option.map_some, Option.some.injEq] at e
    subst e
    rw [mapM'_eq] at hm
    refine follows (.cons rfl (ptrs namespaceMsg_ok (by decide) hm rfl fun n hn q hq => ?_) .nil)
    unfold NS.Namespace.proto at hq
    cases hs : n.snapshots with
    | none => simp [hs] at hq
    | some ss =>
      simp only [hs, Option.some.injEq] at hq
      subst hq
      have hsn : n.snaps = ss := by simp [NS.Namespace.snaps, hs]
      rw [hsn]
      refine follows (.cons rfl (string_follows (by decide)) (.cons rfl (ptrs namespaceSnapshot_ok (by decide)
        (g := fun s => some (NS.Snapshot.proto s)) (r := ss.map NS.Snapshot.proto)
        (by rw [mapOpt_eq_some_iff]; simp) (by simp) fun s hs' q hq => ?_) .nil))
      cases hq
      have h32 := hv n hn s (by rw [hsn]; exact hs')
      have e32 : s.proto.forRulesetVersion = s.forRuleSetVersion := toInt32_id h32
      have := int32_follows (get := fun m : NS.PBSnapshot => m.forRulesetVersion)
        (set := fun m v => { m with forRulesetVersion := v }) (name := "for_ruleset_version") (num := 1) (m := s.proto) (by decide)
        (by rw [e32]; exact h32)
      rw [e32] at this
      exact follows (.cons rfl this (.cons rfl (bool_follows (by decide))
        (.cons rfl (int64_follows (by decide) (hr n hn s (by rw [hsn]; exact hs'))) (.cons rfl (string_follows (by decide)) .nil))))

end Follows

/-! ### C100 -/

/-- The constants of package aggregation are the numbers of the published enumeration, and all of them are published. -/
theorem C100_types : (∀ t l, (t, l) ∈ Spec.Schema.typeLabels → 0 ≤ t ∧ (l, t.toNat) ∈ Spec.Schema.Enum.values .AggregationType) ∧
    (∀ t, Spec.ValidAggType t ↔ ∃ l, (t, l) ∈ Spec.Schema.typeLabels) := by
  constructor
  · have : ∀ q ∈ Spec.Schema.typeLabels, 0 ≤ q.1 ∧ (q.2, q.1.toNat) ∈ Spec.Schema.Enum.values .AggregationType := by decide
    exact fun t l h => this (t, l) h
  · intro t
    constructor
    · intro h
      have hx : ∀ n : Fin 23, 1 ≤ n.val → ∃ q ∈ Spec.Schema.typeLabels, q.1 = n.val := by decide
      unfold Spec.ValidAggType at h
      obtain ⟨q, hq, e⟩ := hx ⟨t.toNat, by omega⟩ (by simp only; omega)
      refine ⟨q.2, ?_⟩
      have : t = q.1 := by rw [e]; simp only; omega
      rw [this]; exact hq
    · intro ⟨l, h⟩
      have : ∀ q ∈ Spec.Schema.typeLabels, 1 ≤ q.1 ∧ q.1 ≤ 22 := by decide
      have := this _ h
      unfold Spec.ValidAggType
      simp only at this
      omega

/-- Every message that is sent is its size, as a signed varint, and an encoding under the published declaration of what is sent. -/
theorem C100_message {x : XTime} {max : Int} {u : Union} {m : Spec.Msg.Message} {pb : PBMetric} (h : Sent x max u m pb)
    (hs : Spec.Schema.Sane m) :
    ∃ l d, frame pb = l ++ d ∧ Spec.WireFormat.Num (2 * d.length) l ∧
      Encodes .MetricWithMetadatas (Spec.Schema.message x (Spec.Msg.received m)) d := by
  obtain ⟨p, hp⟩ := h.conv
  have hi := h.int64
  rw [size_eq] at hi
  refine ⟨_, _, rfl, ?_, Follows.message h.view h.range hs hp hi⟩
  rw [size_eq]
  have e : zigzag ((metricWithMetadatas.marshal pb).length : Int) = 2 * (metricWithMetadatas.marshal pb).length := by
    unfold zigzag; split <;> omega
  unfold putVarint
  rw [e]
  exact num_enc (by omega)

/-- What an encoder holds after it was given messages, whatever other encoders and iterators do in between, is a stream of them as
published. -/
theorem C100_stream {x : XTime} {s s' : PBuf.St} {ops : List PBuf.Op} {rs : List PBuf.Res} (hr : PBuf.Reachable x s)
    (ho : ∀ op ∈ ops, Spec.ByteLog.small op) (h : PBuf.run x s ops = some (rs, s')) {k : Nat} {max : Int}
    (hl : (PBuf.logs s)[k]? = some ⟨max, []⟩) (ms : List PBuf.Item)
    (hms : ∀ m ∈ ms, Sent x max m.union m.message m.pb ∧ Spec.Schema.Sane m.message)
    (hops : ops.filter (Spec.ByteLog.onEncoder · == some k) = ms.map fun m => .encode k m.protos m.union m.choice) :
    ∃ l, (PBuf.logs s')[k]? = some l ∧ Spec.Schema.Stream (ms.map fun m => Spec.Schema.message x (Spec.Msg.received m.message)) l.bytes := by
  have h1 := PBuf.C19_alone hr ho h hl
  rw [hops, PBuf.fold_encode ms _ (fun m hm => (hms m hm).1)] at h1
  refine ⟨_, h1, ?_⟩
  simp only [List.nil_append]
  clear h1 hops
  induction ms with
  | nil => exact .nil
  | cons m ms ih =>
    obtain ⟨hs, hm⟩ := hms m (List.mem_cons_self ..)
    obtain ⟨l, d, e, hn, hd⟩ := C100_message hs hm
    rw [List.flatMap_cons, e, List.append_assoc]
    exact .cons _ _ _ _ _ hn hd (ih fun a ha => hms a (List.mem_cons_of_mem _ ha))

/-- A rule set that is stored is an encoding under the published declaration of the rule set. -/
theorem C100_ruleSet {x : XTime} {rs : RuleSet} {pb : PBRuleSet} (hr : Store.Sane x rs)
    (hd : ∀ r ∈ rs.mappingRules, ∀ s ∈ r.snapshots, s.drop ≤ 2) (e : rs.proto x = some pb) :
    Encodes .RuleSet (Spec.Schema.ruleSet x rs) (Wire.ruleSet.marshal pb) :=
  Follows.ruleSet hr.1 hd e (hr.2 pb e)

/-- Namespaces that are stored are an encoding under the published declaration of them. -/
theorem C100_namespaces {nss : NS.Namespaces} {pb : NS.PBNamespaces} (hr : Store.NSSane nss)
    (hv : ∀ n ∈ nss.namespaces, ∀ s ∈ n.snaps, -2 ^ 31 ≤ s.forRuleSetVersion ∧ s.forRuleSetVersion < 2 ^ 31) (e : nss.proto = some pb) :
    Encodes .Namespaces (Spec.Schema.namespaces nss) (namespacesMsg.marshal pb) :=
  Follows.namespaces hr.1 hv e (hr.2 pb e)

/-- `WriteRuleSet` and `WriteAll` add such bytes under the keys of the rule set and the namespaces, if they succeed. -/
theorem C100_store {o : Store.Options} {kv : Store.BKV} {nss : NS.Namespaces} {rs : RuleSet} (hk : ∀ n, o.ruleSetKey n ≠ o.namespacesKey)
    (hr : Store.Sane o.x rs) (hn : Store.NSSane nss) (hd : ∀ r ∈ rs.mappingRules, ∀ s ∈ r.snapshots, s.drop ≤ 2)
    (hv : ∀ n ∈ nss.namespaces, ∀ s ∈ n.snaps, -2 ^ 31 ≤ s.forRuleSetVersion ∧ s.forRuleSetVersion < 2 ^ 31) :
    (∀ kv', Store.writeRuleSetB o kv rs = (kv', .ok) → ∃ d, Encodes .RuleSet (Spec.Schema.ruleSet o.x rs) d ∧
      ∀ k, kv' k = if k = o.ruleSetKey rs.namespace_ then kv k ++ [d] else kv k) ∧
    (∀ kv', Store.writeAllB o kv nss rs = (kv', .ok) → ∃ d e, Encodes .RuleSet (Spec.Schema.ruleSet o.x rs) d ∧
      Encodes .Namespaces (Spec.Schema.namespaces nss) e ∧
      ∀ k, kv' k = if k = o.ruleSetKey rs.namespace_ then kv k ++ [d] else if k = o.namespacesKey then kv k ++ [e] else kv k) := by
  have commit : ∀ conds ops kv', Store.commitWriteB kv conds ops = (kv', .ok) →
      kv' = ops.foldl (fun kv o => fun k => if k = o.1 then kv k ++ [o.2.bytes] else kv k) kv := by
    intro conds ops kv' h
    unfold Store.commitWriteB Store.BKV.commit at h
    split at h
    · cases h
    · next h1 =>
      simp only [Prod.mk.injEq, and_true] at h
      subst h
      split at h1
      · exact (Option.some.inj h1).symm
      · cases h1
  constructor
  · intro kv' h
    unfold Store.writeRuleSetB Store.ruleSetTransaction at h
    split at h
    · cases h
    · cases hp : rs.proto o.x with
      | none => rw [hp] at h; cases h
      | some pb =>
        rw [hp] at h
        refine ⟨_, C100_ruleSet hr hd hp, fun k => ?_⟩
        rw [commit _ _ _ h]
        rfl
  · intro kv' h
    unfold Store.writeAllB Store.ruleSetTransaction Store.namespacesTransaction at h
    split at h
    · cases h
    · cases hp : rs.proto o.x with
      | none => rw [hp] at h; cases h
      | some pb =>
        cases hq : nss.proto with
        | none => rw [hp, hq] at h; cases h
        | some qb =>
          rw [hp, hq] at h
          refine ⟨_, _, C100_ruleSet hr hd hp, C100_namespaces hn hv hq, fun k => ?_⟩
          rw [commit _ _ _ h]
          simp only [List.cons_append, List.nil_append, List.foldl_cons, List.foldl_nil, Store.Value.bytes]
          by_cases h1 : k = o.namespacesKey
          · have h2 : k ≠ o.ruleSetKey rs.namespace_ := by rw [h1]; exact fun e => hk _ e.symm
            rw [if_pos h1, if_neg h2, if_neg h2, if_pos h1]
          · simp [h1]

/-- Bytes are an encoding of one contents only. -/
theorem C100_unambiguous {m : Spec.Schema.Message} {c c' : Contents} {d : Bytes} (h : Encodes m c d) (h' : Encodes m c' d) : c = c' :=
  Spec.Schema.fields_unique h (Spec.Schema.numbers_nodup m) rfl h'

/-- So is a stream. -/
theorem C100_stream_unambiguous {cs cs' : List Contents} {d : Bytes} (h : Spec.Schema.Stream cs d) (h' : Spec.Schema.Stream cs' d) :
    cs = cs' := by
  generalize e : d = d2 at h'
  induction h generalizing cs' d2 with
  | nil =>
    cases h' with
    | nil => rfl
    | cons _ _ l _ _ hl => exact absurd (List.append_eq_nil_iff.mp e.symm).1 (Spec.Schema.num_ne_nil hl)
  | cons c cs l d r hl hd _ ih =>
    cases h' with
    | nil => exact absurd (List.append_eq_nil_iff.mp e).1 (Spec.Schema.num_ne_nil hl)
    | cons c' cs' l' d' r' hl' hd' hr' =>
      obtain ⟨hn, _, e⟩ := Spec.Schema.num_prefix hl hl' e
      obtain ⟨rfl, e2⟩ := List.append_inj e (by omega)
      rw [C100_unambiguous hd hd', ih _ e2 hr']

/-! ### Concrete cases -/

/-- The hypotheses of `C100_message` are met by a counter with metadata. -/
example : ∃ m, Sent unitX 1000 exUnion m exPB ∧ Spec.Schema.Sane m :=
  ⟨_, exUnion_sent, by unfold Spec.Schema.Sane exStaged; decide⟩

/-- The hypotheses of `C100_store` are met, and both writes succeed. -/
example : (∀ n, Store.exStoreOpts.ruleSetKey n ≠ Store.exStoreOpts.namespacesKey) ∧ Store.Sane exUnits Store.exRead ∧
    Store.NSSane Store.exNames ∧ (∀ r ∈ Store.exRead.mappingRules, ∀ s ∈ r.snapshots, s.drop ≤ 2) ∧
    (∀ n ∈ Store.exNames.namespaces, ∀ s ∈ n.snaps, -2 ^ 31 ≤ s.forRuleSetVersion ∧ s.forRuleSetVersion < 2 ^ 31) ∧
    (Store.writeAllB Store.exStoreOpts (fun _ => []) Store.exNames { Store.exRead with version := 0 }).2 = .ok :=
  ⟨Store.exOpts_ok.2, Store.exRead_sane, Store.exNames_sane, by decide +kernel, by decide +kernel, by decide +kernel⟩

/-- A counter `a` of value 5 with no metadata, as published. -/
example : Encodes .Counter [("id", [.bytes (bs "a")]), ("value", [.int 5])] [10, 1, 97, 16, 5] ∧
    ¬ Encodes .Counter [("id", [.bytes (bs "a")]), ("value", [.int 7])] [10, 1, 97, 16, 5] := by
  have h : Encodes .Counter [("id", [.bytes (bs "a")]), ("value", [.int 5])] [10, 1, 97, 16, 5] :=
    .scalar .bytes "id" 1 _ _ _ 2 [10] [1, 97] _ ⟨.last 10 (by decide), by decide⟩ (.bytes [97] [1] ⟨.last 1 (by decide), by decide⟩)
      (.scalar .int64 "value" 2 _ _ _ 0 [16] [5] _ ⟨.last 16 (by decide), by decide⟩
        (.int64 5 [5] (by decide) (by decide) ⟨.last 5 (by decide), by decide⟩) .nil)
  exact ⟨h, fun h' => absurd (C100_unambiguous h h') (by simp)⟩

end Verif.Wire
