import Verif.Spec.JsonForm
import Verif.Props.Json
/- C81: the JSON forms are the published ones, member by member. -/
namespace Verif.Json
open Verif.Policy Verif.RuleSet Verif.Spec.Json
open Verif.Rules (RollupTarget)
open Verif.MP (StagedPolicies)

theorem string_form {s : Bytes} (h : Utf8 s) : string.enc s = some (.str s) := by
  show some (J.str (coerce s)) = _
  rw [(coerce_iff s).mpr h]

theorem arr_form {c : Codec A} {f : A → J} : ∀ {l : List A}, (∀ a ∈ l, c.enc a = some (f a)) → arrEnc c l = some (l.map f)
  | [], _ => rfl
  | a :: l, h => by
    rw [arrEnc, h a (by simp), arr_form (l := l) fun b hb => h b (List.mem_cons_of_mem _ hb)]; rfl

theorem slice_form {c : Codec A} {zero : A} {f : A → J} {l : List A} (h : ∀ a ∈ l, c.enc a = some (f a)) :
    (slice c zero).enc l = some (.arr (l.map f)) := by simp only [slice, arr_form h, Option.map_some]

theorem bits_eq (id : BitVec 64) : Agg.bitsFrom id 0 = (List.range 64).filter id.getLsbD := by
  rw [Agg.bitsFrom, List.range_eq_range']

theorem types_form {id : BitVec 64} (h : KnownID id) :
    Agg.ID.types id = some (((List.range 64).filter id.getLsbD).map Int.ofNat) := by
  show Agg.decompress id = _
  rw [Agg.decompress_spec, if_pos, bits_eq]
  · rfl
  · intro j hj
    have := h j ((Agg.mem_bitsFrom _ _ _).mp hj).2.2
    exact (Agg.isValid_iff _).mpr (by omega)

theorem word_form {t : Int} (h : 1 ≤ t ∧ t ≤ 22) : aggType.enc t = some (typeForm t.toNat) := by
  rw [(rt_aggType h 0).1, Agg.typeString_word t h]; rfl

theorem aggID_form {id : BitVec 64} (h : KnownID id) : aggID.enc id = some (typesForm id) := by
  show (match Agg.ID.types id with | none => none | some ts => (slice aggType 0).enc ts) = _
  rw [types_form h]
  simp only
  rw [slice_form (f := fun t => typeForm t.toNat) fun t ht => word_form (types_valid (types_form h) t ht), List.map_map]
  rfl

theorem policy_text (x : XTime) (p : StoragePolicy) : p.string x = policyText x p := by
  unfold StoragePolicy.string Resolution.string policyText
  by_cases e : x.maxUnit p.resolution.window = p.resolution.precision
  · rw [if_pos e, if_pos e.symm, List.append_nil, List.append_assoc]; rfl
  · rw [if_neg e, if_neg (Ne.symm e), List.append_assoc (x.extString _), List.append_assoc, List.append_assoc, List.append_assoc]; rfl

theorem policies_form (x : XTime) (l : List StoragePolicy) : (slice (storagePolicy x) zeroSP).enc l = some (policiesForm x l) :=
  slice_form fun p _ => by show some (J.str (p.string x)) = _; rw [policy_text]

theorem tags_form {l : List Bytes} (h : ∀ t ∈ l, Utf8 t) : (slice string []).enc l = some (.arr (l.map .str)) :=
  slice_form fun t ht => string_form (h t ht)

theorem rollupOp_form {op : Pipe.RollupOp} (h1 : Utf8 op.newName) (h2 : ∀ t ∈ op.tags, Utf8 t) (h3 : KnownID op.aggID) :
    rollupOp.enc op = some (.obj [(bs "newName", .str op.newName), (bs "tags", .arr (op.tags.map .str)),
      (bs "aggregation", typesForm op.aggID)]) := by
  simp [rollupOp, struct, rollupFields, encFields, field, omitField, string_form h1, tags_form h2, aggID_form h3]

theorem op_form {u : Pipe.OpUnion} (h : KnownOp u) (hp : PlainOp u) : opUnion.enc u = some (opForm u) := by
  cases h with
  | aggregation h h' =>
    have := word_form h'
    simp [opUnion, newUnion, h, opForm, Pipe.AggregationOpType, struct, unionFields, encFields, omitField, pointer, aggOp, this]
  | transformation h h' =>
    have hv := ((Tf.C77_types u.transformation).1).mpr h'
    have : transType.enc u.transformation = some (.str (if u.transformation = 1 then bs "Absolute" else bs "PerSecond")) := by
      rcases h' with e | e <;> rw [e] <;> rfl
    simp [opUnion, newUnion, h, opForm, Pipe.AggregationOpType, Pipe.TransformationOpType, struct, unionFields, encFields, omitField,
      pointer, transOp, this]
  | rollup h h' =>
    have := rollupOp_form hp.name hp.tags h'
    simp [opUnion, newUnion, h, opForm, Pipe.AggregationOpType, Pipe.TransformationOpType, Pipe.RollupOpType, struct, unionFields,
      encFields, omitField, pointer, this]

theorem mapping_form {x : XTime} {v : MappingView} (h : MappingForm x v) : (mappingView x).enc v = some (mappingForm x v) := by
  have e1 := string_form h.id
  have e2 := string_form h.name
  have e3 := string_form h.filter
  have e4 := string_form h.by_
  have e5 := aggID_form h.aggID
  have e6 := policies_form x v.storagePolicies
  by_cases c1 : v.id = [] <;> by_cases c2 : v.cutoverMillis = 0 <;>
    simp [mappingView, mappingForm, omitIf, struct, mappingFields, encFields, field, omitField, e1, e2, e3, e4, e5, e6, boolean, int64,
      integer, uint, c1, c2]

theorem target_form {x : XTime} {t : RollupTarget} (h : TargetForm x t) : (target x).enc t = some (targetForm x t) := by
  have e1 : pipeline.enc t.pipeline = some (.arr (t.pipeline.map opForm)) :=
    slice_form (zero := { type := 0 }) fun u hu => op_form (h.ops u hu).1 (h.ops u hu).2
  simp [target, targetForm, struct, targetFields, encFields, field, e1, policies_form]

theorem rollup_form {x : XTime} {v : RollupView} (h : RollupForm x v) : (rollupView x).enc v = some (rollupForm x v) := by
  have e1 := string_form h.id
  have e2 := string_form h.name
  have e3 := string_form h.filter
  have e4 := string_form h.by_
  have e5 : (slice (target x) zeroTarget).enc v.targets = some (.arr (v.targets.map (targetForm x))) :=
    slice_form fun t ht => target_form (h.targets t ht)
  by_cases c1 : v.id = [] <;> by_cases c2 : v.cutoverMillis = 0 <;>
    simp [rollupView, rollupForm, omitIf, struct, rollupViewFields, encFields, field, omitField, e1, e2, e3, e4, e5, boolean, int64,
      integer, c1, c2]

theorem ruleSet_form {x : XTime} {v : RuleSetView} (h : RuleSetForm x v) : (ruleSetView x).enc v = some (ruleSetForm x v) := by
  have e1 := string_form h.namespace_
  have e2 : (slice (mappingView x) zeroMapping).enc v.mappingRules = some (.arr (v.mappingRules.map (mappingForm x))) :=
    slice_form fun r hr => mapping_form (h.mapping r hr)
  have e3 : (slice (rollupView x) zeroRollup).enc v.rollupRules = some (.arr (v.rollupRules.map (rollupForm x))) :=
    slice_form fun r hr => rollup_form (h.rollup r hr)
  simp [ruleSetView, ruleSetForm, struct, ruleSetFields, encFields, field, e1, e2, e3, int64, integer]

theorem namespace_form {v : NS.NamespaceView} (h : NamespaceForm v) : namespaceView.enc v = some (namespaceForm v) := by
  simp [namespaceView, namespaceForm, struct, namespaceFields, encFields, field, string_form h.id, string_form h.by_, int64, integer,
    boolean]

theorem namespaces_form {v : NamespacesView} (h' : ∀ n ∈ v.namespaces, NamespaceForm n) :
    namespacesView.enc v = some (namespacesForm v) := by
  have e : (slice namespaceView zeroNamespace).enc v.namespaces = some (.arr (v.namespaces.map namespaceForm)) :=
    slice_form fun n hn => namespace_form (h' n hn)
  simp [namespacesView, namespacesForm, struct, encFields, field, e, int64, integer]

theorem change_form {c : Codec V} {zero : V} {form : V → Prop} {f : V → J} (hc : ∀ v, form v → c.enc v = some (f v)) {m : ViewChange V}
    (h : ChangeForm form m) : (change c zero).enc m = some (changeForm f m) := by
  have e1 := string_form h.op
  have e2 : ∀ i, m.ruleID = some i → string.enc i = some (.str i) := fun i hi => string_form (h.id i (by simp [hi]))
  have e3 : ∀ v, m.ruleData = some v → c.enc v = some (f v) := fun v hv => hc v (h.data v (by simp [hv]))
  cases hi : m.ruleID with
  | none => cases hd : m.ruleData with
    | none => simp [change, changeForm, struct, changeFields, encFields, field, omitField, e1, hi, hd]
    | some v => simp [change, changeForm, struct, changeFields, encFields, field, omitField, pointer, e1, hi, hd, e3 v hd]
  | some i => cases hd : m.ruleData with
    | none => simp [change, changeForm, struct, changeFields, encFields, field, omitField, pointer, e1, hi, hd, e2 i hi]
    | some v => simp [change, changeForm, struct, changeFields, encFields, field, omitField, pointer, e1, hi, hd, e2 i hi, e3 v hd]

theorem changes_form {x : XTime} {c : ViewChanges} (h : ChangesForm x c) : (changes x).enc c = some (changesForm x c) := by
  have e1 := string_form h.namespace_
  have e2 : (slice (change (mappingView x) zeroMapping) {}).enc c.mapping = some (.arr (c.mapping.map (changeForm (mappingForm x)))) :=
    slice_form fun m hm => change_form (fun _ hv => mapping_form hv) (h.mapping m hm)
  have e3 : (slice (change (rollupView x) zeroRollup) {}).enc c.rollup = some (.arr (c.rollup.map (changeForm (rollupForm x)))) :=
    slice_form fun m hm => change_form (fun _ hv => rollup_form hv) (h.rollup m hm)
  simp [changes, changesForm, struct, changesFields, encFields, field, e1, e2, e3]

theorem fullPolicy_text {x : XTime} {p : Policy} (h : KnownID p.aggID) : p.string x = fullPolicyText x p := by
  unfold Policy.string fullPolicyText
  rw [policy_text]
  by_cases e : p.aggID = 0
  · rw [if_pos e, if_pos (by rw [e]; rfl), List.append_nil]
  · rw [if_neg e, if_neg (by simpa [Agg.ID.isDefault, Agg.DefaultID] using e)]
    have : aggIDString p.aggID = Spec.typesText (((List.range 64).filter p.aggID.getLsbD).map Int.ofNat) := by
      unfold aggIDString
      rw [types_form h]
      exact (Agg.C03_text _ (fun t ht => types_valid (types_form h) t ht)).1
    rw [this]; rfl

theorem staged_form {x : XTime} {p : StagedPolicies} (h' : ∀ q ∈ p.policies, KnownID q.aggID) :
    (stagedPolicies x).enc p = some (stagedForm x p) := by
  have e : (slice (policy x) zeroPolicy).enc p.policies = some (.arr (p.policies.map fun q => .str (fullPolicyText x q))) :=
    slice_form fun q hq => by show some (J.str (q.string x)) = _; rw [fullPolicy_text (h' q hq)]
  simp [stagedPolicies, stagedForm, struct, stagedFields, encFields, field, e, int64, integer, boolean]

/-- C81: what is written is the published form, member by member; and the published form, written by whomever, is read as what it says. -/
theorem C81_form (x : XTime) :
    (∀ v, RuleSetForm x v →
      (ruleSetView x).enc v = some (ruleSetForm x v) ∧ (ruleSetView x).dec (ruleSetForm x v) zeroRuleSet = some v) ∧
    (∀ c, ChangesForm x c → (changes x).enc c = some (changesForm x c) ∧ (changes x).dec (changesForm x c) {} = some c) ∧
    (∀ v : NamespacesView, Spec.Msg.Int64 v.version → (∀ n ∈ v.namespaces, NamespaceForm n) →
      namespacesView.enc v = some (namespacesForm v) ∧ namespacesView.dec (namespacesForm v) {} = some v) ∧
    (∀ p old : StagedPolicies, Spec.Msg.Int64 p.cutoverNanos → (∀ q ∈ p.policies, Printable x q.sp ∧ KnownID q.aggID) →
      (stagedPolicies x).enc p = some (stagedForm x p) ∧ (stagedPolicies x).dec (stagedForm x p) old = some p) := by
  have key : ∀ {A : Type} {c : Codec A} {a old : A} {f : J}, RT c a old → c.enc a = some f → c.enc a = some f ∧ c.dec f old = some a := by
    intro A c a old f ⟨j, h1, h2⟩ h
    rw [h1] at h
    cases h
    exact ⟨h1, h2⟩
  exact ⟨fun v h => key (ruleSet_rt h) (ruleSet_form h), fun c h => key (changes_rt h) (changes_form h),
    fun v h h' => key (namespaces_rt h h') (namespaces_form h'),
    fun p old h h' => key (staged_rt h h' old) (staged_form fun q hq => (h' q hq).2)⟩

/-- The form of a rule set with one mapping rule and one rollup rule, written out. -/
example : RuleSetForm exX exView ∧ ruleSetForm exX exView =
    .obj [(bs "id", .str (bs "ns")), (bs "version", .num 3), (bs "cutoverMillis", .num 5000),
      (bs "mappingRules", .arr [.obj [(bs "id", .str (bs "m1")), (bs "name", .str (bs "first")), (bs "tombstoned", .bool false),
        (bs "filter", .str (bs "app:web")), (bs "aggregation", .arr [.str (bs "Last"), .str (bs "Mean")]),
        (bs "storagePolicies", .arr [.str (bs "10s:2d")]), (bs "dropPolicy", .num 2), (bs "lastUpdatedBy", .str (bs "them")),
        (bs "lastUpdatedAtMillis", .num 7000)]]),
      (bs "rollupRules", .arr [.obj [(bs "id", .str (bs "r1")), (bs "name", .str (bs "second")), (bs "tombstoned", .bool true),
        (bs "cutoverMillis", .num (-1)), (bs "filter", .str (bs "app:*")),
        (bs "targets", .arr [.obj [(bs "pipeline", .arr [.obj [(bs "aggregation", .str (bs "Sum"))],
          .obj [(bs "transformation", .str (bs "PerSecond"))],
          .obj [(bs "rollup", .obj [(bs "newName", .str (bs "all")), (bs "tags", .arr [.str (bs "a"), .str (bs "b")]),
            (bs "aggregation", .arr [.str (bs "Sum")])])]]), (bs "storagePolicies", .arr [.str (bs "10s:2d")])]]),
        (bs "lastUpdatedBy", .str (bs "them")), (bs "lastUpdatedAtMillis", .num 7000)]])] :=
  ⟨exView_form, by rfl⟩

end Verif.Json
