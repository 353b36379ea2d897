import Verif.Spec.ValidatorConfig
import Verif.Spec.Messages
import Verif.Props.Validator
import Verif.Props.ValidatorOptions
import Verif.Props.RuleSetViews
import Verif.Props.RuleSetProto
import Verif.Props.MatchM3
/-
C80: a validator built from a configuration, and the matcher: what the accepted rules give to a metric is permitted for its type.
-/
namespace Verif.Val
open Verif.Policy Verif.TagsFlt Verif.Flt Verif.RuleSet Verif.Rules Verif.Active Verif.Meta
open Verif.Spec.ValConfig Verif.Spec.Val Verif.Spec.Rules Verif.Spec.TagsFlt Verif.Spec.Id
open scoped Verif.Agg

/-! ### Metric types -/

/-- C80: metric types are read back from their text and from their protobuf form, and nothing else is read. -/
theorem C80_type_text (t : MetricType) (s : Bytes) (pb : Int) :
    (parseType s = some t ↔ t ∈ [1, 2, 3] ∧ s = typeString t) ∧ typeString t = (Spec.Msg.typeNames.lookup t).getD (bs "unknown") ∧
    (typeFromProto pb = some t ↔ t ∈ [1, 2, 3] ∧ typeToProto t = some pb) := by
  refine ⟨?_, ?_, ?_⟩
  · unfold parseType validTypes
    simp only [parseTypeLoop]
    constructor
    · intro h
      repeat' split at h
      all_goals cases h
      all_goals simp_all
    · rintro ⟨ht, rfl⟩
      simp only [List.mem_cons, List.not_mem_nil, or_false] at ht
      rcases ht with rfl | rfl | rfl <;> decide
  · unfold typeString Spec.Msg.typeNames
    simp only [List.lookup]
    by_cases h1 : t = 1
    · subst h1; rfl
    by_cases h2 : t = 2
    · subst h2; rfl
    by_cases h3 : t = 3
    · subst h3; rfl
    simp [h1, h2, h3, beq_false_of_ne h1, beq_false_of_ne h2, beq_false_of_ne h3]
  · unfold typeFromProto typeToProto
    constructor
    · intro h
      repeat' split at h
      all_goals cases h
      all_goals simp_all
    · rintro ⟨ht, h⟩
      simp only [List.mem_cons, List.not_mem_nil, or_false] at ht
      rcases ht with rfl | rfl | rfl <;> simp at h <;> subst h <;> decide

/-! ### The types a filter may match -/

theorem typesLoop_spec {f : Filter} (ha : Answers f) : ∀ ts : List MetricType,
    ∃ l, typesLoop f ts = some l ∧ ∀ t, t ∈ l ↔ t ∈ ts ∧ f.matchesVal (typeString t) = .ok true
  | [] => ⟨[], rfl, by simp⟩
  | t :: ts => by
    obtain ⟨l, hl, hm⟩ := typesLoop_spec ha ts
    obtain ⟨b, hb⟩ := ha (typeString t)
    cases b with
    | true =>
      refine ⟨t :: l, by simp [typesLoop, hb, hl], fun u => ?_⟩
      simp only [List.mem_cons, hm]
      constructor
      · rintro (rfl | h)
        · exact ⟨Or.inl rfl, hb⟩
        · exact ⟨Or.inr h.1, h.2⟩
      · rintro ⟨rfl | h, h'⟩
        · exact Or.inl rfl
        · exact Or.inr ⟨h, h'⟩
    | false =>
      refine ⟨l, by simp [typesLoop, hb, hl], fun u => ?_⟩
      simp only [List.mem_cons, hm]
      constructor
      · rintro ⟨h, h'⟩
        exact ⟨Or.inr h, h'⟩
      · rintro ⟨rfl | h, h'⟩
        · rw [hb] at h'; cases h'
        · exact ⟨h, h'⟩

theorem nodup_keys {α β : Type} : ∀ {m : List (α × β)}, (m.map (·.1)).Nodup → ∀ {k : α} {a b : β}, (k, a) ∈ m → (k, b) ∈ m → a = b
  | e :: m, hn, k, a, b, ha, hb => by
    rw [List.map_cons, List.nodup_cons] at hn
    rcases List.mem_cons.mp ha with h | h <;> rcases List.mem_cons.mp hb with h' | h'
    · rw [← h] at h'; exact (Prod.mk.inj h').2.symm
    · exact absurd (List.mem_map_of_mem (f := (·.1)) h') (by rw [← h] at hn; exact hn.1)
    · exact absurd (List.mem_map_of_mem (f := (·.1)) h) (by rw [← h'] at hn; exact hn.1)
    · exact nodup_keys hn.2 h h'

/-- C80: the metric types of a filter are those allowed types whose text the filter on the type tag, if there is one, accepts. -/
theorem C80_types_fn (c : Config) (m : TagFilterValueMap) (hn : (m.map (·.1)).Nodup)
    (hp : ∀ e ∈ m, ∃ p : Spec.Flt.Pattern, p.WF ∧ e.2.pattern = p.render) :
    ∃ ts, c.metricTypesFn m = some ts ∧
      ∀ t, t ∈ ts ↔ t ∈ c.allowedTypes ∧ ∀ fv, (c.typeTag, fv) ∈ m → Accepts fv (typeString t) := by
  unfold Config.metricTypesFn
  cases hf : m.find? fun e => e.1 == c.typeTag with
  | none =>
    refine ⟨_, rfl, fun t => ⟨fun h => ⟨h, fun fv hv => ?_⟩, And.left⟩⟩
    have := List.find?_eq_none.mp hf _ hv
    simp at this
  | some e =>
    have he := List.mem_of_find?_eq_some hf
    have hk : e.1 = c.typeTag := by simpa using List.find?_some hf
    obtain ⟨g, hg⟩ := (C28_accepts_iff e.2.pattern).mpr (hp e he)
    have hnew : ∃ f, newFilterFromFilterValue e.2 = .ok f := by
      unfold newFilterFromFilterValue
      rw [hg]
      exact ⟨_, rfl⟩
    obtain ⟨f, hf'⟩ := hnew
    obtain ⟨l, hl, hm⟩ := typesLoop_spec (answers_new _ _ hf') c.allowedTypes
    simp only [hf']
    refine ⟨l, hl, fun t => ?_⟩
    rw [hm]
    refine and_congr_right fun _ => ?_
    constructor
    · intro h fv hv
      have : fv = e.2 := nodup_keys hn hv (by rw [← hk]; exact he)
      subst this
      exact ⟨f, hf', h⟩
    · intro h
      obtain ⟨f', h1, h2⟩ := h e.2 (by rw [← hk]; exact he)
      rw [hf'] at h1
      cases h1
      exact h2

/-! ### The options -/

theorem findOrCreate_put (o : Options) (t u : MetricType) (m : TypeMeta) :
    (o.put t m).findOrCreate u = if t = u then m else o.findOrCreate u := by
  unfold Options.findOrCreate
  rw [find_put]
  by_cases h : t = u
  · simp [h]
  · simp only [h, if_false]
    rfl

theorem findOrCreate_override (o : Options) (ov : Override) (t : MetricType) : (applyOverride o ov).findOrCreate t =
    if ov.type = t then { storagePolicies := ov.allowed.storage.getD (o.findOrCreate t).storagePolicies
                          firstLevel := ov.allowed.first.getD (o.findOrCreate t).firstLevel
                          nonFirstLevel := ov.allowed.nonFirst.getD (o.findOrCreate t).nonFirstLevel }
    else o.findOrCreate t := by
  unfold applyOverride ifSet
  by_cases h : ov.type = t
  · subst h
    cases ov.allowed.storage <;> cases ov.allowed.first <;> cases ov.allowed.nonFirst <;>
      simp [Options.apply, findOrCreate_put]
  · cases ov.allowed.storage <;> cases ov.allowed.first <;> cases ov.allowed.nonFirst <;>
      simp [Options.apply, findOrCreate_put, h]

theorem getLast?_getD_cons (a : α) (l : List α) (d : α) : ((a :: l).getLast?).getD d = (l.getLast?).getD a := by
  cases l with
  | nil => rfl
  | cons b l => simp [List.getLast?_cons]

theorem findOrCreate_overrides (t : MetricType) : ∀ (ovs : List Override) (o : Options),
    let last : {α : Type} → (PoliciesConfig → Option α) → α → α := fun pick d =>
      ((ovs.filterMap fun ov => if ov.type = t then pick ov.allowed else none).getLast?).getD d
    (ovs.foldl applyOverride o).findOrCreate t =
      { storagePolicies := last (·.storage) (o.findOrCreate t).storagePolicies
        firstLevel := last (·.first) (o.findOrCreate t).firstLevel
        nonFirstLevel := last (·.nonFirst) (o.findOrCreate t).nonFirstLevel }
  | [], o => rfl
  | ov :: ovs, o => by
    have ih := findOrCreate_overrides t ovs (applyOverride o ov)
    simp only at ih ⊢
    rw [List.foldl_cons, ih, findOrCreate_override]
    have one : ∀ {α : Type} (pick : PoliciesConfig → Option α) (d : α),
        (((ov :: ovs).filterMap fun ov => if ov.type = t then pick ov.allowed else none).getLast?).getD d =
        ((ovs.filterMap fun ov => if ov.type = t then pick ov.allowed else none).getLast?).getD
          (if ov.type = t then (pick ov.allowed).getD d else d) := by
      intro α pick d
      by_cases h : ov.type = t
      · rw [List.filterMap_cons]
        simp only [h, if_true]
        cases pick ov.allowed with
        | none => rfl
        | some a => exact getLast?_getD_cons a _ d
      · rw [List.filterMap_cons]
        simp only [h, if_false]
    rw [one, one, one]
    by_cases h : ov.type = t <;> simp [h]

theorem overrides_rest (ovs : List Override) : ∀ o : Options,
    let r := ovs.foldl applyOverride o
    r.multi = o.multi ∧ r.nsValidator = o.nsValidator ∧ r.metricTypesFn = o.metricTypesFn ∧ r.requiredTags = o.requiredTags ∧
      r.maxOrder = o.maxOrder ∧ r.maxLevels = o.maxLevels ∧ r.nameInvalid = o.nameInvalid ∧ r.tagInvalid = o.tagInvalid := by
  induction ovs with
  | nil => intro o; simp
  | cons ov ovs ih =>
    intro o
    have e : (applyOverride o ov).multi = o.multi ∧ (applyOverride o ov).nsValidator = o.nsValidator ∧
        (applyOverride o ov).metricTypesFn = o.metricTypesFn ∧ (applyOverride o ov).requiredTags = o.requiredTags ∧
        (applyOverride o ov).maxOrder = o.maxOrder ∧ (applyOverride o ov).maxLevels = o.maxLevels ∧
        (applyOverride o ov).nameInvalid = o.nameInvalid ∧ (applyOverride o ov).tagInvalid = o.tagInvalid := by
      unfold applyOverride ifSet
      cases ov.allowed.storage <;> cases ov.allowed.first <;> cases ov.allowed.nonFirst <;> simp [Options.apply, Options.put]
    have := ih (applyOverride o ov)
    simp only [List.foldl_cons] at this ⊢
    simp only [this, e, and_self]

/-- C80: the options of the validator are those that are configured: what is allowed for a metric type is what the last override for
it lists, if any does, and else the default; limits that are not configured are one. -/
theorem C80_options (c : Config) (ns : Bytes → Option VErr) (t : MetricType) :
    let o := c.newOptions ns
    (∀ p, o.allowsStorage t p = true ↔ p ∈ listed (·.storage) c t) ∧
    (∀ a, o.allowsFirst t a = true ↔ a ∈ listed (·.first) c t) ∧
    (∀ a, o.allowsNonFirst t a = true ↔ a ∈ listed (·.nonFirst) c t) ∧
    (o.allowsMulti t = true ↔ t ∈ multiTypes c) ∧
    o.maxOrder = c.maxOrder.getD 1 ∧ o.maxLevels = c.maxLevels.getD 1 ∧ o.requiredTags = c.requiredTags ∧
    o.nsValidator = ns ∧ o.metricTypesFn = c.metricTypesFn ∧
    (∀ s, validateChars s o.tagInvalid = true ↔ ∀ r ∈ runes s, r ∉ runes c.tagInvalid) ∧
    (∀ s, validateChars s o.nameInvalid = true ↔ ∀ r ∈ runes s, r ∉ runes c.nameInvalid) := by
  have e1 : ∀ (o : Options) p, o.allowsStorage t p = (o.findOrCreate t).storagePolicies.contains p := by
    intro o p; unfold Options.allowsStorage Options.findOrCreate; cases o.find t <;> rfl
  have e2 : ∀ (o : Options) a, o.allowsFirst t a = (o.findOrCreate t).firstLevel.contains a := by
    intro o p; unfold Options.allowsFirst Options.findOrCreate; cases o.find t <;> rfl
  have e3 : ∀ (o : Options) a, o.allowsNonFirst t a = (o.findOrCreate t).nonFirstLevel.contains a := by
    intro o p; unfold Options.allowsNonFirst Options.findOrCreate; cases o.find t <;> rfl
  -- the options before the overrides
  generalize hb : ifSet c.default.nonFirst (fun ts o => o.apply (.defaultNonFirst ts))
    (ifSet c.default.first (fun ts o => o.apply (.defaultFirst ts))
      (ifSet c.default.storage (fun ps o => o.apply (.defaultStorage ps))
        (ifSet c.multi (fun ts o => o.apply (.multi ts)) { Val.newOptions c.metricTypesFn with
          nsValidator := ns, requiredTags := c.requiredTags, tagInvalid := runes c.tagInvalid, nameInvalid := runes c.nameInvalid }))) = b
  have hb' : b = { nsValidator := ns, defaultStorage := c.default.storage.getD [], defaultFirst := c.default.first.getD []
                   defaultNonFirst := c.default.nonFirst.getD [], metricTypesFn := c.metricTypesFn, multi := c.multi.getD [2]
                   requiredTags := c.requiredTags, nameInvalid := runes c.nameInvalid, tagInvalid := runes c.tagInvalid } := by
    rw [← hb]
    unfold ifSet
    cases c.default.nonFirst <;> cases c.default.first <;> cases c.default.storage <;> cases c.multi <;> rfl
  obtain ⟨r1, r2, r3, r4, r5, r6, r7, r8⟩ := overrides_rest c.overrides b
  have hf := findOrCreate_overrides t c.overrides b
  simp only at hf
  -- the options after them
  generalize ho : c.overrides.foldl applyOverride b = d at r1 r2 r3 r4 r5 r6 r7 r8 hf
  have hd : c.newOptions ns = { d with maxOrder := c.maxOrder.getD 1, maxLevels := c.maxLevels.getD 1 } := by
    have : c.newOptions ns = ifSet c.maxLevels (fun n o => { o with maxLevels := n }) (ifSet c.maxOrder (fun n o => { o with maxOrder := n }) d) := by
      rw [← ho, ← hb]; rfl
    rw [this]
    have h5 : d.maxOrder = 1 := by rw [r5, hb']
    have h6 : d.maxLevels = 1 := by rw [r6, hb']
    clear ho hf r1 r2 r3 r4 r5 r6 r7 r8 this
    cases d
    simp only at h5 h6
    subst h5 h6
    unfold ifSet
    cases c.maxLevels <;> cases c.maxOrder <;> rfl
  have hfc : (c.newOptions ns).findOrCreate t = d.findOrCreate t := by rw [hd]; rfl
  have hbc : b.findOrCreate t = { storagePolicies := c.default.storage.getD [], firstLevel := c.default.first.getD []
                                  nonFirstLevel := c.default.nonFirst.getD [] } := by rw [hb']; rfl
  simp only [e1, e2, e3, hfc, hf, hbc, List.contains_iff_mem]
  refine ⟨fun _ => Iff.rfl, fun _ => Iff.rfl, fun _ => Iff.rfl, ?_, ?_⟩
  · unfold Options.allowsMulti multiTypes
    rw [hd]
    simp only [r1, hb', List.contains_iff_mem]
  · rw [hd]
    simp only [r2, r3, r4, r7, r8, hb', validateChars_iff, implies_true, and_self]

/-! ### Rules and metrics -/

/-- A filter that matches a metric accepts, on the type tag, the type the metric may have. -/
theorem matched_type {c : Config} {key raw : Bytes} {m : TagFilterValueMap} {types : List Int} (hk : c.typeTag ≠ key)
    (hp : parseTagFilterValueMap raw = some m) (hpat : ∀ e ∈ m, ∃ p : Spec.Flt.Pattern, p.WF ∧ e.2.pattern = p.render)
    (ht : c.metricTypesFn m = some types) {name : Bytes} {tags : List (Bytes × Bytes)} (hc : Spec.Id.Clean name tags) (ha : Ascending tags)
    {t : Int} (hta : t ∈ c.allowedTypes) (hmay : MayBe c tags t)
    (hmatch : m3Env.filterMatches (compileFilter key raw) (idText name tags) = true) : t ∈ types := by
  have hn := ((C31_parse_iff raw m).mp hp).2.2
  obtain ⟨ts, h1, h2⟩ := C80_types_fn c m hn hpat
  rw [ht] at h1
  cases h1
  rw [h2]
  refine ⟨hta, fun fv hv => ?_⟩
  unfold compileFilter at hmatch
  simp only [hp] at hmatch
  cases hf : newTagsFilter key m .conjunction with
  | err => simp [hf, m3Env] at hmatch
  | panic => simp [hf, m3Env] at hmatch
  | ok f =>
    simp only [hf, m3Env] at hmatch
    obtain ⟨tb, e1, e2⟩ := Id.C33_parse_back name tags hc
    have e1' : m3NameAndTags (idText name tags) = some (name, tb) := by simp [m3NameAndTags, e1]
    have e2' : m3Stream tb = ⟨tags.map Id.ofPair, false⟩ := by simp [m3Stream, e2]
    obtain ⟨r, hr, hiff⟩ := C30_conjunction key m hn f hf _ _ _ name tb tags e1' e2' ha
    rw [hr] at hmatch
    have hh := hiff.mp hmatch _ hv
    rcases hh with ⟨h, _⟩ | ⟨_, v, hl, hacc⟩
    · exact absurd h hk
    · rcases hmay with h | h
      · rw [h] at hl; cases hl; exact hacc
      · rw [h] at hl; cases hl

/-- What the validator asks of aggregation types. -/
theorem aggOk_permitted {c : Config} {ns : Bytes → Option VErr} {id : BitVec 64} {types : List Int} {allowed : Int → Int → Prop} {l : List Int}
    (h : AggOk (limits (c.newOptions ns)) allowed id types) {t : Int} (ht : t ∈ types) (hl : ∀ a, allowed t a → a ∈ l) :
    AggPermitted c t l id := by
  refine ⟨fun i hi => hl _ (h.allowed i hi t ht), fun i j hi hj hij => ?_⟩
  have := h.multi i j hi hj hij t ht
  exact (C80_options c ns t).2.2.2.1.mp (by simpa [limits, Options.allowsMulti] using this)

theorem permitted_zero (c : Config) (t : Int) (l : List Int) : AggPermitted c t l 0 := by
  constructor <;> simp

theorem compress_one {a : Int} {id : BitVec 64} (h : Agg.compressTypes [a] = some id) (i : Nat) (hi : id.getLsbD i = true) :
    (i : Int) = a := by
  have := (Agg.getLsbD_compressLoop [a] _ id h i).mp hi
  simpa using this

/-- The steps that are applied to a metric come from the steps of the rule, in order. -/
theorem applied_steps {env : Env} {tags : Bytes} : ∀ {ops : Pipe.Pipeline} {us : Applied.Pipeline},
    applyIDToPipeline env tags ops = some us →
    (∀ u ∈ us, u.type = 3 → ∃ (i : Nat) (op : Pipe.OpUnion), ops[i]? = some op ∧ op.type = 3 ∧ u.rollup.aggID = op.rollup.aggID) ∧
    (us.filter fun u => u.type == 3).length = (rollupsOf ops).length
  | [], us, h => by
    simp only [applyIDToPipeline, Option.some.injEq] at h
    subst h
    simp [rollupsOf]
  | op :: ops, us, h => by
    unfold applyIDToPipeline at h
    by_cases h2 : op.type = Pipe.TransformationOpType
    · rw [if_pos h2] at h
      cases hr : applyIDToPipeline env tags ops with
      | none => rw [hr] at h; cases h
      | some vs =>
        rw [hr] at h
        simp only [Option.some.injEq] at h
        subst h
        obtain ⟨i1, i2⟩ := applied_steps hr
        refine ⟨fun u hu h3 => ?_, ?_⟩
        · rcases List.mem_cons.mp hu with rfl | hu
          · simp [Pipe.TransformationOpType] at h3
          · obtain ⟨i, o, a, b⟩ := i1 u hu h3
            exact ⟨i + 1, o, by simpa using a, b⟩
        · unfold rollupsOf at i2 ⊢
          rw [List.filter_cons, List.filter_cons]
          simpa [h2, Pipe.TransformationOpType] using i2
    · rw [if_neg h2] at h
      by_cases h3 : op.type = Pipe.RollupOpType
      · rw [if_pos h3] at h
        cases hm : matchRollupTarget env tags op.rollup.newName op.rollup.tags with
        | none => rw [hm] at h; cases h
        | some id =>
          rw [hm] at h
          cases hr : applyIDToPipeline env tags ops with
          | none => rw [hr] at h; cases h
          | some vs =>
            rw [hr] at h
            simp only [Option.map_some, Option.some.injEq] at h
            subst h
            obtain ⟨i1, i2⟩ := applied_steps hr
            refine ⟨fun u hu hu3 => ?_, ?_⟩
            · rcases List.mem_cons.mp hu with rfl | hu
              · exact ⟨0, op, rfl, h3, rfl⟩
              · obtain ⟨i, o, a, b⟩ := i1 u hu hu3
                exact ⟨i + 1, o, by simpa using a, b⟩
            · unfold rollupsOf at i2 ⊢
              rw [List.filter_cons, List.filter_cons]
              simpa [h3, Pipe.RollupOpType] using i2
      · rw [if_neg h3] at h
        cases h

/-- C80: what an accepted target gives is permitted. -/
theorem target_permitted {c : Config} {ns : Bytes → Option VErr} {env : Env} {tagBytes : Bytes} {tg : RollupTarget} {types : List Int} {t : Int}
    (ht : t ∈ types) (hp : PipelineOk (limits (c.newOptions ns)) tg.pipeline types)
    (hs : StorageOk (limits (c.newOptions ns)) tg.storagePolicies types) {r : Option Bytes} {q : PipelineMetadata}
    (h : targetResult env tagBytes tg = some (r, q)) : Permitted c t q := by
  obtain ⟨cs, cf, cn, _, _, cl, _⟩ := C80_options c ns t
  unfold targetResult at h
  cases hpl : tg.pipeline with
  | nil => rw [hpl] at h; cases h
  | cons first rest =>
    rw [hpl] at h hp
    have hlev : ((rollupsOf (first :: rest)).length : Int) ≤ c.maxLevels.getD 1 := by
      have := hp.levels
      rw [← cl]; exact this
    have hst : ∀ s ∈ tg.storagePolicies, s ∈ listed (·.storage) c t := fun s hs' => (cs s).mp (hs.allowed t ht s hs')
    -- the steps after the first one
    have later : ∀ {us}, applyIDToPipeline env tagBytes rest = some us →
        (∀ u ∈ us, u.type = 3 → AggPermitted c t (listed (·.nonFirst) c t) u.rollup.aggID) ∧
        (us.filter fun u => u.type == 3).length = (rollupsOf rest).length := by
      intro us hus
      obtain ⟨a1, a2⟩ := applied_steps hus
      refine ⟨fun u hu h3 => ?_, a2⟩
      obtain ⟨i, op, b1, b2, b3⟩ := a1 u hu h3
      rw [b3]
      have := (hp.rollup (i + 1) op (by simpa using b1) b2).agg
      simp only [Nat.add_one_ne_zero, if_false] at this
      exact aggOk_permitted this ht fun a ha => (cn a).mp ha
    have len : (rollupsOf rest).length ≤ (rollupsOf (first :: rest)).length := by
      unfold rollupsOf
      rw [List.filter_cons]
      split <;> simp
    simp only at h
    by_cases h1 : first.type = Pipe.AggregationOpType
    · rw [if_pos h1] at h
      cases hc : Agg.compressTypes [first.aggregation] with
      | none => rw [hc] at h; cases h
      | some id =>
        rw [hc] at h
        cases hr : applyIDToPipeline env tagBytes rest with
        | none => simp [hr] at h
        | some us =>
          simp only [Option.map_some, hr, Option.some.injEq, Prod.mk.injEq] at h
          obtain ⟨_, rfl⟩ := h
          obtain ⟨l1, l2⟩ := later hr
          refine ⟨hst, ⟨fun i hi => ?_, fun i j hi hj hij => ?_⟩, l1, ?_⟩
          · rw [compress_one hc i hi]
            exact (cf _).mp ((hp.aggregation 0 first rfl h1).2.2 t ht)
          · have := compress_one hc i hi
            have := compress_one hc j hj
            omega
          · intro _ _ _; simp only [l2]; omega
    · rw [if_neg h1] at h
      by_cases h2 : first.type = Pipe.TransformationOpType
      · rw [if_pos h2] at h
        cases hr : applyIDToPipeline env tagBytes (first :: rest) with
        | none => simp [hr] at h
        | some us =>
          simp only [hr, Option.some.injEq, Prod.mk.injEq] at h
          obtain ⟨_, rfl⟩ := h
          obtain ⟨a1, a2⟩ := applied_steps hr
          refine ⟨hst, permitted_zero _ _ _, fun u hu h3 => ?_, ?_⟩
          · obtain ⟨i, op, b1, b2, b3⟩ := a1 u hu h3
            rw [b3]
            have hi : i ≠ 0 := by
              rintro rfl
              simp only [List.getElem?_cons_zero, Option.some.injEq] at b1
              subst b1; rw [h2] at b2; cases b2
            have := (hp.rollup i op b1 b2).agg
            rw [if_neg hi] at this
            exact aggOk_permitted this ht fun a ha => (cn a).mp ha
          · intro _ _ _; simp only [a2]; exact hlev
      · rw [if_neg h2] at h
        by_cases h3 : first.type = Pipe.RollupOpType
        · rw [if_pos h3] at h
          cases hm : matchRollupTarget env tagBytes first.rollup.newName first.rollup.tags with
          | none => rw [hm] at h; cases h
          | some id =>
            rw [hm] at h
            cases hr : applyIDToPipeline env tagBytes rest with
            | none => simp [hr] at h
            | some us =>
              simp only [Option.map_some, hr, Option.some.injEq, Prod.mk.injEq] at h
              obtain ⟨_, rfl⟩ := h
              obtain ⟨l1, l2⟩ := later hr
              refine ⟨hst, ?_, l1, ?_⟩
              · have := (hp.rollup 0 first rfl h3).agg
                rw [if_pos rfl] at this
                exact aggOk_permitted this ht fun a ha => (cf a).mp ha
              · intro _ _ _; simp only [l2]; omega
        · rw [if_neg h3] at h
          cases h

/-- The snapshot in force after all changes is the last one of a rule. -/
theorem live_last {S : Type} [Snap S] {rules : List (Rule S)} {P : S → Bool} {t : Int} {s : S}
    (hcut : ∀ r ∈ rules, ∀ s ∈ r.snapshots, Snap.cutover s ≤ t) (h : s ∈ live ((current rules t).filter P)) :
    P s = true ∧ Snap.tombstoned s = false ∧ ∃ r ∈ rules, s ∈ r.snapshots ∧ r.snapshots.getLast? = some s := by
  unfold live at h
  obtain ⟨h, h2⟩ := List.mem_filter.mp h
  obtain ⟨h, h1⟩ := List.mem_filter.mp h
  refine ⟨h1, by simpa using h2, ?_⟩
  unfold current at h
  obtain ⟨r, hr, hf⟩ := List.mem_filterMap.mp h
  cases hl : r.snapshots.getLast? with
  | none =>
    have := List.getLast?_eq_none_iff.mp hl
    rw [this] at hf
    cases hf
  | some s' =>
    have hm := List.mem_of_getLast? hl
    rw [inForce_last hl (hcut r hr s' hm)] at hf
    cases hf
    exact ⟨r, hr, hm, hl⟩

theorem mem_liveShown {S V : Type} [Snap S] {shown : Bytes → S → V} {rules : List (Rule S)} {r : Rule S} {s : S} (hr : r ∈ rules)
    (hl : r.snapshots.getLast? = some s) (ht : Snap.tombstoned s = false) : shown r.uuid s ∈ liveShown shown rules := by
  unfold liveShown
  refine List.mem_filterMap.mpr ⟨r, hr, ?_⟩
  simp [hl, ht]

theorem permitted_nothing (c : Config) (t : Int) (d : Nat) : Permitted c t { drop := d } :=
  ⟨by simp, permitted_zero _ _ _, by simp, by simp⟩

/-- What the matcher gives when the rules in force are the ones that are shown. -/
theorem permitted_core (c : Config) (ns : Bytes → Option VErr) (rs : RuleSet) (key : Bytes) (hkey : c.typeTag ≠ key)
    (hm : (rs.mappingRules.map (·.uuid)).Nodup) (hr : (rs.rollupRules.map (·.uuid)).Nodup)
    (ms : List (Bytes × List MappingView)) (rr : List (Bytes × List RollupView))
    (hms : ∃ m, rs.mappingViews = some m ∧ ms.Perm m) (hrr : ∃ m, rs.rollupViews = some m ∧ rr.Perm m)
    (hv : validateSnapshot (c.newOptions ns) (rs.latestWith ms rr) = none)
    (hfm : ∀ r ∈ rs.mappingRules, ∀ s ∈ r.snapshots, s.filter = compileFilter key s.rawFilter)
    (hfr : ∀ r ∈ rs.rollupRules, ∀ s ∈ r.snapshots, s.filter = compileFilter key s.rawFilter)
    (t0 t : Int) (hd : DropsValid (rs.activeSet t0)) (name : Bytes) (tags : List (Bytes × Bytes))
    (hlm : ∀ s ∈ live (matchingM m3Env (rs.activeSet t0).mappingRules (idText name tags) t), m3Env.filterMatches s.filter (idText name tags) = true ∧
      s.tombstoned = false ∧ ∃ r ∈ rs.mappingRules, s ∈ r.snapshots ∧ r.snapshots.getLast? = some s)
    (hlr : ∀ s ∈ live (matchingR m3Env (rs.activeSet t0).rollupRules (idText name tags) t), m3Env.filterMatches s.filter (idText name tags) = true ∧
      s.tombstoned = false ∧ ∃ r ∈ rs.rollupRules, s ∈ r.snapshots ∧ r.snapshots.getLast? = some s)
    (hc : Spec.Id.Clean name tags) (ha : Ascending tags)
    (mt : Int) (hmt : mt ∈ c.allowedTypes) (hmay : MayBe c tags mt) :
    let out := forwardMatchAt m3Env (rs.activeSet t0) (idText name tags) t
    (∀ q ∈ out.forExistingID.pipelines, Permitted c mt q) ∧
    ∀ y ∈ out.forNewRollupIDs, ∀ m ∈ y.metadatas, ∀ q ∈ m.pipelines, Permitted c mt q := by
  obtain ⟨each, -⟩ := (C53_accepts_iff _ _).mp hv
  obtain ⟨-, -, -, ⟨pm, -⟩, ⟨pr, -⟩⟩ := C68_latest_partial rs hm hr ms rr hms hrr
  obtain ⟨cs, cf, cn, -, -, cl, -, -, cty, -⟩ := C80_options c ns mt
  -- what a live mapping rule asks for
  have mapping : ∀ s ∈ live (matchingM m3Env (rs.activeSet t0).mappingRules (idText name tags) t), Permitted c mt (mappingPipeline s) := by
    intro s hs
    obtain ⟨hmatch, htomb, r, hrm, hsm, hl⟩ := hlm s hs
    have hshown : shownMapping r.uuid s ∈ liveM (rs.latestWith ms rr) := by
      unfold liveM
      refine List.mem_filter.mpr ⟨pm.mem_iff.mpr (mem_liveShown hrm hl htomb), ?_⟩
      have : s.tombstoned = false := htomb
      simp [shownMapping, this]
    obtain ⟨m, types, fok, aok, rest⟩ := each.mapping _ hshown
    rw [hfm r hrm s hsm] at hmatch
    have hin := matched_type hkey fok.parses fok.patterns (by have := fok.matched; simp only [limits, cty] at this; exact this) hc ha hmt hmay hmatch
    refine ⟨fun p hp => ?_, aggOk_permitted aok hin fun a h => (cf a).mp h, by simp [mappingPipeline], by simp [mappingPipeline]⟩
    rcases rest with ⟨_, sok⟩ | ⟨_, _, hnil⟩
    · exact (cs p).mp (sok.allowed mt hin p hp)
    · exact absurd hp (by rw [show (mappingPipeline s).storagePolicies = [] from hnil]; simp)
  -- what a target of a live rollup rule gives
  have rollup : ∀ s ∈ live (matchingR m3Env (rs.activeSet t0).rollupRules (idText name tags) t), ∀ tg ∈ s.targets, ∀ tb r q,
      targetResult m3Env tb tg = some (r, q) → Permitted c mt q := by
    intro s hs tg htg tb x q hq
    obtain ⟨hmatch, htomb, r, hrm, hsm, hl⟩ := hlr s hs
    have hshown : shownRollup r.uuid s ∈ liveR (rs.latestWith ms rr) := by
      unfold liveR
      refine List.mem_filter.mpr ⟨pr.mem_iff.mpr (mem_liveShown hrm hl htomb), ?_⟩
      have : s.tombstoned = false := htomb
      simp [shownRollup, this]
    obtain ⟨m, types, fok, tok⟩ := each.rollup _ hshown
    rw [hfr r hrm s hsm] at hmatch
    have hin := matched_type hkey fok.parses fok.patterns (by have := fok.matched; simp only [limits, cty] at this; exact this) hc ha hmt hmay hmatch
    have hcl : cloneTarget tg ∈ (shownRollup r.uuid s).targets := by
      unfold shownRollup
      refine List.mem_map.mpr ⟨tg, htg, ?_⟩
      simp only [cloneTarget, Pipe.pipelineClone, List.map_congr_left fun u (_ : u ∈ tg.pipeline) => op_clone_payload u]
    obtain ⟨pok, sok⟩ := tok _ hcl
    rw [← targetResult_clone] at hq
    exact target_permitted hin pok sok hq
  refine ⟨fun q hq => ?_, fun y hy m hmy q hq => ?_⟩
  · rcases C40_sound m3Env _ hd _ t q hq with ⟨_, _, rfl⟩ | ⟨_, ⟨s, hs, _, rfl⟩ | ⟨_, tb, _, s, hs, tg, htg, hr⟩ | ⟨rfl, _⟩⟩
    · exact permitted_nothing _ _ _
    · exact mapping s hs
    · exact rollup s hs tg htg tb _ q hr
    · exact permitted_nothing _ _ _
  · obtain ⟨_, tb, s, tg, p, _, hs, htg, hres, hmap⟩ := C40_rollup_pipeline m3Env _ _ t y hy
    have : (m.pipelines, m.tombstoned) ∈ [([p], false)] := by
      rw [← hmap]
      exact List.mem_map_of_mem (f := fun m => (m.pipelines, m.tombstoned)) hmy
    simp only [List.mem_singleton, Prod.mk.injEq] at this
    rw [this.1] at hq
    simp only [List.mem_singleton] at hq
    subst hq
    exact rollup s hs tg htg tb _ _ hres

/-- C80: when the validator that a configuration describes accepts what a rule set shows, the matcher gives to a metric of a type
nothing that the configuration does not permit for this type: no other storage policies, no other aggregation types at the first level
and at later levels, several of them only for the types that may have several, and no more levels of rollups.  The type of the metric
is an allowed one, and the type tag of the metric, if it has one, says it.  The rule set is as C68 asks, its filters are compiled from
the texts that are shown, and all its changes have taken place. -/
theorem C80_permitted (c : Config) (ns : Bytes → Option VErr) (rs : RuleSet) (key : Bytes) (hkey : c.typeTag ≠ key)
    (hm : (rs.mappingRules.map (·.uuid)).Nodup) (hr : (rs.rollupRules.map (·.uuid)).Nodup)
    (ms : List (Bytes × List MappingView)) (rr : List (Bytes × List RollupView))
    (hms : ∃ m, rs.mappingViews = some m ∧ ms.Perm m) (hrr : ∃ m, rs.rollupViews = some m ∧ rr.Perm m)
    (hv : validateSnapshot (c.newOptions ns) (rs.latestWith ms rr) = none)
    (hfm : ∀ r ∈ rs.mappingRules, ∀ s ∈ r.snapshots, s.filter = compileFilter key s.rawFilter)
    (hfr : ∀ r ∈ rs.rollupRules, ∀ s ∈ r.snapshots, s.filter = compileFilter key s.rawFilter)
    (t0 t : Int) (h0 : t0 ≤ t) (hd : DropsValid (rs.activeSet t0))
    (hcm : ∀ r ∈ rs.mappingRules, ∀ s ∈ r.snapshots, s.cutoverNanos ≤ t)
    (hcr : ∀ r ∈ rs.rollupRules, ∀ s ∈ r.snapshots, s.cutoverNanos ≤ t)
    (name : Bytes) (tags : List (Bytes × Bytes)) (hc : Spec.Id.Clean name tags) (ha : Ascending tags)
    (mt : Int) (hmt : mt ∈ c.allowedTypes) (hmay : MayBe c tags mt) :
    let out := forwardMatchAt m3Env (rs.activeSet t0) (idText name tags) t
    (∀ q ∈ out.forExistingID.pipelines, Permitted c mt q) ∧
    ∀ y ∈ out.forNewRollupIDs, ∀ m ∈ y.metadatas, ∀ q ∈ m.pipelines, Permitted c mt q := by
  refine permitted_core c ns rs key hkey hm hr ms rr hms hrr hv hfm hfr t0 t hd name tags (fun s hs => ?_) (fun s hs => ?_) hc ha mt hmt hmay
  · unfold matchingM at hs
    rw [current_mapping rs h0] at hs
    exact live_last hcm hs
  · unfold matchingR at hs
    rw [current_rollup rs h0] at hs
    exact live_last hcr hs

/-- Once all changes of a rule took place, only its last snapshot is kept, at whatever time one looks. -/
theorem live_kept {S : Type} [Snap S] {rules : List (Rule S)} {P : S → Bool} {t0 t : Int} {s : S}
    (hcut : ∀ r ∈ rules, ∀ s ∈ r.snapshots, Snap.cutover s ≤ t0) (h : s ∈ live ((current (rules.map fun r => r.activeRule t0) t).filter P)) :
    P s = true ∧ Snap.tombstoned s = false ∧ ∃ r ∈ rules, s ∈ r.snapshots ∧ r.snapshots.getLast? = some s := by
  unfold live at h
  obtain ⟨h, h2⟩ := List.mem_filter.mp h
  obtain ⟨h, h1⟩ := List.mem_filter.mp h
  refine ⟨h1, by simpa using h2, ?_⟩
  unfold current at h
  obtain ⟨q, hq, hf⟩ := List.mem_filterMap.mp h
  obtain ⟨r, hr, rfl⟩ := List.mem_map.mp hq
  have hmem := (inForce_mem hf).1
  have hidx : r.activeIndex t0 = r.snapshots.length := by
    unfold Rule.activeIndex
    cases hl : r.snapshots.length with
    | zero => rfl
    | succ k =>
      have hk : k < r.snapshots.length := by omega
      rw [activeIndexLoop, List.getElem?_eq_getElem hk]
      simp only
      have := hcut r hr _ (List.getElem_mem hk)
      rw [if_neg (by omega)]
  have hsub : (r.activeRule t0).snapshots = r.snapshots.drop (r.snapshots.length - 1) := by
    unfold Rule.activeRule
    rw [hidx]
    cases r.snapshots.length with
    | zero => simp
    | succ k => simp
  rw [hsub] at hmem
  refine ⟨r, hr, List.mem_of_mem_drop hmem, ?_⟩
  rw [List.getLast?_eq_getElem?]
  obtain ⟨i, hi⟩ := List.mem_iff_getElem?.mp hmem
  rw [List.getElem?_drop] at hi
  have := (List.getElem?_eq_some_iff.mp hi).1
  have hi0 : i = 0 := by omega
  rw [hi0, Nat.add_zero] at hi
  exact hi

/-- All pipelines of a result over a range come from matching at some time. -/
theorem range_pipelines (env : Env) (as : ActiveRuleSet) (h : Built as) (id : Bytes) (frm to : Int) (Q : PipelineMetadata → Prop)
    (hQ : ∀ t, (∀ q ∈ (forwardMatchAt env as id t).forExistingID.pipelines, Q q) ∧
      ∀ y ∈ (forwardMatchAt env as id t).forNewRollupIDs, ∀ m ∈ y.metadatas, ∀ q ∈ m.pipelines, Q q) :
    (∀ m ∈ (forwardMatch env as id frm to).forExistingID, ∀ q ∈ m.pipelines, Q q) ∧
    ∀ y ∈ (forwardMatch env as id frm to).forNewRollupIDs, ∀ m ∈ y.metadatas, ∀ q ∈ m.pipelines, Q q := by
  rw [forwardMatch_eq env as h]
  simp only
  constructor
  · have aux : ∀ (cs : List Int) (ex : List StagedMetadata), (∀ m ∈ ex, ∀ q ∈ m.pipelines, Q q) →
        ∀ m ∈ cs.foldl (fun ex c => mergeExisting ex (forwardMatchAt env as id c).forExistingID c) ex, ∀ q ∈ m.pipelines, Q q := by
      intro cs
      induction cs with
      | nil => intro ex hex; exact hex
      | cons c cs ih =>
        intro ex hex
        refine ih _ ?_
        intro m hm
        unfold mergeExisting at hm
        simp only at hm
        split at hm
        · rw [List.mem_singleton] at hm; rw [hm]; exact (hQ c).1
        · rcases List.mem_append.mp hm with hm | hm
          · exact hex m hm
          · rw [List.mem_singleton] at hm
            rw [hm]
            split
            · exact (hQ c).1
            · exact (hQ c).1
    exact aux _ _ (by intro m hm; rw [List.mem_singleton] at hm; rw [hm]; exact (hQ frm).1)
  · have loop : ∀ (T : Int) (k : Nat) (cs ns : List IDWithMetadatas), (∀ y ∈ cs, ∀ m ∈ y.metadatas, ∀ q ∈ m.pipelines, Q q) →
        (∀ y ∈ ns, ∀ m ∈ y.metadatas, ∀ q ∈ m.pipelines, Q q) →
        (∀ y ∈ (mergeRollupLoop T k cs ns).1, ∀ m ∈ y.metadatas, ∀ q ∈ m.pipelines, Q q) ∧
        ∀ y ∈ (mergeRollupLoop T k cs ns).2, ∀ m ∈ y.metadatas, ∀ q ∈ m.pipelines, Q q := by
      intro T k
      induction k with
      | zero => intro cs ns h1 h2; exact ⟨h1, h2⟩
      | succ k ih =>
        intro cs ns h1 h2
        match cs, ns with
        | [], ns => exact ⟨h1, h2⟩
        | c :: cs, [] =>
          obtain ⟨i1, i2⟩ := ih cs [] (fun y hy => h1 y (List.mem_cons_of_mem _ hy)) h2
          refine ⟨?_, i2⟩
          intro y hy
          simp only [mergeRollupLoop] at hy
          rcases List.mem_cons.mp hy with rfl | hy
          · intro m hm
            rcases List.mem_append.mp hm with hm | hm
            · exact h1 c (by simp) m hm
            · rw [List.mem_singleton] at hm; rw [hm]; simp [tombstoneAt]
          · exact i1 y hy
        | c :: cs, n :: ns =>
          simp only [mergeRollupLoop]
          split
          · obtain ⟨i1, i2⟩ := ih cs ns (fun y hy => h1 y (List.mem_cons_of_mem _ hy)) (fun y hy => h2 y (List.mem_cons_of_mem _ hy))
            refine ⟨?_, i2⟩
            intro y hy
            rcases List.mem_cons.mp hy with rfl | hy
            · intro m hm
              rcases List.mem_append.mp hm with hm | hm
              · exact h1 c (by simp) m hm
              · exact h2 n (by simp) m (List.mem_of_mem_take hm)
            · exact i1 y hy
          · split
            · obtain ⟨i1, i2⟩ := ih cs (n :: ns) (fun y hy => h1 y (List.mem_cons_of_mem _ hy)) h2
              refine ⟨?_, i2⟩
              intro y hy
              rcases List.mem_cons.mp hy with rfl | hy
              · intro m hm
                rcases List.mem_append.mp hm with hm | hm
                · exact h1 c (by simp) m hm
                · rw [List.mem_singleton] at hm; rw [hm]; simp [tombstoneAt]
              · exact i1 y hy
            · obtain ⟨i1, i2⟩ := ih (c :: cs) ns h1 (fun y hy => h2 y (List.mem_cons_of_mem _ hy))
              refine ⟨i1, ?_⟩
              intro y hy
              rcases List.mem_cons.mp hy with rfl | hy
              · exact h2 y (by simp)
              · exact i2 y hy
    have aux : ∀ (cs : List Int) (ids : List IDWithMetadatas), (∀ y ∈ ids, ∀ m ∈ y.metadatas, ∀ q ∈ m.pipelines, Q q) →
        ∀ y ∈ cs.foldl (fun ids c => mergeRollup ids (forwardMatchAt env as id c).forNewRollupIDs c) ids, ∀ m ∈ y.metadatas, ∀ q ∈ m.pipelines, Q q := by
      intro cs
      induction cs with
      | nil => intro ids hids; exact hids
      | cons c cs ih =>
        intro ids hids
        refine ih _ ?_
        intro y hy
        unfold mergeRollup at hy
        simp only at hy
        unfold sortByID at hy
        rw [mem_sortBy] at hy
        obtain ⟨l1, l2⟩ := loop c (ids.length + (forwardMatchAt env as id c).forNewRollupIDs.length) ids _ hids (hQ c).2
        rcases List.mem_append.mp hy with hy | hy
        · exact l1 y hy
        · exact l2 y hy
    exact aux _ _ (hQ frm).2

/-- C80: once all changes of an accepted rule set took place, whatever range of times the matcher is asked for, every stage of the
result - for the metric and for the rollups made of it - has only what is permitted for the type of the metric. -/
theorem C80_permitted_range (c : Config) (ns : Bytes → Option VErr) (rs : RuleSet) (key : Bytes) (hkey : c.typeTag ≠ key)
    (hm : (rs.mappingRules.map (·.uuid)).Nodup) (hr : (rs.rollupRules.map (·.uuid)).Nodup)
    (ms : List (Bytes × List MappingView)) (rr : List (Bytes × List RollupView))
    (hms : ∃ m, rs.mappingViews = some m ∧ ms.Perm m) (hrr : ∃ m, rs.rollupViews = some m ∧ rr.Perm m)
    (hv : validateSnapshot (c.newOptions ns) (rs.latestWith ms rr) = none)
    (hfm : ∀ r ∈ rs.mappingRules, ∀ s ∈ r.snapshots, s.filter = compileFilter key s.rawFilter)
    (hfr : ∀ r ∈ rs.rollupRules, ∀ s ∈ r.snapshots, s.filter = compileFilter key s.rawFilter)
    (t0 : Int) (hd : DropsValid (rs.activeSet t0))
    (hcm : ∀ r ∈ rs.mappingRules, ∀ s ∈ r.snapshots, s.cutoverNanos ≤ t0)
    (hcr : ∀ r ∈ rs.rollupRules, ∀ s ∈ r.snapshots, s.cutoverNanos ≤ t0)
    (name : Bytes) (tags : List (Bytes × Bytes)) (hc : Spec.Id.Clean name tags) (ha : Ascending tags)
    (mt : Int) (hmt : mt ∈ c.allowedTypes) (hmay : MayBe c tags mt) (frm to : Int) :
    let out := forwardMatch m3Env (rs.activeSet t0) (idText name tags) frm to
    (∀ m ∈ out.forExistingID, ∀ q ∈ m.pipelines, Permitted c mt q) ∧
    ∀ y ∈ out.forNewRollupIDs, ∀ m ∈ y.metadatas, ∀ q ∈ m.pipelines, Permitted c mt q := by
  refine range_pipelines m3Env _ ⟨_, _, _, rfl⟩ _ frm to _ fun t => ?_
  refine permitted_core c ns rs key hkey hm hr ms rr hms hrr hv hfm hfr t0 t hd name tags (fun s hs => ?_) (fun s hs => ?_) hc ha mt hmt hmay
  · exact live_kept (t0 := t0) (t := t) hcm hs
  · exact live_kept (t0 := t0) (t := t) hcr hs

/-- C80: a validator is made exactly when one of the two namespace validators is configured, and the one on top of the store can be
made; it then decides on namespaces.  The static one accepts every namespace unless its result is the text "invalid". -/
theorem C80_namespace (c : Config) (o : Options) : c.newValidator = some o ↔
    ∃ ns, o = c.newOptions ns ∧
      ((c.ns.kv = some (some ns) ∧ c.ns.static = none) ∨
       (c.ns.kv = none ∧ ∃ r, c.ns.static = some r ∧ ns = fun _ => if r = bs "invalid" then some .other else none)) := by
  unfold Config.newValidator NsConfig.newValidator
  rcases c.ns.kv with _ | (_ | kv) <;> rcases c.ns.static with _ | r <;> simp [eq_comm]
  rfl

/-! ### A case -/

/-- Counters are summed, timers may have several aggregation types; two levels of rollups. -/
def exConfig : Config :=
  { ns := { static := some (bs "valid") }, maxLevels := some 2, typeTag := bs "type", allowedTypes := [1, 2, 3]
    default := { storage := some [⟨⟨10000000000, 1⟩, 3600000000000⟩], first := some [6, 7], nonFirst := some [6] }
    overrides := [⟨2, { first := some [2, 6] }⟩, ⟨2, { first := some [2, 3, 6, 7] }⟩] }

def exCounters (raw : String) (agg : BitVec 64) : RuleSet where
  uuid := bs "u"
  version := 1
  namespace_ := bs "ns"
  createdAtNanos := 0
  lastUpdatedAtNanos := 0
  lastUpdatedBy := []
  tombstoned := false
  cutoverNanos := 0
  mappingRules := [⟨bs "1", [{ exSnap raw 10 0 with aggID := agg, storagePolicies := [⟨⟨10000000000, 1⟩, 3600000000000⟩] }]⟩]
  rollupRules := [⟨bs "2", [exRollup 5 false [⟨[{ type := 1, aggregation := 6 }, { type := 3, rollup := ⟨bs "n", [bs "city"], 0x40#64⟩ }],
    [⟨⟨10000000000, 1⟩, 3600000000000⟩]⟩, ⟨[{ type := 3, rollup := ⟨bs "m", [bs "city"], 0x80#64⟩ }], [⟨⟨10000000000, 1⟩, 3600000000000⟩]⟩]]⟩]

/-- Sums of counters pass; two aggregation types pass for timers alone, and only those listed. -/
example : let ok := fun raw agg => (exCounters raw agg).latest.map fun v => validateSnapshot (exConfig.newOptions fun _ => none) v
    ok "city:s* type:counter" 0x40#64 = some none ∧ ok "city:s* type:timer" 0x0C#64 = some none ∧
    ok "city:s*" 0x40#64 = some none ∧ ok "city:s*" 0x0C#64 = some (some .validation) ∧
    ok "city:s* type:counter" 0x4#64 = some (some .validation) ∧ ok "city:s* type:timer" 0x10#64 = some (some .validation) := by
  decide +kernel

/-- The rules apply to a counter in the city, and the other hypotheses of `C80_permitted` hold. -/
example : let rs := exCounters "city:s* type:counter" 0x40#64
    let tags := [(bs "city", bs "sf"), (bs "type", bs "counter")]
    let out := forwardMatchAt m3Env (rs.activeSet 7) (idText (bs "requests") tags) 15
    out.forExistingID.pipelines.map (fun p => (p.aggID, p.pipeline.map (·.rollup.id))) =
      [(0x40#64, []), (0x40#64, [bs "m3+n+city=sf,m3_rollup=true"])] ∧
    out.forNewRollupIDs.map (·.id) = [bs "m3+m+city=sf,m3_rollup=true"] ∧
    (rs.mappingRules.map (·.uuid)).Nodup ∧ (rs.rollupRules.map (·.uuid)).Nodup ∧ MayBe exConfig tags 1 ∧ 1 ∈ exConfig.allowedTypes ∧
    DropsValid (rs.activeSet 7) ∧
    (∀ r ∈ rs.mappingRules, ∀ s ∈ r.snapshots, s.filter = compileFilter (bs "name") s.rawFilter ∧ s.cutoverNanos ≤ 15) ∧
    (∀ r ∈ rs.rollupRules, ∀ s ∈ r.snapshots, s.filter = compileFilter (bs "name") s.rawFilter ∧ s.cutoverNanos ≤ 15) := by
  refine ⟨by decide +kernel, by decide +kernel, by decide, by decide, Or.inl (by decide), by decide, ?_, ?_, ?_⟩
  · intro r hr s hs
    have h : ∀ r ∈ ((exCounters "city:s* type:counter" 0x40#64).activeSet 7).mappingRules, r.snapshots.map (·.drop) = [0] := by
      decide +kernel
    have := List.mem_map_of_mem (f := (·.drop)) hs
    rw [h r hr] at this
    exact Or.inl (List.mem_singleton.mp this)
  · intro r hr s hs
    simp only [exCounters, List.mem_singleton] at hr
    subst hr
    simp only [List.mem_singleton] at hs
    subst hs
    exact ⟨rfl, by decide⟩
  · intro r hr s hs
    simp only [exCounters, List.mem_singleton] at hr
    subst hr
    simp only [List.mem_singleton] at hs
    subst hs
    exact ⟨rfl, by decide⟩

/-- Asked for a range of times, the same rules give one stage for the counter and one for its rollup (`C80_permitted_range` at 15). -/
example : let rs := exCounters "city:s* type:counter" 0x40#64
    let tags := [(bs "city", bs "sf"), (bs "type", bs "counter")]
    let out := forwardMatch m3Env (rs.activeSet 15) (idText (bs "requests") tags) 15 40
    out.forExistingID.map (fun m => m.pipelines.map (·.aggID)) = [[0x40#64, 0x40#64]] ∧
    out.forNewRollupIDs.map (fun y => (y.id, y.metadatas.map fun m => m.pipelines.map (·.aggID))) =
      [(bs "m3+m+city=sf,m3_rollup=true", [[0x80#64]])] := by
  decide +kernel

example : (exConfig.newValidator).isSome ∧ ({ exConfig with ns := {} } : Config).newValidator.isNone ∧
    ({ exConfig with ns := { kv := some none, static := some [] } } : Config).newValidator.isNone := by decide

end Verif.Val
