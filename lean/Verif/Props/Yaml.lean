import Verif.Lemmas.Yaml
/- C105: what is configured in YAML is what the document says. -/
namespace Verif.Yaml
open Verif.Policy Verif.Spec.Yaml
open Verif.Spec.Json (policyText KnownID KnownOp PlainOp Printable)
open Verif.Json (J)
open scoped Verif.Agg

/-! ### Lists and words -/

/-- C105: a list of words is read word by word, each one known, or not at all. -/
theorem C105_lists (x : XTime) (y : Y) (hy : NullFree y) :
    (∀ ts old, slice aggType 0 y old = some ts ↔ (∀ t ∈ ts, KnownType t) ∧
      ∃ is : List (Option Int), is.length = ts.length ∧ y = .seq ((ts.zip is).map fun e => .scalar (typeWord e.1) e.2)) ∧
    (∀ ts old, slice metricType 0 y old = some ts ↔ (∀ t ∈ ts, KnownMetric t) ∧
      ∃ is : List (Option Int), is.length = ts.length ∧ y = .seq ((ts.zip is).map fun e => .scalar (metricWord e.1) e.2)) ∧
    (∀ ps old, slice (storagePolicy x) EmptyStoragePolicy y old = some ps ↔
      ∃ ss : List (Bytes × Option Int), y = .seq (ss.map fun s => .scalar s.1 s.2) ∧
        ss.map (fun s => parseStoragePolicy x s.1) = ps.map some) := by
  have key : ∀ {zero : Int} {parse : Bytes → Option Int} {known : Int → Prop} {wd : Int → Bytes},
      (∀ s t, parse s = some t ↔ known t ∧ s = wd t) → ∀ ts old, slice (word zero parse) zero y old = some ts ↔ (∀ t ∈ ts, known t) ∧
        ∃ is : List (Option Int), is.length = ts.length ∧ y = .seq ((ts.zip is).map fun e => .scalar (wd e.1) e.2) := by
    intro zero parse known wd hp ts old
    rw [slice_words hy]
    constructor
    · rintro ⟨ss, rfl, h⟩
      clear hy
      induction ss generalizing ts with
      | nil =>
        have : ts = [] := by simpa using h.symm
        subst this
        exact ⟨by simp, [], rfl, rfl⟩
      | cons s ss ih =>
        cases ts with
        | nil => simp at h
        | cons t ts =>
          simp only [List.map_cons, List.cons.injEq] at h
          obtain ⟨h1, is, hl, hs⟩ := ih ts h.2
          obtain ⟨hk, hw⟩ := (hp _ _).mp h.1
          refine ⟨fun u hu => ?_, s.2 :: is, by simp [hl], ?_⟩
          · rcases List.mem_cons.mp hu with rfl | hu
            · exact hk
            · exact h1 u hu
          · simp only [Y.seq.injEq] at hs
            simp [hs, hw]
    · rintro ⟨h, is, hl, rfl⟩
      clear hy
      refine ⟨(ts.zip is).map fun e => (wd e.1, e.2), by simp, ?_⟩
      induction ts generalizing is with
      | nil => simp
      | cons t ts ih =>
        cases is with
        | nil => simp at hl
        | cons i is =>
          have h1 : parse (wd t) = some t := (hp _ _).mpr ⟨h t (List.mem_cons_self ..), rfl⟩
          have h2 := ih (fun u hu => h u (List.mem_cons_of_mem _ hu)) is (by simpa using hl)
          rw [List.zip_cons_cons, List.map_cons, List.map_cons, h2, List.map_cons, h1]
  exact ⟨key fun _ _ => parse_type, key fun _ _ => parse_metric, fun ps old => slice_words hy⟩

example : NullFree (.seq [say (bs "Sum"), say (bs "P99")]) ∧ slice aggType 0 (.seq [say (bs "Sum"), say (bs "P99")]) [] = some [7, 20] ∧
    slice aggType 0 (.seq [say (bs "Sum"), say (bs "P98")]) [] = none :=
  ⟨.seq _ fun y hy => by
    simp only [List.mem_cons, List.not_mem_nil, or_false] at hy
    rcases hy with rfl | rfl <;> exact .scalar _ _, by decide +kernel, by decide +kernel⟩

/-- C105: single words: a drop policy (the empty text is the default), a kind of names, a result of a static validator. -/
theorem C105_words (s : Bytes) (i : Option Int) :
    (∀ p old, dropPolicy (.scalar s i) old = some p ↔ p ≤ 2 ∧ s = dropWord p ∨ p = 0 ∧ s = []) ∧
    (∀ t old, transformFn (.scalar s i) old = some t ↔ s = t ∧ (t = bs "noop" ∨ t = bs "empty" ∨ t = bs "suffix")) ∧
    (∀ r old, validationResult (.scalar s i) old = some r ↔ s = r ∧ (r = bs "invalid" ∨ r = bs "valid")) ∧
    (∀ t old, transType (.scalar s i) old = some t ↔ t = 1 ∧ s = bs "Absolute" ∨ t = 2 ∧ s = bs "PerSecond") := by
  refine ⟨fun p old => ?_, fun t old => ?_, fun r old => ?_, fun t old => ?_⟩
  · simp only [dropPolicy, word, method, text]
    by_cases h : s = []
    · subst h
      simp only [if_true, Option.some.injEq, DropNone]
      constructor
      · rintro rfl; exact .inr ⟨rfl, trivial⟩
      · rintro (⟨_, h⟩ | ⟨h, _⟩)
        · unfold dropWord at h; repeat' split at h
          all_goals cases h
        · exact h.symm
    · simp only [h, if_false, and_false, or_false, parseDropPolicy, validDropPolicies, DropNone, DropMust, DropIfOnlyMatch]
      have e0 : dropString 0 = bs "drop_none" := by decide
      have e1 : dropString 1 = bs "drop_must" := by decide
      have e2 : dropString 2 = bs "drop_if_only_match" := by decide
      simp only [List.find?_cons, e0, e1, e2, List.find?_nil]
      constructor
      · intro hf
        split at hf
        · rename_i hb; cases hf; exact ⟨by decide, by simpa [dropWord] using (beq_iff_eq.mp hb).symm⟩
        · split at hf
          · rename_i hb; cases hf; exact ⟨by decide, by simpa [dropWord] using (beq_iff_eq.mp hb).symm⟩
          · split at hf
            · rename_i hb; cases hf; exact ⟨by decide, by simpa [dropWord] using (beq_iff_eq.mp hb).symm⟩
            · cases hf
      · rintro ⟨hp, rfl⟩
        have : p = 0 ∨ p = 1 ∨ p = 2 := by omega
        rcases this with rfl | rfl | rfl <;> decide +kernel
  · simp only [transformFn, word, method, text, Agg.readTransform]
    constructor
    · intro h
      have h1 := List.find?_some h
      have h2 := List.mem_of_find?_eq_some h
      simp only [List.mem_cons, List.not_mem_nil, or_false] at h2
      exact ⟨(beq_iff_eq.mp h1).symm, h2⟩
    · rintro ⟨rfl, h⟩
      rcases h with rfl | rfl | rfl <;> decide +kernel
  · simp only [validationResult, word, method, text]
    constructor
    · intro h
      have h1 := List.find?_some h
      have h2 := List.mem_of_find?_eq_some h
      simp only [List.mem_cons, List.not_mem_nil, or_false] at h2
      exact ⟨beq_iff_eq.mp h1, h2⟩
    · rintro ⟨rfl, h⟩
      rcases h with rfl | rfl <;> decide +kernel
  · simp only [transType, word, method, text]
    constructor
    · intro h
      unfold Tf.parseType at h
      split at h
      · rename_i hs; cases h; exact .inl ⟨rfl, hs⟩
      · split at h
        · rename_i hs; cases h; exact .inr ⟨rfl, hs⟩
        · cases h
    · rintro (⟨rfl, rfl⟩ | ⟨rfl, rfl⟩) <;> decide +kernel

example : dropPolicy (say (bs "drop_must")) 0 = some 1 ∧ dropPolicy (say []) 2 = some 0 ∧ dropPolicy (say (bs "must")) 0 = none := by
  decide +kernel

/-! ### Documents -/

theorem pointer_some {r : Rd A} {zero a : A} {y : Y} (hn : y ≠ .null) (h : r y zero = some a) : pointer r zero y none = some (some a) := by
  cases y <;> simp_all [pointer]

theorem field_read {name : Bytes} {r : Rd A} {get : M → A} {set : M → A → M} {y : Y} {m m' : M} {a : A} (h : r y (get m) = some a)
    (e : set m a = m') : (field name r get set).read y m = some m' := by simp only [field, h, Option.map, e]

/-- A member for a pointer that was nil. -/
theorem steps_pointer {name : Bytes} {r : Rd A} {zero : A} {f : A → Y} {get : M → Option A} {set : M → Option A → M} {fs : List (Field M)}
    {v : Option A} {l : List (Bytes × Y)} {d e : M} (hf : ∀ a ∈ v, f a ≠ .null ∧ r (f a) zero = some a) (hd : get d = none) (h0 : set d none = d)
    (h : Steps fs l (set d v) e) : Steps (field name (pointer r zero) get set :: fs) (opt name (v.map f) ++ l) d e := by
  cases v with
  | none => rw [h0] at h; exact .skip h
  | some a =>
    obtain ⟨h1, h2⟩ := hf a rfl
    refine steps_opt (d' := set d (some a)) rfl (fun hn => by cases hn) (fun y hy => ?_) h
    cases hy
    simp only [field, hd, pointer_some h1 h2, Option.map]

theorem types_pointer {v : Option (List Int)} (h : ∀ ts ∈ v, ∀ t ∈ ts, KnownType t) :
    ∀ ts ∈ v, typesDoc ts ≠ .null ∧ slice aggType 0 (typesDoc ts) [] = some ts :=
  fun ts ht => ⟨by simp [typesDoc], read_types (h ts ht)⟩

theorem policies_doc {strict : Bool} {x : XTime} {c : Val.PoliciesConfig} (h : PoliciesForm x c) :
    policiesConfig strict x (policiesDoc x c) {} = some c := by
  have e : policiesDoc x c = .map (opt (bs "storagePolicies") (c.storage.map (storageDoc x)) ++
    (opt (bs "firstLevelAggregationTypes") (c.first.map typesDoc) ++
    (opt (bs "nonFirstLevelAggregationTypes") (c.nonFirst.map typesDoc) ++ []))) := by
    simp only [policiesDoc, List.append_assoc, List.append_nil]
  rw [e, policiesConfig]
  exact struct_doc (by simp only [List.map, field]; decide +kernel)
    (steps_pointer (fun ps hp => ⟨by simp [storageDoc], read_storage (h.storage ps hp)⟩) rfl rfl
      (steps_pointer (types_pointer h.first) rfl rfl (steps_pointer (types_pointer h.nonFirst) rfl rfl (.nil _))))

theorem transform_word {f : Bytes} (h : f = bs "noop" ∨ f = bs "empty" ∨ f = bs "suffix") : say f ≠ .null ∧ transformFn (say f) [] = some f :=
  ⟨by simp [say], ((C105_words f none).2.1 f []).mpr ⟨rfl, h⟩⟩

/-- C105: the document of a configuration of aggregation types is read as this configuration. -/
theorem C105_types_config (strict : Bool) (c : Agg.TypesConfiguration) (h : TypesForm c) :
    typesConfig strict (typesConfigDoc c) {} = some c := by
  have e : typesConfigDoc c = .map (opt (bs "defaultCounterAggregationTypes") (c.defaultCounter.map typesDoc) ++
    (opt (bs "defaultTimerAggregationTypes") (c.defaultTimer.map typesDoc) ++
    (opt (bs "defaultGaugeAggregationTypes") (c.defaultGauge.map typesDoc) ++
    (opt (bs "counterTransformFnType") (c.counterFn.map say) ++
    (opt (bs "timerTransformFnType") (c.timerFn.map say) ++
    (opt (bs "gaugeTransformFnType") (c.gaugeFn.map say) ++ [])))))) := by
    simp only [typesConfigDoc, List.append_assoc, List.append_nil]
  rw [e, typesConfig]
  exact struct_doc (by simp only [List.map, field]; decide +kernel)
    (steps_pointer (types_pointer h.counter) rfl rfl (steps_pointer (types_pointer h.timer) rfl rfl
      (steps_pointer (types_pointer h.gauge) rfl rfl
        (steps_pointer (fun f hf => transform_word (h.fns f (.inl hf))) rfl rfl
          (steps_pointer (fun f hf => transform_word (h.fns f (.inr (.inl hf)))) rfl rfl
            (steps_pointer (fun f hf => transform_word (h.fns f (.inr (.inr hf)))) rfl rfl (.nil _)))))))

theorem override_doc {strict : Bool} {x : XTime} {o : Val.Override} (h : KnownMetric o.type ∧ PoliciesForm x o.allowed) :
    override strict x (overrideDoc x o) ⟨0, {}⟩ = some o := by
  rw [override, overrideDoc]
  refine struct_doc (by simp only [List.map, field]; decide +kernel)
    (.take (d' := ⟨o.type, {}⟩) ?_ (.take (d' := o) ?_ (.nil _)))
  · have : metricType (say (metricWord o.type)) 0 = some o.type := parse_metric.mpr ⟨h.1, rfl⟩
    simp only [field, this, Option.map]
  · simp only [field, policies_doc h.2, Option.map]

theorem int_doc {n : Int} (h : Spec.Msg.Int64 n) : intDoc n ≠ .null ∧ int (intDoc n) 0 = some n := by
  refine ⟨by simp [intDoc], ?_⟩
  unfold Spec.Msg.Int64 at h
  simp only [intDoc, int]
  rw [if_pos (by omega)]

/-- C105: a number is read exactly if it has a place in 64 bits, and then as it is. -/
theorem C105_number (b : Bytes) (n old v : Int) : int (.scalar b (some n)) old = some v ↔ v = n ∧ -2 ^ 63 ≤ n ∧ n < 2 ^ 63 := by
  simp only [int]
  split
  · rename_i h
    simp only [Option.some.injEq]
    omega
  · rename_i h
    simp only [reduceCtorEq, false_iff]
    omega

example : int (.scalar (bs "9223372036854775807") (some 9223372036854775807)) 0 = some 9223372036854775807 ∧
    int (.scalar (bs "9223372036854775808") (some 9223372036854775808)) 0 = none := by decide

theorem metric_types_doc {strict : Bool} {c d : Val.Config} (ha : ∀ t ∈ c.allowedTypes, KnownMetric t)
    (hm : ∀ ts ∈ c.multi, ∀ t ∈ ts, KnownMetric t) (hd : d.multi = none) :
    metricTypes strict (.map ((bs "typeTag", say c.typeTag) :: (bs "allowed", metricsDoc c.allowedTypes) ::
      opt (bs "multiAggregationTypesEnabledFor") (c.multi.map metricsDoc))) d =
      some { d with typeTag := c.typeTag, allowedTypes := c.allowedTypes, multi := c.multi } := by
  rw [metricTypes, show opt (bs "multiAggregationTypesEnabledFor") (c.multi.map metricsDoc) =
    opt (bs "multiAggregationTypesEnabledFor") (c.multi.map metricsDoc) ++ [] from (List.append_nil _).symm]
  refine struct_doc (by simp only [List.map, field]; decide +kernel)
    (.take (d' := { d with typeTag := c.typeTag }) rfl
      (.take (d' := { d with typeTag := c.typeTag, allowedTypes := c.allowedTypes }) ?_
        (steps_pointer (fun ts ht => ⟨by simp [metricsDoc], read_metrics (hm ts ht) _⟩) hd ?_ (.nil _))))
  · simp only [field, read_metrics ha, Option.map]
  · simp only [← hd]

theorem policies_part {strict : Bool} {x : XTime} {c d : Val.Config} (h : PoliciesForm x c.default)
    (ho : ∀ o ∈ c.overrides, KnownMetric o.type ∧ PoliciesForm x o.allowed) (hd : d.default = {}) :
    policies strict x (.map [(bs "defaultAllowed", policiesDoc x c.default), (bs "overrides", .seq (c.overrides.map (overrideDoc x)))]) d =
      some { d with default := c.default, overrides := c.overrides } := by
  rw [policies]
  refine struct_doc (by simp only [List.map, field]; decide +kernel)
    (.take (d' := { d with default := c.default }) ?_ (.take ?_ (.nil _)))
  · simp only [field, hd, policies_doc h, Option.map]
  · simp only [field, slice, seq_doc fun o ho' => override_doc (ho o ho'), Option.map]

theorem ns_doc {strict : Bool} {kv : Rd (Option (Option (Bytes → Option Val.VErr)))} {c : Val.NsConfig} (hk : c.kv = none)
    (h : ∀ r ∈ c.static, r = bs "valid" ∨ r = bs "invalid") :
    nsConfig strict kv (.map (opt (bs "static") (c.static.map fun r => .map [(bs "validationResult", say r)]))) {} = some c := by
  rw [nsConfig, show opt (bs "static") (c.static.map fun r => Y.map [(bs "validationResult", say r)]) =
    opt (bs "static") (c.static.map fun r => Y.map [(bs "validationResult", say r)]) ++ [] from (List.append_nil _).symm]
  obtain ⟨ck, cs⟩ := c
  simp only at hk h
  subst hk
  refine struct_doc (by simp only [List.map, field]; decide +kernel)
    (.skip (steps_pointer (fun r hr => ⟨by simp, ?_⟩) rfl rfl (.nil _)))
  rw [staticConfig]
  refine struct_doc (by simp only [List.map, field]; decide +kernel) (.take ?_ (.nil _))
  have : validationResult (say r) [] = some r := ((C105_words r none).2.2.1 r []).mpr ⟨rfl, (h r hr).symm⟩
  simp only [field, id, this, Option.map]

/-- C105: the document of a configuration of a validator is read as this configuration. -/
theorem C105_config (strict : Bool) (x : XTime) (kv : Rd (Option (Option (Bytes → Option Val.VErr)))) (c : Val.Config) (h : ConfigForm x c) :
    config strict x kv (configDoc x c) zeroConfig = some c := by
  rw [config, configDoc]
  simp only [List.append_assoc]
  exact struct_doc (by simp only [List.map, field]; decide +kernel)
    (.take (d' := { zeroConfig with ns := c.ns }) (field_read (ns_doc h.kv h.static) rfl)
    (.take (d' := { zeroConfig with ns := c.ns, requiredTags := c.requiredTags }) (field_read (read_texts _ _) rfl)
    (steps_pointer (fun n hn => int_doc (h.order n hn)) rfl rfl
    (steps_pointer (fun n hn => int_doc (h.levels n hn)) rfl rfl
    (.take (d' := { c with default := {}, overrides := [], tagInvalid := [], nameInvalid := [] })
      (field_read (metric_types_doc h.allowed h.multi rfl) rfl)
    (.take (d' := { c with tagInvalid := [], nameInvalid := [] }) (field_read (policies_part h.default h.overrides rfl) rfl)
    (.take (d' := { c with nameInvalid := [] }) rfl (.take (d' := c) rfl (.nil _)))))))))

/-- A configuration with an override. -/
def exConfig : Val.Config :=
  { ns := { static := some (bs "valid") }, requiredTags := [bs "city"], maxLevels := some 1, typeTag := bs "type", allowedTypes := [1, 2],
    multi := some [2], default := { first := some [7] }, overrides := [⟨2, { first := some [7, 20] }⟩], tagInvalid := bs "%" }

example (x : XTime) : ConfigForm x exConfig where
  kv := rfl
  static := fun r h => by cases h; exact .inl rfl
  order := fun n h => by cases h
  levels := fun n h => by cases h; unfold Spec.Msg.Int64; omega
  allowed := by decide
  multi := fun ts h => by cases h; decide
  default := ⟨fun _ h => (by cases h), fun ts h => (by cases h; decide), fun _ h => (by cases h)⟩
  overrides := fun o h => by
    simp only [exConfig, List.mem_singleton] at h
    subst h
    exact ⟨.inr (.inl rfl), ⟨fun _ h => (by cases h), fun ts h => (by cases h; decide), fun _ h => (by cases h)⟩⟩

example : TypesForm { defaultTimer := some [20], counterFn := some (bs "suffix") } :=
  ⟨fun _ h => (by cases h), fun ts h => (by cases h; decide), fun _ h => (by cases h), fun f h => by
    simp at h; subst h; exact .inr (.inr rfl)⟩

/-! ### Only known words -/

/-- What is kept by a reader on values without null. -/
def Keeps (P : M → Prop) (r : Rd M) : Prop := ∀ y, NullFree y → ∀ m m', P m → r y m = some m' → P m'

theorem keeps_members {P : M → Prop} {strict : Bool} {fs : List (Field M)} (h : ∀ f ∈ fs, Keeps P f.read) :
    ∀ (l : List (Bytes × Y)) (seen : List Bytes) (m m' : M), (∀ e ∈ l, NullFree e.2) → P m → members strict fs l seen m = some m' → P m'
  | [], _, m, m', _, hm, e => by simp only [members, Option.some.injEq] at e; exact e ▸ hm
  | (k, y) :: l, seen, m, m', hl, hm, e => by
    simp only [members] at e
    have hl' : ∀ e ∈ l, NullFree e.2 := fun z hz => hl z (List.mem_cons_of_mem _ hz)
    split at e
    · split at e
      · cases e
      · exact keeps_members h l seen m m' hl' hm e
    · rename_i f hf
      split at e
      · cases e
      · split at e
        · cases e
        · rename_i m1 h1
          exact keeps_members h l _ m1 m' hl' (h f (List.mem_of_find?_eq_some hf) y (hl _ (List.mem_cons_self ..)) m m1 hm h1) e

theorem keeps_struct {P : M → Prop} {strict : Bool} {zero : M → M} {fs : List (Field M)} (h : ∀ f ∈ fs, Keeps P f.read) :
    Keeps P (struct strict zero fs) := fun y hy m m' hm e => by
  cases hy with
  | scalar s i => cases e
  | seq l hl => cases e
  | map l hl => exact keeps_members h l [] m m' hl hm e

theorem keeps_field {P : M → Prop} {name : Bytes} {r : Rd A} {get : M → A} {set : M → A → M}
    (h : ∀ y, NullFree y → ∀ m a, P m → r y (get m) = some a → P (set m a)) : Keeps P (field name r get set).read := fun y hy m m' hm e => by
  obtain ⟨a, h1, rfl⟩ := Option.map_eq_some_iff.mp e
  exact h y hy m a hm h1

theorem nonnull {y : Y} (h : NullFree y) : y ≠ .null := by rintro rfl; cases h

theorem pointer_read {r : Rd A} {zero : A} {y : Y} {old v : Option A} (hy : NullFree y) (h : pointer r zero y old = some v) :
    ∃ a, r y (old.getD zero) = some a ∧ v = some a := by
  cases hy <;> (obtain ⟨a, h1, rfl⟩ := Option.map_eq_some_iff.mp h; exact ⟨a, h1, rfl⟩)

theorem words_known {zero : A} {parse : Bytes → Option A} {y : Y} {old as : List A} (hy : NullFree y) (h : slice (word zero parse) zero y old = some as) :
    ∀ a ∈ as, ∃ s, parse s = some a := fun a ha => by
  obtain ⟨ss, _, hs⟩ := (slice_words hy).mp h
  have : some a ∈ ss.map fun s => parse s.1 := hs ▸ List.mem_map_of_mem ha
  obtain ⟨s, _, e⟩ := List.mem_map.mp this
  exact ⟨s.1, e⟩

theorem types_known {y : Y} {old ts : List Int} (hy : NullFree y) (h : slice aggType 0 y old = some ts) : ∀ t ∈ ts, KnownType t :=
  fun t ht => by
    obtain ⟨s, e⟩ := words_known hy h t ht
    exact (parse_type.mp e).1

theorem metrics_known {y : Y} {old ts : List Int} (hy : NullFree y) (h : slice metricType 0 y old = some ts) : ∀ t ∈ ts, KnownMetric t :=
  fun t ht => by
    obtain ⟨s, e⟩ := words_known hy h t ht
    exact (parse_metric.mp e).1

theorem keeps_policies {strict : Bool} {x : XTime} : Keeps (KnownPolicies x) (policiesConfig strict x) := by
  refine keeps_struct fun f hf => ?_
  simp only [List.mem_cons, List.not_mem_nil, or_false] at hf
  rcases hf with rfl | rfl | rfl
  · exact keeps_field fun y hy m a hm h => by
      obtain ⟨ps, h1, rfl⟩ := pointer_read hy h
      exact ⟨fun _ e => by cases e; exact words_known hy h1, hm.first, hm.nonFirst⟩
  · exact keeps_field fun y hy m a hm h => by
      obtain ⟨ts, h1, rfl⟩ := pointer_read hy h
      exact ⟨hm.storage, fun _ e => by cases e; exact types_known hy h1, hm.nonFirst⟩
  · exact keeps_field fun y hy m a hm h => by
      obtain ⟨ts, h1, rfl⟩ := pointer_read hy h
      exact ⟨hm.storage, hm.first, fun _ e => by cases e; exact types_known hy h1⟩

theorem no_policies (x : XTime) : KnownPolicies x {} := ⟨fun _ h => (by cases h), fun _ h => (by cases h), fun _ h => (by cases h)⟩

theorem keeps_override {strict : Bool} {x : XTime} :
    Keeps (fun o : Val.Override => (KnownMetric o.type ∨ o.type = 0) ∧ KnownPolicies x o.allowed) (override strict x) := by
  refine keeps_struct fun f hf => ?_
  simp only [List.mem_cons, List.not_mem_nil, or_false] at hf
  rcases hf with rfl | rfl
  · exact keeps_field fun y hy m a hm h => by
      obtain ⟨s, i, rfl, h1⟩ := (word_text (nonnull hy)).mp h
      exact ⟨.inl (parse_metric.mp h1).1, hm.2⟩
  · exact keeps_field fun y hy m a hm h => ⟨hm.1, keeps_policies y hy _ a hm.2 h⟩

theorem keeps_seq {P : A → Prop} {r : Rd A} {zero : A} (h : Keeps P r) (h0 : P zero) {y : Y} {old as : List A} (hy : NullFree y)
    (e : slice r zero y old = some as) : ∀ a ∈ as, P a := by
  cases hy with
  | scalar s i => cases e
  | map l hl => cases e
  | seq l hl =>
    intro a ha
    obtain ⟨y, hy, e⟩ := seq_mem e a ha
    exact h y (hl y hy) zero a h0 e

theorem keeps_static {strict : Bool} : Keeps (fun r => r = bs "valid" ∨ r = bs "invalid" ∨ r = []) (staticConfig strict) := by
  refine keeps_struct fun f hf => ?_
  simp only [List.mem_cons, List.not_mem_nil, or_false] at hf
  subst hf
  exact keeps_field fun y hy m a hm h => by
    obtain ⟨s, i, rfl, _⟩ := (word_text (nonnull hy)).mp h
    rcases (((C105_words s i).2.2.1 a _).mp h).2 with e | e
    · exact .inr (.inl e)
    · exact .inl e

/-- The result of a static validator that is configured is known or not given. -/
def KnownStatic (c : Val.NsConfig) : Prop := ∀ r ∈ c.static, r = bs "valid" ∨ r = bs "invalid" ∨ r = []

theorem keeps_ns {strict : Bool} {kv : Rd (Option (Option (Bytes → Option Val.VErr)))} : Keeps KnownStatic (nsConfig strict kv) := by
  refine keeps_struct fun f hf => ?_
  simp only [List.mem_cons, List.not_mem_nil, or_false] at hf
  rcases hf with rfl | rfl
  · exact keeps_field fun y hy m a hm h => hm
  · exact keeps_field fun y hy m a hm h => by
      obtain ⟨r, h1, rfl⟩ := pointer_read hy h
      intro r' e
      cases e
      refine keeps_static y hy _ r ?_ h1
      cases hs : m.static with
      | none => exact .inr (.inr rfl)
      | some r0 => exact hm r0 hs

theorem keeps_metric_types {strict : Bool} {x : XTime} : Keeps (KnownConfig x) (metricTypes strict) := by
  refine keeps_struct fun f hf => ?_
  simp only [List.mem_cons, List.not_mem_nil, or_false] at hf
  rcases hf with rfl | rfl | rfl
  · exact keeps_field fun y hy m a hm h => ⟨hm.static, hm.allowed, hm.multi, hm.default, hm.overrides⟩
  · exact keeps_field fun y hy m a hm h => ⟨hm.static, metrics_known hy h, hm.multi, hm.default, hm.overrides⟩
  · exact keeps_field fun y hy m a hm h => by
      obtain ⟨ts, h1, rfl⟩ := pointer_read hy h
      exact ⟨hm.static, hm.allowed, fun _ e => by cases e; exact metrics_known hy h1, hm.default, hm.overrides⟩

theorem keeps_policies_part {strict : Bool} {x : XTime} : Keeps (KnownConfig x) (policies strict x) := by
  refine keeps_struct fun f hf => ?_
  simp only [List.mem_cons, List.not_mem_nil, or_false] at hf
  rcases hf with rfl | rfl
  · exact keeps_field fun y hy m a hm h => ⟨hm.static, hm.allowed, hm.multi, keeps_policies y hy _ a hm.default h, hm.overrides⟩
  · exact keeps_field fun y hy m a hm h =>
      ⟨hm.static, hm.allowed, hm.multi, hm.default, keeps_seq keeps_override ⟨.inr rfl, no_policies x⟩ hy h⟩

/-- C105: a document without nulls that is accepted has brought known words only; one with an unknown word is refused as a whole. Missing for
the full statement: documents with nulls (`C105_violation_null`). -/
theorem C105_known_partial (strict : Bool) (x : XTime) (kv : Rd (Option (Option (Bytes → Option Val.VErr)))) (y : Y) (hy : NullFree y)
    (c : Val.Config) (h : config strict x kv y zeroConfig = some c) : KnownConfig x c := by
  refine (keeps_struct (P := KnownConfig x) fun f hf => ?_) y hy zeroConfig c
    ⟨fun _ h => (by cases h), fun _ h => (by cases h), fun _ h => (by cases h), no_policies x, fun _ h => (by cases h)⟩ h
  simp only [List.mem_cons, List.not_mem_nil, or_false] at hf
  rcases hf with rfl | rfl | rfl | rfl | rfl | rfl | rfl | rfl
  · exact keeps_field fun y hy m a hm h => ⟨keeps_ns y hy _ a hm.static h, hm.allowed, hm.multi, hm.default, hm.overrides⟩
  · exact keeps_field fun y hy m a hm h => ⟨hm.static, hm.allowed, hm.multi, hm.default, hm.overrides⟩
  · exact keeps_field fun y hy m a hm h => ⟨hm.static, hm.allowed, hm.multi, hm.default, hm.overrides⟩
  · exact keeps_field fun y hy m a hm h => ⟨hm.static, hm.allowed, hm.multi, hm.default, hm.overrides⟩
  · exact keeps_field fun y hy m a hm h => keeps_metric_types y hy _ a hm h
  · exact keeps_field fun y hy m a hm h => keeps_policies_part y hy _ a hm h
  · exact keeps_field fun y hy m a hm h => ⟨hm.static, hm.allowed, hm.multi, hm.default, hm.overrides⟩
  · exact keeps_field fun y hy m a hm h => ⟨hm.static, hm.allowed, hm.multi, hm.default, hm.overrides⟩

/-- C105 does not hold for nulls: a null in a list of storage policies, of aggregation types or of metric types is not refused; it is
read as the policy, the type or the metric type that no word stands for. -/
theorem C105_violation_null (strict : Bool) (x : XTime) (kv : Rd (Option (Option (Bytes → Option Val.VErr)))) :
    ∃ y c, config strict x kv y zeroConfig = some c ∧ c.default.storage = some [⟨⟨0, 0⟩, 0⟩] ∧ c.default.first = some [0] ∧
      c.allowedTypes = [0] ∧ ∀ s, Agg.parseType s ≠ some 0 ∧ Val.parseType s ≠ some 0 :=
  ⟨.map [(bs "metricTypes", .map [(bs "allowed", .seq [.null])]),
      (bs "policies", .map [(bs "defaultAllowed", .map [(bs "storagePolicies", .seq [.null]), (bs "firstLevelAggregationTypes", .seq [.null])])])],
    { zeroConfig with allowedTypes := [0], default := { storage := some [EmptyStoragePolicy], first := some [0] } },
    by cases strict <;> rfl, rfl, rfl, rfl, fun s => ⟨fun h => absurd (parse_type.mp h).1 (by decide), fun h => absurd (parse_metric.mp h).1 (by decide)⟩⟩

/-! ### Pipelines -/

theorem compress_types {id : BitVec 64} (h : KnownID id) :
    Agg.compressTypes (((List.range 64).filter id.getLsbD).map Int.ofNat) = some id :=
  Agg.C02_reencode 0 id _ (Json.types_form h)

theorem bits_known {id : BitVec 64} (h : KnownID id) : ∀ t ∈ ((List.range 64).filter id.getLsbD).map Int.ofNat, KnownType t := by
  intro t ht
  obtain ⟨n, hn, rfl⟩ := List.mem_map.mp ht
  have := h n (List.mem_filter.mp hn).2
  unfold KnownType
  have e : Int.ofNat n = (n : Int) := rfl
  omega

theorem rollup_doc {strict : Bool} {op : Pipe.RollupOp} (h : KnownID op.aggID) :
    rollupOp strict (.map [(bs "newName", say op.newName), (bs "tags", textsDoc op.tags),
      (bs "aggregation", typesDoc (((List.range 64).filter op.aggID.getLsbD).map Int.ofNat))]) {} = some op := by
  have ha : aggID (typesDoc (((List.range 64).filter op.aggID.getLsbD).map Int.ofNat)) 0 = some op.aggID := by
    simp only [aggID, typesDoc, method]
    rw [show slice aggType 0 (Y.seq ((((List.range 64).filter op.aggID.getLsbD).map Int.ofNat).map fun t => say (typeWord t))) [] = _ from
      read_types (bits_known h)]
    exact compress_types h
  simp only [rollupOp, method]
  exact struct_doc (by simp only [rollupFields, List.map, field]; decide +kernel)
    (.take (d' := { newName := op.newName }) rfl (.take (d' := { newName := op.newName, tags := op.tags }) (field_read (read_texts _ _) rfl)
      (.take (d' := op) (field_read ha rfl) (.nil _))))

theorem op_doc {strict : Bool} {u : Pipe.OpUnion} (h : KnownOp u) (hp : PlainOp u) : opUnion strict (opDoc u) { type := 0 } = some u := by
  cases h with
  | aggregation ht hk =>
    have hw : aggOp (say (typeWord u.aggregation)) 0 = some u.aggregation := parse_type.mpr ⟨hk, rfl⟩
    have hs : struct strict (fun _ => {}) (unionFields strict) (.map [(bs "aggregation", say (typeWord u.aggregation))]) {} =
        some { aggregation := some u.aggregation } :=
      struct_doc (by simp only [unionFields, List.map, field]; decide +kernel)
        (.take (field_read (pointer_some (by simp [say]) hw) rfl) (.skip (.skip (.nil _))))
    rw [opDoc, if_pos ht]
    simp only [opUnion, method, hs, Json.Union.opUnion, Option.some.injEq]
    obtain ⟨ut, ua, utr, ur⟩ := u
    have h2 := hp.transformation (by simp_all)
    have h3 := hp.rollup (by simp_all)
    simp_all [Pipe.AggregationOpType]
  | transformation ht hk =>
    have hw : transOp (say (if u.transformation = 1 then bs "Absolute" else bs "PerSecond")) 0 = some u.transformation := by
      rcases hk with h | h <;> rw [h] <;> decide +kernel
    have hs : struct strict (fun _ => {}) (unionFields strict)
        (.map [(bs "transformation", say (if u.transformation = 1 then bs "Absolute" else bs "PerSecond"))]) {} =
        some { transformation := some u.transformation } :=
      struct_doc (by simp only [unionFields, List.map, field]; decide +kernel)
        (.skip (.take (field_read (pointer_some (by simp [say]) hw) rfl) (.skip (.nil _))))
    rw [opDoc, if_neg (by rw [ht]; decide), if_pos ht]
    simp only [opUnion, method, hs, Json.Union.opUnion, Option.some.injEq]
    obtain ⟨ut, ua, utr, ur⟩ := u
    have h2 := hp.aggregation (by simp_all)
    have h3 := hp.rollup (by simp_all)
    simp_all [Pipe.TransformationOpType]
  | rollup ht hk =>
    have hs := struct_doc (strict := strict) (zero := fun _ => {}) (fs := unionFields strict)
      (by simp only [unionFields, List.map, field]; decide +kernel)
      (.skip (.skip (.take (d := {}) (d' := { rollup := some u.rollup }) (field_read (pointer_some (by simp) (rollup_doc (strict := strict) hk)) rfl) (.nil _))))
    rw [opDoc, if_neg (by rw [ht]; decide), if_neg (by rw [ht]; decide)]
    simp only [opUnion, method]
    rw [show bs "rollup" = (field (bs "rollup") (pointer (rollupOp strict) {}) (·.rollup) (fun (m : Json.Union) v => { m with rollup := v })).name from rfl, hs]
    simp only [Json.Union.opUnion, Option.some.injEq]
    obtain ⟨ut, ua, utr, ur⟩ := u
    have h2 := hp.aggregation (by simp_all)
    have h3 := hp.transformation (by simp_all)
    simp_all [Pipe.RollupOpType]

/-- C105: the document of a pipeline is read as this pipeline. -/
theorem C105_pipeline (strict : Bool) (p old : Pipe.Pipeline) (h : ∀ u ∈ p, KnownOp u ∧ PlainOp u) :
    pipeline strict (.seq (p.map opDoc)) old = some p := by
  simp only [pipeline, method, slice]
  exact seq_doc fun u hu => op_doc (h u hu).1 (h u hu).2

example : (∀ u ∈ [({ type := 1, aggregation := 7 } : Pipe.OpUnion)], KnownOp u ∧ PlainOp u) := fun u hu => by
  simp only [List.mem_singleton] at hu
  subst hu
  exact ⟨.aggregation _ rfl (by decide), fun h => absurd rfl h, fun _ => rfl, fun _ => rfl, ⟨[], by simp, rfl⟩, fun t ht => by cases ht⟩

/-! ### JSON is YAML -/

/-- What the JSON reader makes of a value the YAML reader makes of the same value. -/
def Agree (c : Json.Codec A) (r : Rd A) : Prop := ∀ j y, Same j y → ∀ old old' v, c.dec j old = some v → r y old' = some v

theorem agree_string : Agree Json.string string := fun j y h old old' v e => by
  cases h <;> simp_all [Json.string, string, method, text]

theorem agree_aggType : Agree Json.aggType aggType := fun j y h old old' v e => by
  cases h <;> simp_all [Json.aggType, aggType, word, method, text]

theorem agree_transType : Agree Json.transType transType := fun j y h old old' v e => by
  cases h <;> simp_all [Json.transType, transType, word, method, text]

theorem agree_arr {c : Json.Codec A} {r : Rd A} {zero zero' : A} (hc : Agree c r) {l : List J} {m : List Y} (h : All2 Same l m) :
    ∀ old v, Json.arrDec c zero l old = some v → seqLoop r zero' m = some v := by
  induction h with
  | nil => intro old v e; exact e
  | @cons a b l m hab _ ih =>
    intro old v e
    simp only [Json.arrDec] at e
    split at e
    · rename_i x xs h1 h2
      simp only [Option.some.injEq] at e; subst e
      simp only [seqLoop, hc a b hab _ zero' x h1, ih _ _ h2]
    · cases e

theorem agree_slice {c : Json.Codec A} {r : Rd A} {zero zero' : A} (hc : Agree c r) : Agree (Json.slice c zero) (slice r zero') :=
  fun j y h old old' v e => by
    cases h with
    | str s i => cases e
    | obj l m _ _ _ => cases e
    | arr l m h => exact agree_arr hc h old v e

theorem agree_method {c : Json.Codec A} {zero : A} {f : Y → Option A} (h : ∀ j y, Same j y → ∀ old v, c.dec j old = some v → f y = some v) :
    Agree c (method zero f) := fun j y hs old old' v e => by
  have := h j y hs old v e
  cases hs <;> exact this

theorem agree_aggID : Agree Json.aggID aggID := agree_method fun j y h old v e => by
  simp only [Json.aggID] at e
  split at e
  · cases e
  · rename_i ts h1
    rw [agree_slice agree_aggType j y h _ [] ts h1]
    exact e

theorem agree_pointer {c : Json.Codec A} {r : Rd A} {zero zero' : A} (hc : Agree c r) : Agree (Json.pointer c zero) (pointer r zero') :=
  fun j y h old old' v e => by
    cases h <;> (
      obtain ⟨a, h1, rfl⟩ := Option.map_eq_some_iff.mp e
      simp only [pointer]
      rw [hc _ _ (by first | exact .str _ _ | exact .arr _ _ ‹_› | exact .obj _ _ ‹_› ‹_› ‹_›) _ _ a h1]
      rfl)

/-- The fields for one name do the same. -/
def FieldAgree (f : Json.Field M) (g : Field M) : Prop :=
  f.name = g.name ∧ ∀ j y, Same j y → ∀ m v, f.dec j m = some v → g.read y m = some v

theorem agree_members {fs : List (Json.Field M)} {gs : List (Field M)}
    (hf : ∀ k ∈ opNames, (Json.findField fs k = none ∧ gs.find? (fun g => g.name == k) = none) ∨
      ∃ f g, Json.findField fs k = some f ∧ gs.find? (fun g => g.name == k) = some g ∧ FieldAgree f g) :
    ∀ (l : List (Bytes × J)) (m : List (Bytes × Y)), (∀ e ∈ m, e.1 ∈ opNames) → l.map (·.1) = m.map (·.1) →
      All2 Same (l.map (·.2)) (m.map (·.2)) → ∀ seen s v, Json.decMembers fs l s = some v → members false gs m seen s = some v
  | [], [], _, _, _, seen, s, v, e => e
  | [], _ :: _, _, h, _, _, _, _, _ => by simp at h
  | _ :: _, [], _, h, _, _, _, _, _ => by simp at h
  | (k, j) :: l, (k', y) :: m, hn, hk, ha, seen, s, v, e => by
    simp only [List.map_cons, List.cons.injEq] at hk
    obtain ⟨rfl, hk⟩ := hk
    cases ha with
    | cons h1 h2 =>
      have hn' : ∀ e ∈ m, e.1 ∈ opNames := fun e he => hn e (List.mem_cons_of_mem _ he)
      rcases hf k (hn (k, y) (List.mem_cons_self ..)) with ⟨hj, hy⟩ | ⟨f, g, hj, hy, hfg⟩
      · simp only [Json.decMembers, hj] at e
        simp only [members, hy, Bool.false_eq_true, if_false]
        exact agree_members hf l m hn' hk h2 seen s v e
      · simp only [Json.decMembers, hj] at e
        split at e
        · cases e
        · rename_i s' hs
          simp only [members, hy, Bool.false_and, Bool.false_eq_true, if_false, hfg.2 j y h1 s s' hs]
          exact agree_members hf l m hn' hk h2 _ s' v e

theorem agree_field {name : Bytes} {c : Json.Codec A} {r : Rd A} {get : M → A} {set : M → A → M} (h : Agree c r) :
    FieldAgree (Json.field name c get set) (field name r get set) := ⟨rfl, fun j y hs m v e => by
  obtain ⟨a, h1, rfl⟩ := Option.map_eq_some_iff.mp e
  simp only [field, h j y hs _ _ a h1, Option.map]⟩

theorem agree_omit {name : Bytes} {c : Json.Codec A} {r : Rd A} {empty : A → Bool} {get : M → A} {set : M → A → M} (h : Agree c r) :
    FieldAgree (Json.omitField name c empty get set) (field name r get set) := ⟨rfl, fun j y hs m v e => by
  obtain ⟨a, h1, rfl⟩ := Option.map_eq_some_iff.mp e
  simp only [field, h j y hs _ _ a h1, Option.map]⟩

theorem agree_struct {fs : List (Json.Field M)} {gs : List (Field M)} {zero : M → M}
    (hf : ∀ k ∈ opNames, (Json.findField fs k = none ∧ gs.find? (fun g => g.name == k) = none) ∨
      ∃ f g, Json.findField fs k = some f ∧ gs.find? (fun g => g.name == k) = some g ∧ FieldAgree f g) :
    ∀ j y, Same j y → ∀ m v, (Json.struct fs).dec j m = some v → struct false zero gs y m = some v := fun j y h m v e => by
  cases h with
  | str s i => cases e
  | arr l n h => cases e
  | obj l n h1 h2 h3 => exact agree_members hf l n h1 h2 h3 [] m v e

theorem agree_rollup : Agree Json.rollupOp (rollupOp false) := agree_method fun j y h old v e =>
  agree_struct (fun k hk => by
    simp only [opNames, List.mem_cons, List.not_mem_nil, or_false] at hk
    rcases hk with rfl | rfl | rfl | rfl | rfl
    · exact .inr ⟨_, _, rfl, rfl, agree_omit agree_aggID⟩
    · exact .inl ⟨rfl, rfl⟩
    · exact .inl ⟨rfl, rfl⟩
    · exact .inr ⟨_, _, rfl, rfl, agree_field agree_string⟩
    · exact .inr ⟨_, _, rfl, rfl, agree_field (agree_slice agree_string)⟩) j y h _ v e

theorem agree_aggOp : Agree Json.aggOp aggOp := agree_method fun j y h old v e => agree_aggType j y h 0 0 v e
theorem agree_transOp : Agree Json.transOp transOp := agree_method fun j y h old v e => agree_transType j y h 0 0 v e

theorem agree_union : Agree Json.opUnion (opUnion false) := agree_method fun j y h old v e => by
  simp only [Json.opUnion] at e
  split at e
  · cases e
  · rename_i c hc
    have := agree_struct (zero := fun _ => {}) (gs := unionFields false) (fun k hk => by
      simp only [opNames, List.mem_cons, List.not_mem_nil, or_false] at hk
      rcases hk with rfl | rfl | rfl | rfl | rfl
      · exact .inr ⟨_, _, rfl, rfl, agree_omit (agree_pointer agree_aggOp)⟩
      · exact .inr ⟨_, _, rfl, rfl, agree_omit (agree_pointer agree_transOp)⟩
      · exact .inr ⟨_, _, rfl, rfl, agree_omit (agree_pointer agree_rollup)⟩
      · exact .inl ⟨rfl, rfl⟩
      · exact .inl ⟨rfl, rfl⟩) j y h _ c hc
    rw [this]
    exact e

/-- C105: a JSON text of a pipeline, which is also a YAML text, is read as the same pipeline. -/
theorem C105_json (j : J) (y : Y) (h : Same j y) (old old' p : Pipe.Pipeline) (hp : Json.pipeline.dec j old = some p) :
    pipeline false y old' = some p :=
  agree_method (c := Json.pipeline) (fun j y h _ v e => agree_slice agree_union j y h _ [] v e) j y h old old' p hp

example : Same (.arr [.obj [(bs "rollup", .obj [(bs "tags", .arr [.str (bs "city")])])]])
      (.seq [.map [(bs "rollup", .map [(bs "tags", .seq [.scalar (bs "city") none])])]]) ∧
    (Json.pipeline.dec (.arr [.obj [(bs "rollup", .obj [(bs "tags", .arr [.str (bs "city")])])]]) []).isSome = true :=
  ⟨.arr _ _ (.cons (.obj _ _ (by decide) rfl (.cons (.obj _ _ (by decide) rfl (.cons (.arr _ _ (.cons (.str _ _) .nil)) .nil)) .nil)) .nil),
    by decide +kernel⟩

end Verif.Yaml
