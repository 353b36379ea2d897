import Verif.Props.Yaml
import Verif.Props.PolicyText
/- C105: what a null says in a configuration. -/
namespace Verif.Yaml
open Verif.Policy Verif.Meta

/-! ### Members that are null -/

/-- Setting a field back has nothing to do with reading another. -/
def Commutes (g : Field M) (z : M → M) : Prop := ∀ y m, (g.read y m).map z = g.read y (z m)

theorem commutes_field {r : Rd A} {get : M → A} {set : M → A → M} {z : M → M} (name : Bytes) (hg : ∀ m, get (z m) = get m)
    (hs : ∀ m v, z (set m v) = set (z m) v) : Commutes (field name r get set) z := by
  intro y m
  simp only [field, hg, Option.map_map]
  congr 1
  funext v
  exact hs m v

theorem members_commute {strict : Bool} {fs : List (Field M)} {z : M → M} : ∀ (l : List (Bytes × Y)) (seen : List Bytes) (m : M),
    (∀ e ∈ l, ∀ g, fs.find? (fun f => f.name == e.1) = some g → Commutes g z) →
    (members strict fs l seen m).map z = members strict fs l seen (z m)
  | [], _, _, _ => rfl
  | (k, y) :: l, seen, m, h => by
    have ih := fun seen m => members_commute (strict := strict) l seen m fun e he => h e (by simp [he])
    rw [members, members]
    cases hf : fs.find? (fun f => f.name == k) with
    | none =>
      cases strict
      · exact ih seen m
      · rfl
    | some g =>
      simp only
      split
      · rfl
      · rw [← h (k, y) (by simp) g hf y m]
        cases g.read y m with
        | none => rfl
        | some m' => exact ih _ m'

theorem commutes_part {strict : Bool} {zero z : M → M} {fs : List (Field M)} (name : Bytes) (h0 : ∀ m, z (zero m) = zero (z m))
    (hf : ∀ g ∈ fs, Commutes g z) : Commutes (field name (struct strict zero fs) id (fun _ v => v)) z := by
  intro y m
  simp only [field, id, Option.map_id']
  cases y with
  | null => simp only [struct, Option.map_some, h0]
  | scalar => rfl
  | seq => rfl
  | map l => exact members_commute l [] m fun e _ g hg => hf g (List.mem_of_find?_eq_some hg)

theorem members_seen {strict : Bool} {fs : List (Field M)} : ∀ (l : List (Bytes × Y)) (seen seen' : List Bytes) (m : M),
    (∀ e ∈ l, seen.contains e.1 = seen'.contains e.1) → members strict fs l seen m = members strict fs l seen' m
  | [], _, _, _, _ => rfl
  | (k, y) :: l, seen, seen', m, h => by
    have ih := fun seen seen' m h' => members_seen (strict := strict) (fs := fs) l seen seen' m h'
    rw [members, members]
    have hk := h (k, y) (by simp)
    simp only at hk
    rw [hk]
    split
    · rw [ih seen seen' m fun e he => h e (by simp [he])]
    · split
      · rfl
      · split
        · rfl
        · refine ih _ _ _ fun e he => ?_
          simp only [List.contains_cons, h e (by simp [he])]

theorem members_append {strict : Bool} {fs : List (Field M)} : ∀ (l : List (Bytes × Y)) (seen : List Bytes) (m : M),
    ∃ seen', (∀ a, a ∈ seen' → a ∈ seen ∨ a ∈ l.map (·.1)) ∧ ∀ l', members strict fs (l ++ l') seen m =
      (members strict fs l seen m).bind fun m => members strict fs l' seen' m
  | [], seen, m => ⟨seen, fun a h => .inl h, fun _ => rfl⟩
  | (k, y) :: l, seen, m => by
    simp only [List.cons_append, members]
    cases hf : fs.find? (fun f => f.name == k) with
    | none =>
      cases strict
      · obtain ⟨s, h1, h2⟩ := members_append (strict := false) (fs := fs) l seen m
        refine ⟨s, fun a ha => ?_, fun l' => ?_⟩
        · rcases h1 a ha with h | h
          · exact .inl h
          · exact .inr (by simp at h ⊢; exact .inr h)
        · simpa using h2 l'
      · exact ⟨[], by simp, fun _ => rfl⟩
    | some g =>
      simp only
      split
      · exact ⟨[], by simp, fun _ => rfl⟩
      · cases g.read y m with
        | none => exact ⟨[], by simp, fun _ => rfl⟩
        | some m' =>
          obtain ⟨s, h1, h2⟩ := members_append (strict := strict) (fs := fs) l (k :: seen) m'
          refine ⟨s, fun a ha => ?_, h2⟩
          rcases h1 a ha with h | h
          · rcases List.mem_cons.mp h with rfl | h
            · exact .inr (by simp)
            · exact .inl h
          · exact .inr (by simp at h ⊢; exact .inr h)

/-- A member that is null says as much as one that is not there. -/
def NullAbsent (r : Rd M) (start : M) (names : List Bytes) : Prop :=
  ∀ (pre post : List (Bytes × Y)) (k : Bytes), k ∈ names → k ∉ pre.map (·.1) → k ∉ post.map (·.1) →
    r (.map (pre ++ (k, .null) :: post)) start = r (.map (pre ++ post)) start

/-- Each field is set back by a null, from the start on, apart from the others. -/
structure Undo (fs : List (Field M)) (start : M) (k : Bytes) (z : M → M) : Prop where
  here : ∃ f, fs.find? (fun f => f.name == k) = some f ∧ ∀ m, f.read .null m = some (z m)
  others : ∀ g ∈ fs, g.name ≠ k → Commutes g z
  start : z start = start

theorem null_absent {strict : Bool} {zero : M → M} {fs : List (Field M)} {start : M} {names : List Bytes}
    (h : ∀ k ∈ names, ∃ z, Undo fs start k z) : NullAbsent (struct strict zero fs) start names := by
  intro pre post k hk hpre hpost
  obtain ⟨z, ⟨f, hf, hnull⟩, hothers, hstart⟩ := h k hk
  have hcomm : ∀ l : List (Bytes × Y), k ∉ l.map (·.1) → ∀ e ∈ l, ∀ g, fs.find? (fun f => f.name == e.1) = some g → Commutes g z := by
    intro l hl e he g hg
    refine hothers g (List.mem_of_find?_eq_some hg) fun hn => hl ?_
    have : g.name = e.1 := by simpa using List.find?_some hg
    rw [← hn, this]
    exact List.mem_map_of_mem he
  obtain ⟨seen, hs, ha⟩ := members_append (strict := strict) (fs := fs) pre [] start
  simp only [struct]
  rw [ha, ha]
  cases hm : members strict fs pre [] start with
  | none => rfl
  | some m =>
    have hz : z m = m := by
      have := members_commute (strict := strict) pre [] start (hcomm pre hpre)
      rw [hstart, hm] at this
      simpa using this
    have hseen : seen.contains k = false := by
      cases hc : seen.contains k with
      | false => rfl
      | true =>
        rcases hs k (by simpa using hc) with h | h
        · cases h
        · exact absurd h hpre
    simp only [Option.bind_some]
    rw [members, hf]
    simp only [hseen, Bool.and_false, Bool.false_eq_true, if_false, hnull, hz]
    refine members_seen _ _ _ _ fun e he => ?_
    have : e.1 ≠ k := fun hc => hpost (hc ▸ List.mem_map_of_mem he)
    simp [this]

/-! ### The configurations -/

/-- One field is set back. -/
macro "undo" : tactic => `(tactic|
  (refine ⟨⟨_, rfl, fun m => rfl⟩, ?_, rfl⟩
   simp only [List.mem_cons, List.not_mem_nil, or_false, forall_eq_or_imp, forall_eq]
   repeat' apply And.intro
   all_goals first
     | exact fun _ => commutes_field _ (fun _ => rfl) (fun _ _ => rfl)
     | exact fun h => absurd rfl h
     | exact fun _ => commutes_part _ (fun _ => rfl) (by
         simp only [List.mem_cons, List.not_mem_nil, or_false, forall_eq_or_imp, forall_eq]
         repeat' apply And.intro
         all_goals exact commutes_field _ (fun _ => rfl) (fun _ _ => rfl))))

theorem null_types (strict : Bool) : NullAbsent (typesConfig strict) {} [bs "defaultCounterAggregationTypes", bs "defaultTimerAggregationTypes",
    bs "defaultGaugeAggregationTypes", bs "counterTransformFnType", bs "timerTransformFnType", bs "gaugeTransformFnType"] := by
  refine null_absent fun k hk => ?_
  simp only [List.mem_cons, List.not_mem_nil, or_false] at hk
  rcases hk with rfl | rfl | rfl | rfl | rfl | rfl
  · refine ⟨fun m => { m with defaultCounter := none }, ?_⟩
    undo
  · refine ⟨fun m => { m with defaultTimer := none }, ?_⟩
    undo
  · refine ⟨fun m => { m with defaultGauge := none }, ?_⟩
    undo
  · refine ⟨fun m => { m with counterFn := none }, ?_⟩
    undo
  · refine ⟨fun m => { m with timerFn := none }, ?_⟩
    undo
  · refine ⟨fun m => { m with gaugeFn := none }, ?_⟩
    undo

theorem null_policies (strict : Bool) (x : XTime) : NullAbsent (policiesConfig strict x) {}
    [bs "storagePolicies", bs "firstLevelAggregationTypes", bs "nonFirstLevelAggregationTypes"] := by
  refine null_absent fun k hk => ?_
  simp only [List.mem_cons, List.not_mem_nil, or_false] at hk
  rcases hk with rfl | rfl | rfl
  · refine ⟨fun m => { m with storage := none }, ?_⟩
    undo
  · refine ⟨fun m => { m with first := none }, ?_⟩
    undo
  · refine ⟨fun m => { m with nonFirst := none }, ?_⟩
    undo

theorem null_override (strict : Bool) (x : XTime) : NullAbsent (override strict x) ⟨0, {}⟩ [bs "type", bs "allowed"] := by
  refine null_absent fun k hk => ?_
  simp only [List.mem_cons, List.not_mem_nil, or_false] at hk
  rcases hk with rfl | rfl
  · refine ⟨fun m => { m with type := 0 }, ?_⟩
    undo
  · refine ⟨fun m => { m with allowed := {} }, ?_⟩
    undo

theorem null_static (strict : Bool) : NullAbsent (staticConfig strict) [] [bs "validationResult"] := by
  refine null_absent fun k hk => ?_
  simp only [List.mem_cons, List.not_mem_nil, or_false] at hk
  subst hk
  refine ⟨fun _ => [], ?_⟩
  undo

theorem null_ns (strict : Bool) (kv : Rd (Option (Option (Bytes → Option Val.VErr)))) (hkv : ∀ old, kv .null old = some none) :
    NullAbsent (nsConfig strict kv) {} [bs "kv", bs "static"] := by
  refine null_absent fun k hk => ?_
  simp only [List.mem_cons, List.not_mem_nil, or_false] at hk
  rcases hk with rfl | rfl
  · refine ⟨fun m => { m with kv := none }, ⟨_, rfl, fun m => by simp only [field, hkv, Option.map_some]⟩, ?_, rfl⟩
    simp only [List.mem_cons, List.not_mem_nil, or_false, forall_eq_or_imp, forall_eq]
    exact ⟨fun h => absurd rfl h, fun _ => commutes_field _ (fun _ => rfl) (fun _ _ => rfl)⟩
  · refine ⟨fun m => { m with static := none }, ?_⟩
    undo

theorem null_metric_types (strict : Bool) (m : Val.Config) :
    NullAbsent (metricTypes strict) { m with typeTag := [], allowedTypes := [], multi := none }
      [bs "typeTag", bs "allowed", bs "multiAggregationTypesEnabledFor"] := by
  refine null_absent fun k hk => ?_
  simp only [List.mem_cons, List.not_mem_nil, or_false] at hk
  rcases hk with rfl | rfl | rfl
  · refine ⟨fun m => { m with typeTag := [] }, ?_⟩
    undo
  · refine ⟨fun m => { m with allowedTypes := [] }, ?_⟩
    undo
  · refine ⟨fun m => { m with multi := none }, ?_⟩
    undo

theorem null_policies_part (strict : Bool) (x : XTime) (m : Val.Config) :
    NullAbsent (policies strict x) { m with default := {}, overrides := [] } [bs "defaultAllowed", bs "overrides"] := by
  refine null_absent fun k hk => ?_
  simp only [List.mem_cons, List.not_mem_nil, or_false] at hk
  rcases hk with rfl | rfl
  · refine ⟨fun m => { m with default := {} }, ?_⟩
    undo
  · refine ⟨fun m => { m with overrides := [] }, ?_⟩
    undo

theorem null_config (strict : Bool) (x : XTime) (kv : Rd (Option (Option (Bytes → Option Val.VErr)))) :
    NullAbsent (config strict x kv) zeroConfig [bs "namespace", bs "requiredRollupTags", bs "maxTransformationDerivativeOrder",
      bs "maxRollupLevels", bs "metricTypes", bs "policies", bs "tagNameInvalidChars", bs "metricNameInvalidChars"] := by
  refine null_absent fun k hk => ?_
  simp only [List.mem_cons, List.not_mem_nil, or_false] at hk
  rcases hk with rfl | rfl | rfl | rfl | rfl | rfl | rfl | rfl
  · refine ⟨fun m => { m with ns := {} }, ?_⟩
    undo
  · refine ⟨fun m => { m with requiredTags := [] }, ?_⟩
    undo
  · refine ⟨fun m => { m with maxOrder := none }, ?_⟩
    undo
  · refine ⟨fun m => { m with maxLevels := none }, ?_⟩
    undo
  · refine ⟨fun m => { m with typeTag := [], allowedTypes := [], multi := none }, ?_⟩
    undo
  · refine ⟨fun m => { m with default := {}, overrides := [] }, ?_⟩
    undo
  · refine ⟨fun m => { m with tagInvalid := [] }, ?_⟩
    undo
  · refine ⟨fun m => { m with nameInvalid := [] }, ?_⟩
    undo

/-- C105: in a configuration a member that is null says as much as one that is not there.  (`kv` reads a pointer.) -/
theorem C105_null_members (strict : Bool) (x : XTime) (kv : Rd (Option (Option (Bytes → Option Val.VErr)))) (hkv : ∀ old, kv .null old = some none)
    (m : Val.Config) :
    NullAbsent (typesConfig strict) {} [bs "defaultCounterAggregationTypes", bs "defaultTimerAggregationTypes",
      bs "defaultGaugeAggregationTypes", bs "counterTransformFnType", bs "timerTransformFnType", bs "gaugeTransformFnType"] ∧
    NullAbsent (config strict x kv) zeroConfig [bs "namespace", bs "requiredRollupTags", bs "maxTransformationDerivativeOrder",
      bs "maxRollupLevels", bs "metricTypes", bs "policies", bs "tagNameInvalidChars", bs "metricNameInvalidChars"] ∧
    NullAbsent (nsConfig strict kv) {} [bs "kv", bs "static"] ∧
    NullAbsent (staticConfig strict) [] [bs "validationResult"] ∧
    NullAbsent (metricTypes strict) { m with typeTag := [], allowedTypes := [], multi := none }
      [bs "typeTag", bs "allowed", bs "multiAggregationTypesEnabledFor"] ∧
    NullAbsent (policies strict x) { m with default := {}, overrides := [] } [bs "defaultAllowed", bs "overrides"] ∧
    NullAbsent (policiesConfig strict x) {} [bs "storagePolicies", bs "firstLevelAggregationTypes", bs "nonFirstLevelAggregationTypes"] ∧
    NullAbsent (override strict x) ⟨0, {}⟩ [bs "type", bs "allowed"] :=
  ⟨null_types strict, null_config strict x kv, null_ns strict kv hkv, null_static strict, null_metric_types strict m,
    null_policies_part strict x m, null_policies strict x, null_override strict x⟩

/-- C105: a null where a number is expected is zero. -/
theorem C105_null_number (old : Int) : int .null old = some 0 ∧ (pointer int 0) .null (some old) = some none := ⟨rfl, rfl⟩

/-- C105: a null where a word is expected is the zero value of its type, whatever was there before: no type, no names, no storage policy,
and for a drop policy the default. -/
theorem C105_null_words (x : XTime) :
    (∀ old, dropPolicy .null old = some 0) ∧ (∀ old, aggType .null old = some 0) ∧ (∀ old, aggID .null old = some 0) ∧
    (∀ old, transType .null old = some 0) ∧ (∀ old, metricType .null old = some 0) ∧ (∀ old, transformFn .null old = some []) ∧
    (∀ old, validationResult .null old = some []) ∧ (∀ old, storagePolicy x .null old = some ⟨⟨0, 0⟩, 0⟩) ∧
    (∀ old, policy x .null old = some ⟨⟨⟨0, 0⟩, 0⟩, 0⟩) ∧ (∀ old, aggOp .null old = some 0) ∧ (∀ old, transOp .null old = some 0) ∧
    (∀ strict old, rollupOp strict .null old = some { newName := [], tags := [], aggID := 0 }) :=
  ⟨fun _ => rfl, fun _ => rfl, fun _ => rfl, fun _ => rfl, fun _ => rfl, fun _ => rfl, fun _ => rfl, fun _ => rfl, fun _ => rfl, fun _ => rfl,
    fun _ => rfl, fun _ _ => rfl⟩

theorem seq_all2 {zero : A} {parse : Bytes → Option A} {l : List Y} {as : List A} :
    seqLoop (word zero parse) zero l = some as ↔
      Spec.Yaml.All2 (fun y a => y = .null ∧ a = zero ∨ ∃ s i, y = .scalar s i ∧ parse s = some a) l as := by
  induction l generalizing as with
  | nil =>
    simp only [seqLoop, Option.some.injEq]
    constructor
    · rintro rfl; exact .nil
    · intro h; cases h; rfl
  | cons y l ih =>
    have hw : ∀ a, word zero parse y zero = some a ↔ (y = .null ∧ a = zero ∨ ∃ s i, y = .scalar s i ∧ parse s = some a) := by
      intro a
      cases y <;> simp [word, method, text, eq_comm]
    simp only [seqLoop]
    constructor
    · intro h
      split at h
      · rename_i b bs h1 h2
        cases h
        exact .cons ((hw b).mp h1) (ih.mp h2)
      · cases h
    · intro h
      cases h with
      | cons h1 h2 => rw [(hw _).mpr h1, ih.mpr h2]

theorem slice_all2 {zero : A} {parse : Bytes → Option A} {y : Y} {old as : List A} :
    slice (word zero parse) zero y old = some as ↔ (y = .null ∧ as = []) ∨ ∃ l, y = .seq l ∧
      Spec.Yaml.All2 (fun y a => y = .null ∧ a = zero ∨ ∃ s i, y = .scalar s i ∧ parse s = some a) l as := by
  cases y with
  | null => simp [slice, eq_comm]
  | scalar => simp [slice]
  | map => simp [slice]
  | seq l =>
    simp only [slice, seq_all2]
    simp

/-- C105: exactly what a list of words is read as, nulls or not: nothing from a null, and from a sequence as many as it has elements, from
a word what it stands for and from a null the type, metric type or storage policy that no word stands for.  With any other element, or as
anything else, it is refused. -/
theorem C105_lists_exact (x : XTime) (y : Y) :
    (∀ ts old, slice aggType 0 y old = some ts ↔ (y = .null ∧ ts = []) ∨ ∃ l, y = .seq l ∧
      Spec.Yaml.All2 (fun e t => e = .null ∧ t = 0 ∨ ∃ s i, e = .scalar s i ∧ Spec.Yaml.KnownType t ∧ s = Spec.Yaml.typeWord t) l ts) ∧
    (∀ ts old, slice metricType 0 y old = some ts ↔ (y = .null ∧ ts = []) ∨ ∃ l, y = .seq l ∧
      Spec.Yaml.All2 (fun e t => e = .null ∧ t = 0 ∨ ∃ s i, e = .scalar s i ∧ Spec.Yaml.KnownMetric t ∧ s = Spec.Yaml.metricWord t) l ts) ∧
    (∀ ps old, slice (storagePolicy x) EmptyStoragePolicy y old = some ps ↔ (y = .null ∧ ps = []) ∨ ∃ l, y = .seq l ∧
      Spec.Yaml.All2 (fun e p => e = .null ∧ p = ⟨⟨0, 0⟩, 0⟩ ∨ ∃ s i, e = .scalar s i ∧ Spec.PolicyText.ReadsStorage x s p) l ps) := by
  refine ⟨fun ts old => ?_, fun ts old => ?_, fun ps old => ?_⟩
  · have := @slice_all2 Int 0 Agg.parseType y old ts
    simp only [parse_type] at this
    exact this
  · have := @slice_all2 Int 0 Val.parseType y old ts
    simp only [parse_metric] at this
    exact this
  · have := @slice_all2 StoragePolicy EmptyStoragePolicy (parseStoragePolicy x) y old ps
    simp only [Policy.C119_storage] at this
    exact this

example : slice aggType 0 (.seq [Spec.Yaml.say (bs "Sum"), .null]) [5] = some [7, 0] ∧ slice aggType 0 (.seq [.seq []]) [5] = none := by decide +kernel

/-! ### Nothing else comes in -/

/-- What is kept by a reader on all values. -/
def KeepsAll (P : M → Prop) (r : Rd M) : Prop := ∀ y m m', P m → r y m = some m' → P m'

theorem all_members {P : M → Prop} {strict : Bool} {fs : List (Field M)} (h : ∀ f ∈ fs, KeepsAll P f.read) :
    ∀ (l : List (Bytes × Y)) (seen : List Bytes) (m m' : M), P m → members strict fs l seen m = some m' → P m'
  | [], _, m, m', hm, e => by simp only [members, Option.some.injEq] at e; exact e ▸ hm
  | (k, y) :: l, seen, m, m', hm, e => by
    simp only [members] at e
    split at e
    · split at e
      · cases e
      · exact all_members h l seen m m' hm e
    · rename_i f hf
      split at e
      · cases e
      · split at e
        · cases e
        · rename_i m1 h1
          exact all_members h l _ m1 m' (h f (List.mem_of_find?_eq_some hf) y m m1 hm h1) e

theorem all_struct {P : M → Prop} {strict : Bool} {zero : M → M} {fs : List (Field M)} (h0 : ∀ m, P m → P (zero m))
    (h : ∀ f ∈ fs, KeepsAll P f.read) : KeepsAll P (struct strict zero fs) := fun y m m' hm e => by
  cases y with
  | null => simp only [struct, Option.some.injEq] at e; exact e ▸ h0 m hm
  | scalar s i => cases e
  | seq l => cases e
  | map l => exact all_members h l [] m m' hm e

theorem all_field {P : M → Prop} {name : Bytes} {r : Rd A} {get : M → A} {set : M → A → M}
    (h : ∀ y m a, P m → r y (get m) = some a → P (set m a)) : KeepsAll P (field name r get set).read := fun y m m' hm e => by
  obtain ⟨a, h1, rfl⟩ := Option.map_eq_some_iff.mp e
  exact h y m a hm h1

theorem pointer_all {r : Rd A} {zero : A} {y : Y} {old v : Option A} (h : pointer r zero y old = some v) :
    v = none ∨ ∃ a, r y (old.getD zero) = some a ∧ v = some a := by
  cases y with
  | null => cases h; exact .inl rfl
  | _ => obtain ⟨a, h1, rfl⟩ := Option.map_eq_some_iff.mp h; exact .inr ⟨a, h1, rfl⟩

theorem all2_mem {R : A → B → Prop} {l : List A} {m : List B} (h : Spec.Yaml.All2 R l m) : ∀ b ∈ m, ∃ a, R a b := by
  induction h with
  | nil => intro b hb; cases hb
  | cons h1 _ ih =>
    intro b hb
    rcases List.mem_cons.mp hb with rfl | hb
    · exact ⟨_, h1⟩
    · exact ih b hb

theorem words_all {zero : A} {parse : Bytes → Option A} {y : Y} {old as : List A} (h : slice (word zero parse) zero y old = some as) :
    ∀ a ∈ as, a = zero ∨ ∃ s, parse s = some a := by
  rcases slice_all2.mp h with ⟨_, rfl⟩ | ⟨l, _, h⟩
  · intro a ha; cases ha
  · intro a ha
    obtain ⟨y, h | ⟨s, _, _, h⟩⟩ := all2_mem h a ha
    · exact .inl h.2
    · exact .inr ⟨s, h⟩

theorem types_all {y : Y} {old ts : List Int} (h : slice aggType 0 y old = some ts) : ∀ t ∈ ts, t = 0 ∨ Spec.Yaml.KnownType t :=
  fun t ht => (words_all h t ht).imp_right fun ⟨_, e⟩ => (parse_type.mp e).1

theorem metrics_all {y : Y} {old ts : List Int} (h : slice metricType 0 y old = some ts) : ∀ t ∈ ts, t = 0 ∨ Spec.Yaml.KnownMetric t :=
  fun t ht => (words_all h t ht).imp_right fun ⟨_, e⟩ => (parse_metric.mp e).1

theorem all_none (x : XTime) : Spec.Yaml.ZeroOrKnownPolicies x {} := ⟨fun _ h => (by cases h), fun _ h => (by cases h), fun _ h => (by cases h)⟩

theorem all_policies {strict : Bool} {x : XTime} : KeepsAll (Spec.Yaml.ZeroOrKnownPolicies x) (policiesConfig strict x) := by
  refine all_struct (fun _ _ => all_none x) fun f hf => ?_
  simp only [List.mem_cons, List.not_mem_nil, or_false] at hf
  rcases hf with rfl | rfl | rfl
  · exact all_field fun y m a hm h => by
      rcases pointer_all h with rfl | ⟨ps, h1, rfl⟩
      · exact ⟨fun _ e => (by cases e), hm.first, hm.nonFirst⟩
      · exact ⟨fun _ e => by cases e; exact words_all h1, hm.first, hm.nonFirst⟩
  · exact all_field fun y m a hm h => by
      rcases pointer_all h with rfl | ⟨ps, h1, rfl⟩
      · exact ⟨hm.storage, fun _ e => (by cases e), hm.nonFirst⟩
      · exact ⟨hm.storage, fun _ e => by cases e; exact types_all h1, hm.nonFirst⟩
  · exact all_field fun y m a hm h => by
      rcases pointer_all h with rfl | ⟨ps, h1, rfl⟩
      · exact ⟨hm.storage, hm.first, fun _ e => by cases e⟩
      · exact ⟨hm.storage, hm.first, fun _ e => by cases e; exact types_all h1⟩

theorem all_override {strict : Bool} {x : XTime} :
    KeepsAll (fun o : Val.Override => (o.type = 0 ∨ Spec.Yaml.KnownMetric o.type) ∧ Spec.Yaml.ZeroOrKnownPolicies x o.allowed) (override strict x) := by
  refine all_struct (fun _ _ => ⟨.inl rfl, all_none x⟩) fun f hf => ?_
  simp only [List.mem_cons, List.not_mem_nil, or_false] at hf
  rcases hf with rfl | rfl
  · exact all_field fun y m a hm h => by
      by_cases hy : y = .null
      · subst hy; cases h; exact ⟨.inl rfl, hm.2⟩
      · obtain ⟨s, i, rfl, h1⟩ := (word_text hy).mp h
        exact ⟨.inr (parse_metric.mp h1).1, hm.2⟩
  · exact all_field fun y m a hm h => ⟨hm.1, all_policies y _ a hm.2 h⟩

theorem all_seq {P : A → Prop} {r : Rd A} {zero : A} (h : KeepsAll P r) (h0 : P zero) {y : Y} {old as : List A}
    (e : slice r zero y old = some as) : ∀ a ∈ as, P a := by
  cases y with
  | null => cases e; intro a ha; cases ha
  | scalar s i => cases e
  | map l => cases e
  | seq l =>
    intro a ha
    obtain ⟨y, _, e⟩ := seq_mem e a ha
    exact h y zero a h0 e

theorem all_static {strict : Bool} : KeepsAll (fun r => r = bs "valid" ∨ r = bs "invalid" ∨ r = []) (staticConfig strict) := by
  refine all_struct (fun _ _ => .inr (.inr rfl)) fun f hf => ?_
  simp only [List.mem_cons, List.not_mem_nil, or_false] at hf
  subst hf
  exact all_field fun y m a hm h => by
    by_cases hy : y = .null
    · subst hy; cases h; exact .inr (.inr rfl)
    · obtain ⟨s, i, rfl, _⟩ := (word_text hy).mp h
      rcases (((C105_words s i).2.2.1 a _).mp h).2 with e | e
      · exact .inr (.inl e)
      · exact .inl e

theorem all_ns {strict : Bool} {kv : Rd (Option (Option (Bytes → Option Val.VErr)))} : KeepsAll KnownStatic (nsConfig strict kv) := by
  refine all_struct (fun _ _ _ h => by cases h) fun f hf => ?_
  simp only [List.mem_cons, List.not_mem_nil, or_false] at hf
  rcases hf with rfl | rfl
  · exact all_field fun y m a hm h => hm
  · exact all_field fun y m a hm h => by
      rcases pointer_all h with rfl | ⟨r, h1, rfl⟩
      · intro r e; cases e
      · intro r' e
        cases e
        refine all_static y _ r ?_ h1
        cases hs : m.static with
        | none => exact .inr (.inr rfl)
        | some r0 => exact hm r0 hs

theorem all_metric_types {strict : Bool} {x : XTime} : KeepsAll (Spec.Yaml.ZeroOrKnownConfig x) (metricTypes strict) := by
  refine all_struct (fun m hm => ⟨hm.static, fun _ h => (by cases h), fun _ h => (by cases h), hm.default, hm.overrides⟩) fun f hf => ?_
  simp only [List.mem_cons, List.not_mem_nil, or_false] at hf
  rcases hf with rfl | rfl | rfl
  · exact all_field fun y m a hm h => ⟨hm.static, hm.allowed, hm.multi, hm.default, hm.overrides⟩
  · exact all_field fun y m a hm h => ⟨hm.static, metrics_all h, hm.multi, hm.default, hm.overrides⟩
  · exact all_field fun y m a hm h => by
      rcases pointer_all h with rfl | ⟨ts, h1, rfl⟩
      · exact ⟨hm.static, hm.allowed, fun _ e => (by cases e), hm.default, hm.overrides⟩
      · exact ⟨hm.static, hm.allowed, fun _ e => by cases e; exact metrics_all h1, hm.default, hm.overrides⟩

theorem all_policies_part {strict : Bool} {x : XTime} : KeepsAll (Spec.Yaml.ZeroOrKnownConfig x) (policies strict x) := by
  refine all_struct (fun m hm => ⟨hm.static, hm.allowed, hm.multi, all_none x, fun _ h => (by cases h)⟩) fun f hf => ?_
  simp only [List.mem_cons, List.not_mem_nil, or_false] at hf
  rcases hf with rfl | rfl
  · exact all_field fun y m a hm h => ⟨hm.static, hm.allowed, hm.multi, all_policies y _ a hm.default h, hm.overrides⟩
  · exact all_field fun y m a hm h => ⟨hm.static, hm.allowed, hm.multi, hm.default, all_seq all_override ⟨.inl rfl, all_none x⟩ h⟩

/-- C105: whatever the document, with nulls or without: a configuration that is accepted has nothing but what known words name and the
type, the metric type and the storage policy that no word stands for, which are what a null is read as. -/
theorem C105_zero_or_known (strict : Bool) (x : XTime) (kv : Rd (Option (Option (Bytes → Option Val.VErr)))) (y : Y) (c : Val.Config)
    (h : config strict x kv y zeroConfig = some c) : Spec.Yaml.ZeroOrKnownConfig x c := by
  have h0 : Spec.Yaml.ZeroOrKnownConfig x zeroConfig :=
    ⟨fun _ h => (by cases h), fun _ h => (by cases h), fun _ h => (by cases h), all_none x, fun _ h => (by cases h)⟩
  refine (all_struct (P := Spec.Yaml.ZeroOrKnownConfig x) (fun _ _ => h0) fun f hf => ?_) y zeroConfig c h0 h
  simp only [List.mem_cons, List.not_mem_nil, or_false] at hf
  rcases hf with rfl | rfl | rfl | rfl | rfl | rfl | rfl | rfl
  · exact all_field fun y m a hm h => ⟨all_ns y _ a hm.static h, hm.allowed, hm.multi, hm.default, hm.overrides⟩
  · exact all_field fun y m a hm h => ⟨hm.static, hm.allowed, hm.multi, hm.default, hm.overrides⟩
  · exact all_field fun y m a hm h => ⟨hm.static, hm.allowed, hm.multi, hm.default, hm.overrides⟩
  · exact all_field fun y m a hm h => ⟨hm.static, hm.allowed, hm.multi, hm.default, hm.overrides⟩
  · exact all_field fun y m a hm h => all_metric_types y _ a hm h
  · exact all_field fun y m a hm h => all_policies_part y _ a hm h
  · exact all_field fun y m a hm h => ⟨hm.static, hm.allowed, hm.multi, hm.default, hm.overrides⟩
  · exact all_field fun y m a hm h => ⟨hm.static, hm.allowed, hm.multi, hm.default, hm.overrides⟩

/-- Null counters and null policies. -/
example : (typesConfig true (.map [(bs "defaultCounterAggregationTypes", .null), (bs "defaultGaugeAggregationTypes", .seq [.scalar (bs "Max") none])]) {}).map
      (fun c => (c.defaultCounter, c.defaultGauge)) = some (none, some [3]) ∧
    (config true unitX (fun _ _ => some none) (.map [(bs "policies", .null), (bs "maxRollupLevels", .scalar (bs "3") (some 3))]) zeroConfig).map
      (fun c => (c.maxLevels, c.overrides.length)) = some (some 3, 0) := by decide +kernel

end Verif.Yaml
