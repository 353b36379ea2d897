import Verif.Lemmas.Json
/- C81: members that a JSON document does not have are zero, whatever else it has. -/
namespace Verif.Json
open Verif.Policy Verif.RuleSet Verif.Spec.Json
open Verif.Rules (RollupTarget)
open Verif.MP (StagedPolicies)

/-! ### Names -/

/-- The names of fields are letters. -/
def Letters (n : Bytes) : Prop := ∀ c ∈ n, letterForms c ≠ []

instance (n : Bytes) : Decidable (Letters n) := by unfold Letters; infer_instance

theorem forms_of : ∀ {c : UInt8} {p : Bytes}, p ∈ letterForms c → (∃ b, p = [b] ∧ lower b = lower c ∧ b ≠ 0xC5 ∧ b ≠ 0xE2) ∨
    (p = [0xC5, 0xBF] ∧ lower c = 0x73) ∨ (p = [0xE2, 0x84, 0xAA] ∧ lower c = 0x6B) := by
  have h : ∀ n : Fin 256, ∀ p ∈ letterForms (UInt8.ofNat n), (p.length = 1 ∧ p.head?.map lower = some (lower (UInt8.ofNat n)) ∧ p ≠ [0xC5] ∧ p ≠ [0xE2]) ∨
      (p = [0xC5, 0xBF] ∧ lower (UInt8.ofNat n) = 0x73) ∨ (p = [0xE2, 0x84, 0xAA] ∧ lower (UInt8.ofNat n) = 0x6B) := by decide +kernel
  intro c p hp
  have := h ⟨c.toNat, c.toNat_lt⟩ p (by simpa using hp)
  simp only [UInt8.ofNat_toNat] at this
  rcases this with ⟨h1, h2, h3, h4⟩ | h | h
  · obtain ⟨b, rfl⟩ := List.length_eq_one_iff.mp h1
    exact .inl ⟨b, rfl, by simpa using h2, by simpa using h3, by simpa using h4⟩
  · exact .inr (.inl h)
  · exact .inr (.inr h)

theorem forms_has : ∀ {c : UInt8}, letterForms c ≠ [] → (∀ b, lower b = lower c → [b] ∈ letterForms c) ∧
    (lower c = 0x73 → [0xC5, 0xBF] ∈ letterForms c) ∧ (lower c = 0x6B → [0xE2, 0x84, 0xAA] ∈ letterForms c) := by
  have h : ∀ n : Fin 256, letterForms (UInt8.ofNat n) ≠ [] →
      (∀ b : Fin 256, lower (UInt8.ofNat b) = lower (UInt8.ofNat n) → [UInt8.ofNat b] ∈ letterForms (UInt8.ofNat n)) ∧
      (lower (UInt8.ofNat n) = 0x73 → [0xC5, 0xBF] ∈ letterForms (UInt8.ofNat n)) ∧
      (lower (UInt8.ofNat n) = 0x6B → [0xE2, 0x84, 0xAA] ∈ letterForms (UInt8.ofNat n)) := by decide +kernel
  intro c hc
  have := h ⟨c.toNat, c.toNat_lt⟩ (by simpa using hc)
  simp only [UInt8.ofNat_toNat] at this
  refine ⟨fun b hb => ?_, this.2⟩
  have hb' := this.1 ⟨b.toNat, b.toNat_lt⟩
  simp only [UInt8.ofNat_toNat] at hb'
  exact hb' hb

theorem fold_cases (k : Bytes) : k = [] ∨ (∃ r, k = 0xC5 :: 0xBF :: r ∧ foldName k = 0x73 :: foldName r) ∨
    (∃ r, k = 0xE2 :: 0x84 :: 0xAA :: r ∧ foldName k = 0x6B :: foldName r) ∨ ∃ b r, k = b :: r ∧ foldName k = lower b :: foldName r := by
  fun_cases foldName k
  · exact .inl rfl
  · exact .inr (.inl ⟨_, rfl, rfl⟩)
  · exact .inr (.inr (.inl ⟨_, rfl, rfl⟩))
  · exact .inr (.inr (.inr ⟨_, _, rfl, rfl⟩))

theorem fold_plain {b : UInt8} (h1 : b ≠ 0xC5) (h2 : b ≠ 0xE2) (r : Bytes) : foldName (b :: r) = lower b :: foldName r := by
  rw [foldName]
  · intro r' h; exact absurd h h1
  · intro r' h; exact absurd h h2

/-- What is read as a name. -/
theorem spelt_iff : ∀ {n : Bytes}, Letters n → ∀ k : Bytes, spelt k n = true ↔ foldName k = n.map lower
  | [], _, k => by
    rcases fold_cases k with rfl | ⟨r, rfl, h⟩ | ⟨r, rfl, h⟩ | ⟨b, r, rfl, h⟩
    · simp [spelt, foldName]
    all_goals rw [h]; simp [spelt]
  | c :: cs, hl, k => by
    have ih := spelt_iff (n := cs) fun d hd => hl d (List.mem_cons_of_mem _ hd)
    obtain ⟨h1, h2, h3⟩ := forms_has (hl c (by simp))
    unfold spelt
    simp only [List.any_eq_true, Bool.and_eq_true, List.isPrefixOf_iff_prefix, List.map_cons]
    constructor
    · rintro ⟨p, hp, ⟨r, rfl⟩, hs⟩
      rw [List.drop_left, ih] at hs
      rcases forms_of hp with ⟨b, rfl, e, n1, n2⟩ | ⟨rfl, e⟩ | ⟨rfl, e⟩
      · rw [List.singleton_append, fold_plain n1 n2, hs, e]
      · rw [e, ← hs]; rfl
      · rw [e, ← hs]; rfl
    · intro h
      rcases fold_cases k with rfl | ⟨r, rfl, e⟩ | ⟨r, rfl, e⟩ | ⟨b, r, rfl, e⟩
      · cases h
      all_goals
        rw [e] at h
        obtain ⟨e1, e2⟩ := List.cons.inj h
      · exact ⟨_, h2 e1.symm, ⟨r, rfl⟩, (ih r).mpr e2⟩
      · exact ⟨_, h3 e1.symm, ⟨r, rfl⟩, (ih r).mpr e2⟩
      · exact ⟨_, h1 b e1, ⟨r, rfl⟩, (ih r).mpr e2⟩

theorem fold_letters : ∀ {n : Bytes}, Letters n → foldName n = n.map lower
  | [], _ => rfl
  | c :: cs, h => by
    have hc := (forms_has (h c (by simp))).1 c rfl
    rcases forms_of hc with ⟨b, e, _, n1, n2⟩ | ⟨e, _⟩ | ⟨e, _⟩
    · cases e
      rw [fold_plain n1 n2, fold_letters fun d hd => h d (List.mem_cons_of_mem _ hd)]
      rfl
    all_goals simp at e

/-- The document has no member that is read as this name. -/
def Absent (l : List (Bytes × J)) (n : String) : Prop := ∀ e ∈ l, spelt e.1 (bs n) = false

instance (l : List (Bytes × J)) (n : String) : Decidable (Absent l n) := by unfold Absent; infer_instance

theorem find_named {fs : List (Field M)} {k : Bytes} {f : Field M} (h : findField fs k = some f) :
    f ∈ fs ∧ foldName f.name = foldName k := by
  unfold findField at h
  cases h1 : fs.find? fun f => f.name == k with
  | some g =>
    rw [h1] at h
    cases h
    have := List.find?_some h1
    simp only [beq_iff_eq] at this
    exact ⟨List.mem_of_find?_eq_some h1, by rw [this]⟩
  | none =>
    rw [h1] at h
    have := List.find?_some h
    exact ⟨List.mem_of_find?_eq_some h, by simpa using this⟩

/-- Members of other names leave a part as it is. -/
theorem members_keep {fs : List (Field M)} {n : String} {get : M → A} (hl : Letters (bs n))
    (hf : ∀ f ∈ fs, f.name ≠ bs n → ∀ j m m', f.dec j m = some m' → get m' = get m) :
    ∀ (l : List (Bytes × J)) (m m' : M), Absent l n → decMembers fs l m = some m' → get m' = get m
  | [], m, m', _, h => by cases h; rfl
  | (k, j) :: l, m, m', ha, h => by
    have ha' : Absent l n := fun e he => ha e (List.mem_cons_of_mem _ he)
    unfold decMembers at h
    cases hff : findField fs k with
    | none => rw [hff] at h; exact members_keep hl hf l m m' ha' h
    | some f =>
      rw [hff] at h
      simp only at h
      cases hd : f.dec j m with
      | none => rw [hd] at h; cases h
      | some m1 =>
        rw [hd] at h
        obtain ⟨h1, h2⟩ := find_named hff
        rw [members_keep hl hf l m1 m' ha' h]
        refine hf f h1 (fun hn => ?_) j m m1 hd
        have e := (spelt_iff hl k).mpr (by rw [← h2, hn, fold_letters hl])
        have := ha (k, j) (by simp)
        simp only [e] at this
        cases this

theorem field_keep {c : Codec A} {nm : Bytes} {g : M → A} {s : M → A → M} {get : M → B} (h : ∀ m v, get (s m v) = get m) (j : J) (m m' : M)
    (hd : (field nm c g s).dec j m = some m') : get m' = get m := by
  unfold field at hd
  simp only [Option.map_eq_some_iff] at hd
  obtain ⟨v, _, rfl⟩ := hd
  exact h m v

theorem omit_keep {c : Codec A} {nm : Bytes} {e : A → Bool} {g : M → A} {s : M → A → M} {get : M → B} (h : ∀ m v, get (s m v) = get m)
    (j : J) (m m' : M) (hd : (omitField nm c e g s).dec j m = some m') : get m' = get m := by
  unfold omitField at hd
  simp only [Option.map_eq_some_iff] at hd
  obtain ⟨v, _, rfl⟩ := hd
  exact h m v

/-- C81: a rule, a target, a rule set, a namespace that is read from a document has the zero value of its type - the empty text, the
empty list, false, 0 - wherever the document has no member for it. -/
theorem C81_absent (x : XTime) (l : List (Bytes × J)) :
    (∀ v, (mappingView x).dec (.obj l) zeroMapping = some v → (Absent l "id" → v.id = []) ∧ (Absent l "name" → v.name = []) ∧
      (Absent l "tombstoned" → v.tombstoned = false) ∧ (Absent l "cutoverMillis" → v.cutoverMillis = 0) ∧
      (Absent l "filter" → v.filter = []) ∧ (Absent l "aggregation" → v.aggID = 0) ∧
      (Absent l "storagePolicies" → v.storagePolicies = []) ∧ (Absent l "dropPolicy" → v.drop = 0) ∧
      (Absent l "lastUpdatedBy" → v.lastUpdatedBy = []) ∧ (Absent l "lastUpdatedAtMillis" → v.lastUpdatedAtMillis = 0)) ∧
    (∀ v, (rollupView x).dec (.obj l) zeroRollup = some v → (Absent l "id" → v.id = []) ∧ (Absent l "name" → v.name = []) ∧
      (Absent l "tombstoned" → v.tombstoned = false) ∧ (Absent l "cutoverMillis" → v.cutoverMillis = 0) ∧
      (Absent l "filter" → v.filter = []) ∧ (Absent l "targets" → v.targets = []) ∧
      (Absent l "lastUpdatedBy" → v.lastUpdatedBy = []) ∧ (Absent l "lastUpdatedAtMillis" → v.lastUpdatedAtMillis = 0)) ∧
    (∀ v, (target x).dec (.obj l) zeroTarget = some v → (Absent l "pipeline" → v.pipeline = []) ∧
      (Absent l "storagePolicies" → v.storagePolicies = [])) ∧
    (∀ v, (ruleSetView x).dec (.obj l) zeroRuleSet = some v → (Absent l "id" → v.namespace_ = []) ∧ (Absent l "version" → v.version = 0) ∧
      (Absent l "cutoverMillis" → v.cutoverMillis = 0) ∧ (Absent l "mappingRules" → v.mappingRules = []) ∧
      (Absent l "rollupRules" → v.rollupRules = [])) ∧
    (∀ v, namespaceView.dec (.obj l) zeroNamespace = some v → (Absent l "id" → v.id = []) ∧
      (Absent l "forRuleSetVersion" → v.forRuleSetVersion = 0) ∧ (Absent l "tombstoned" → v.tombstoned = false) ∧
      (Absent l "lastUpdatedBy" → v.lastUpdatedBy = []) ∧ (Absent l "lastUpdatedAtMillis" → v.lastUpdatedAtMillis = 0)) := by
  have keep : ∀ {M : Type} {A : Type} {fs : List (Field M)} {n : String} {get : M → A}, Letters (bs n) →
      (∀ f ∈ fs, f.name ≠ bs n → ∀ j m m', f.dec j m = some m' → get m' = get m) →
      ∀ {zero v : M}, (struct fs).dec (.obj l) zero = some v → Absent l n → get v = get zero :=
    fun {_ _ _ _ _} hl hf {zero v} h ha => members_keep hl hf l zero v ha h
  refine ⟨fun v h => ?_, fun v h => ?_, fun v h => ?_, fun v h => ?_, fun v h => ?_⟩
  · have k : ∀ {A : Type} (n : String) (get : MappingView → A), Letters (bs n) →
        (∀ f ∈ mappingFields x, f.name ≠ bs n → ∀ j m m', f.dec j m = some m' → get m' = get m) → Absent l n → get v = get zeroMapping :=
      fun n get hl hf ha => keep hl hf h ha
    refine ⟨k "id" (·.id) (by decide) ?_, k "name" (·.name) (by decide) ?_, k "tombstoned" (·.tombstoned) (by decide) ?_, k "cutoverMillis" (·.cutoverMillis) (by decide) ?_, k "filter" (·.filter) (by decide) ?_,
      k "aggregation" (·.aggID) (by decide) ?_, k "storagePolicies" (·.storagePolicies) (by decide) ?_, k "dropPolicy" (·.drop) (by decide) ?_, k "lastUpdatedBy" (·.lastUpdatedBy) (by decide) ?_,
      k "lastUpdatedAtMillis" (·.lastUpdatedAtMillis) (by decide) ?_⟩ <;>
    · intro f hf hn
      simp only [mappingFields, List.mem_cons, List.not_mem_nil, or_false] at hf
      rcases hf with rfl | rfl | rfl | rfl | rfl | rfl | rfl | rfl | rfl | rfl <;>
      first
        | exact absurd rfl hn
        | exact field_keep fun _ _ => rfl
        | exact omit_keep fun _ _ => rfl
  · have k : ∀ {A : Type} (n : String) (get : RollupView → A), Letters (bs n) →
        (∀ f ∈ rollupViewFields x, f.name ≠ bs n → ∀ j m m', f.dec j m = some m' → get m' = get m) → Absent l n → get v = get zeroRollup :=
      fun n get hl hf ha => keep hl hf h ha
    refine ⟨k "id" (·.id) (by decide) ?_, k "name" (·.name) (by decide) ?_, k "tombstoned" (·.tombstoned) (by decide) ?_, k "cutoverMillis" (·.cutoverMillis) (by decide) ?_, k "filter" (·.filter) (by decide) ?_,
      k "targets" (·.targets) (by decide) ?_, k "lastUpdatedBy" (·.lastUpdatedBy) (by decide) ?_, k "lastUpdatedAtMillis" (·.lastUpdatedAtMillis) (by decide) ?_⟩ <;>
    · intro f hf hn
      simp only [rollupViewFields, List.mem_cons, List.not_mem_nil, or_false] at hf
      rcases hf with rfl | rfl | rfl | rfl | rfl | rfl | rfl | rfl <;>
      first
        | exact absurd rfl hn
        | exact field_keep fun _ _ => rfl
        | exact omit_keep fun _ _ => rfl
  · have k : ∀ {A : Type} (n : String) (get : RollupTarget → A), Letters (bs n) →
        (∀ f ∈ targetFields x, f.name ≠ bs n → ∀ j m m', f.dec j m = some m' → get m' = get m) → Absent l n → get v = get zeroTarget :=
      fun n get hl hf ha => keep hl hf h ha
    refine ⟨k "pipeline" (·.pipeline) (by decide) ?_, k "storagePolicies" (·.storagePolicies) (by decide) ?_⟩ <;>
    · intro f hf hn
      simp only [targetFields, List.mem_cons, List.not_mem_nil, or_false] at hf
      rcases hf with rfl | rfl <;>
      first
        | exact absurd rfl hn
        | exact field_keep fun _ _ => rfl
  · have k : ∀ {A : Type} (n : String) (get : RuleSetView → A), Letters (bs n) →
        (∀ f ∈ ruleSetFields x, f.name ≠ bs n → ∀ j m m', f.dec j m = some m' → get m' = get m) → Absent l n → get v = get zeroRuleSet :=
      fun n get hl hf ha => keep hl hf h ha
    refine ⟨k "id" (·.namespace_) (by decide) ?_, k "version" (·.version) (by decide) ?_, k "cutoverMillis" (·.cutoverMillis) (by decide) ?_, k "mappingRules" (·.mappingRules) (by decide) ?_,
      k "rollupRules" (·.rollupRules) (by decide) ?_⟩ <;>
    · intro f hf hn
      simp only [ruleSetFields, List.mem_cons, List.not_mem_nil, or_false] at hf
      rcases hf with rfl | rfl | rfl | rfl | rfl <;>
      first
        | exact absurd rfl hn
        | exact field_keep fun _ _ => rfl
  · have k : ∀ {A : Type} (n : String) (get : NS.NamespaceView → A), Letters (bs n) →
        (∀ f ∈ namespaceFields, f.name ≠ bs n → ∀ j m m', f.dec j m = some m' → get m' = get m) → Absent l n → get v = get zeroNamespace :=
      fun n get hl hf ha => keep hl hf h ha
    refine ⟨k "id" (·.id) (by decide) ?_, k "forRuleSetVersion" (·.forRuleSetVersion) (by decide) ?_, k "tombstoned" (·.tombstoned) (by decide) ?_, k "lastUpdatedBy" (·.lastUpdatedBy) (by decide) ?_,
      k "lastUpdatedAtMillis" (·.lastUpdatedAtMillis) (by decide) ?_⟩ <;>
    · intro f hf hn
      simp only [namespaceFields, List.mem_cons, List.not_mem_nil, or_false] at hf
      rcases hf with rfl | rfl | rfl | rfl | rfl <;>
      first
        | exact absurd rfl hn
        | exact field_keep fun _ _ => rfl

/-- A document with a name in capitals, and one member that no field is for: all but the name is zero. -/
example (x : XTime) : let l := [(bs "NAME", J.str (bs "a")), (bs "colour", .num 3)]
    (mappingView x).dec (.obj l) zeroMapping = some ⟨[], bs "a", false, 0, [], 0, [], 0, [], 0⟩ ∧ Absent l "filter" ∧ ¬ Absent l "name" := by
  refine ⟨rfl, by decide, by decide⟩

/-! ### Null -/

/-- A member that is null does nothing, where the field for it takes null for nothing. -/
theorem members_null {fs : List (Field M)} {k : Bytes} (hf : ∀ f, findField fs k = some f → ∀ m, f.dec .null m = some m) :
    ∀ (l l' : List (Bytes × J)) (m : M), decMembers fs (l ++ (k, .null) :: l') m = decMembers fs (l ++ l') m
  | [], l', m => by
    show decMembers fs ((k, .null) :: l') m = decMembers fs l' m
    rw [decMembers]
    cases h : findField fs k with
    | none => rfl
    | some f => simp only; rw [hf f h m]
  | (k', j) :: l, l', m => by
    show decMembers fs ((k', j) :: (l ++ (k, .null) :: l')) m = decMembers fs ((k', j) :: (l ++ l')) m
    rw [decMembers, decMembers]
    cases h : findField fs k' with
    | none => exact members_null hf l l' m
    | some f =>
      simp only
      cases hd : f.dec j m with
      | none => rfl
      | some m' => exact members_null hf l l' m'

/-- The text is read as one of the names. -/
def Named (k : Bytes) (ns : List String) : Prop := ∃ n ∈ ns, spelt k (bs n) = true

/-- C81: where a rule, a rule set or a namespace has a text, a number or a truth value, a member that is null is as good as none,
wherever it stands. -/
theorem C81_null (x : XTime) (l l' : List (Bytes × J)) (k : Bytes) :
    (Named k ["id", "name", "tombstoned", "cutoverMillis", "filter", "lastUpdatedBy", "lastUpdatedAtMillis"] →
      (mappingView x).dec (.obj (l ++ (k, .null) :: l')) = (mappingView x).dec (.obj (l ++ l')) ∧
      (rollupView x).dec (.obj (l ++ (k, .null) :: l')) = (rollupView x).dec (.obj (l ++ l'))) ∧
    (Named k ["id", "version", "cutoverMillis"] →
      (ruleSetView x).dec (.obj (l ++ (k, .null) :: l')) = (ruleSetView x).dec (.obj (l ++ l'))) ∧
    (Named k ["id", "forRuleSetVersion", "tombstoned", "lastUpdatedBy", "lastUpdatedAtMillis"] →
      namespaceView.dec (.obj (l ++ (k, .null) :: l')) = namespaceView.dec (.obj (l ++ l'))) := by
  have named : ∀ {M : Type} {fs : List (Field M)} {ns : List String}, (∀ n ∈ ns, Letters (bs n)) → (∀ n ∈ ns, ∀ f ∈ fs, foldName f.name = foldName (bs n) →
      ∀ m, f.dec .null m = some m) → Named k ns → (struct fs).dec (.obj (l ++ (k, .null) :: l')) = (struct fs).dec (.obj (l ++ l')) := by
    intro M fs ns hl h hk
    obtain ⟨n, hn, e⟩ := hk
    funext m
    refine members_null (fun f hf => ?_) l l' m
    obtain ⟨h1, h2⟩ := find_named hf
    rw [spelt_iff (hl n hn), ← fold_letters (hl n hn)] at e
    exact h n hn f h1 (h2.trans e)
  refine ⟨fun h => ⟨named (by decide) ?_ h, named (by decide) ?_ h⟩, named (by decide) ?_, named (by decide) ?_⟩
  · intro n hn f hf he
    simp only [mappingFields, List.mem_cons, List.not_mem_nil, or_false] at hf hn
    rcases hf with rfl | rfl | rfl | rfl | rfl | rfl | rfl | rfl | rfl | rfl <;>
    first
      | exact fun m => rfl
      | (exfalso; revert he; simp only [field, omitField]; rcases hn with rfl | rfl | rfl | rfl | rfl | rfl | rfl <;> decide +kernel)
  · intro n hn f hf he
    simp only [rollupViewFields, List.mem_cons, List.not_mem_nil, or_false] at hf hn
    rcases hf with rfl | rfl | rfl | rfl | rfl | rfl | rfl | rfl <;>
    first
      | exact fun m => rfl
      | (exfalso; revert he; simp only [field, omitField]; rcases hn with rfl | rfl | rfl | rfl | rfl | rfl | rfl <;> decide +kernel)
  · intro n hn f hf he
    simp only [ruleSetFields, List.mem_cons, List.not_mem_nil, or_false] at hf hn
    rcases hf with rfl | rfl | rfl | rfl | rfl <;>
    first
      | exact fun m => rfl
      | (exfalso; revert he; simp only [field, omitField]; rcases hn with rfl | rfl | rfl <;> decide +kernel)
  · intro n hn f hf he
    simp only [namespaceFields, List.mem_cons, List.not_mem_nil, or_false] at hf hn
    rcases hf with rfl | rfl | rfl | rfl | rfl <;>
    first
      | exact fun m => rfl
      | (exfalso; revert he; simp only [field, omitField]; rcases hn with rfl | rfl | rfl | rfl | rfl <;> decide +kernel)

example : Named (bs "ToMBstoned") ["id", "tombstoned"] := ⟨"tombstoned", by simp, by decide⟩

/-! ### Other spellings -/

/-- No two fields have names that are read alike. -/
def Distinct (fs : List (Field M)) : Prop := (fs.map fun f => foldName f.name).Nodup

theorem find_fold {fs : List (Field M)} (hd : Distinct fs) {k k' : Bytes} (h : foldName k = foldName k') : findField fs k = findField fs k' := by
  have key : ∀ k : Bytes, findField fs k = fs.find? fun f => foldName f.name == foldName k := by
    intro k
    unfold findField
    cases h1 : fs.find? fun f => f.name == k with
    | none => rfl
    | some f =>
      have hn : f.name = k := by simpa using List.find?_some h1
      have hm := List.mem_of_find?_eq_some h1
      clear h1
      subst hn
      simp only
      unfold Distinct at hd
      induction fs with
      | nil => cases hm
      | cons g gs ih =>
        rw [List.map_cons, List.nodup_cons] at hd
        by_cases e : foldName g.name = foldName f.name
        · rcases List.mem_cons.mp hm with rfl | hm
          · simp
          · exact absurd (List.mem_map.mpr ⟨f, hm, e.symm⟩) hd.1
        · rcases List.mem_cons.mp hm with rfl | hm
          · exact absurd rfl e
          · rw [List.find?_cons_of_neg (by simpa using e)]
            exact ih hd.2 hm
  rw [key, key, h]

theorem members_spelling {fs : List (Field M)} (hd : Distinct fs) {k k' : Bytes} (h : foldName k = foldName k') (j : J) :
    ∀ (l l' : List (Bytes × J)) (m : M), decMembers fs (l ++ (k, j) :: l') m = decMembers fs (l ++ (k', j) :: l') m
  | [], l', m => by
    show decMembers fs ((k, j) :: l') m = decMembers fs ((k', j) :: l') m
    rw [decMembers, decMembers, find_fold hd h]
  | (k0, j0) :: l, l', m => by
    show decMembers fs ((k0, j0) :: (l ++ (k, j) :: l')) m = decMembers fs ((k0, j0) :: (l ++ (k', j) :: l')) m
    rw [decMembers, decMembers]
    cases findField fs k0 with
    | none => exact members_spelling hd h j l l' m
    | some f =>
      simp only
      cases f.dec j0 m with
      | none => rfl
      | some m' => exact members_spelling hd h j l l' m'

/-- C81: in documents of rules, targets, rule sets, namespaces, changes, staged policies and rollup operations, a member whose name is
spelt otherwise - in capitals, with the long s or the Kelvin sign - is read as the one with the name itself. -/
theorem C81_spelling (x : XTime) (l l' : List (Bytes × J)) (k : Bytes) (n : String) (j : J) (hn : Letters (bs n)) (h : spelt k (bs n) = true) :
    (mappingView x).dec (.obj (l ++ (k, j) :: l')) = (mappingView x).dec (.obj (l ++ (bs n, j) :: l')) ∧
    (rollupView x).dec (.obj (l ++ (k, j) :: l')) = (rollupView x).dec (.obj (l ++ (bs n, j) :: l')) ∧
    (target x).dec (.obj (l ++ (k, j) :: l')) = (target x).dec (.obj (l ++ (bs n, j) :: l')) ∧
    (ruleSetView x).dec (.obj (l ++ (k, j) :: l')) = (ruleSetView x).dec (.obj (l ++ (bs n, j) :: l')) ∧
    namespaceView.dec (.obj (l ++ (k, j) :: l')) = namespaceView.dec (.obj (l ++ (bs n, j) :: l')) ∧
    (changes x).dec (.obj (l ++ (k, j) :: l')) = (changes x).dec (.obj (l ++ (bs n, j) :: l')) ∧
    (stagedPolicies x).dec (.obj (l ++ (k, j) :: l')) = (stagedPolicies x).dec (.obj (l ++ (bs n, j) :: l')) ∧
    rollupOp.dec (.obj (l ++ (k, j) :: l')) = rollupOp.dec (.obj (l ++ (bs n, j) :: l')) := by
  rw [spelt_iff hn, ← fold_letters hn] at h
  have e : ∀ {M : Type} {fs : List (Field M)} (ns : List String), fs.map (·.name) = ns.map bs → ((ns.map bs).map foldName).Nodup →
      (struct fs).dec (.obj (l ++ (k, j) :: l')) = (struct fs).dec (.obj (l ++ (bs n, j) :: l')) := by
    intro M fs ns h1 h2
    refine funext fun m => members_spelling ?_ h j l l' m
    unfold Distinct
    rw [← h1, List.map_map] at h2
    exact h2
  refine ⟨e ["id", "name", "tombstoned", "cutoverMillis", "filter", "aggregation", "storagePolicies", "dropPolicy", "lastUpdatedBy",
      "lastUpdatedAtMillis"] rfl (by decide +kernel),
    e ["id", "name", "tombstoned", "cutoverMillis", "filter", "targets", "lastUpdatedBy", "lastUpdatedAtMillis"] rfl (by decide +kernel),
    e ["pipeline", "storagePolicies"] rfl (by decide +kernel),
    e ["id", "version", "cutoverMillis", "mappingRules", "rollupRules"] rfl (by decide +kernel),
    e ["id", "forRuleSetVersion", "tombstoned", "lastUpdatedBy", "lastUpdatedAtMillis"] rfl (by decide +kernel),
    e ["namespace", "mappingRuleChanges", "rollupRuleChanges"] rfl (by decide +kernel),
    funext fun _ => congrFun (e ["cutoverNanos", "tombstoned", "policies"] rfl (by decide +kernel)) _,
    funext fun _ => congrFun (e ["newName", "tags", "aggregation"] rfl (by decide +kernel)) _⟩

/-- "TombſtoneD" with a long s. -/
example : spelt (bs "Tomb" ++ [197, 191] ++ bs "toneD") (bs "tombstoned") = true ∧ Letters (bs "tombstoned") ∧
    spelt (bs "tomb_stoned") (bs "tombstoned") = false := by decide +kernel

end Verif.Json
