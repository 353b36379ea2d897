import Verif.Spec.Json
import Verif.Props.Validator
import Verif.Props.Aggregation
import Verif.Props.Transformation
/- Lemmas about the JSON forms. -/
namespace Verif.Json
open Verif.Policy Verif.RuleSet Verif.Spec.Json
open Verif.Rules (RollupTarget)
open Verif.MP (StagedPolicies)

/-! ### Texts -/

theorem encodeRune_eq : encodeRune = Spec.Val.utf8 := rfl

theorem second_range {n : Nat} {b : UInt8} (h : Val.second n b = true) :
    0x80 ≤ b.toNat ∧ b.toNat ≤ 0xBF ∧ (n = 0xE0 → 0xA0 ≤ b.toNat) ∧ (n = 0xF0 → 0x90 ≤ b.toNat) ∧ (n = 0xED → b.toNat ≤ 0x9F) ∧
    (n = 0xF4 → b.toNat ≤ 0x8F) := by
  simp only [Val.second, Bool.and_eq_true, decide_eq_true_eq] at h
  obtain ⟨h1, h2⟩ := h
  by_cases e1 : n = 0xE0
  · subst e1; simp at h1 h2; omega
  · by_cases e2 : n = 0xF0
    · subst e2; simp at h1 h2; omega
    · by_cases e3 : n = 0xED
      · subst e3; simp at h1 h2; omega
      · by_cases e4 : n = 0xF4
        · subst e4; simp at h1 h2; omega
        · simp [e1, e2, e3, e4] at h1 h2; omega

theorem cont_range {b : UInt8} (h : Val.isCont b = true) : 0x80 ≤ b.toNat ∧ b.toNat ≤ 0xBF := by
  simpa [Val.isCont] using h

theorem rune_scalar (b : UInt8) (r : Bytes) : Spec.Val.Scalar (Val.rune b r).1 := by
  unfold Spec.Val.Scalar Val.rune
  simp only
  split
  · left; simp only; omega
  · split
    · split
      · split
        · rename_i h
          have := cont_range h
          left; simp only; omega
        · simp
      · simp
    · split
      · split
        · split
          · rename_i h
            rw [Bool.and_eq_true] at h
            have h1 := second_range h.1
            have h2 := cont_range h.2
            simp only
            by_cases e : b.toNat = 0xED
            · have := h1.2.2.2.2.1 e; omega
            · omega
          · simp
        · simp
      · split
        · split
          · split
            · rename_i h
              rw [Bool.and_eq_true, Bool.and_eq_true] at h
              have h1 := second_range h.1.1
              have h2 := cont_range h.1.2
              have h3 := cont_range h.2
              simp only
              right
              by_cases e : b.toNat = 0xF4
              · have := h1.2.2.2.2.2 e; omega
              · by_cases e' : b.toNat = 0xF0
                · have := h1.2.2.2.1 e'; omega
                · omega
            · simp
          · simp
        · simp

theorem runesLoop_scalar : ∀ (n : Nat) (s : Bytes), ∀ c ∈ Val.runesLoop n s, Spec.Val.Scalar c
  | 0, [], c, h => by cases h
  | 0, _ :: _, c, h => by cases h
  | n + 1, [], c, h => by cases h
  | n + 1, b :: s, c, h => by
    rw [Val.runesLoop] at h
    rcases List.mem_cons.mp h with rfl | h
    · exact rune_scalar b s
    · exact runesLoop_scalar n _ c h

theorem coerce_iff (s : Bytes) : coerce s = s ↔ Utf8 s := by
  constructor
  · intro h
    exact ⟨Val.runes s, runesLoop_scalar _ _, h.symm⟩
  · rintro ⟨cs, hcs, rfl⟩
    unfold coerce
    rw [(Val.C53_characters cs hcs []).1, encodeRune_eq]

/-! ### Codecs -/

/-- What is written of the value is read back over the older value. -/
def RT (c : Codec A) (a old : A) : Prop := ∃ j, c.enc a = some j ∧ c.dec j old = some a

theorem rt_string {s : Bytes} (h : Utf8 s) (old : Bytes) : RT string s old :=
  ⟨.str (coerce s), rfl, by show some (coerce s) = some s; rw [(coerce_iff s).mpr h]⟩

theorem rt_bool (b old : Bool) : RT boolean b old := ⟨.bool b, rfl, rfl⟩

theorem rt_int {n : Int} (h : Spec.Msg.Int64 n) (old : Int) : RT int64 n old := by
  refine ⟨.num n, rfl, ?_⟩
  unfold Spec.Msg.Int64 at h
  simp only [int64, integer]
  rw [if_pos (by omega)]

theorem rt_uint {n : Nat} (h : n < 2 ^ 64) (old : Nat) : RT uint n old := by
  refine ⟨.num n, rfl, ?_⟩
  simp only [uint]
  rw [if_pos (by omega)]
  simp

theorem rt_slice {c : Codec A} {zero : A} : ∀ {l : List A}, (∀ a ∈ l, RT c a zero) → RT (slice c zero) l []
  | [], _ => ⟨.arr [], rfl, rfl⟩
  | a :: l, h => by
    obtain ⟨j, h1, h2⟩ := h a (by simp)
    obtain ⟨js, h3, h4⟩ := rt_slice (fun a ha => h a (List.mem_cons_of_mem _ ha) : ∀ a ∈ l, RT c a zero)
    simp only [slice] at h3 h4
    cases he : arrEnc c l with
    | none => rw [he] at h3; cases h3
    | some l' =>
      rw [he] at h3
      cases h3
      refine ⟨.arr (j :: l'), by simp [slice, arrEnc, h1, he], ?_⟩
      simp only at h4
      simp only [slice, arrDec, List.headD_nil, List.tail_nil, h2, h4]

theorem rt_pointer_none {c : Codec A} {zero : A} (old : Option A) : RT (pointer c zero) none old := ⟨.null, rfl, rfl⟩

theorem rt_pointer {c : Codec A} {zero a : A} {j : J} (h1 : c.enc a = some j) (h2 : c.dec j zero = some a) (hn : j ≠ .null) :
    RT (pointer c zero) (some a) none := by
  refine ⟨j, h1, ?_⟩
  cases j <;> first | exact absurd rfl hn | (simp only [pointer, Option.getD_none, h2]; rfl)

/-! ### Structures -/

/-- One field of `m` is written and read over `d`, which becomes `d'`. -/
def Step (f : Field M) (m d d' : M) : Prop :=
  (f.enc m = some none ∧ d' = d) ∨ ∃ j, f.enc m = some (some j) ∧ f.dec j d = some d'

def Steps : List (Field M) → M → M → M → Prop
  | [], _, d, r => d = r
  | f :: fs, m, d, r => ∃ d', Step f m d d' ∧ Steps fs m d' r

theorem step_field {name : Bytes} {c : Codec A} {get : M → A} {set : M → A → M} {m d : M} (h : RT c (get m) (get d)) :
    Step (field name c get set) m d (set d (get m)) := by
  obtain ⟨j, h1, h2⟩ := h
  exact Or.inr ⟨j, by simp [field, h1], by simp [field, h2]⟩

theorem step_omit {name : Bytes} {c : Codec A} {empty : A → Bool} {get : M → A} {set : M → A → M} {m d : M}
    (he : empty (get m) = true → set d (get m) = d) (h : empty (get m) = false → RT c (get m) (get d)) :
    Step (omitField name c empty get set) m d (set d (get m)) := by
  cases hm : empty (get m) with
  | true => exact Or.inl ⟨by simp [omitField, hm], he hm⟩
  | false =>
    obtain ⟨j, h1, h2⟩ := h hm
    exact Or.inr ⟨j, by simp [omitField, hm, h1], by simp [omitField, h2]⟩

theorem findField_self {fs : List (Field M)} (hn : (fs.map (·.name)).Nodup) {f : Field M} (h : f ∈ fs) :
    findField fs f.name = some f := by
  have : fs.find? (fun g => g.name == f.name) = some f := by
    induction fs with
    | nil => cases h
    | cons g fs ih =>
      rw [List.map_cons, List.nodup_cons] at hn
      rcases List.mem_cons.mp h with rfl | h
      · simp
      · have : g.name ≠ f.name := fun e => hn.1 (by rw [e]; exact List.mem_map_of_mem (f := (·.name)) h)
        rw [List.find?_cons]
        simp only [beq_eq_false_iff_ne.mpr this]
        exact ih hn.2 h
  simp [findField, this]

theorem steps_members {all : List (Field M)} (hn : (all.map (·.name)).Nodup) {m : M} : ∀ {fs : List (Field M)} {d r : M},
    (∀ f ∈ fs, f ∈ all) → Steps fs m d r → ∃ l, encFields m fs = some l ∧ decMembers all l d = some r
  | [], d, r, _, h => ⟨[], rfl, by cases h; rfl⟩
  | f :: fs, d, r, hs, ⟨d', h1, h2⟩ => by
    obtain ⟨l, h3, h4⟩ := steps_members hn (fun g hg => hs g (List.mem_cons_of_mem _ hg)) h2
    rcases h1 with ⟨e, rfl⟩ | ⟨j, e, e'⟩
    · exact ⟨l, by simp [encFields, e, h3], h4⟩
    · refine ⟨(f.name, j) :: l, by simp [encFields, e, h3], ?_⟩
      rw [decMembers, findField_self hn (hs f (by simp))]
      simp only [e']
      exact h4

/-- The structure is read back, and its form is an object. -/
theorem rt_struct {fs : List (Field M)} (hn : (fs.map (·.name)).Nodup) {m d : M} (h : Steps fs m d m) :
    ∃ l, (struct fs).enc m = some (.obj l) ∧ (struct fs).dec (.obj l) d = some m := by
  obtain ⟨l, h1, h2⟩ := steps_members hn (fun _ h => h) h
  exact ⟨l, by simp [struct, h1], by simp [struct, h2]⟩

/-! ### aggregation, transformation, policy -/

theorem rt_aggType {t : Int} (h : 1 ≤ t ∧ t ≤ 22) (old : Int) :
    aggType.enc t = some (.str (Agg.typeString Agg.goOutOfRange t)) ∧
    aggType.dec (.str (Agg.typeString Agg.goOutOfRange t)) old = some t := by
  have hv : Agg.isValid t = true := (Agg.isValid_iff t).mpr h
  refine ⟨by simp [aggType, hv], ?_⟩
  exact (Agg.parseType_typeString t h).1

theorem rt_types {l : List Int} (h : ∀ t ∈ l, 1 ≤ t ∧ t ≤ 22) : RT (slice aggType 0) l [] :=
  rt_slice fun t ht => ⟨_, rt_aggType (h t ht) 0⟩

theorem known_iff (id : BitVec 64) : KnownID id ↔ ∃ l, Agg.ID.types id = some l := by
  rw [Agg.C02_decodes_iff]
  unfold KnownID Spec.ValidAggType
  constructor
  · intro h i _ hb; have := h i hb; omega
  · intro h i hb
    have hi : i < 64 := Classical.byContradiction fun hn => by rw [BitVec.getLsbD_of_ge _ _ (by omega)] at hb; cases hb
    have := h i hi hb
    omega

theorem types_valid {id : BitVec 64} {l : List Int} (h : Agg.ID.types id = some l) : ∀ t ∈ l, 1 ≤ t ∧ t ≤ 22 := by
  intro t ht
  rcases Classical.em (Spec.ValidAggType t) with hv | hv
  · exact hv
  · have := (Agg.C01_fails_iff 0 l).mpr ⟨t, ht, hv⟩
    rw [Agg.C02_reencode 0 id l h] at this
    cases this

theorem rt_aggID {id : BitVec 64} (h : KnownID id) (old : Agg.ID) : RT aggID id old := by
  obtain ⟨l, hl⟩ := (known_iff id).mp h
  obtain ⟨j, h1, h2⟩ := rt_types (types_valid hl)
  refine ⟨j, by simp only [aggID, hl]; exact h1, ?_⟩
  simp only [aggID, h2]
  exact Agg.C02_reencode 0 id l hl

theorem rt_transType {t : Int} (h : t = 1 ∨ t = 2) (old : Int) :
    ∃ s, transType.enc t = some (.str s) ∧ transType.dec (.str s) old = some t := by
  have hv := ((Tf.C77_types t).1).mpr h
  cases hs : Tf.typeString t with
  | none => rcases h with rfl | rfl <;> cases hs
  | some s => exact ⟨s, by simp [transType, hv, hs], ((Tf.C77_types t).2.2.2.2.1 s).mpr ⟨hv, hs⟩⟩

theorem rt_storage {x : XTime} {p : StoragePolicy} (h : Printable x p) (old : StoragePolicy) : RT (storagePolicy x) p old :=
  ⟨_, rfl, C06_storage_policy_roundtrip x p h.1 h.2.1 h.2.2⟩

theorem rt_policy {x : XTime} {p : Policy} (h : Printable x p.sp) (hk : KnownID p.aggID) (old : Policy) : RT (policy x) p old :=
  ⟨_, rfl, C06_policy_roundtrip x p h.1 h.2.1 h.2.2 ((known_iff _).mp hk)⟩

theorem steps_cons {f : Field M} {fs : List (Field M)} {m d d' r : M} (h : Step f m d d') (h' : Steps fs m d' r) : Steps (f :: fs) m d r :=
  ⟨d', h, h'⟩

theorem RT.of {c : Codec A} {a old old' : A} (h : RT c a old) (e : old = old') : RT c a old' := e ▸ h

/-! ### Operations -/

theorem rt_rollup {op : Pipe.RollupOp} (h1 : Utf8 op.newName) (h2 : ∀ t ∈ op.tags, Utf8 t) (h3 : KnownID op.aggID) :
    ∃ l, rollupOp.enc op = some (.obj l) ∧ ∀ old, rollupOp.dec (.obj l) old = some op := by
  obtain ⟨l, e1, e2⟩ := rt_struct (fs := rollupFields) (m := op) (d := {}) (by decide)
    (steps_cons (step_field (rt_string h1 _)) (steps_cons (step_field (rt_slice fun t ht => rt_string (h2 t ht) _))
      (steps_cons (step_omit (fun h => nomatch h) (fun _ => rt_aggID h3 _)) rfl)))
  exact ⟨l, e1, fun _ => e2⟩

theorem steps_union {c : Union}
    (ha : c.aggregation ≠ none → RT (pointer aggOp 0) c.aggregation none)
    (ht : c.transformation ≠ none → RT (pointer transOp 0) c.transformation none)
    (hr : c.rollup ≠ none → RT (pointer rollupOp {}) c.rollup none) : Steps unionFields c {} c :=
  steps_cons (step_omit (fun h => by rw [Option.isNone_iff_eq_none.mp h]) (fun h => ha fun e => by rw [e] at h; cases h))
    (steps_cons (step_omit (fun h => by rw [Option.isNone_iff_eq_none.mp h]) (fun h => ht fun e => by rw [e] at h; cases h))
      (steps_cons (step_omit (fun h => by rw [Option.isNone_iff_eq_none.mp h]) (fun h => hr fun e => by rw [e] at h; cases h)) rfl))

theorem rt_union {u : Pipe.OpUnion} (h : KnownOp u) (hp : PlainOp u) (old : Pipe.OpUnion) : RT opUnion u old := by
  have key : ∀ c : Union, newUnion u = some c → Steps unionFields c {} c → c.opUnion = some u → RT opUnion u old := by
    intro c h1 h2 h3
    obtain ⟨l, e1, e2⟩ := rt_struct (by decide) h2
    exact ⟨.obj l, by simp only [opUnion, h1, e1], by simp only [opUnion, e2, h3]⟩
  cases u with
  | mk ty a t r =>
    cases h with
    | aggregation h h' =>
      simp only at h h'; subst h
      have e1 := hp.transformation (by simp)
      have e2 := hp.rollup (by simp)
      simp only at e1 e2; subst e1; subst e2
      refine key { aggregation := some a } rfl (steps_union (fun _ => ?_) (fun h => absurd rfl h) (fun h => absurd rfl h)) rfl
      exact rt_pointer (rt_aggType h' 0).1 (rt_aggType h' 0).2 (by simp)
    | transformation h h' =>
      simp only at h h'; subst h
      have e1 := hp.aggregation (by simp)
      have e2 := hp.rollup (by simp)
      simp only at e1 e2; subst e1; subst e2
      obtain ⟨s, h1, h2⟩ := rt_transType h' 0
      exact key { transformation := some t } rfl (steps_union (fun h => absurd rfl h) (fun _ => rt_pointer h1 h2 (by simp))
        (fun h => absurd rfl h)) rfl
    | rollup h h' =>
      simp only at h h'; subst h
      have e1 := hp.aggregation (by simp)
      have e2 := hp.transformation (by simp)
      simp only at e1 e2; subst e1; subst e2
      obtain ⟨l, h1, h2⟩ := rt_rollup hp.name hp.tags h'
      exact key { rollup := some r } rfl (steps_union (fun h => absurd rfl h) (fun h => absurd rfl h)
        (fun _ => rt_pointer h1 (h2 _) (by simp))) rfl

theorem rt_pipeline {p : Pipe.Pipeline} (h : ∀ u ∈ p, KnownOp u ∧ PlainOp u) (old : Pipe.Pipeline) : RT pipeline p old := by
  obtain ⟨j, h1, h2⟩ := rt_slice (c := opUnion) (zero := { type := 0 }) fun u hu => rt_union (h u hu).1 (h u hu).2 _
  exact ⟨j, h1, h2⟩

/-! ### Views -/

theorem obj_rt {c : Codec A} {a old : A} (h : ∃ l, c.enc a = some (.obj l) ∧ c.dec (.obj l) old = some a) : RT c a old :=
  let ⟨l, h1, h2⟩ := h; ⟨.obj l, h1, h2⟩

theorem empty_eq {s : Bytes} (h : s.isEmpty = true) : s = [] := List.isEmpty_iff.mp h

theorem mapping_rt {x : XTime} {v : MappingView} (h : MappingForm x v) :
    ∃ l, (mappingView x).enc v = some (.obj l) ∧ (mappingView x).dec (.obj l) zeroMapping = some v :=
  rt_struct (fs := mappingFields x) (by simp only [mappingFields, List.map, field, omitField]; decide)
    (steps_cons (step_omit (fun e => by rw [empty_eq e]; rfl) (fun _ => rt_string h.id _))
    (steps_cons (step_field (rt_string h.name _)) (steps_cons (step_field (rt_bool _ _))
    (steps_cons (step_omit (fun e => by rw [eq_of_beq e]; rfl) (fun _ => rt_int h.cutover _))
    (steps_cons (step_field (rt_string h.filter _)) (steps_cons (step_field (rt_aggID h.aggID _))
    (steps_cons (step_field (rt_slice fun p hp => rt_storage (h.storage p hp) _)) (steps_cons (step_field (rt_uint h.drop _))
    (steps_cons (step_field (rt_string h.by_ _)) (steps_cons (step_field (rt_int h.at_ _)) rfl))))))))))

theorem target_rt {x : XTime} {t : RollupTarget} (h : TargetForm x t) : RT (target x) t zeroTarget :=
  obj_rt (rt_struct (fs := targetFields x) (by simp only [targetFields, List.map, field]; decide)
    (steps_cons (step_field (rt_pipeline h.ops _)) (steps_cons (step_field (rt_slice fun p hp => rt_storage (h.storage p hp) _)) rfl)))

theorem rollup_rt {x : XTime} {v : RollupView} (h : RollupForm x v) :
    ∃ l, (rollupView x).enc v = some (.obj l) ∧ (rollupView x).dec (.obj l) zeroRollup = some v :=
  rt_struct (fs := rollupViewFields x) (by simp only [rollupViewFields, List.map, field, omitField]; decide)
    (steps_cons (step_omit (fun e => by rw [empty_eq e]; rfl) (fun _ => rt_string h.id _))
    (steps_cons (step_field (rt_string h.name _)) (steps_cons (step_field (rt_bool _ _))
    (steps_cons (step_omit (fun e => by rw [eq_of_beq e]; rfl) (fun _ => rt_int h.cutover _))
    (steps_cons (step_field (rt_string h.filter _)) (steps_cons (step_field (rt_slice fun t ht => target_rt (h.targets t ht)))
    (steps_cons (step_field (rt_string h.by_ _)) (steps_cons (step_field (rt_int h.at_ _)) rfl))))))))

theorem ruleSet_rt {x : XTime} {v : RuleSetView} (h : RuleSetForm x v) : RT (ruleSetView x) v zeroRuleSet :=
  obj_rt (rt_struct (fs := ruleSetFields x) (by simp only [ruleSetFields, List.map, field]; decide)
    (steps_cons (step_field (rt_string h.namespace_ _)) (steps_cons (step_field (rt_int h.version _))
    (steps_cons (step_field (rt_int h.cutover _)) (steps_cons (step_field (rt_slice fun r hr => obj_rt (mapping_rt (h.mapping r hr))))
    (steps_cons (step_field (rt_slice fun r hr => obj_rt (rollup_rt (h.rollup r hr)))) rfl))))))

theorem namespace_rt {v : NS.NamespaceView} (h : NamespaceForm v) : RT namespaceView v zeroNamespace :=
  obj_rt (rt_struct (fs := namespaceFields) (by decide)
    (steps_cons (step_field (rt_string h.id _)) (steps_cons (step_field (rt_int h.version _)) (steps_cons (step_field (rt_bool _ _))
    (steps_cons (step_field (rt_string h.by_ _)) (steps_cons (step_field (rt_int h.at_ _)) rfl))))))

theorem namespaces_rt {v : NamespacesView} (h : Spec.Msg.Int64 v.version) (h' : ∀ n ∈ v.namespaces, NamespaceForm n) :
    RT namespacesView v {} :=
  obj_rt (rt_struct (by decide) (steps_cons (step_field (rt_int h _))
    (steps_cons (step_field (rt_slice fun n hn => namespace_rt (h' n hn))) rfl)))

theorem change_rt {c : Codec V} {zero : V} {form : V → Prop}
    (hc : ∀ v, form v → ∃ l, c.enc v = some (.obj l) ∧ c.dec (.obj l) zero = some v) {m : ViewChange V} (h : ChangeForm form m) :
    RT (change c zero) m {} :=
  obj_rt (rt_struct (fs := changeFields c zero) (by simp only [changeFields, List.map, field, omitField]; decide)
    (steps_cons (step_field (rt_string h.op _))
    (steps_cons (step_omit (fun e => by rw [Option.isNone_iff_eq_none.mp e]) (fun _ => by
      show RT _ m.ruleID none
      cases e' : m.ruleID with
      | none => exact rt_pointer_none _
      | some i =>
        obtain ⟨hi⟩ : Nonempty (Utf8 i) := ⟨h.id i (by simp [e'])⟩
        exact rt_pointer (j := .str (coerce i)) rfl (by show some (coerce i) = some i; rw [(coerce_iff i).mpr hi]) (by simp)))
    (steps_cons (step_omit (fun e => by rw [Option.isNone_iff_eq_none.mp e]) (fun _ => by
      show RT _ m.ruleData none
      cases e' : m.ruleData with
      | none => exact rt_pointer_none _
      | some v =>
        obtain ⟨l, h1, h2⟩ := hc v (h.data v (by simp [e']))
        exact rt_pointer h1 h2 (by simp))) rfl))))

theorem changes_rt {x : XTime} {c : ViewChanges} (h : ChangesForm x c) : RT (changes x) c {} :=
  obj_rt (rt_struct (fs := changesFields x) (by simp only [changesFields, List.map, field]; decide)
    (steps_cons (step_field (rt_string h.namespace_ _))
    (steps_cons (step_field (rt_slice fun m hm => change_rt (fun _ hv => mapping_rt hv) (h.mapping m hm)))
    (steps_cons (step_field (rt_slice fun m hm => change_rt (fun _ hv => rollup_rt hv) (h.rollup m hm))) rfl))))

theorem staged_rt {x : XTime} {p : StagedPolicies} (h : Spec.Msg.Int64 p.cutoverNanos)
    (h' : ∀ q ∈ p.policies, Printable x q.sp ∧ KnownID q.aggID) (old : StagedPolicies) : RT (stagedPolicies x) p old := by
  obtain ⟨l, h1, h2⟩ := rt_struct (fs := stagedFields x) (m := p) (d := {}) (by simp only [stagedFields, List.map, field]; decide)
    (steps_cons (step_field (rt_int h _)) (steps_cons (step_field (rt_bool _ _))
    (steps_cons (step_field (rt_slice fun q hq => rt_policy (h' q hq).1 (h' q hq).2 _)) rfl)))
  exact ⟨.obj l, h1, h2⟩

/-! ### What is written -/

/-- A value is written exactly when `P` holds of it. -/
def Writes (c : Codec A) (P : A → Prop) : Prop := ∀ a, c.enc a ≠ none ↔ P a

theorem writes_string : Writes string fun _ => True := fun _ => ⟨fun _ => trivial, fun _ => by simp [string]⟩
theorem writes_bool : Writes boolean fun _ => True := fun _ => ⟨fun _ => trivial, fun _ => by simp [boolean]⟩
theorem writes_int : Writes int64 fun _ => True := fun _ => ⟨fun _ => trivial, fun _ => by simp [int64, integer]⟩
theorem writes_uint : Writes uint fun _ => True := fun _ => ⟨fun _ => trivial, fun _ => by simp [uint]⟩
theorem writes_storage (x : XTime) : Writes (storagePolicy x) fun _ => True := fun _ => ⟨fun _ => trivial, fun _ => by simp [storagePolicy]⟩
theorem writes_policy (x : XTime) : Writes (policy x) fun _ => True := fun _ => ⟨fun _ => trivial, fun _ => by simp [policy]⟩

theorem writes_slice {c : Codec A} {P : A → Prop} (h : Writes c P) (zero : A) : Writes (slice c zero) fun l => ∀ a ∈ l, P a := by
  intro l
  show (arrEnc c l).map J.arr ≠ none ↔ _
  rw [Ne, Option.map_eq_none_iff]
  induction l with
  | nil => simp [arrEnc]
  | cons a l ih =>
    have ha := h a
    show _ ↔ ∀ b ∈ a :: l, P b
    rw [arrEnc, List.forall_mem_cons, show (∀ b ∈ l, P b) ↔ ¬ arrEnc c l = none from ih.symm, ← ha]
    cases c.enc a <;> cases arrEnc c l <;> simp

theorem writes_pointer {c : Codec A} {P : A → Prop} (h : Writes c P) (zero : A) :
    Writes (pointer c zero) fun o => ∀ a ∈ o, P a := by
  intro o
  cases o with
  | none => simp [pointer]
  | some a => simpa [pointer] using h a

/-- A field is written exactly when `P` holds of the structure. -/
def FieldWrites (f : Field M) (P : M → Prop) : Prop := ∀ m, f.enc m ≠ none ↔ P m

theorem fw_field {name : Bytes} {c : Codec A} {P : A → Prop} {get : M → A} {set : M → A → M} (h : Writes c P) :
    FieldWrites (field name c get set) fun m => P (get m) := by
  intro m; show _ ↔ P (get m); rw [← h]; simp [field]

theorem fw_omit {name : Bytes} {c : Codec A} {P : A → Prop} {empty : A → Bool} {get : M → A} {set : M → A → M} (h : Writes c P)
    (he : ∀ a, empty a = true → P a) : FieldWrites (omitField name c empty get set) fun m => P (get m) := by
  intro m
  cases e : empty (get m) with
  | true => simp [omitField, e, he _ e]
  | false => show _ ↔ P (get m); rw [← h]; simp [omitField, e]

def FieldsWrite : List (Field M) → (M → Prop) → Prop
  | [], P => ∀ m, P m
  | f :: fs, P => ∃ Q R, FieldWrites f Q ∧ FieldsWrite fs R ∧ ∀ m, P m ↔ Q m ∧ R m

theorem writes_fields : ∀ {fs : List (Field M)} {P : M → Prop}, FieldsWrite fs P → ∀ m, encFields m fs ≠ none ↔ P m
  | [], P, h, m => by simp [encFields, show P m from h m]
  | f :: fs, P, ⟨Q, R, h1, h2, h3⟩, m => by
    rw [h3, ← h1, ← writes_fields h2, encFields]
    cases f.enc m with
    | none => simp
    | some o => cases o <;> cases encFields m fs <;> simp

theorem writes_struct {fs : List (Field M)} {P : M → Prop} (h : FieldsWrite fs P) : Writes (struct fs) P := by
  intro m
  rw [← writes_fields h]
  simp [struct]

theorem fw_nil : FieldsWrite ([] : List (Field M)) fun _ => True := fun _ => trivial

theorem fw_cons {f : Field M} {fs : List (Field M)} {Q R : M → Prop} (h : FieldWrites f Q) (h' : FieldsWrite fs R) :
    FieldsWrite (f :: fs) fun m => Q m ∧ R m := ⟨Q, R, h, h', fun _ => Iff.rfl⟩

theorem Writes.iff {c : Codec A} {P Q : A → Prop} (h : Writes c P) (h' : ∀ a, P a ↔ Q a) : Writes c Q := fun a => (h a).trans (h' a)

theorem writes_aggType : Writes aggType fun t => 1 ≤ t ∧ t ≤ 22 := by
  intro t
  have := Agg.isValid_iff t
  unfold Spec.ValidAggType at this
  show _ ↔ 1 ≤ t ∧ t ≤ 22
  rw [← this]
  simp [aggType]

theorem writes_aggID : Writes aggID KnownID := by
  intro id
  rw [known_iff]
  constructor
  · intro h
    cases e : Agg.ID.types id with
    | none => simp [aggID, e] at h
    | some l => exact ⟨l, rfl⟩
  · rintro ⟨l, e⟩
    simp only [aggID, e]
    exact (writes_slice writes_aggType 0 l).mpr (types_valid e)

theorem writes_transType : Writes transType fun t => t = 1 ∨ t = 2 := by
  intro t
  have hv := (Tf.C77_types t).1
  constructor
  · intro h
    show t = 1 ∨ t = 2
    rw [← hv]
    cases e : Tf.isValid t with
    | true => rfl
    | false => simp [transType, e] at h
  · intro h
    obtain ⟨s, h1, _⟩ := rt_transType h 0
    rw [h1]; simp

theorem writes_rollup : Writes rollupOp fun op => KnownID op.aggID := by
  have := writes_struct (fs := rollupFields) (fw_cons (fw_field writes_string)
    (fw_cons (fw_field (writes_slice writes_string []))
    (fw_cons (fw_omit writes_aggID (fun _ h => nomatch h)) fw_nil)))
  intro op
  refine (this op).trans ⟨fun h => h.2.2.1, fun h => ⟨trivial, fun _ _ => trivial, h, trivial⟩⟩

theorem writes_union : Writes (struct unionFields) fun c => (∀ a ∈ c.aggregation, 1 ≤ a ∧ a ≤ 22) ∧
    (∀ t ∈ c.transformation, t = 1 ∨ t = 2) ∧ (∀ r ∈ c.rollup, KnownID r.aggID) := by
  have := writes_struct (fs := unionFields) (fw_cons (fw_omit (writes_pointer writes_aggType 0) (fun a h => by rw [Option.isNone_iff_eq_none.mp h]; intro _ h; cases h))
    (fw_cons (fw_omit (writes_pointer writes_transType 0) (fun a h => by rw [Option.isNone_iff_eq_none.mp h]; intro _ h; cases h))
    (fw_cons (fw_omit (writes_pointer writes_rollup {}) (fun a h => by rw [Option.isNone_iff_eq_none.mp h]; intro _ h; cases h)) fw_nil)))
  intro c
  exact (this c).trans ⟨fun h => ⟨h.1, h.2.1, h.2.2.1⟩, fun h => ⟨h.1, h.2.1, h.2.2, trivial⟩⟩

theorem knownOp_iff (u : Pipe.OpUnion) : KnownOp u ↔ (u.type = 1 ∧ 1 ≤ u.aggregation ∧ u.aggregation ≤ 22) ∨
    (u.type = 2 ∧ (u.transformation = 1 ∨ u.transformation = 2)) ∨ (u.type = 3 ∧ KnownID u.rollup.aggID) := by
  constructor
  · intro h
    cases h with
    | aggregation h h' => exact Or.inl ⟨h, h'⟩
    | transformation h h' => exact Or.inr (Or.inl ⟨h, h'⟩)
    | rollup h h' => exact Or.inr (Or.inr ⟨h, h'⟩)
  · rintro (⟨h, h'⟩ | ⟨h, h'⟩ | ⟨h, h'⟩)
    · exact .aggregation u h h'
    · exact .transformation u h h'
    · exact .rollup u h h'

theorem writes_op : Writes opUnion KnownOp := by
  intro u
  rw [knownOp_iff]
  have hw := writes_union
  simp only [opUnion]
  unfold newUnion
  simp only [Pipe.AggregationOpType, Pipe.TransformationOpType, Pipe.RollupOpType]
  by_cases h1 : u.type = 1
  · simp only [h1, if_true]
    rw [hw]
    simp
  · by_cases h2 : u.type = 2
    · simp only [h2, if_true]
      rw [if_neg (by decide), hw]
      simp
    · by_cases h3 : u.type = 3
      · simp only [h3, if_true]
        rw [if_neg (by decide), if_neg (by decide), hw]
        simp
      · simp [h1, h2, h3]

theorem writes_pipeline : Writes pipeline fun p => ∀ u ∈ p, KnownOp u := by
  intro p
  exact writes_slice writes_op { type := 0 } p

theorem writes_mapping (x : XTime) : Writes (mappingView x) fun v => KnownID v.aggID := by
  have := writes_struct (fs := (mappingFields x)) (fw_cons (fw_omit writes_string (fun _ _ => trivial))
    (fw_cons (fw_field writes_string)
    (fw_cons (fw_field writes_bool)
    (fw_cons (fw_omit writes_int (fun _ _ => trivial))
    (fw_cons (fw_field writes_string)
    (fw_cons (fw_field writes_aggID)
    (fw_cons (fw_field (writes_slice (writes_storage x) zeroSP))
    (fw_cons (fw_field writes_uint)
    (fw_cons (fw_field writes_string)
    (fw_cons (fw_field writes_int) fw_nil))))))))))
  intro v
  exact (this v).trans ⟨fun h => h.2.2.2.2.2.1, fun h => ⟨trivial, trivial, trivial, trivial, trivial, h, fun _ _ => trivial, trivial, trivial, trivial, trivial⟩⟩

theorem writes_target (x : XTime) : Writes (target x) fun t => ∀ u ∈ t.pipeline, KnownOp u := by
  have := writes_struct (fs := (targetFields x)) (fw_cons (fw_field writes_pipeline)
    (fw_cons (fw_field (writes_slice (writes_storage x) zeroSP)) fw_nil))
  intro t
  exact (this t).trans ⟨fun h => h.1, fun h => ⟨h, fun _ _ => trivial, trivial⟩⟩

theorem writes_rollupView (x : XTime) : Writes (rollupView x) fun v => ∀ t ∈ v.targets, ∀ u ∈ t.pipeline, KnownOp u := by
  have := writes_struct (fs := (rollupViewFields x)) (fw_cons (fw_omit writes_string (fun _ _ => trivial))
    (fw_cons (fw_field writes_string)
    (fw_cons (fw_field writes_bool)
    (fw_cons (fw_omit writes_int (fun _ _ => trivial))
    (fw_cons (fw_field writes_string)
    (fw_cons (fw_field (writes_slice (writes_target x) zeroTarget))
    (fw_cons (fw_field writes_string)
    (fw_cons (fw_field writes_int) fw_nil))))))))
  intro v
  exact (this v).trans ⟨fun h => h.2.2.2.2.2.1, fun h => ⟨trivial, trivial, trivial, trivial, trivial, h, trivial, trivial, trivial⟩⟩

theorem writes_ruleSet (x : XTime) : Writes (ruleSetView x) Known := by
  have := writes_struct (fs := (ruleSetFields x)) (fw_cons (fw_field writes_string)
    (fw_cons (fw_field writes_int)
    (fw_cons (fw_field writes_int)
    (fw_cons (fw_field (writes_slice (writes_mapping x) zeroMapping))
    (fw_cons (fw_field (writes_slice (writes_rollupView x) zeroRollup)) fw_nil)))))
  intro v
  exact (this v).trans ⟨fun h => ⟨h.2.2.2.1, h.2.2.2.2.1⟩, fun h => ⟨trivial, trivial, trivial, h.mapping, h.rollup, trivial⟩⟩

/-! ### What is read -/

/-- Whatever is read over a value with `P` has `P`. -/
def Reads (c : Codec A) (P : A → Prop) : Prop := ∀ j old a, Text j → P old → c.dec j old = some a → P a

theorem reads_string : Reads string Utf8 := by
  intro j old a hj ho h
  cases hj with
  | null => cases h; exact ho
  | str s hs => cases h; exact hs
  | _ => cases h

theorem reads_bool : Reads boolean fun _ => True := fun _ _ _ _ _ _ => trivial

theorem reads_int : Reads int64 Spec.Msg.Int64 := by
  intro j old a _ ho h
  cases j with
  | null => cases h; exact ho
  | num n =>
    simp only [int64, integer] at h
    split at h
    · cases h; unfold Spec.Msg.Int64; omega
    · cases h
  | _ => cases h

theorem reads_uint : Reads uint (· < 2 ^ 64) := by
  intro j old a _ ho h
  cases j with
  | null => cases h; exact ho
  | num n =>
    simp only [uint] at h
    split at h
    · cases h; show n.toNat < 2 ^ 64; omega
    · cases h
  | _ => cases h

theorem reads_arr {c : Codec A} {P : A → Prop} {zero : A} (h : Reads c P) (hz : P zero) : ∀ (l : List J) (old r : List A),
    (∀ j ∈ l, Text j) → (∀ a ∈ old, P a) → arrDec c zero l old = some r → ∀ a ∈ r, P a
  | [], _, _, _, _, e => by cases e; simp
  | j :: l, old, r, hj, ho, e => by
    rw [arrDec] at e
    cases e1 : c.dec j (old.headD zero) with
    | none => rw [e1] at e; cases e
    | some a =>
      cases e2 : arrDec c zero l old.tail with
      | none => rw [e1, e2] at e; cases e
      | some as =>
        rw [e1, e2] at e
        cases e
        have h1 : P (old.headD zero) := by
          cases old with
          | nil => exact hz
          | cons o _ => exact ho o (by simp)
        intro b hb
        rcases List.mem_cons.mp hb with rfl | hb
        · exact h j _ _ (hj j (by simp)) h1 e1
        · exact reads_arr h hz l _ _ (fun j hm => hj j (List.mem_cons_of_mem _ hm)) (fun a hm => ho a (List.mem_of_mem_tail hm)) e2 b hb

theorem reads_slice {c : Codec A} {P : A → Prop} {zero : A} (h : Reads c P) (hz : P zero) : Reads (slice c zero) fun l => ∀ a ∈ l, P a := by
  intro j old r hj ho e
  cases hj with
  | null => cases e; simp
  | arr l hl => exact reads_arr h hz l old r hl ho e
  | _ => cases e

theorem reads_pointer {c : Codec A} {P : A → Prop} {zero : A} (h : Reads c P) (hz : P zero) :
    Reads (pointer c zero) fun o => ∀ a ∈ o, P a := by
  intro j old r hj ho e
  have h1 : P (old.getD zero) := by
    cases old with
    | none => exact hz
    | some o => exact ho o rfl
  have key : (c.dec j (old.getD zero)).map some = some r → ∀ a ∈ r, P a := by
    intro e
    cases e2 : c.dec j (old.getD zero) with
    | none => rw [e2] at e; cases e
    | some a =>
      rw [e2] at e; cases e
      intro b hb; cases hb
      exact h j _ _ hj h1 e2
  cases j with
  | null => cases e; intro a ha; cases ha
  | _ => exact key e

def FieldReads (f : Field M) (P : M → Prop) : Prop := ∀ j m m', Text j → P m → f.dec j m = some m' → P m'

theorem fr_field {name : Bytes} {c : Codec A} {Q : A → Prop} {get : M → A} {set : M → A → M} {P : M → Prop} (h : Reads c Q)
    (hg : ∀ m, P m → Q (get m)) (hs : ∀ m a, P m → Q a → P (set m a)) : FieldReads (field name c get set) P := by
  intro j m m' hj hm e
  simp only [field, Option.map_eq_some_iff] at e
  obtain ⟨a, e, rfl⟩ := e
  exact hs m a hm (h j _ a hj (hg m hm) e)

theorem fr_omit {name : Bytes} {c : Codec A} {Q : A → Prop} {empty : A → Bool} {get : M → A} {set : M → A → M} {P : M → Prop} (h : Reads c Q)
    (hg : ∀ m, P m → Q (get m)) (hs : ∀ m a, P m → Q a → P (set m a)) : FieldReads (omitField name c empty get set) P :=
  fr_field (name := name) h hg hs

theorem reads_members {fs : List (Field M)} {P : M → Prop} (h : ∀ f ∈ fs, FieldReads f P) : ∀ (l : List (Bytes × J)) (m m' : M),
    (∀ q ∈ l, Text q.2) → P m → decMembers fs l m = some m' → P m'
  | [], _, _, _, hm, e => by cases e; exact hm
  | (k, j) :: l, m, m', hl, hm, e => by
    have hl' : ∀ q ∈ l, Text q.2 := fun q hq => hl q (List.mem_cons_of_mem _ hq)
    rw [decMembers] at e
    cases e1 : findField fs k with
    | none => rw [e1] at e; exact reads_members h l m m' hl' hm e
    | some f =>
      rw [e1] at e
      have hf : f ∈ fs := by
        unfold findField at e1
        split at e1
        · rename_i e2; cases e1; exact List.mem_of_find?_eq_some e2
        · exact List.mem_of_find?_eq_some e1
      cases e2 : f.dec j m with
      | none => simp only [e2] at e; cases e
      | some m1 =>
        simp only [e2] at e
        exact reads_members h l m1 m' hl' (h f hf j m m1 (hl (k, j) (by simp)) hm e2) e

theorem reads_struct {fs : List (Field M)} {P : M → Prop} (h : ∀ f ∈ fs, FieldReads f P) : Reads (struct fs) P := by
  intro j m m' hj hm e
  cases hj with
  | null => cases e; exact hm
  | obj l hl => exact reads_members h l m m' hl hm e
  | _ => cases e

theorem fr_cons {f : Field M} {fs : List (Field M)} {P : M → Prop} (h : FieldReads f P) (h' : ∀ g ∈ fs, FieldReads g P) :
    ∀ g ∈ f :: fs, FieldReads g P := List.forall_mem_cons.mpr ⟨h, h'⟩

theorem fr_nil {P : M → Prop} : ∀ g ∈ ([] : List (Field M)), FieldReads g P := fun _ h => nomatch h

theorem dec_aggType {j : J} {old t : Int} (h : aggType.dec j old = some t) : 1 ≤ t ∧ t ≤ 22 := by
  cases j with
  | str s => exact (Agg.typeString_of_parseType s t h).1
  | _ => cases h

theorem dec_aggID {j : J} {old id : BitVec 64} (h : aggID.dec j old = some id) : KnownID id := by
  rw [known_iff]
  simp only [aggID] at h
  cases e : (slice aggType 0).dec j [] with
  | none => rw [e] at h; cases h
  | some l =>
    rw [e] at h
    have hv : ∀ t ∈ l, Spec.ValidAggType t := fun t ht => Classical.byContradiction fun hn => by
      have := (Agg.C01_fails_iff 0 l).mpr ⟨t, ht, hn⟩
      have h' : Agg.compress 0 l = some id := h
      rw [this] at h'; cases h'
    obtain ⟨id', l', h1, h2, _⟩ := Agg.C01_roundtrip 0 l hv
    have h' : Agg.compress 0 l = some id := h
    rw [h1] at h'; cases h'
    exact ⟨l', h2⟩

theorem reads_aggID : Reads aggID KnownID := fun _ _ _ _ _ h => dec_aggID h

theorem dec_transType {j : J} {old t : Int} (h : transType.dec j old = some t) : t = 1 ∨ t = 2 := by
  cases j with
  | str s => exact ((Tf.C77_types t).1).mp (((Tf.C77_types t).2.2.2.2.1 s).mp h).1
  | _ => cases h

theorem utf8_nil : Utf8 [] := ⟨[], by simp, rfl⟩
theorem known_zero : KnownID 0 := fun i h => by simp at h
theorem int64_zero : Spec.Msg.Int64 0 := by unfold Spec.Msg.Int64; omega

structure RollupOpForm (op : Pipe.RollupOp) : Prop where
  name : Utf8 op.newName
  tags : ∀ t ∈ op.tags, Utf8 t
  aggID : KnownID op.aggID

theorem reads_rollupOp {j : J} {old op : Pipe.RollupOp} (hj : Text j) (h : rollupOp.dec j old = some op) : RollupOpForm op :=
  reads_struct (fs := rollupFields) (P := RollupOpForm)
    (fr_cons (fr_field reads_string (fun _ h => h.name) (fun _ _ h h' => { h with name := h' }))
    (fr_cons (fr_field (reads_slice reads_string utf8_nil) (fun _ h => h.tags) (fun _ _ h h' => { h with tags := h' }))
    (fr_cons (fr_omit reads_aggID (fun _ h => h.aggID) (fun _ _ h h' => { h with aggID := h' })) fr_nil)))
    j {} op hj ⟨utf8_nil, by simp, known_zero⟩ h

structure UnionForm (c : Union) : Prop where
  aggregation : ∀ a ∈ c.aggregation, 1 ≤ a ∧ a ≤ 22
  transformation : ∀ t ∈ c.transformation, t = 1 ∨ t = 2
  rollup : ∀ r ∈ c.rollup, RollupOpForm r

theorem reads_pointer' {c : Codec A} {P : A → Prop} {zero : A} (h : ∀ j old a, Text j → c.dec j old = some a → P a) :
    Reads (pointer c zero) fun o => ∀ a ∈ o, P a := by
  intro j old r hj _ e
  have key : (c.dec j (old.getD zero)).map some = some r → ∀ a ∈ r, P a := by
    intro e
    cases e2 : c.dec j (old.getD zero) with
    | none => rw [e2] at e; cases e
    | some a =>
      rw [e2] at e; cases e
      intro b hb; cases hb
      exact h j _ _ hj e2
  cases j with
  | null => cases e; intro a ha; cases ha
  | _ => exact key e

theorem reads_unionForm {j : J} {c : Union} (hj : Text j) (h : (struct unionFields).dec j {} = some c) : UnionForm c :=
  reads_struct (fs := unionFields) (P := UnionForm)
    (fr_cons (fr_omit (reads_pointer' fun _ _ _ _ h => dec_aggType h) (fun _ h => h.aggregation) (fun _ _ h h' => { h with aggregation := h' }))
    (fr_cons (fr_omit (reads_pointer' fun _ _ _ _ h => dec_transType h) (fun _ h => h.transformation)
      (fun _ _ h h' => { h with transformation := h' }))
    (fr_cons (fr_omit (reads_pointer' fun _ _ _ hj h => reads_rollupOp hj h) (fun _ h => h.rollup) (fun _ _ h h' => { h with rollup := h' }))
      fr_nil))) j {} c hj ⟨nofun, nofun, nofun⟩ h

theorem dec_op {j : J} {old u : Pipe.OpUnion} (hj : Text j) (h : opUnion.dec j old = some u) : KnownOp u ∧ PlainOp u := by
  simp only [opUnion] at h
  cases e : (struct unionFields).dec j {} with
  | none => rw [e] at h; cases h
  | some c =>
    rw [e] at h
    have hc := reads_unionForm hj e
    simp only [Union.opUnion] at h
    cases ea : c.aggregation with
    | some a =>
      rw [ea] at h; cases h
      exact ⟨.aggregation _ rfl (hc.aggregation a ea), by simp [Pipe.AggregationOpType], by simp, by simp, utf8_nil, by simp⟩
    | none =>
      rw [ea] at h
      cases et : c.transformation with
      | some t =>
        rw [et] at h; cases h
        exact ⟨.transformation _ rfl (hc.transformation t et), by simp, by simp [Pipe.TransformationOpType], by simp, utf8_nil, by simp⟩
      | none =>
        rw [et] at h
        cases er : c.rollup with
        | none => rw [er] at h; cases h
        | some r =>
          rw [er] at h; cases h
          have hr := hc.rollup r er
          exact ⟨.rollup _ rfl hr.aggID, by simp, by simp, by simp [Pipe.RollupOpType], hr.name, hr.tags⟩

theorem arrDec_all {c : Codec A} {P : A → Prop} {zero : A} (h : ∀ j old a, Text j → c.dec j old = some a → P a) : ∀ (l : List J) (old r : List A),
    (∀ j ∈ l, Text j) → arrDec c zero l old = some r → ∀ a ∈ r, P a
  | [], _, _, _, e => by cases e; simp
  | j :: l, old, r, hj, e => by
    rw [arrDec] at e
    cases e1 : c.dec j (old.headD zero) with
    | none => rw [e1] at e; cases e
    | some a =>
      cases e2 : arrDec c zero l old.tail with
      | none => rw [e1, e2] at e; cases e
      | some as =>
        rw [e1, e2] at e
        cases e
        intro b hb
        rcases List.mem_cons.mp hb with rfl | hb
        · exact h j _ _ (hj j (by simp)) e1
        · exact arrDec_all h l _ _ (fun j hm => hj j (List.mem_cons_of_mem _ hm)) e2 b hb

theorem reads_slice' {c : Codec A} {P : A → Prop} {zero : A} (h : ∀ j old a, Text j → c.dec j old = some a → P a) :
    Reads (slice c zero) fun l => ∀ a ∈ l, P a := by
  intro j old r hj _ e
  cases hj with
  | null => cases e; simp
  | arr l hl => exact arrDec_all h l old r hl e
  | _ => cases e

theorem reads_pipeline : Reads pipeline fun p => ∀ u ∈ p, KnownOp u ∧ PlainOp u := by
  intro j _ p hj _ h
  exact reads_slice' (c := opUnion) (fun _ _ _ hj h => dec_op hj h) j [] p hj (by simp) h

theorem dec_storage {x : XTime} (hx : PrintsParsed x) {j : J} {old p : StoragePolicy} (h : (storagePolicy x).dec j old = some p) :
    Printable x p := by
  cases j with
  | str s => exact hx s p h
  | _ => cases h

theorem reads_storage {x : XTime} (hx : PrintsParsed x) : Reads (slice (storagePolicy x) zeroSP) fun l => ∀ p ∈ l, Printable x p :=
  reads_slice' fun _ _ _ _ h => dec_storage hx h

theorem reads_mapping {x : XTime} (hx : PrintsParsed x) : Reads (mappingView x) (MappingForm x) :=
  reads_struct (fs := mappingFields x) (P := MappingForm x)
    (fr_cons (fr_omit reads_string (fun _ h => h.id) (fun _ _ h h' => { h with id := h' }))
    (fr_cons (fr_field reads_string (fun _ h => h.name) (fun _ _ h h' => { h with name := h' }))
    (fr_cons (fr_field reads_bool (fun _ _ => trivial) (fun _ _ h _ => { h with }))
    (fr_cons (fr_omit reads_int (fun _ h => h.cutover) (fun _ _ h h' => { h with cutover := h' }))
    (fr_cons (fr_field reads_string (fun _ h => h.filter) (fun _ _ h h' => { h with filter := h' }))
    (fr_cons (fr_field reads_aggID (fun _ h => h.aggID) (fun _ _ h h' => { h with aggID := h' }))
    (fr_cons (fr_field (reads_storage hx) (fun _ h => h.storage) (fun _ _ h h' => { h with storage := h' }))
    (fr_cons (fr_field reads_uint (fun _ h => h.drop) (fun _ _ h h' => { h with drop := h' }))
    (fr_cons (fr_field reads_string (fun _ h => h.by_) (fun _ _ h h' => { h with by_ := h' }))
    (fr_cons (fr_field reads_int (fun _ h => h.at_) (fun _ _ h h' => { h with at_ := h' })) fr_nil))))))))))

theorem zero_mapping (x : XTime) : MappingForm x zeroMapping :=
  ⟨utf8_nil, utf8_nil, utf8_nil, utf8_nil, int64_zero, int64_zero, known_zero, by simp [zeroMapping], by simp [zeroMapping]⟩

theorem reads_target {x : XTime} (hx : PrintsParsed x) : Reads (target x) (TargetForm x) :=
  reads_struct (fs := targetFields x) (P := TargetForm x)
    (fr_cons (fr_field reads_pipeline (fun _ h => h.ops) (fun _ _ h h' => { h with ops := h' }))
    (fr_cons (fr_field (reads_storage hx) (fun _ h => h.storage) (fun _ _ h h' => { h with storage := h' })) fr_nil))

theorem reads_rollup {x : XTime} (hx : PrintsParsed x) : Reads (rollupView x) (RollupForm x) :=
  reads_struct (fs := rollupViewFields x) (P := RollupForm x)
    (fr_cons (fr_omit reads_string (fun _ h => h.id) (fun _ _ h h' => { h with id := h' }))
    (fr_cons (fr_field reads_string (fun _ h => h.name) (fun _ _ h h' => { h with name := h' }))
    (fr_cons (fr_field reads_bool (fun _ _ => trivial) (fun _ _ h _ => { h with }))
    (fr_cons (fr_omit reads_int (fun _ h => h.cutover) (fun _ _ h h' => { h with cutover := h' }))
    (fr_cons (fr_field reads_string (fun _ h => h.filter) (fun _ _ h h' => { h with filter := h' }))
    (fr_cons (fr_field (reads_slice (reads_target hx) ⟨by simp [zeroTarget], by simp [zeroTarget]⟩) (fun _ h => h.targets)
      (fun _ _ h h' => { h with targets := h' }))
    (fr_cons (fr_field reads_string (fun _ h => h.by_) (fun _ _ h h' => { h with by_ := h' }))
    (fr_cons (fr_field reads_int (fun _ h => h.at_) (fun _ _ h h' => { h with at_ := h' })) fr_nil))))))))

theorem zero_rollup (x : XTime) : RollupForm x zeroRollup :=
  ⟨utf8_nil, utf8_nil, utf8_nil, utf8_nil, int64_zero, int64_zero, by simp [zeroRollup]⟩

theorem reads_ruleSet {x : XTime} (hx : PrintsParsed x) : Reads (ruleSetView x) (RuleSetForm x) :=
  reads_struct (fs := ruleSetFields x) (P := RuleSetForm x)
    (fr_cons (fr_field reads_string (fun _ h => h.namespace_) (fun _ _ h h' => { h with namespace_ := h' }))
    (fr_cons (fr_field reads_int (fun _ h => h.version) (fun _ _ h h' => { h with version := h' }))
    (fr_cons (fr_field reads_int (fun _ h => h.cutover) (fun _ _ h h' => { h with cutover := h' }))
    (fr_cons (fr_field (reads_slice (reads_mapping hx) (zero_mapping x)) (fun _ h => h.mapping) (fun _ _ h h' => { h with mapping := h' }))
    (fr_cons (fr_field (reads_slice (reads_rollup hx) (zero_rollup x)) (fun _ h => h.rollup) (fun _ _ h h' => { h with rollup := h' }))
      fr_nil)))))

theorem zero_ruleSet (x : XTime) : RuleSetForm x zeroRuleSet :=
  ⟨utf8_nil, int64_zero, int64_zero, by simp [zeroRuleSet], by simp [zeroRuleSet]⟩

theorem reads_change {c : Codec V} {zero : V} {form : V → Prop} (h : Reads c form) (hz : form zero) : Reads (change c zero) (ChangeForm form) :=
  reads_struct (fs := changeFields c zero) (P := ChangeForm form)
    (fr_cons (fr_field reads_string (fun _ h => h.op) (fun _ _ h h' => { h with op := h' }))
    (fr_cons (fr_omit (reads_pointer reads_string utf8_nil) (fun _ h => h.id) (fun _ _ h h' => { h with id := h' }))
    (fr_cons (fr_omit (reads_pointer h hz) (fun _ h => h.data) (fun _ _ h h' => { h with data := h' })) fr_nil)))

theorem zero_change {form : V → Prop} : ChangeForm form ({} : ViewChange V) := ⟨utf8_nil, by simp, by simp⟩

theorem reads_changes {x : XTime} (hx : PrintsParsed x) : Reads (changes x) (ChangesForm x) :=
  reads_struct (fs := changesFields x) (P := ChangesForm x)
    (fr_cons (fr_field reads_string (fun _ h => h.namespace_) (fun _ _ h h' => { h with namespace_ := h' }))
    (fr_cons (fr_field (reads_slice (reads_change (reads_mapping hx) (zero_mapping x)) zero_change) (fun _ h => h.mapping)
      (fun _ _ h h' => { h with mapping := h' }))
    (fr_cons (fr_field (reads_slice (reads_change (reads_rollup hx) (zero_rollup x)) zero_change) (fun _ h => h.rollup)
      (fun _ _ h h' => { h with rollup := h' })) fr_nil)))

end Verif.Json
