import Verif.Lemmas.WireAppend
import Verif.Model.WireRules
/-
The stored messages: their fields are well formed, `Unmarshal` reads what `MarshalTo` wrote, and does not panic on data without
long varints.
-/
namespace Verif.Wire
open Verif.Policy Verif.Rules Verif.RuleSet

/-! ### Repeated strings -/

theorem strsField_ok (num : Nat) (h0 : 0 < num) (h16 : num < 16) (get : M → List Bytes) (set : M → List Bytes → M) :
    (strsField num get set).OK where
  suffix := by
    intro l wt r m m' r' h
    simp only [strsField] at h
    split at h
    · cases h
    · cases hr : readSlice l r with
      | err => rw [hr] at h; cases h
      | panic => rw [hr] at h; cases h
      | ok x =>
        rw [hr] at h
        simp only [Out.ok.injEq, Prod.mk.injEq] at h
        rw [← h.2]
        exact (readSlice_suffix (show readSlice l r = .ok (x.1, x.2) from hr)).1
  sized := by
    intro m
    simp only [strsField, List.length_flatMap]
    congr 1
    refine List.map_congr_left fun a _ => ?_
    simp only [marshalStr, List.length_append, List.length_cons, sov_eq]; omega
  num_pos := h0
  num_lt := h16

theorem strsField_loop {c : Codec M} (hc : c.OK) {num : Nat} {get : M → List Bytes} {set : M → List Bytes → M}
    (hm : strsField num get set ∈ c.fields) (hgs : ∀ m v, get (set m v) = v) (hss : ∀ m v w, set (set m v) w = set m w)
    (l : Nat) (hl : l < 9223372036854775808) (tail : Bytes) : ∀ (as : List Bytes) (acc : M), set acc (get acc) = acc →
    (as.flatMap (marshalStr num) ++ tail).length ≤ l →
    run c.fields l (as.flatMap (marshalStr num) ++ tail) acc = run c.fields l tail (set acc (get acc ++ as))
  | [], acc, hz, _ => by simp [hz]
  | a :: as, acc, hz, hlen => by
    have e : (a :: as).flatMap (marshalStr num) ++ tail =
        tag num 2 :: (encodeVarint a.length ++ (a ++ (as.flatMap (marshalStr num) ++ tail))) := by
      simp [marshalStr]
    rw [e] at hlen ⊢
    have := run_field hc hm l 2 (by omega) (by omega)
      (encodeVarint a.length ++ (a ++ (as.flatMap (marshalStr num) ++ tail))) acc
    rw [show (strsField num get set).num = num from rfl] at this
    rw [this]
    simp only [strsField, ne_eq, not_true_eq_false, if_false]
    rw [readSlice_encode l a _ hl (by simp only [List.length_cons, List.length_append] at hlen ⊢; omega)]
    have ih := strsField_loop hc hm hgs hss l hl tail as (set acc (get acc ++ [a])) (by rw [hgs, hss])
      (by simp only [List.length_cons, List.length_append] at hlen ⊢; omega)
    rw [hgs, hss] at ih
    simp only [ih]
    simp

theorem strs_writes {c : Codec M} (hc : c.OK) {num : Nat} {get : M → List Bytes} {set : M → List Bytes → M}
    (hm : strsField num get set ∈ c.fields) (hgs : ∀ m v, get (set m v) = v) (hss : ∀ m v w, set (set m v) w = set m w)
    (src acc : M) (hg : get acc = []) (hz : set acc (get acc) = acc) :
    Writes c (strsField num get set) src acc (set acc (get src)) := by
  intro l tail hl hlen
  have := strsField_loop hc hm hgs hss l hl tail (get src) acc hz hlen
  rw [hg, List.nil_append] at this
  exact this

theorem strsField_calm (num : Nat) (get : M → List Bytes) (set : M → List Bytes → M) : (strsField num get set).Calm := by
  intro l wt r m hq hr hl
  have := readSlice_calm hq hr hl
  simp only [strsField]
  split
  · simp
  · cases h : readSlice l r with
    | panic => exact absurd h this
    | err => simp
    | ok => simp

theorem strsField_steady (num : Nat) (get : M → List Bytes) (set : M → List Bytes → M) : (strsField num get set).Steady := by
  intro l wt r m m' r' l' tail h hr hl' hl
  simp only [strsField] at h ⊢
  split at h
  · cases h
  rename_i hw
  rw [if_neg hw]
  cases hs : readSlice l r with
  | err => rw [hs] at h; cases h
  | panic => rw [hs] at h; cases h
  | ok x =>
    obtain ⟨x, r1⟩ := x
    rw [hs] at h
    rw [readSlice_append hs tail hr hl' hl]
    simp only [Out.ok.injEq, Prod.mk.injEq] at h ⊢
    rw [h.1, h.2]; exact ⟨rfl, rfl⟩

/-! ### Packed enumerations -/

theorem packEnum_pos (v : Int) : 0 < (packEnum v).length := by
  unfold packEnum
  split
  · unfold encodeVarint encLoop; split <;> simp
  · simp

/-- The code's `Size` of packed values that are not negative. -/
theorem packEnums_size {vs : List Int} (h : ∀ v ∈ vs, 0 ≤ v ∧ I32 v) : (vs.map fun v => sov (toU64 v)).sum = (packEnums vs).length := by
  unfold packEnums
  rw [List.length_flatMap]
  congr 1
  refine List.map_congr_left fun v hv => ?_
  obtain ⟨h0, h1⟩ := h v hv
  unfold I32 at h1
  rw [sov_eq, packEnum, if_pos h0, show toU64 v = v.toNat by unfold toU64; omega]

theorem readVarint_packEnum {v : Int} (h0 : 0 ≤ v) (h1 : I32 v) (tail : Bytes) :
    ∃ n, readVarint (packEnum v ++ tail) = some (n, tail) ∧ toI32 n = v := by
  unfold I32 at h1
  refine ⟨v.toNat, ?_, ?_⟩
  · rw [packEnum, if_pos h0, readVarint_encode _ (by omega)]
  · unfold toI32; split <;> omega

theorem enumsLoop_put : ∀ (vs : List Int) (f : Nat) (acc : List Int) (tail : Bytes), (∀ v ∈ vs, 0 ≤ v ∧ I32 v) →
    (packEnums vs).length < f → enumsLoop f (packEnums vs).length (packEnums vs ++ tail) acc = some (acc ++ vs, tail)
  | [], f, acc, tail, _, h => by
    cases f with
    | zero => exact absurd h (by omega)
    | succ f => simp [enumsLoop, packEnums]
  | v :: vs, f, acc, tail, hv, h => by
    cases f with
    | zero => exact absurd h (by omega)
    | succ f =>
      have hp := packEnum_pos v
      have e : packEnums (v :: vs) = packEnum v ++ packEnums vs := by simp [packEnums]
      obtain ⟨n, h1, h2⟩ := readVarint_packEnum (hv v (by simp)).1 (hv v (by simp)).2 (packEnums vs ++ tail)
      rw [e] at h ⊢
      rw [List.length_append] at h
      rw [enumsLoop, if_neg (by rw [List.length_append]; omega), List.append_assoc, h1]
      simp only [h2, List.length_append]
      rw [show (packEnum v).length + (packEnums vs).length -
        ((packEnum v).length + ((packEnums vs).length + tail.length) - ((packEnums vs).length + tail.length)) = (packEnums vs).length by omega]
      rw [enumsLoop_put vs f (acc ++ [v]) tail (fun w hw => hv w (by simp [hw])) (by omega)]
      simp

theorem enumsLoop_suffix : ∀ (f n : Nat) (r : Bytes) (acc vs : List Int) (r' : Bytes),
    enumsLoop f n r acc = some (vs, r') → r' <:+ r
  | 0, _, _, _, _, _, h => by simp [enumsLoop] at h
  | f + 1, n, r, acc, vs, r', h => by
    unfold enumsLoop at h
    split at h
    · simp only [Option.some.injEq, Prod.mk.injEq] at h
      rw [h.2]; exact List.suffix_refl _
    · cases hr : readVarint r with
      | none => rw [hr] at h; cases h
      | some x =>
        rw [hr] at h
        exact (enumsLoop_suffix f _ _ _ _ _ h).trans (readVarint_suffix (show readVarint r = some (x.1, x.2) from hr)).1

theorem enumsLoop_append : ∀ (f n : Nat) (r : Bytes) (acc vs : List Int) (r' tail : Bytes),
    enumsLoop f n r acc = some (vs, r') → enumsLoop f n (r ++ tail) acc = some (vs, r' ++ tail)
  | 0, _, _, _, _, _, _, h => by simp [enumsLoop] at h
  | f + 1, n, r, acc, vs, r', tail, h => by
    rw [enumsLoop] at h ⊢
    split at h
    · rename_i hn
      simp only [Option.some.injEq, Prod.mk.injEq] at h
      rw [if_pos hn, h.1, h.2]
    · rename_i hn
      rw [if_neg hn]
      cases hr : readVarint r with
      | none => rw [hr] at h; cases h
      | some x =>
        obtain ⟨v, r1⟩ := x
        rw [hr] at h
        rw [readVarint_append hr]
        simp only [List.length_append, Nat.add_sub_add_right] at h ⊢
        exact enumsLoop_append f _ r1 _ vs r' tail h

theorem enumsField_ok (num : Nat) (h0 : 0 < num) (h16 : num < 16) (get : M → List Int) (set : M → List Int → M) :
    (enumsField num get set).OK where
  suffix := by
    intro l wt r m m' r' h
    simp only [enumsField] at h
    split at h
    · cases hr : readVarint r with
      | none => rw [hr] at h; cases h
      | some x =>
        rw [hr] at h
        simp only [Out.ok.injEq, Prod.mk.injEq] at h
        rw [← h.2]
        exact (readVarint_suffix (show readVarint r = some (x.1, x.2) from hr)).1
    split at h
    · cases hr : readLen r with
      | none => rw [hr] at h; cases h
      | some x =>
        obtain ⟨n, r1⟩ := x
        have hs := readLen_suffix hr
        rw [hr] at h
        simp only at h
        split at h
        · simp only [Out.ok.injEq, Prod.mk.injEq] at h
          rw [← h.2]; exact hs
        split at h
        · cases h
        · cases hp : enumsLoop (n + 1) n r1 (get m) with
          | none => rw [hp] at h; cases h
          | some y =>
            rw [hp] at h
            simp only [Out.ok.injEq, Prod.mk.injEq] at h
            rw [← h.2]
            exact (enumsLoop_suffix _ _ _ _ _ _ (show _ = some (y.1, y.2) from hp)).trans hs
    · cases h
  sized := by
    intro m
    simp only [enumsField]
    split
    · simp only [List.length_append, List.length_cons, sov_eq]; omega
    · rfl
  num_pos := h0
  num_lt := h16

theorem enums_writes {c : Codec M} (hc : c.OK) {num : Nat} {get : M → List Int} {set : M → List Int → M}
    (hm : enumsField num get set ∈ c.fields) (src acc : M) (hg : get acc = []) (hz : set acc (get acc) = acc)
    (hv : ∀ v ∈ get src, 0 ≤ v ∧ I32 v) :
    Writes c (enumsField num get set) src acc (set acc (get src)) := by
  intro l tail hl hlen
  by_cases h : (get src).length = 0
  · have h' := List.length_eq_zero_iff.mp h
    rw [hg] at hz
    simp [enumsField, h', hz]
  · have e : (enumsField num get set).marshal src ++ tail =
        tag num 2 :: (encodeVarint (packEnums (get src)).length ++ (packEnums (get src) ++ tail)) := by
      simp only [enumsField]
      rw [if_pos (by omega)]; simp
    rw [e] at hlen ⊢
    have hr := run_field hc hm l 2 (by omega) (by omega)
      (encodeVarint (packEnums (get src)).length ++ (packEnums (get src) ++ tail)) acc
    rw [show (enumsField num get set).num = num from rfl] at hr
    rw [hr]
    simp only [List.length_cons, List.length_append] at hlen
    have h1 : (2 : Nat) ≠ 0 := by omega
    simp only [enumsField, if_neg h1, if_true]
    rw [readLen_encode _ (by omega)]
    simp only [List.length_append]
    rw [if_neg (by omega), if_neg (by omega), enumsLoop_put _ _ _ _ hv (by omega), hg]
    simp

theorem enumsField_calm (num : Nat) (get : M → List Int) (set : M → List Int → M) : (enumsField num get set).Calm := by
  intro l wt r m hq hr hl
  simp only [enumsField]
  split
  · cases readVarint r <;> simp
  · split
    · cases readLen r with
      | none => simp
      | some x =>
        simp only
        split
        · simp
        · split
          · simp
          · cases enumsLoop (x.1 + 1) x.1 x.2 (get m) <;> simp
    · simp

theorem enumsField_steady (num : Nat) (get : M → List Int) (set : M → List Int → M) : (enumsField num get set).Steady := by
  intro l wt r m m' r' l' tail h hr hl' hl
  simp only [enumsField] at h ⊢
  split at h
  · rename_i hw
    rw [if_pos hw]
    cases hf : readVarint r with
    | none => rw [hf] at h; cases h
    | some x =>
      obtain ⟨v, r1⟩ := x
      rw [hf] at h
      simp only [Out.ok.injEq, Prod.mk.injEq] at h
      rw [readVarint_append hf]
      simp only [h.1, h.2]
  rename_i hw
  rw [if_neg hw]
  split at h
  · rename_i hw2
    rw [if_pos hw2]
    cases hn : readLen r with
    | none => rw [hn] at h; cases h
    | some x =>
      obtain ⟨n, r1⟩ := x
      have hs := (readLen_suffix hn).length_le
      rw [hn] at h
      rw [readLen_append hn]
      simp only [List.length_append] at h ⊢
      split at h
      · simp only [Out.ok.injEq, Prod.mk.injEq] at h
        rw [if_pos (by omega), h.1, h.2]
      split at h
      · cases h
      rename_i h1 h2
      rw [if_neg (by omega), if_neg (by omega)]
      cases hp : enumsLoop (n + 1) n r1 (get m) with
      | none => rw [hp] at h; cases h
      | some y =>
        obtain ⟨vs, r2⟩ := y
        rw [hp] at h
        rw [enumsLoop_append _ _ _ _ _ _ tail hp]
        simp only [Out.ok.injEq, Prod.mk.injEq] at h ⊢
        rw [h.1, h.2]; exact ⟨rfl, rfl⟩
  · cases h

/-! ### Repeated messages behind pointers -/

theorem filterMap_some (l : List A) : (l.map some).filterMap id = l := by
  induction l with
  | nil => rfl
  | cons a l ih => simp

theorem map_filterMap {l : List (Option A)} (h : ∀ o ∈ l, o ≠ none) : (l.filterMap id).map some = l := by
  induction l with
  | nil => rfl
  | cons a l ih =>
    cases a with
    | none => exact absurd rfl (h none (by simp))
    | some a => simp [ih fun o ho => h o (by simp [ho])]

theorem ptrsField_ok (num : Nat) (h0 : 0 < num) (h16 : num < 16) {c : Codec A} (hc : c.OK) (get : M → List (Option A))
    (set : M → List (Option A) → M) : (ptrsField num c get set).OK := repField_ok num h0 h16 hc _ _

theorem ptrs_writes {c : Codec M} (hc : c.OK) {num : Nat} {b : Codec A} (hb : b.OK) {get : M → List (Option A)}
    {set : M → List (Option A) → M} (hm : ptrsField num b get set ∈ c.fields) (hgs : ∀ m v, get (set m v) = v)
    (hss : ∀ m v w, set (set m v) w = set m w) (src acc : M) (hg : get acc = []) (hz : set acc (get acc) = acc)
    (h : ∀ o ∈ get src, ∃ a, o = some a ∧ b.RT a a) : Writes c (ptrsField num b get set) src acc (set acc (get src)) := by
  have := rep_writes hc hb hm (fun m v => by simp only [hgs, filterMap_some]) (fun m v w => by simp only [hss]) src acc
    (by simp [hg]) (by simp only [hg] at hz ⊢; exact hz) (fun a ha => by
      obtain ⟨o, ho, e⟩ := List.mem_filterMap.mp ha
      obtain ⟨a', rfl, hr⟩ := h o ho
      simp only [id, Option.some.injEq] at e
      subst e; exact hr)
  simp only [map_filterMap (fun o ho => by obtain ⟨a, rfl, _⟩ := h o ho; simp : ∀ o ∈ get src, o ≠ none)] at this
  exact this

theorem ptrsField_calm (num : Nat) {c : Codec A} (hc : c.Calm) (get : M → List (Option A)) (set : M → List (Option A) → M) :
    (ptrsField num c get set).Calm := repField_calm num hc _ _

/-! ### The messages are well formed -/

theorem aggregationOp_ok : aggregationOp.OK := ⟨allCons (int32Field_ok (by decide) (by decide) _ _) allNil, by decide⟩

theorem rollupOp_ok : rollupOp.OK :=
  ⟨allCons (bytesField_ok 1 (by decide) (by decide) _ _) <| allCons (strsField_ok 2 (by decide) (by decide) _ _) <|
    allCons (enumsField_ok 3 (by decide) (by decide) _ _) allNil, by decide⟩

theorem pipelineOp_ok : pipelineOp.OK :=
  ⟨allCons (int32Field_ok (by decide) (by decide) _ _) <|
    allCons (optField_ok 2 (by decide) (by decide) aggregationOp_ok _ _) <|
    allCons (optField_ok 3 (by decide) (by decide) transformationOp_ok _ _) <|
    allCons (optField_ok 4 (by decide) (by decide) rollupOp_ok _ _) allNil, by decide⟩

theorem pipeline_ok : pipeline.OK := ⟨allCons (repField_ok 1 (by decide) (by decide) pipelineOp_ok _ _) allNil, by decide⟩

theorem policy_ok : policy.OK :=
  ⟨allCons (optField_ok 1 (by decide) (by decide) storagePolicy_ok _ _) <|
    allCons (enumsField_ok 2 (by decide) (by decide) _ _) allNil, by decide⟩

theorem mappingRuleSnapshot_ok : mappingRuleSnapshot.OK :=
  ⟨allCons (bytesField_ok 1 (by decide) (by decide) _ _) <| allCons (boolField_ok (by decide) (by decide) _ _) <|
    allCons (int64Field_ok (by decide) (by decide) _ _) <| allCons (bytesField_ok 4 (by decide) (by decide) _ _) <|
    allCons (ptrsField_ok 5 (by decide) (by decide) policy_ok _ _) <| allCons (int64Field_ok (by decide) (by decide) _ _) <|
    allCons (bytesField_ok 7 (by decide) (by decide) _ _) <| allCons (enumsField_ok 8 (by decide) (by decide) _ _) <|
    allCons (ptrsField_ok 9 (by decide) (by decide) storagePolicy_ok _ _) <|
    allCons (int32Field_ok (by decide) (by decide) _ _) allNil, by decide⟩

theorem rule_ok {c : Codec P} (hc : c.OK) : (rule c).OK :=
  ⟨allCons (bytesField_ok 1 (by decide) (by decide) _ _) <| allCons (ptrsField_ok 2 (by decide) (by decide) hc _ _) allNil, by
    show List.Nodup [1, 2]; decide⟩

theorem rollupTarget_ok : rollupTarget.OK :=
  ⟨allCons (bytesField_ok 1 (by decide) (by decide) _ _) <| allCons (strsField_ok 2 (by decide) (by decide) _ _) <|
    allCons (ptrsField_ok 3 (by decide) (by decide) policy_ok _ _) allNil, by decide⟩

theorem rollupTargetV2_ok : rollupTargetV2.OK :=
  ⟨allCons (optField_ok 1 (by decide) (by decide) pipeline_ok _ _) <|
    allCons (ptrsField_ok 2 (by decide) (by decide) storagePolicy_ok _ _) allNil, by decide⟩

theorem rollupRuleSnapshot_ok : rollupRuleSnapshot.OK :=
  ⟨allCons (bytesField_ok 1 (by decide) (by decide) _ _) <| allCons (boolField_ok (by decide) (by decide) _ _) <|
    allCons (int64Field_ok (by decide) (by decide) _ _) <| allCons (bytesField_ok 4 (by decide) (by decide) _ _) <|
    allCons (ptrsField_ok 5 (by decide) (by decide) rollupTarget_ok _ _) <| allCons (int64Field_ok (by decide) (by decide) _ _) <|
    allCons (bytesField_ok 7 (by decide) (by decide) _ _) <|
    allCons (ptrsField_ok 8 (by decide) (by decide) rollupTargetV2_ok _ _) allNil, by decide⟩

theorem ruleSet_ok : ruleSet.OK :=
  ⟨allCons (bytesField_ok 1 (by decide) (by decide) _ _) <| allCons (bytesField_ok 2 (by decide) (by decide) _ _) <|
    allCons (int64Field_ok (by decide) (by decide) _ _) <| allCons (int64Field_ok (by decide) (by decide) _ _) <|
    allCons (boolField_ok (by decide) (by decide) _ _) <| allCons (int64Field_ok (by decide) (by decide) _ _) <|
    allCons (ptrsField_ok 7 (by decide) (by decide) (rule_ok mappingRuleSnapshot_ok) _ _) <|
    allCons (ptrsField_ok 8 (by decide) (by decide) (rule_ok rollupRuleSnapshot_ok) _ _) <|
    allCons (bytesField_ok 9 (by decide) (by decide) _ _) allNil, by decide⟩

theorem namespaceSnapshot_ok : namespaceSnapshot.OK :=
  ⟨allCons (int32Field_ok (by decide) (by decide) _ _) <| allCons (boolField_ok (by decide) (by decide) _ _) <|
    allCons (int64Field_ok (by decide) (by decide) _ _) <| allCons (bytesField_ok 4 (by decide) (by decide) _ _) allNil, by decide⟩

theorem namespaceMsg_ok : namespaceMsg.OK :=
  ⟨allCons (bytesField_ok 1 (by decide) (by decide) _ _) <|
    allCons (ptrsField_ok 2 (by decide) (by decide) namespaceSnapshot_ok _ _) allNil, by decide⟩

theorem namespacesMsg_ok : namespacesMsg.OK :=
  ⟨allCons (ptrsField_ok 1 (by decide) (by decide) namespaceMsg_ok _ _) allNil, by decide⟩

/-! ### What `MarshalTo` writes is read by `Unmarshal` -/

/-- Aggregation types as `Types.Proto` makes them. -/
def TypesOK (vs : List Int) : Prop := ∀ v ∈ vs, 0 ≤ v ∧ I32 v

/-- No element is nil, and all satisfy `p`. -/
def AllSome (p : A → Prop) (l : List (Option A)) : Prop := ∀ o ∈ l, ∃ a, o = some a ∧ p a

theorem AllSome.rt {p : A → Prop} {l : List (Option A)} {c : Codec A} (h : AllSome p l) (hr : ∀ a, p a → c.RT a a) :
    ∀ o ∈ l, ∃ a, o = some a ∧ c.RT a a := fun o ho => by
  obtain ⟨a, e, ha⟩ := h o ho
  exact ⟨a, e, hr a ha⟩

theorem aggregationOp_rt (m : Int) (h : I32 m) : aggregationOp.RT m m := fun hl =>
  Chain.unmarshal (.cons (int32_writes aggregationOp_ok (by simp [aggregationOp]) m (0 : Int) h rfl) (.nil _)) hl

theorem rollupOp_rt (m : Pipe.PBRollupOp) (h : TypesOK m.aggTypes) : rollupOp.RT m m := fun hl =>
  Chain.unmarshal (.cons (bytesField_writes rollupOp_ok (by simp [rollupOp]) m {} rfl)
    (.cons (strs_writes rollupOp_ok (by simp [rollupOp]) (by simp) (by simp) m _ rfl rfl)
    (.cons (enums_writes rollupOp_ok (by simp [rollupOp]) m _ rfl rfl h) (.nil _)))) hl

def PipelineOpOK (m : Pipe.PBOp) : Prop :=
  I32 m.type ∧ (∀ t ∈ m.aggregation, I32 t) ∧ (∀ t ∈ m.transformation, I32 t) ∧ ∀ r ∈ m.rollup, TypesOK r.aggTypes

theorem pipelineOp_rt (m : Pipe.PBOp) (h : PipelineOpOK m) : pipelineOp.RT m m := fun hl =>
  Chain.unmarshal (res := m) (.cons (int32_writes pipelineOp_ok (by simp [pipelineOp]) m {} h.1 rfl)
    (.cons (opt_writes pipelineOp_ok aggregationOp_ok (by simp [pipelineOp]) id m _
      (fun r hr => aggregationOp_rt r (h.2.1 r hr)) rfl rfl)
    (.cons (opt_writes pipelineOp_ok transformationOp_ok (by simp [pipelineOp]) id m _
      (fun r hr => transformationOp_rt r (h.2.2.1 r hr)) rfl rfl)
    (.cons (opt_writes pipelineOp_ok rollupOp_ok (by simp [pipelineOp]) id m _
      (fun r hr => rollupOp_rt r (h.2.2.2 r hr)) rfl rfl) (by simpa using Chain.nil m))))) hl

theorem pipeline_rt (m : List Pipe.PBOp) (h : ∀ o ∈ m, PipelineOpOK o) : pipeline.RT m m := fun hl =>
  Chain.unmarshal (.cons (rep_writes pipeline_ok pipelineOp_ok (by simp [pipeline]) (by simp) (by simp) m _ rfl rfl
    (fun a ha => pipelineOp_rt a (h a ha))) (.nil _)) hl

def PolicyOK (m : PBPolicy) : Prop := (∀ p ∈ m.storagePolicy, StoragePolicyOK p) ∧ TypesOK m.aggregationTypes

theorem policy_rt (m : PBPolicy) (h : PolicyOK m) : policy.RT m m := fun hl =>
  Chain.unmarshal (res := m) (.cons (opt_writes policy_ok storagePolicy_ok (by simp [policy]) id m ⟨none, []⟩
      (fun r hr => storagePolicy_rt r (h.1 r hr)) rfl rfl)
    (.cons (enums_writes policy_ok (by simp [policy]) m _ rfl rfl h.2) (by simpa using Chain.nil m))) hl

structure MappingSnapshotOK (m : PBMappingSnapshot) : Prop where
  cutover : I64 m.cutoverNanos
  policies : AllSome PolicyOK m.policies
  updated : I64 m.lastUpdatedAtNanos
  types : TypesOK m.aggregationTypes
  storagePolicies : AllSome StoragePolicyOK m.storagePolicies
  drop : I32 m.dropPolicy

theorem mappingRuleSnapshot_rt (m : PBMappingSnapshot) (h : MappingSnapshotOK m) : mappingRuleSnapshot.RT m m := fun hl =>
  Chain.unmarshal (.cons (bytesField_writes mappingRuleSnapshot_ok (by simp [mappingRuleSnapshot]) m {} rfl)
    (.cons (bool_writes mappingRuleSnapshot_ok (by simp [mappingRuleSnapshot]) m _ rfl)
    (.cons (int64_writes mappingRuleSnapshot_ok (by simp [mappingRuleSnapshot]) m _ h.cutover rfl)
    (.cons (bytesField_writes mappingRuleSnapshot_ok (by simp [mappingRuleSnapshot]) m _ rfl)
    (.cons (ptrs_writes mappingRuleSnapshot_ok policy_ok (by simp [mappingRuleSnapshot]) (by simp) (by simp) m _ rfl rfl (h.policies.rt policy_rt))
    (.cons (int64_writes mappingRuleSnapshot_ok (by simp [mappingRuleSnapshot]) m _ h.updated rfl)
    (.cons (bytesField_writes mappingRuleSnapshot_ok (by simp [mappingRuleSnapshot]) m _ rfl)
    (.cons (enums_writes mappingRuleSnapshot_ok (by simp [mappingRuleSnapshot]) m _ rfl rfl h.types)
    (.cons (ptrs_writes mappingRuleSnapshot_ok storagePolicy_ok (by simp [mappingRuleSnapshot]) (by simp) (by simp) m _ rfl rfl
      (h.storagePolicies.rt storagePolicy_rt))
    (.cons (int32_writes mappingRuleSnapshot_ok (by simp [mappingRuleSnapshot]) m _ h.drop rfl) (.nil _))))))))))) hl

theorem rule_rt {c : Codec P} (hc : c.OK) {p : P → Prop} (hr : ∀ a, p a → c.RT a a) (m : PBRule P) (h : AllSome p m.snapshots) :
    (rule c).RT m m := fun hl =>
  Chain.unmarshal (.cons (bytesField_writes (rule_ok hc) (by simp [rule]) m {} rfl)
    (.cons (ptrs_writes (rule_ok hc) hc (by simp [rule]) (by simp) (by simp) m _ rfl rfl (h.rt hr)) (.nil _))) hl

theorem rollupTarget_rt (m : PBRollupTargetV1) (h : AllSome PolicyOK m.policies) : rollupTarget.RT m m := fun hl =>
  Chain.unmarshal (.cons (bytesField_writes rollupTarget_ok (by simp [rollupTarget]) m {} rfl)
    (.cons (strs_writes rollupTarget_ok (by simp [rollupTarget]) (by simp) (by simp) m _ rfl rfl)
    (.cons (ptrs_writes rollupTarget_ok policy_ok (by simp [rollupTarget]) (by simp) (by simp) m _ rfl rfl (h.rt policy_rt)) (.nil _)))) hl

def TargetOK (m : PBRollupTargetV2) : Prop := (∀ p ∈ m.pipeline, ∀ o ∈ p, PipelineOpOK o) ∧ AllSome StoragePolicyOK m.storagePolicies

theorem rollupTargetV2_rt (m : PBRollupTargetV2) (h : TargetOK m) : rollupTargetV2.RT m m := fun hl =>
  Chain.unmarshal (res := m) (.cons (opt_writes rollupTargetV2_ok pipeline_ok (by simp [rollupTargetV2]) id m {}
      (fun r hr => pipeline_rt r (h.1 r hr)) rfl rfl)
    (.cons (ptrs_writes rollupTargetV2_ok storagePolicy_ok (by simp [rollupTargetV2]) (by simp) (by simp) m _ rfl rfl
      (h.2.rt storagePolicy_rt)) (by simpa using Chain.nil m))) hl

structure RollupSnapshotOK (m : PBRollupSnapshot) : Prop where
  cutover : I64 m.cutoverNanos
  targets : AllSome (fun t => AllSome PolicyOK t.policies) m.targets
  updated : I64 m.lastUpdatedAtNanos
  targetsV2 : AllSome TargetOK m.targetsV2

theorem rollupRuleSnapshot_rt (m : PBRollupSnapshot) (h : RollupSnapshotOK m) : rollupRuleSnapshot.RT m m := fun hl =>
  Chain.unmarshal (.cons (bytesField_writes rollupRuleSnapshot_ok (by simp [rollupRuleSnapshot]) m {} rfl)
    (.cons (bool_writes rollupRuleSnapshot_ok (by simp [rollupRuleSnapshot]) m _ rfl)
    (.cons (int64_writes rollupRuleSnapshot_ok (by simp [rollupRuleSnapshot]) m _ h.cutover rfl)
    (.cons (bytesField_writes rollupRuleSnapshot_ok (by simp [rollupRuleSnapshot]) m _ rfl)
    (.cons (ptrs_writes rollupRuleSnapshot_ok rollupTarget_ok (by simp [rollupRuleSnapshot]) (by simp) (by simp) m _ rfl rfl (h.targets.rt rollupTarget_rt))
    (.cons (int64_writes rollupRuleSnapshot_ok (by simp [rollupRuleSnapshot]) m _ h.updated rfl)
    (.cons (bytesField_writes rollupRuleSnapshot_ok (by simp [rollupRuleSnapshot]) m _ rfl)
    (.cons (ptrs_writes rollupRuleSnapshot_ok rollupTargetV2_ok (by simp [rollupRuleSnapshot]) (by simp) (by simp) m _ rfl rfl
      (h.targetsV2.rt rollupTargetV2_rt)) (.nil _))))))))) hl

/-- A stored rule set: no nil element anywhere, numbers in the ranges of their types, no negative aggregation type. -/
structure RuleSetOK (m : PBRuleSet) : Prop where
  created : I64 m.createdAtNanos
  updated : I64 m.lastUpdatedAtNanos
  cutover : I64 m.cutoverNanos
  mappingRules : AllSome (fun r => AllSome MappingSnapshotOK r.snapshots) m.mappingRules
  rollupRules : AllSome (fun r => AllSome RollupSnapshotOK r.snapshots) m.rollupRules

theorem ruleSet_rt (m : PBRuleSet) (h : RuleSetOK m) : ruleSet.RT m m := fun hl =>
  Chain.unmarshal (.cons (bytesField_writes ruleSet_ok (by simp [ruleSet]) m {} rfl)
    (.cons (bytesField_writes ruleSet_ok (by simp [ruleSet]) m _ rfl)
    (.cons (int64_writes ruleSet_ok (by simp [ruleSet]) m _ h.created rfl)
    (.cons (int64_writes ruleSet_ok (by simp [ruleSet]) m _ h.updated rfl)
    (.cons (bool_writes ruleSet_ok (by simp [ruleSet]) m _ rfl)
    (.cons (int64_writes ruleSet_ok (by simp [ruleSet]) m _ h.cutover rfl)
    (.cons (ptrs_writes ruleSet_ok (rule_ok mappingRuleSnapshot_ok) (by simp [ruleSet]) (by simp) (by simp) m _ rfl rfl
      (h.mappingRules.rt (rule_rt mappingRuleSnapshot_ok mappingRuleSnapshot_rt)))
    (.cons (ptrs_writes ruleSet_ok (rule_ok rollupRuleSnapshot_ok) (by simp [ruleSet]) (by simp) (by simp) m _ rfl rfl
      (h.rollupRules.rt (rule_rt rollupRuleSnapshot_ok rollupRuleSnapshot_rt)))
    (.cons (bytesField_writes ruleSet_ok (by simp [ruleSet]) m _ rfl) (.nil _)))))))))) hl

def NamespaceSnapshotOK (m : NS.PBSnapshot) : Prop := I32 m.forRulesetVersion ∧ I64 m.lastUpdatedAtNanos

theorem namespaceSnapshot_rt (m : NS.PBSnapshot) (h : NamespaceSnapshotOK m) : namespaceSnapshot.RT m m := fun hl =>
  Chain.unmarshal (.cons (int32_writes namespaceSnapshot_ok (by simp [namespaceSnapshot]) m ⟨0, false, 0, []⟩ h.1 rfl)
    (.cons (bool_writes namespaceSnapshot_ok (by simp [namespaceSnapshot]) m _ rfl)
    (.cons (int64_writes namespaceSnapshot_ok (by simp [namespaceSnapshot]) m _ h.2 rfl)
    (.cons (bytesField_writes namespaceSnapshot_ok (by simp [namespaceSnapshot]) m _ rfl) (.nil _))))) hl

theorem namespaceMsg_rt (m : NS.PBNamespace) (h : AllSome NamespaceSnapshotOK m.snapshots) : namespaceMsg.RT m m := fun hl =>
  Chain.unmarshal (.cons (bytesField_writes namespaceMsg_ok (by simp [namespaceMsg]) m ⟨[], []⟩ rfl)
    (.cons (ptrs_writes namespaceMsg_ok namespaceSnapshot_ok (by simp [namespaceMsg]) (by simp) (by simp) m _ rfl rfl
      (h.rt namespaceSnapshot_rt)) (.nil _))) hl

/-- Stored namespaces: no nil element, numbers in the ranges of their types. -/
def NamespacesOK (m : NS.PBNamespaces) : Prop := AllSome (fun n => AllSome NamespaceSnapshotOK n.snapshots) m.namespaces

theorem namespacesMsg_rt (m : NS.PBNamespaces) (h : NamespacesOK m) : namespacesMsg.RT m m := fun hl =>
  Chain.unmarshal (.cons (ptrs_writes namespacesMsg_ok namespaceMsg_ok (by simp [namespacesMsg]) (by simp) (by simp) m ⟨[]⟩ rfl rfl
      (AllSome.rt h namespaceMsg_rt)) (.nil _)) hl

/-! ### No panics without long varints -/

theorem aggregationOp_calm : aggregationOp.Calm := aggregationOp_ok.calm (allCons (varintField_calm _ _ _ _ _) allNil)
theorem rollupOp_calm : rollupOp.Calm :=
  rollupOp_ok.calm (allCons (bytesField_calm _ _ _) (allCons (strsField_calm _ _ _) (allCons (enumsField_calm _ _ _) allNil)))
theorem pipelineOp_calm : pipelineOp.Calm :=
  pipelineOp_ok.calm (allCons (varintField_calm _ _ _ _ _) (allCons (optField_calm _ aggregationOp_calm _ _)
    (allCons (optField_calm _ transformationOp_calm _ _) (allCons (optField_calm _ rollupOp_calm _ _) allNil))))
theorem pipeline_calm : pipeline.Calm := pipeline_ok.calm (allCons (repField_calm _ pipelineOp_calm _ _) allNil)
theorem policy_calm : policy.Calm :=
  policy_ok.calm (allCons (optField_calm _ storagePolicy_calm _ _) (allCons (enumsField_calm _ _ _) allNil))
theorem mappingRuleSnapshot_calm : mappingRuleSnapshot.Calm :=
  mappingRuleSnapshot_ok.calm (allCons (bytesField_calm _ _ _) (allCons (varintField_calm _ _ _ _ _)
    (allCons (varintField_calm _ _ _ _ _) (allCons (bytesField_calm _ _ _) (allCons (ptrsField_calm _ policy_calm _ _)
    (allCons (varintField_calm _ _ _ _ _) (allCons (bytesField_calm _ _ _) (allCons (enumsField_calm _ _ _)
    (allCons (ptrsField_calm _ storagePolicy_calm _ _) (allCons (varintField_calm _ _ _ _ _) allNil))))))))))
theorem rule_calm {c : Codec P} (ho : c.OK) (hc : c.Calm) : (rule c).Calm :=
  (rule_ok ho).calm (allCons (bytesField_calm _ _ _) (allCons (ptrsField_calm _ hc _ _) allNil))
theorem rollupTarget_calm : rollupTarget.Calm :=
  rollupTarget_ok.calm (allCons (bytesField_calm _ _ _) (allCons (strsField_calm _ _ _) (allCons (ptrsField_calm _ policy_calm _ _) allNil)))
theorem rollupTargetV2_calm : rollupTargetV2.Calm :=
  rollupTargetV2_ok.calm (allCons (optField_calm _ pipeline_calm _ _) (allCons (ptrsField_calm _ storagePolicy_calm _ _) allNil))
theorem rollupRuleSnapshot_calm : rollupRuleSnapshot.Calm :=
  rollupRuleSnapshot_ok.calm (allCons (bytesField_calm _ _ _) (allCons (varintField_calm _ _ _ _ _)
    (allCons (varintField_calm _ _ _ _ _) (allCons (bytesField_calm _ _ _) (allCons (ptrsField_calm _ rollupTarget_calm _ _)
    (allCons (varintField_calm _ _ _ _ _) (allCons (bytesField_calm _ _ _) (allCons (ptrsField_calm _ rollupTargetV2_calm _ _) allNil))))))))
theorem ruleSet_calm : ruleSet.Calm :=
  ruleSet_ok.calm (allCons (bytesField_calm _ _ _) (allCons (bytesField_calm _ _ _) (allCons (varintField_calm _ _ _ _ _)
    (allCons (varintField_calm _ _ _ _ _) (allCons (varintField_calm _ _ _ _ _) (allCons (varintField_calm _ _ _ _ _)
    (allCons (ptrsField_calm _ (rule_calm mappingRuleSnapshot_ok mappingRuleSnapshot_calm) _ _)
    (allCons (ptrsField_calm _ (rule_calm rollupRuleSnapshot_ok rollupRuleSnapshot_calm) _ _)
    (allCons (bytesField_calm _ _ _) allNil)))))))))
theorem namespaceSnapshot_calm : namespaceSnapshot.Calm :=
  namespaceSnapshot_ok.calm (allCons (varintField_calm _ _ _ _ _) (allCons (varintField_calm _ _ _ _ _)
    (allCons (varintField_calm _ _ _ _ _) (allCons (bytesField_calm _ _ _) allNil))))
theorem namespaceMsg_calm : namespaceMsg.Calm :=
  namespaceMsg_ok.calm (allCons (bytesField_calm _ _ _) (allCons (ptrsField_calm _ namespaceSnapshot_calm _ _) allNil))
theorem namespacesMsg_calm : namespacesMsg.Calm := namespacesMsg_ok.calm (allCons (ptrsField_calm _ namespaceMsg_calm _ _) allNil)

end Verif.Wire
