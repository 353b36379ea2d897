import Verif.Model.Validator
import Verif.Spec.Validator
import Verif.Props.TagsParse
import Verif.Props.Pipeline
import Verif.Props.Aggregation
/-
Lemmas for the validator: each check against its part of the specification.
-/
namespace Verif.Val
open Verif.Policy Verif.TagsFlt Verif.RuleSet Verif.Spec.Val
open Verif.Rules (RollupTarget)

/-- The limits a set of options stands for. -/
def limits (o : Options) : Limits where
  namespaceOk ns := o.nsValidator ns = none
  typesOf := o.metricTypesFn
  storage t p := o.allowsStorage t p = true
  multi t := t ∈ o.multi
  first t a := o.allowsFirst t a = true
  nonFirst t a := o.allowsNonFirst t a = true
  required := o.requiredTags
  maxOrder := o.maxOrder
  maxLevels := o.maxLevels
  nameChars s := ∀ c ∈ runes s, c ∉ o.nameInvalid
  tagChars s := ∀ c ∈ runes s, c ∉ o.tagInvalid

theorem validateChars_iff (s : Bytes) (bad : List Nat) : validateChars s bad = true ↔ ∀ c ∈ runes s, c ∉ bad := by
  unfold validateChars
  cases bad with
  | nil => simp
  | cons b bs => simp

theorem noDup_iff [BEq α] [LawfulBEq α] : ∀ (l seen : List α), noDup l seen = true ↔ l.Nodup ∧ ∀ x ∈ l, x ∉ seen
  | [], seen => by simp [noDup]
  | x :: xs, seen => by
    unfold noDup
    by_cases h : x ∈ seen
    · simp [h]
    · simp only [List.contains_iff_mem, h, if_false, noDup_iff xs (x :: seen), List.nodup_cons, List.mem_cons, not_or]
      constructor
      · rintro ⟨h1, h2⟩
        exact ⟨⟨fun hx => (h2 x hx).1 rfl, h1⟩, fun y hy => hy.elim (fun e => e ▸ h) fun hy => (h2 y hy).2⟩
      · rintro ⟨⟨h1, h2⟩, h3⟩
        exact ⟨h2, fun y hy => ⟨fun e => h1 (e ▸ hy), h3 y (Or.inr hy)⟩⟩

/-- Sorted distinct lists of length at least two have two members, and conversely. -/
theorem two_members {l : List Int} (hn : l.Nodup) : 1 < l.length ↔ ∃ a ∈ l, ∃ b ∈ l, a ≠ b := by
  match l with
  | [] => simp
  | [a] => simp
  | a :: b :: l =>
    simp only [List.length_cons]
    refine ⟨fun _ => ⟨a, by simp, b, by simp, ?_⟩, fun _ => by omega⟩
    intro e
    subst e
    simp at hn

theorem aggID_iff (o : Options) (id : Agg.ID) (first : Bool) (types : List Int) :
    validateAggregationID o id first types = true ↔
      AggOk (limits o) (if first then (limits o).first else (limits o).nonFirst) id types := by
  have hlt : ∀ i, id.getLsbD i = true → i < 64 := by
    intro i hi
    refine Classical.byContradiction fun hc => ?_
    rw [BitVec.getLsbD_of_ge _ _ (by omega)] at hi
    cases hi
  have main : (match id.types with
      | none => false
      | some ts =>
        if decide (1 < ts.length) && !(types.all fun t => o.allowsMulti t) then false
        else types.all fun t => ts.all fun a => if first then o.allowsFirst t a else o.allowsNonFirst t a) = true ↔
      AggOk (limits o) (if first then (limits o).first else (limits o).nonFirst) id types := by
    cases ht : id.types with
    | none =>
      simp only [Bool.false_eq_true, false_iff]
      intro h
      have := (Agg.C02_decodes_iff id).mpr (fun i _ hb => by
        have := h.known i hb
        unfold Verif.Spec.ValidAggType
        omega)
      rw [ht] at this
      obtain ⟨_, h⟩ := this
      cases h
    | some ts =>
      have hk : ∀ i, id.getLsbD i = true → 1 ≤ i ∧ i ≤ 22 := by
        intro i hb
        have := (Agg.C02_decodes_iff id).mp ⟨ts, ht⟩ i (hlt i hb) hb
        unfold Verif.Spec.ValidAggType at this
        omega
      have hm : ∀ a : Int, a ∈ ts ↔ ∃ i : Nat, a = i ∧ id.getLsbD i = true := by
        intro a
        rw [← Agg.C02_contains_iff_mem id ts ht, Agg.C02_contains_iff]
        unfold Verif.Spec.ValidAggType
        constructor
        · rintro ⟨h1, h2⟩
          exact ⟨a.toNat, by omega, h2⟩
        · rintro ⟨i, rfl, h2⟩
          have := hk i h2
          exact ⟨by omega, by simpa using h2⟩
      have hnd : ts.Nodup := by
        obtain ⟨id', l, h1, h2, h3, _⟩ := Agg.C01_roundtrip 0 ts (fun t h => by
          obtain ⟨i, rfl, hb⟩ := (hm t).mp h
          have := hk i hb
          unfold Verif.Spec.ValidAggType
          omega)
        rw [Agg.C02_reencode 0 id ts ht] at h1
        cases h1
        rw [ht] at h2
        cases h2
        exact h3.imp fun h e => by omega
      have hall : ∀ (t a : Int), (if first then o.allowsFirst t a else o.allowsNonFirst t a) = true ↔
          (if first then (limits o).first else (limits o).nonFirst) t a := by
        intro t a
        cases first <;> simp [limits]
      simp only
      constructor
      · intro h
        split at h
        · cases h
        · rename_i hc
          refine ⟨hk, fun i j hi hj hij t htt => ?_, fun i hi t htt => ?_⟩
          · have h2 : 1 < ts.length := (two_members hnd).mpr ⟨i, (hm _).mpr ⟨i, rfl, hi⟩, j, (hm _).mpr ⟨j, rfl, hj⟩, by omega⟩
            simp only [h2, decide_true, Bool.true_and, Bool.not_eq_true', Bool.not_eq_false] at hc
            have := List.all_eq_true.mp hc t htt
            simpa [limits, Options.allowsMulti] using this
          · exact (hall t i).mp (List.all_eq_true.mp (List.all_eq_true.mp h t htt) i ((hm _).mpr ⟨i, rfl, hi⟩))
      · intro h
        rw [if_neg]
        · refine List.all_eq_true.mpr fun t htt => List.all_eq_true.mpr fun a ha => ?_
          obtain ⟨i, rfl, hi⟩ := (hm a).mp ha
          exact (hall t i).mpr (h.allowed i hi t htt)
        · intro hc
          rw [Bool.and_eq_true] at hc
          obtain ⟨h1, h2⟩ := hc
          obtain ⟨a, ha, b, hb, hab⟩ := (two_members hnd).mp (of_decide_eq_true h1)
          obtain ⟨i, rfl, hi⟩ := (hm a).mp ha
          obtain ⟨j, rfl, hj⟩ := (hm b).mp hb
          have : (types.all fun t => o.allowsMulti t) = true := List.all_eq_true.mpr fun t htt => by
            have := h.multi i j hi hj (by omega) t htt
            simpa [limits, Options.allowsMulti] using this
          rw [this] at h2
          cases h2
  unfold validateAggregationID
  by_cases hd : id.isDefault = true
  · rw [if_pos hd]
    simp only [true_iff]
    have h0 : id = 0#64 := by simpa [Agg.ID.isDefault, Agg.DefaultID] using hd
    subst h0
    constructor <;> simp
  · rw [if_neg hd]
    exact main

theorem storage_iff (o : Options) (sps : List StoragePolicy) (types : List Int) :
    validateStoragePolicies o sps types = true ↔ StorageOk (limits o) sps types := by
  have hd := noDup_iff sps []
  simp only [List.not_mem_nil, not_false_eq_true, implies_true, and_true] at hd
  unfold validateStoragePolicies
  constructor
  · intro h
    split at h
    · cases h
    · rename_i h1
      split at h
      · cases h
      · rename_i h2
        refine ⟨fun e => h1 (by simp [e]), hd.mp (by simpa using h2), fun t ht p hp => ?_⟩
        exact List.all_eq_true.mp (List.all_eq_true.mp h t ht) p hp
  · intro h
    rw [if_neg (by simpa using h.nonempty), if_neg (by simpa using hd.mpr h.distinct)]
    exact List.all_eq_true.mpr fun t ht => List.all_eq_true.mpr fun p hp => h.allowed t ht p hp

theorem checkTagNames_iff (o : Options) : ∀ m : TagFilterValueMap,
    checkTagNames o m = true ↔ ∀ e ∈ m, (limits o).tagChars e.1
  | [] => by simp [checkTagNames]
  | e :: es => by
    have h1 : validateChars e.1 o.tagInvalid = true ↔ (limits o).tagChars e.1 := validateChars_iff _ _
    unfold checkTagNames
    rw [List.forall_mem_cons, ← h1, ← checkTagNames_iff o es]
    split <;> simp_all

/-- The filter check never panics and accepts exactly the texts of the specification. -/
theorem validateFilter_iff (o : Options) (f : Bytes) : validateFilter o f ≠ .panic ∧ ∀ m,
    validateFilter o f = .ok m ↔ (parseTagFilterValueMap f = some m ∧
      (∀ e ∈ m, ∃ p : Verif.Spec.Flt.Pattern, p.WF ∧ e.2.pattern = p.render) ∧ ∀ e ∈ m, (limits o).tagChars e.1) := by
  have hp : validateTagsFilter f ≠ .panic := by
    unfold validateTagsFilter
    cases h : parseTagFilterValueMap f with
    | none => simp
    | some m =>
      have := (validateLoop_iff m).1
      cases hv : validateLoop m with
      | ok _ => simp [hv]
      | err => simp [hv]
      | panic => exact absurd hv this
  have hiff := C31_validate_iff f
  unfold validateFilter
  cases hv : validateTagsFilter f with
  | panic => exact absurd hv hp
  | err =>
    refine ⟨by simp, fun m => ⟨by simp, fun h => ?_⟩⟩
    have := (hiff m).mpr ⟨h.1, h.2.1⟩
    rw [hv] at this
    cases this
  | ok m' =>
    simp only
    have h0 := (hiff m').mp hv
    constructor
    · split <;> simp
    · intro m
      constructor
      · intro h
        split at h
        · rename_i hc
          cases h
          exact ⟨h0.1, h0.2, (checkTagNames_iff o _).mp hc⟩
        · cases h
      · rintro ⟨h1, h2, h3⟩
        rw [h0.1] at h1
        cases h1
        rw [if_pos ((checkTagNames_iff o m').mpr h3)]

theorem aggOp_iff (o : Options) (a : Int) (types : List Int) : validateAggregationOp o a types = true ↔
    (1 ≤ a ∧ a ≤ 22) ∧ ∀ t ∈ types, (limits o).first t a := by
  unfold validateAggregationOp
  by_cases hv : Verif.Spec.ValidAggType a
  · obtain ⟨id, l, h1, h2, h3, h4⟩ := Agg.C01_roundtrip 0 [a] (by simpa using hv)
    have : Agg.compressTypes [a] = some id := h1
    rw [this]
    simp only [aggID_iff, if_true]
    have hm : ∀ i, id.getLsbD i = true ↔ (i : Int) = a := by
      intro i
      have hc := Agg.C02_contains_iff_mem id l h2 i
      rw [h4, List.mem_singleton, Agg.C02_contains_iff] at hc
      constructor
      · intro hb
        refine hc.mp ⟨?_, by simpa using hb⟩
        exact (Agg.C02_decodes_iff id).mp ⟨l, h2⟩ i (by
          refine Classical.byContradiction fun hn => ?_
          rw [BitVec.getLsbD_of_ge _ _ (by omega)] at hb
          cases hb) hb
      · intro e
        simpa using (hc.mpr e).2
    unfold Verif.Spec.ValidAggType at hv
    constructor
    · intro h
      refine ⟨hv, fun t ht => ?_⟩
      have := h.allowed a.toNat ((hm _).mpr (by omega)) t ht
      rwa [show ((a.toNat : Nat) : Int) = a by omega] at this
    · rintro ⟨_, h⟩
      refine ⟨fun i hi => ?_, fun i j hi hj hij => ?_, fun i hi t ht => ?_⟩
      · have := (hm i).mp hi; omega
      · have := (hm i).mp hi; have := (hm j).mp hj; omega
      · rw [(hm i).mp hi]; exact h t ht
  · have : Agg.compressTypes [a] = none := (Agg.C01_fails_iff 0 [a]).mpr ⟨a, by simp, hv⟩
    rw [this]
    simp only [Bool.false_eq_true, false_iff]
    rintro ⟨h, _⟩
    exact hv h

/-! ### Sets of tags -/

theorem sub_length [BEq α] [LawfulBEq α] : ∀ (l s : List α), l.Nodup → (∀ x ∈ l, x ∈ s) → l.length ≤ s.length ∧
    (s.length ≤ l.length → ∀ y ∈ s, y ∈ l)
  | [], s, _, _ => by
    refine ⟨by simp, fun h y hy => ?_⟩
    have : s = [] := List.length_eq_zero_iff.mp (by simpa using h)
    rw [this] at hy
    cases hy
  | x :: xs, s, hn, h => by
    rw [List.nodup_cons] at hn
    have hx : x ∈ s := h x (by simp)
    have hl := List.length_erase_of_mem hx
    have hpos : 0 < s.length := List.length_pos_of_mem hx
    obtain ⟨h1, h2⟩ := sub_length xs (s.erase x) hn.2 (fun y hy =>
      (List.mem_erase_of_ne (fun e : y = x => hn.1 (by rw [← e]; exact hy))).mpr (h y (by simp [hy])))
    refine ⟨by simp only [List.length_cons]; omega, fun hle y hy => ?_⟩
    simp only [List.length_cons] at hle
    by_cases e : y = x
    · simp [e]
    · exact List.mem_cons_of_mem _ (h2 (by omega) y ((List.mem_erase_of_ne e).mpr hy))

theorem toSet_spec : ∀ (l s : List Bytes), s.Nodup → (toSet l s).Nodup ∧ ∀ x, x ∈ toSet l s ↔ x ∈ l ∨ x ∈ s
  | [], s, h => by simp [toSet, h]
  | t :: ts, s, h => by
    unfold toSet
    by_cases hc : t ∈ s
    · rw [if_pos (by simpa using hc)]
      obtain ⟨h1, h2⟩ := toSet_spec ts s h
      refine ⟨h1, fun x => ?_⟩
      rw [h2, List.mem_cons]
      constructor
      · rintro (h | h)
        · exact Or.inl (Or.inr h)
        · exact Or.inr h
      · rintro ((h | h) | h)
        · exact Or.inr (h ▸ hc)
        · exact Or.inl h
        · exact Or.inr h
    · rw [if_neg (by simpa using hc)]
      obtain ⟨h1, h2⟩ := toSet_spec ts (t :: s) (List.nodup_cons.mpr ⟨hc, h⟩)
      refine ⟨h1, fun x => ?_⟩
      rw [h2, List.mem_cons, List.mem_cons]
      constructor
      · rintro (h | h | h)
        · exact Or.inl (Or.inr h)
        · exact Or.inl (Or.inl h)
        · exact Or.inr h
      · rintro ((h | h) | h)
        · exact Or.inr (Or.inl h)
        · exact Or.inl h
        · exact Or.inr (Or.inr h)

theorem shrinks_iff (p tags : List Bytes) (hn : tags.Nodup) :
    shrinks tags (some (toSet p [])) = true ↔ StrictlyFewer p tags := by
  obtain ⟨h1, h2⟩ := toSet_spec p [] (by simp)
  simp only [List.not_mem_nil, or_false] at h2
  have hsub : (tags.all fun t => (toSet p []).contains t) = true ↔ ∀ t ∈ tags, t ∈ p := by
    simp [List.all_eq_true, h2]
  unfold shrinks StrictlyFewer
  simp only
  constructor
  · intro h
    split at h
    · cases h
    · rename_i hc
      have hs := hsub.mp (by simpa using hc)
      refine ⟨hs, Classical.byContradiction fun hno => ?_⟩
      have hall : ∀ t ∈ toSet p [], t ∈ tags := fun t ht =>
        Classical.byContradiction fun hx => hno ⟨t, (h2 t).mp ht, hx⟩
      have l1 := (sub_length _ _ h1 hall).1
      have l2 := (sub_length _ _ hn (fun t ht => (h2 t).mpr (hs t ht))).1
      have : tags.length = (toSet p []).length := by omega
      simp [this] at h
  · rintro ⟨hs, t, ht, hx⟩
    rw [if_neg (by simpa using hsub.mpr hs)]
    have := (sub_length _ _ hn (fun t ht => (h2 t).mpr (hs t ht)))
    have hne : tags.length ≠ (toSet p []).length := fun e => hx (this.2 (by omega) t ((h2 t).mpr ht))
    simpa using hne

/-! ### Rollup operations -/

theorem nif (b c : Bool) : (if !b then false else c) = true ↔ b = true ∧ c = true := by
  cases b <;> simp

/-- The check of one rollup operation, with the comparison to the previous one kept apart. -/
theorem rollupOp_iff (o : Options) (op : Pipe.RollupOp) (i : Nat) (types : List Int) (prev : Option (List Bytes)) :
    validateRollupOp o op i types prev = true ↔
      RollupOk (limits o) (if i = 0 then (limits o).first else (limits o).nonFirst) op types ∧ shrinks op.tags prev = true := by
  have hd := noDup_iff op.tags []
  simp only [List.not_mem_nil, not_false_eq_true, implies_true, and_true] at hd
  have ha := aggID_iff o op.aggID (!(decide (0 < i))) types
  have hlev : (if (!(decide (0 < i))) = true then (limits o).first else (limits o).nonFirst) =
      if i = 0 then (limits o).first else (limits o).nonFirst := by
    by_cases h : i = 0
    · simp [h]
    · rw [if_neg h, if_neg]
      simp only [Bool.not_eq_true', Bool.not_eq_false, decide_eq_true_eq]
      omega
  rw [hlev] at ha
  have hname : validateRollupName o op.newName = true ↔ op.newName ≠ [] ∧ (limits o).nameChars op.newName := by
    unfold validateRollupName
    rw [show (limits o).nameChars op.newName ↔ _ from (validateChars_iff _ _).symm]
    split
    · rename_i h
      simp [List.length_eq_zero_iff.mp h]
    · rename_i h
      simp only [iff_and_self]
      intro _ e
      exact h (by simp [e])
  have htc : (op.tags.all fun t => validateChars t o.tagInvalid) = true ↔ ∀ t ∈ op.tags, (limits o).tagChars t := by
    rw [List.all_eq_true]
    exact forall_congr' fun t => imp_congr Iff.rfl (validateChars_iff _ _)
  have hreq : (if o.requiredTags.length = 0 then true else o.requiredTags.all fun t => op.tags.contains t) = true ↔
      ∀ t ∈ (limits o).required, t ∈ op.tags := by
    show _ ↔ ∀ t ∈ o.requiredTags, t ∈ op.tags
    split
    · rename_i h
      simp [List.length_eq_zero_iff.mp h]
    · simp [List.all_eq_true]
  unfold validateRollupOp validateRollupTags
  rw [nif, nif, nif, nif, nif, hname, htc, hd, hreq, ha]
  constructor
  · rintro ⟨⟨h1, h2⟩, ⟨h3, h4, h5, h6⟩, h7⟩
    exact ⟨⟨h1, h2, h3, h4, h6, h7⟩, h5⟩
  · rintro ⟨⟨h1, h2, h3, h4, h6, h7⟩, h5⟩
    exact ⟨⟨h1, h2⟩, ⟨h3, h4, h5, h6⟩, h7⟩

/-! ### The derivative order -/

/-- No rollup in a stretch of operations. -/
def NR (s : List Pipe.OpUnion) : Prop := ∀ op ∈ s, op.type ≠ 3

/-- The derivative order stays bounded, with `order` already used before the first operation. -/
def Ord (max order : Int) (ops : List Pipe.OpUnion) : Prop :=
  (∀ s, s <:+: ops → NR s → 0 < perSeconds s → (perSeconds s : Int) ≤ max) ∧
  (∀ s, s <+: ops → NR s → 0 < perSeconds s → order + (perSeconds s : Int) ≤ max)

theorem perSeconds_cons (op : Pipe.OpUnion) (s : List Pipe.OpUnion) :
    perSeconds (op :: s) = perSeconds s + if op.type = 2 ∧ op.transformation = 2 then 1 else 0 := by
  unfold perSeconds
  rw [List.countP_cons]
  by_cases h : op.type = 2 ∧ op.transformation = 2
  · simp [h]
  · rw [if_neg h, if_neg]
    simpa using h

theorem NR_cons (op : Pipe.OpUnion) (s : List Pipe.OpUnion) : NR (op :: s) ↔ op.type ≠ 3 ∧ NR s := by
  simp [NR]

/-- A bound on the stretches at the start, counted on top of a non-negative order, bounds the stretches at the start. -/
theorem Ord.of (max order : Int) (h0 : 0 ≤ order) (op : Pipe.OpUnion) (ops : List Pipe.OpUnion)
    (h1 : ∀ s, s <:+: ops → NR s → 0 < perSeconds s → (perSeconds s : Int) ≤ max)
    (h2 : ∀ s, s <+: ops → NR (op :: s) → 0 < perSeconds (op :: s) → order + (perSeconds (op :: s) : Int) ≤ max) :
    Ord max order (op :: ops) := by
  have h3 : ∀ s, s <+: op :: ops → NR s → 0 < perSeconds s → order + (perSeconds s : Int) ≤ max := by
    intro s hs hn hp
    rcases List.prefix_cons_iff.mp hs with rfl | ⟨s', rfl, hs'⟩
    · simp [perSeconds] at hp
    · exact h2 s' hs' hn hp
  refine ⟨fun s hs hn hp => ?_, h3⟩
  rcases List.infix_cons_iff.mp hs with h | h
  · have := h3 s h hn hp
    omega
  · exact h1 s h hn hp

theorem ord_rollup (max order : Int) (h0 : 0 ≤ order) (op : Pipe.OpUnion) (ops : List Pipe.OpUnion) (h : op.type = 3) :
    Ord max order (op :: ops) ↔ Ord max 0 ops := by
  constructor
  · rintro ⟨h1, _⟩
    have h1' : ∀ s, s <:+: ops → NR s → 0 < perSeconds s → (perSeconds s : Int) ≤ max :=
      fun s hs => h1 s (List.infix_cons_iff.mpr (Or.inr hs))
    refine ⟨h1', fun s hs hn hp => ?_⟩
    have := h1' s hs.isInfix hn hp
    omega
  · rintro ⟨h1, _⟩
    refine Ord.of max order h0 op ops h1 fun s _ hn => ?_
    exact absurd h ((NR_cons op s).mp hn).1

theorem ord_ps (max order : Int) (h0 : 0 ≤ order) (op : Pipe.OpUnion) (ops : List Pipe.OpUnion) (h : op.type = 2)
    (h' : op.transformation = 2) : Ord max order (op :: ops) ↔ order + 1 ≤ max ∧ Ord max (order + 1) ops := by
  have hc : ∀ s, perSeconds (op :: s) = perSeconds s + 1 := fun s => by rw [perSeconds_cons, if_pos ⟨h, h'⟩]
  have hn : op.type ≠ 3 := by omega
  constructor
  · rintro ⟨h1, h2⟩
    refine ⟨?_, fun s hs => h1 s (List.infix_cons_iff.mpr (Or.inr hs)), fun s hs hs' _ => ?_⟩
    · have := h2 [op] (by simp) (by simpa [NR] using hn) (by rw [hc]; omega)
      rw [hc] at this
      simp only [perSeconds, List.countP_nil] at this
      omega
    · have := h2 (op :: s) (List.prefix_cons_iff.mpr (Or.inr ⟨s, rfl, hs⟩)) ((NR_cons op s).mpr ⟨hn, hs'⟩) (by rw [hc]; omega)
      rw [hc] at this
      omega
  · rintro ⟨h3, h1, h2⟩
    refine Ord.of max order h0 op ops h1 fun s hs hs' _ => ?_
    rw [hc]
    by_cases hp : 0 < perSeconds s
    · have := h2 s hs ((NR_cons op s).mp hs').2 hp
      omega
    · omega

theorem ord_other (max order : Int) (h0 : 0 ≤ order) (op : Pipe.OpUnion) (ops : List Pipe.OpUnion) (h : op.type ≠ 3)
    (h' : ¬ (op.type = 2 ∧ op.transformation = 2)) : Ord max order (op :: ops) ↔ Ord max order ops := by
  have hc : ∀ s, perSeconds (op :: s) = perSeconds s := fun s => by rw [perSeconds_cons, if_neg h', Nat.add_zero]
  constructor
  · rintro ⟨h1, h2⟩
    refine ⟨fun s hs => h1 s (List.infix_cons_iff.mpr (Or.inr hs)), fun s hs hs' hp => ?_⟩
    have := h2 (op :: s) (List.prefix_cons_iff.mpr (Or.inr ⟨s, rfl, hs⟩)) ((NR_cons op s).mpr ⟨h, hs'⟩) (by rw [hc]; exact hp)
    rwa [hc] at this
  · rintro ⟨h1, h2⟩
    refine Ord.of max order h0 op ops h1 fun s hs hs' hp => ?_
    rw [hc] at hp ⊢
    exact h2 s hs ((NR_cons op s).mp hs').2 hp

/-! ### The pipeline -/

/-- The conditions on the operations from number `i` on other than the derivative order, after a prefix with `num` rollups,
the last with the tags `prev`. -/
structure Rest (L : Limits) (types : List Int) (i : Nat) (num : Int) (prev : Option (List Bytes))
    (ops : List Pipe.OpUnion) : Prop where
  known : ∀ op ∈ ops, op.type = 1 ∨ op.type = 2 ∨ op.type = 3
  aggregation : ∀ (j : Nat) (op : Pipe.OpUnion), ops[j]? = some op → op.type = 1 →
    i + j = 0 ∧ (1 ≤ op.aggregation ∧ op.aggregation ≤ 22) ∧ ∀ t ∈ types, L.first t op.aggregation
  transformation : ∀ op ∈ ops, op.type = 2 → op.transformation = 1 ∨ op.transformation = 2
  rollup : ∀ (j : Nat) (op : Pipe.OpUnion), ops[j]? = some op → op.type = 3 →
    RollupOk L (if i + j = 0 then L.first else L.nonFirst) op.rollup types
  shrink : ∀ a b, [a, b] <:+: rollupsOf ops → StrictlyFewer a.tags b.tags
  link : ∀ p, prev = some p → ∀ b rest, rollupsOf ops = b :: rest → StrictlyFewer p b.tags
  nonempty : num ≠ 0 ∨ rollupsOf ops ≠ []
  levels : rollupsOf ops ≠ [] → num + ((rollupsOf ops).length : Int) ≤ L.maxLevels

theorem forall_get_cons {P : Nat → Pipe.OpUnion → Prop} (op : Pipe.OpUnion) (ops : List Pipe.OpUnion) :
    (∀ (j : Nat) (x : Pipe.OpUnion), (op :: ops)[j]? = some x → P j x) ↔
      P 0 op ∧ ∀ (j : Nat) (x : Pipe.OpUnion), ops[j]? = some x → P (j + 1) x := by
  constructor
  · intro h
    exact ⟨h 0 op rfl, fun j x hx => h (j + 1) x (by simpa using hx)⟩
  · rintro ⟨h0, h⟩ j x hx
    cases j with
    | zero => simp only [List.getElem?_cons_zero, Option.some.injEq] at hx; exact hx ▸ h0
    | succ j => exact h j x (by simpa using hx)

theorem rollupsOf_cons (op : Pipe.OpUnion) (ops : List Pipe.OpUnion) :
    rollupsOf (op :: ops) = if op.type = 3 then op.rollup :: rollupsOf ops else rollupsOf ops := by
  unfold rollupsOf
  by_cases h : op.type = 3 <;> simp [h]

theorem pair_infix_cons (r a b : Pipe.RollupOp) (rs : List Pipe.RollupOp) :
    [a, b] <:+: r :: rs ↔ (a = r ∧ ∃ rest, rs = b :: rest) ∨ [a, b] <:+: rs := by
  rw [List.infix_cons_iff]
  refine or_congr ?_ Iff.rfl
  constructor
  · rintro ⟨t, ht⟩
    simp only [List.cons_append, List.nil_append, List.cons.injEq] at ht
    exact ⟨ht.1, t, ht.2.symm⟩
  · rintro ⟨rfl, t, rfl⟩
    exact ⟨t, by simp⟩

/-- An operation that is not a rollup leaves the conditions on rollups to the rest. -/
theorem Rest.cons_plain {L : Limits} {types : List Int} {i : Nat} {num : Int} {prev : Option (List Bytes)}
    {op : Pipe.OpUnion} {ops : List Pipe.OpUnion} (ht : op.type = 1 ∨ op.type = 2) :
    Rest L types i num prev (op :: ops) ↔
      ((op.type = 1 → i = 0 ∧ (1 ≤ op.aggregation ∧ op.aggregation ≤ 22) ∧ ∀ t ∈ types, L.first t op.aggregation) ∧
      (op.type = 2 → op.transformation = 1 ∨ op.transformation = 2)) ∧ Rest L types (i + 1) num prev ops := by
  have h3 : op.type ≠ 3 := by omega
  have hr : rollupsOf (op :: ops) = rollupsOf ops := by rw [rollupsOf_cons, if_neg h3]
  have hidx : ∀ j, i + 1 + j = i + (j + 1) := by omega
  constructor
  · rintro ⟨h1, h2, h4, h5, h6, h7, h8, h9⟩
    rw [hr] at h6 h7 h8 h9
    rw [List.forall_mem_cons] at h1 h4
    rw [forall_get_cons] at h2 h5
    refine ⟨⟨h2.1, h4.1⟩, ⟨h1.2, fun j x hx => ?_, h4.2, fun j x hx => ?_, h6, h7, h8, h9⟩⟩
    · rw [hidx]; exact h2.2 j x hx
    · rw [hidx]; exact h5.2 j x hx
  · rintro ⟨⟨ha, hb⟩, h1, h2, h4, h5, h6, h7, h8, h9⟩
    refine ⟨?_, ?_, ?_, ?_, hr ▸ h6, hr ▸ h7, hr ▸ h8, hr ▸ h9⟩
    · rw [List.forall_mem_cons]; exact ⟨by omega, h1⟩
    · rw [forall_get_cons]; exact ⟨ha, fun j x hx => by rw [← hidx]; exact h2 j x hx⟩
    · rw [List.forall_mem_cons]; exact ⟨hb, h4⟩
    · rw [forall_get_cons]
      exact ⟨fun h => absurd h h3, fun j x hx => by rw [← hidx]; exact h5 j x hx⟩

theorem Rest.cons_rollup {L : Limits} {types : List Int} {i : Nat} {num : Int} (h0 : 0 ≤ num) {prev : Option (List Bytes)}
    {op : Pipe.OpUnion} {ops : List Pipe.OpUnion} (ht : op.type = 3) :
    Rest L types i num prev (op :: ops) ↔
      (num + 1 ≤ L.maxLevels ∧ RollupOk L (if i = 0 then L.first else L.nonFirst) op.rollup types ∧
        ∀ p, prev = some p → StrictlyFewer p op.rollup.tags) ∧
      Rest L types (i + 1) (num + 1) (some op.rollup.tags) ops := by
  have hr : rollupsOf (op :: ops) = op.rollup :: rollupsOf ops := by rw [rollupsOf_cons, if_pos ht]
  have hidx : ∀ j, i + 1 + j = i + (j + 1) := by omega
  constructor
  · rintro ⟨h1, h2, h4, h5, h6, h7, h8, h9⟩
    rw [hr] at h6 h7 h8 h9
    rw [List.forall_mem_cons] at h1 h4
    rw [forall_get_cons] at h2 h5
    have hl := h9 (by simp)
    simp only [List.length_cons] at hl
    refine ⟨⟨by omega, h5.1 ht, fun p hp => h7 p hp _ _ rfl⟩,
      ⟨h1.2, fun j x hx => ?_, h4.2, fun j x hx => ?_, fun a b hab => ?_, fun p hp b rest hb => ?_, Or.inl (by omega),
       fun _ => by omega⟩⟩
    · rw [hidx]; exact h2.2 j x hx
    · rw [hidx]; exact h5.2 j x hx
    · exact h6 a b ((pair_infix_cons _ _ _ _).mpr (Or.inr hab))
    · cases hp
      exact h6 op.rollup b ((pair_infix_cons _ _ _ _).mpr (Or.inl ⟨rfl, rest, hb⟩))
  · rintro ⟨⟨ha, hb, hc⟩, h1, h2, h4, h5, h6, h7, h8, h9⟩
    refine ⟨?_, ?_, ?_, ?_, ?_, ?_, Or.inr (by rw [hr]; simp), ?_⟩
    · rw [List.forall_mem_cons]; exact ⟨by omega, h1⟩
    · rw [forall_get_cons]; exact ⟨fun h => by omega, fun j x hx => by rw [← hidx]; exact h2 j x hx⟩
    · rw [List.forall_mem_cons]; exact ⟨fun h => by omega, h4⟩
    · rw [forall_get_cons]
      exact ⟨fun _ => hb, fun j x hx => by rw [← hidx]; exact h5 j x hx⟩
    · intro a b hab
      rw [hr, pair_infix_cons] at hab
      rcases hab with ⟨rfl, rest, hrest⟩ | hab
      · exact h7 _ rfl b rest hrest
      · exact h6 a b hab
    · intro p hp b rest hb
      rw [hr] at hb
      cases hb
      exact hc p hp
    · intro _
      rw [hr, List.length_cons]
      by_cases he : rollupsOf ops = []
      · rw [he, List.length_nil]; omega
      · have := h9 he
        omega

theorem pipelineLoop_iff (o : Options) (types : List Int) : ∀ (ops : List Pipe.OpUnion) (i : Nat) (st : PState)
    (prev : Option (List Bytes)), (i = 0 → st.numAgg = 0) → 0 ≤ st.order → 0 ≤ st.numRollup →
    st.prev = prev.map (fun p => toSet p []) →
    (pipelineLoop o types i st ops = true ↔
      Ord o.maxOrder st.order ops ∧ Rest (limits o) types i st.numRollup prev ops)
  | [], i, st, prev, _, _, _, _ => by
    unfold pipelineLoop
    have h1 : Ord o.maxOrder st.order [] := by
      constructor
      · intro s hs _ hp
        rw [List.infix_nil.mp hs] at hp
        simp [perSeconds] at hp
      · intro s hs _ hp
        rw [List.prefix_nil.mp hs] at hp
        simp [perSeconds] at hp
    constructor
    · intro h
      refine ⟨h1, by simp, by simp, by simp, by simp, ?_, by simp [rollupsOf], Or.inl (by simpa using h), by simp [rollupsOf]⟩
      intro a b h
      have := h.length_le
      simp [rollupsOf] at this
    · rintro ⟨_, h⟩
      rcases h.nonempty with h | h
      · simpa using h
      · simp [rollupsOf] at h
  | op :: ops, i, st, prev, hagg, hord, hnum, hprev => by
    unfold pipelineLoop
    by_cases h1 : op.type = 1
    · rw [if_pos (show op.type = Pipe.AggregationOpType from h1), ord_other _ _ hord _ _ (by omega) (by omega),
        Rest.cons_plain (Or.inl h1)]
      by_cases hi : i = 0
      · have ih := pipelineLoop_iff o types ops (i + 1) { st with numAgg := st.numAgg + 1 } prev (by omega) hord hnum hprev
        rw [if_neg (by rw [hagg hi]; decide), if_neg (by omega)]
        by_cases hv : validateAggregationOp o op.aggregation types = true
        · rw [if_pos hv, ih]
          have := (aggOp_iff o op.aggregation types).mp hv
          constructor
          · rintro ⟨ha, hb⟩
            exact ⟨ha, ⟨fun _ => ⟨hi, this⟩, fun h => by omega⟩, hb⟩
          · rintro ⟨ha, _, hb⟩
            exact ⟨ha, hb⟩
        · rw [if_neg hv]
          simp only [Bool.false_eq_true, false_iff]
          rintro ⟨_, ⟨h, _⟩, _⟩
          exact hv ((aggOp_iff o op.aggregation types).mpr (h h1).2)
      · have : (if 1 < st.numAgg + 1 then false
          else if i ≠ 0 then false
          else if validateAggregationOp o op.aggregation types then
            pipelineLoop o types (i + 1) { st with numAgg := st.numAgg + 1 } ops
          else false) = false := by
          simp [hi]
        rw [this]
        simp only [Bool.false_eq_true, false_iff]
        rintro ⟨_, ⟨h, _⟩, _⟩
        exact hi (h h1).1
    · rw [if_neg (show ¬ op.type = Pipe.AggregationOpType from h1)]
      by_cases h2 : op.type = 2
      · rw [if_pos (show op.type = Pipe.TransformationOpType from h2), Rest.cons_plain (Or.inr h2)]
        by_cases hb : op.transformation = 2
        · rw [ord_ps _ _ hord _ _ h2 hb, if_pos (by simp [isBinaryTransform, hb]),
            if_pos (show isValidTransform op.transformation = true by simp [isValidTransform, isBinaryTransform, hb])]
          by_cases hm : o.maxOrder < st.order + 1
          · rw [if_pos hm]
            simp only [Bool.false_eq_true, false_iff]
            rintro ⟨⟨h, _⟩, _⟩
            omega
          · rw [if_neg hm, pipelineLoop_iff o types ops (i + 1) { st with order := st.order + 1 } prev (by omega)
              (by simp only; omega) hnum hprev]
            constructor
            · rintro ⟨ha, hb'⟩
              exact ⟨⟨by omega, ha⟩, ⟨fun h => by omega, fun _ => Or.inr hb⟩, hb'⟩
            · rintro ⟨⟨_, ha⟩, _, hb'⟩
              exact ⟨ha, hb'⟩
        · rw [ord_other _ _ hord _ _ (by omega) (by omega), if_neg (by simp [isBinaryTransform, hb])]
          by_cases ha : op.transformation = 1
          · rw [if_pos (by simp [isValidTransform, ha]), pipelineLoop_iff o types ops (i + 1) st prev (by omega) hord hnum hprev]
            constructor
            · rintro ⟨h, h'⟩
              exact ⟨h, ⟨fun h => by omega, fun _ => Or.inl ha⟩, h'⟩
            · rintro ⟨h, _, h'⟩
              exact ⟨h, h'⟩
          · rw [if_neg (by simp [isValidTransform, isBinaryTransform, ha, hb])]
            simp only [Bool.false_eq_true, false_iff]
            rintro ⟨_, ⟨_, h⟩, _⟩
            have := h h2
            omega
      · rw [if_neg (show ¬ op.type = Pipe.TransformationOpType from h2)]
        by_cases h3 : op.type = 3
        · rw [if_pos (show op.type = Pipe.RollupOpType from h3), ord_rollup _ _ hord _ _ h3, Rest.cons_rollup hnum h3]
          by_cases hm : o.maxLevels < st.numRollup + 1
          · rw [if_pos hm]
            simp only [Bool.false_eq_true, false_iff]
            rintro ⟨_, ⟨h, _⟩, _⟩
            have : (limits o).maxLevels = o.maxLevels := rfl
            omega
          · rw [if_neg hm]
            have hsh : ∀ hn : op.rollup.tags.Nodup, shrinks op.rollup.tags st.prev = true ↔
                ∀ p, prev = some p → StrictlyFewer p op.rollup.tags := by
              intro hn
              rw [hprev]
              cases prev with
              | none => simp [shrinks]
              | some p => simp [shrinks_iff p _ hn]
            have hro := rollupOp_iff o op.rollup i types st.prev
            by_cases hv : validateRollupOp o op.rollup i types st.prev = true
            · obtain ⟨hr, hs⟩ := hro.mp hv
              rw [if_pos hv, pipelineLoop_iff o types ops (i + 1) _ (some op.rollup.tags) (by omega) (by simp)
                (by simp only; omega) rfl]
              constructor
              · rintro ⟨ha, hb⟩
                exact ⟨ha, ⟨by show _ ≤ o.maxLevels; omega, hr, (hsh hr.distinct).mp hs⟩, hb⟩
              · rintro ⟨ha, _, hb⟩
                exact ⟨ha, hb⟩
            · rw [if_neg hv]
              simp only [Bool.false_eq_true, false_iff]
              rintro ⟨_, ⟨_, hr, hs⟩, _⟩
              exact hv (hro.mpr ⟨hr, (hsh hr.distinct).mpr hs⟩)
        · rw [if_neg (show ¬ op.type = Pipe.RollupOpType from h3)]
          simp only [Bool.false_eq_true, false_iff]
          rintro ⟨_, h⟩
          have := h.known op (by simp)
          omega

theorem pipeline_iff (o : Options) (p : Pipe.Pipeline) (types : List Int) :
    validatePipeline o p types = true ↔ PipelineOk (limits o) p types := by
  unfold validatePipeline
  by_cases h : p.length = 0
  · rw [if_pos h]
    simp only [Bool.false_eq_true, false_iff]
    intro hp
    exact hp.nonempty (by simp [List.length_eq_zero_iff.mp h, rollupsOf])
  · rw [if_neg h, pipelineLoop_iff o types p 0 {} none (by simp) (by simp) (by simp) rfl]
    constructor
    · rintro ⟨ho, hr⟩
      refine ⟨hr.known, fun i op hi ht => ?_, hr.transformation, ho.1, fun i op hi ht => ?_, hr.shrink, ?_, ?_⟩
      · have := hr.aggregation i op hi ht
        rwa [Nat.zero_add] at this
      · have := hr.rollup i op hi ht
        rwa [Nat.zero_add] at this
      · rcases hr.nonempty with h | h
        · simp at h
        · exact h
      · have := hr.levels (by
          rcases hr.nonempty with h | h
          · simp at h
          · exact h)
        simp only at this
        omega
    · intro hp
      refine ⟨⟨hp.order, fun s hs hn h0 => ?_⟩, hp.known, fun i op hi ht => ?_, hp.transformation, fun i op hi ht => ?_,
        hp.shrink, by simp, Or.inr hp.nonempty, fun _ => ?_⟩
      · have := hp.order s hs.isInfix hn h0
        simp only
        have : (limits o).maxOrder = o.maxOrder := rfl
        omega
      · rw [Nat.zero_add]
        exact hp.aggregation i op hi ht
      · rw [Nat.zero_add]
        exact hp.rollup i op hi ht
      · have := hp.levels
        simp only
        omega

/-! ### Rules -/

theorem dropIsValid_iff (d : DropPolicy) : dropIsValid d = true ↔ d = 0 ∨ d = 1 ∨ d = 2 := by
  simp only [dropIsValid, validDropPolicies, DropNone, DropMust, DropIfOnlyMatch, List.any_cons, List.any_nil, Bool.or_false,
    Bool.or_eq_true, beq_iff_eq]
  constructor <;> (rintro (h | h | h) <;> simp [h])

theorem mappingRule_iff (o : Options) (r : MappingView) : mappingRule o r = none ↔ MappingOk (limits o) r := by
  obtain ⟨hp, hf⟩ := validateFilter_iff o r.filter
  unfold mappingRule MappingOk
  cases hv : validateFilter o r.filter with
  | panic => exact absurd hv hp
  | err =>
    simp only [reduceCtorEq, false_iff]
    rintro ⟨m, types, h, _⟩
    have := (hf m).mpr ⟨h.parses, h.patterns, h.chars⟩
    rw [hv] at this
    cases this
  | ok m =>
    obtain ⟨h1, h2, h3⟩ := (hf m).mp hv
    simp only
    cases ht : o.metricTypesFn m with
    | none =>
      simp only [reduceCtorEq, false_iff]
      rintro ⟨m', types, h, _⟩
      have h4 := h.parses
      rw [h1] at h4
      cases h4
      have := h.matched
      rw [show (limits o).typesOf m = none from ht] at this
      cases this
    | some types =>
      have hiff : (∃ m types, FilterOk (limits o) r.filter m types ∧ AggOk (limits o) (limits o).first r.aggID types ∧
          ((r.drop = 0 ∧ StorageOk (limits o) r.storagePolicies types) ∨
           ((r.drop = 1 ∨ r.drop = 2) ∧ r.aggID = 0 ∧ r.storagePolicies = []))) ↔
          types ≠ [] ∧ AggOk (limits o) (limits o).first r.aggID types ∧
          ((r.drop = 0 ∧ StorageOk (limits o) r.storagePolicies types) ∨
           ((r.drop = 1 ∨ r.drop = 2) ∧ r.aggID = 0 ∧ r.storagePolicies = [])) := by
        constructor
        · rintro ⟨m', types', h, ha, hb⟩
          have h4 := h.parses
          rw [h1] at h4
          cases h4
          have := h.matched
          rw [show (limits o).typesOf m = some types from ht] at this
          cases this
          exact ⟨h.nonempty, ha, hb⟩
        · rintro ⟨h, ha, hb⟩
          exact ⟨m, types, ⟨h1, h2, h3, ht, h⟩, ha, hb⟩
      rw [hiff]
      have ha := aggID_iff o r.aggID true types
      rw [if_pos rfl] at ha
      rw [← ha, ← storage_iff]
      have hd := dropIsValid_iff r.drop
      have hl : types ≠ [] ↔ types.length ≠ 0 := not_congr List.length_eq_zero_iff.symm
      have hl' : r.storagePolicies.length = 0 ↔ r.storagePolicies = [] := List.length_eq_zero_iff
      have hz : r.aggID.isDefault = true ↔ r.aggID = 0 := by simp [Agg.ID.isDefault, Agg.DefaultID]
      have h01 : ∀ d : DropPolicy, d = 1 ∨ d = 2 → d ≠ 0 := by rintro d (rfl | rfl) <;> decide
      rw [hl, ← hl', ← hz]
      simp only
      by_cases c1 : types.length = 0
      · simp [c1]
      rw [if_neg c1]
      cases c2 : validateAggregationID o r.aggID true types with
      | false => simp
      | true =>
        simp only [Bool.not_true, Bool.false_eq_true, if_false, true_and, ne_eq, c1, not_false_eq_true]
        cases c3 : dropIsValid r.drop with
        | false =>
          have : ¬ (r.drop = 0 ∨ r.drop = 1 ∨ r.drop = 2) := fun h => by rw [hd.mpr h] at c3; cases c3
          simp only [Bool.not_false, if_true, reduceCtorEq, false_iff]
          rintro (⟨h, _⟩ | ⟨h, _⟩)
          · exact this (Or.inl h)
          · exact this (Or.inr h)
        | true =>
          have hd' := hd.mp c3
          simp only [Bool.not_true, Bool.false_eq_true, if_false]
          by_cases c4 : r.drop = DropNone
          · rw [if_pos c4]
            have c4' : r.drop = 0 := c4
            have hno : ¬ (r.drop = 1 ∨ r.drop = 2) := fun h => h01 _ h c4'
            simp only [c4', true_and]
            rw [c4'] at hno
            cases validateStoragePolicies o r.storagePolicies types <;> simp [hno]
          · rw [if_neg c4]
            have c4' : ¬ r.drop = 0 := c4
            have hyes : r.drop = 1 ∨ r.drop = 2 := hd'.resolve_left c4'
            cases c5 : r.aggID.isDefault with
            | false => simp [c4']
            | true =>
              by_cases c6 : r.storagePolicies.length = 0
              · simp [c6, hyes]
              · simp [c6, c4']

theorem targets_iff (o : Options) (types : List Int) : ∀ ts : List RollupTarget, targetsLoop o types ts = true ↔
    ∀ t ∈ ts, PipelineOk (limits o) t.pipeline types ∧ StorageOk (limits o) t.storagePolicies types
  | [] => by simp [targetsLoop]
  | t :: ts => by
    unfold targetsLoop
    rw [nif, nif, pipeline_iff, storage_iff, targets_iff o types ts, List.forall_mem_cons, and_assoc]

theorem rollupRule_iff (o : Options) (r : RollupView) : rollupRule o r = none ↔ RollupRuleOk (limits o) r := by
  obtain ⟨hp, hf⟩ := validateFilter_iff o r.filter
  unfold rollupRule RollupRuleOk
  cases hv : validateFilter o r.filter with
  | panic => exact absurd hv hp
  | err =>
    simp only [reduceCtorEq, false_iff]
    rintro ⟨m, types, h, _⟩
    have := (hf m).mpr ⟨h.parses, h.patterns, h.chars⟩
    rw [hv] at this
    cases this
  | ok m =>
    obtain ⟨h1, h2, h3⟩ := (hf m).mp hv
    simp only
    cases ht : o.metricTypesFn m with
    | none =>
      simp only [reduceCtorEq, false_iff]
      rintro ⟨m', types, h, _⟩
      have h4 := h.parses
      rw [h1] at h4
      cases h4
      have := h.matched
      rw [show (limits o).typesOf m = none from ht] at this
      cases this
    | some types =>
      constructor
      · intro h
        simp only at h
        split at h
        · cases h
        · rename_i hl
          split at h
          · rename_i htg
            exact ⟨m, types, ⟨h1, h2, h3, ht, fun e => hl (by simp [e])⟩, (targets_iff o types _).mp htg⟩
          · cases h
      · rintro ⟨m', types', h, ha⟩
        have h4 := h.parses
        rw [h1] at h4
        cases h4
        have := h.matched
        rw [show (limits o).typesOf m = some types from ht] at this
        cases this
        simp only
        rw [if_neg (by simpa using h.nonempty), if_pos ((targets_iff o types _).mpr ha)]

/-- Neither rule check can panic or report an invalid input. -/
theorem mappingRule_kind (o : Options) (r : MappingView) : mappingRule o r = none ∨ mappingRule o r = some .other := by
  have hp := (validateFilter_iff o r.filter).1
  unfold mappingRule
  cases hv : validateFilter o r.filter with
  | panic => exact absurd hv hp
  | err => exact Or.inr rfl
  | ok m =>
    simp only
    repeat' split
    all_goals first | exact Or.inl rfl | exact Or.inr rfl

theorem rollupRule_kind (o : Options) (r : RollupView) : rollupRule o r = none ∨ rollupRule o r = some .other := by
  have hp := (validateFilter_iff o r.filter).1
  unfold rollupRule
  cases hv : validateFilter o r.filter with
  | panic => exact absurd hv hp
  | err => exact Or.inr rfl
  | ok m =>
    simp only
    repeat' split
    all_goals first | exact Or.inl rfl | exact Or.inr rfl

theorem mappingLoop_none (o : Options) : ∀ (rs : List MappingView) (seen : List Bytes),
    mappingLoop o rs seen = none ↔
      (∀ r ∈ rs.filter (fun r => !r.tombstoned), mappingRule o r = none ∧ r.name ∉ seen) ∧
      ((rs.filter fun r => !r.tombstoned).map (·.name)).Nodup
  | [], _ => by simp [mappingLoop]
  | r :: rs, seen => by
    unfold mappingLoop
    cases ht : r.tombstoned with
    | true => simpa [ht] using mappingLoop_none o rs seen
    | false =>
      rw [if_neg (by simp)]
      have hfl : (r :: rs).filter (fun r => !r.tombstoned) = r :: rs.filter (fun r => !r.tombstoned) := by simp [ht]
      rw [hfl, List.map_cons, List.nodup_cons, List.forall_mem_cons]
      by_cases hs : r.name ∈ seen
      · simp [hs]
      · rw [if_neg (by simpa using hs)]
        rcases mappingRule_kind o r with hk | hk
        · rw [hk]
          simp only [mappingLoop_none o rs (r.name :: seen), List.mem_cons, not_or, List.mem_map, not_exists, not_and, hs,
            not_false_eq_true, true_and]
          constructor
          · rintro ⟨h1, h2⟩
            exact ⟨fun x hx => ⟨(h1 x hx).1, (h1 x hx).2.2⟩, fun x hx => (h1 x hx).2.1, h2⟩
          · rintro ⟨h1, h2, h3⟩
            exact ⟨fun x hx => ⟨(h1 x hx).1, h2 x hx, (h1 x hx).2⟩, h3⟩
        · simp [hk]

theorem mappingLoop_kind (o : Options) : ∀ (rs : List MappingView) (seen : List Bytes),
    mappingLoop o rs seen ≠ some .panic ∧
    ((∀ r ∈ rs.filter (fun r => !r.tombstoned), mappingRule o r = none) →
      mappingLoop o rs seen = none ∨ mappingLoop o rs seen = some .invalidInput)
  | [], _ => by simp [mappingLoop]
  | r :: rs, seen => by
    unfold mappingLoop
    cases ht : r.tombstoned with
    | true => simpa [ht] using mappingLoop_kind o rs seen
    | false =>
      rw [if_neg (by simp)]
      by_cases hs : r.name ∈ seen
      · simp [hs]
      · rw [if_neg (by simpa using hs)]
        have hfl : (r :: rs).filter (fun r => !r.tombstoned) = r :: rs.filter (fun r => !r.tombstoned) := by simp [ht]
        rw [hfl, List.forall_mem_cons]
        have ih := mappingLoop_kind o rs (r.name :: seen)
        rcases mappingRule_kind o r with hk | hk
        · rw [hk]
          exact ⟨ih.1, fun h => ih.2 h.2⟩
        · simp [hk]

/-! ### Clashing rollups -/

/-- No two of the operations, and none of them and one seen before, give the same metrics. -/
def Clean (l seen : List Pipe.RollupOp) : Prop :=
  l.Pairwise (fun a b => ¬ SameRollup a b) ∧ ∀ a ∈ l, ∀ e ∈ seen, ¬ SameRollup a e

theorem sameRollup_symm {a b : Pipe.RollupOp} (h : SameRollup a b) : SameRollup b a := ⟨h.1.symm, h.2.symm⟩

theorem clean_cons (a : Pipe.RollupOp) (l seen : List Pipe.RollupOp) :
    Clean (a :: l) seen ↔ (∀ e ∈ seen, ¬ SameRollup a e) ∧ Clean l (a :: seen) := by
  unfold Clean
  rw [List.pairwise_cons, List.forall_mem_cons]
  simp only [List.forall_mem_cons]
  constructor
  · rintro ⟨⟨h1, h2⟩, h3, h4⟩
    exact ⟨h3, h2, fun b hb => ⟨fun h => h1 b hb (sameRollup_symm h), h4 b hb⟩⟩
  · rintro ⟨h3, h2, h4⟩
    exact ⟨⟨fun b hb h => (h4 b hb).1 (sameRollup_symm h), h2⟩, h3, fun b hb => (h4 b hb).2⟩

theorem clean_append : ∀ (l m seen : List Pipe.RollupOp), Clean (l ++ m) seen ↔ Clean l seen ∧ Clean m (l.reverse ++ seen)
  | [], m, seen => by simp [Clean]
  | a :: l, m, seen => by
    rw [List.cons_append, clean_cons, clean_cons, clean_append l m, List.reverse_cons, List.append_assoc, and_assoc]
    rfl

theorem dupOps_spec : ∀ (ops : List Pipe.OpUnion) (seen : List Pipe.RollupOp),
    (Clean (rollupsOf ops) seen ∧ dupOps ops seen = some ((rollupsOf ops).reverse ++ seen)) ∨
    (¬ Clean (rollupsOf ops) seen ∧ dupOps ops seen = none)
  | [], seen => by simp [Clean, rollupsOf, dupOps]
  | op :: ops, seen => by
    unfold dupOps
    rw [rollupsOf_cons]
    by_cases h3 : op.type = 3
    · rw [if_neg (show ¬ (op.type ≠ Pipe.RollupOpType) from fun h => h h3), if_pos h3, clean_cons]
      by_cases hs : ∃ e ∈ seen, SameRollup op.rollup e
      · right
        obtain ⟨e, he, hse⟩ := hs
        refine ⟨fun h => h.1 e he hse, ?_⟩
        rw [if_pos]
        exact List.any_eq_true.mpr ⟨e, he, (Pipe.sameTransform_iff _ _).mpr hse⟩
      · have hs' : ∀ e ∈ seen, ¬ SameRollup op.rollup e := fun e he h => hs ⟨e, he, h⟩
        rw [if_neg]
        · rcases dupOps_spec ops (op.rollup :: seen) with ⟨h1, h2⟩ | ⟨h1, h2⟩
          · exact Or.inl ⟨⟨hs', h1⟩, by rw [h2]; simp⟩
          · exact Or.inr ⟨fun h => h1 h.2, h2⟩
        · intro h
          obtain ⟨e, he, h⟩ := List.any_eq_true.mp h
          exact hs' e he ((Pipe.sameTransform_iff _ _).mp h)
    · rw [if_pos (show op.type ≠ Pipe.RollupOpType from h3), if_neg h3]
      exact dupOps_spec ops seen

theorem dupPipelines_spec : ∀ (ps : List Pipe.Pipeline) (seen : List Pipe.RollupOp),
    (Clean (ps.flatMap rollupsOf) seen ∧ dupPipelines ps seen = none) ∨
    (¬ Clean (ps.flatMap rollupsOf) seen ∧ dupPipelines ps seen = some .invalidInput)
  | [], seen => by simp [Clean, dupPipelines]
  | p :: ps, seen => by
    unfold dupPipelines
    rw [List.flatMap_cons, clean_append]
    rcases dupOps_spec p seen with ⟨h1, h2⟩ | ⟨h1, h2⟩
    · rw [h2]
      rcases dupPipelines_spec ps ((rollupsOf p).reverse ++ seen) with ⟨h3, h4⟩ | ⟨h3, h4⟩
      · exact Or.inl ⟨⟨h1, h3⟩, h4⟩
      · exact Or.inr ⟨fun h => h3 h.2, h4⟩
    · rw [h2]
      exact Or.inr ⟨fun h => h1 h.1, rfl⟩

theorem rollupLoop_none (o : Options) : ∀ (rs : List RollupView) (seen : List Bytes) (ps : List Pipe.Pipeline),
    rollupLoop o rs seen ps = none ↔
      (∀ r ∈ rs.filter (fun r => !r.tombstoned), rollupRule o r = none ∧ r.name ∉ seen) ∧
      ((rs.filter fun r => !r.tombstoned).map (·.name)).Nodup ∧
      Clean (ps.flatMap rollupsOf ++
        (rs.filter fun r => !r.tombstoned).flatMap fun r => r.targets.flatMap fun t => rollupsOf t.pipeline) []
  | [], _, ps => by
    unfold rollupLoop
    rcases dupPipelines_spec ps [] with ⟨h1, h2⟩ | ⟨h1, h2⟩
    · simp [h1, h2]
    · simp [h1, h2]
  | r :: rs, seen, ps => by
    unfold rollupLoop
    cases ht : r.tombstoned with
    | true => simpa [ht] using rollupLoop_none o rs seen ps
    | false =>
      rw [if_neg (by simp)]
      have hfl : (r :: rs).filter (fun r => !r.tombstoned) = r :: rs.filter (fun r => !r.tombstoned) := by simp [ht]
      rw [hfl, List.map_cons, List.nodup_cons, List.forall_mem_cons]
      by_cases hs : r.name ∈ seen
      · simp [hs]
      · rw [if_neg (by simpa using hs)]
        rcases rollupRule_kind o r with hk | hk
        · rw [hk]
          simp only [rollupLoop_none o rs (r.name :: seen), List.mem_cons, not_or, List.mem_map, not_exists, not_and, hs,
            not_false_eq_true, true_and, List.flatMap_append, List.flatMap_cons, List.append_assoc, List.flatMap_map]
          constructor
          · rintro ⟨h1, h2, h4⟩
            exact ⟨fun x hx => ⟨(h1 x hx).1, (h1 x hx).2.2⟩, ⟨fun x hx => (h1 x hx).2.1, h2⟩, h4⟩
          · rintro ⟨h1, ⟨h2, h3⟩, h4⟩
            exact ⟨fun x hx => ⟨(h1 x hx).1, h2 x hx, (h1 x hx).2⟩, h3, h4⟩
        · simp [hk]

theorem rollupLoop_kind (o : Options) : ∀ (rs : List RollupView) (seen : List Bytes) (ps : List Pipe.Pipeline),
    rollupLoop o rs seen ps ≠ some .panic ∧
    ((∀ r ∈ rs.filter (fun r => !r.tombstoned), rollupRule o r = none) →
      rollupLoop o rs seen ps = none ∨ rollupLoop o rs seen ps = some .invalidInput)
  | [], _, ps => by
    unfold rollupLoop
    rcases dupPipelines_spec ps [] with ⟨_, h2⟩ | ⟨_, h2⟩ <;> simp [h2]
  | r :: rs, seen, ps => by
    unfold rollupLoop
    cases ht : r.tombstoned with
    | true => simpa [ht] using rollupLoop_kind o rs seen ps
    | false =>
      rw [if_neg (by simp)]
      by_cases hs : r.name ∈ seen
      · simp [hs]
      · rw [if_neg (by simpa using hs)]
        have hfl : (r :: rs).filter (fun r => !r.tombstoned) = r :: rs.filter (fun r => !r.tombstoned) := by simp [ht]
        rw [hfl, List.forall_mem_cons]
        have ih := rollupLoop_kind o rs (r.name :: seen) (ps ++ r.targets.map (·.pipeline))
        rcases rollupRule_kind o r with hk | hk
        · rw [hk]
          exact ⟨ih.1, fun h => ih.2 h.2⟩
        · simp [hk]

end Verif.Val
