import Verif.Props.MatchM3
/- C35 for reverse matching, C44, C45. -/
namespace Verif.Active
open Verif.Agg Verif.Policy Verif.Meta Verif.Id Verif.TagsFlt Verif.Rules Verif.Spec.Rules Verif.Spec Verif.Spec.Id Verif.Spec.TagsFlt

/-! ### Closed forms -/

theorem filterAggLoop_eq (keep : PipelineMetadata → Bool) : ∀ (n : Nat) (arr : List PipelineMetadata) (i cur : Nat),
    cur ≤ i → i + n = arr.length →
    (filterAggLoop keep n arr i cur).1.take (filterAggLoop keep n arr i cur).2 =
      arr.take cur ++ (arr.drop i).filter keep
  | 0, arr, i, cur, _, hn => by
    simp only [filterAggLoop]
    rw [List.drop_eq_nil_of_le (by omega)]
    simp
  | n + 1, arr, i, cur, h, hn => by
    have hi : i < arr.length := by omega
    rw [filterAggLoop, List.getElem?_eq_getElem hi, List.drop_eq_getElem_cons hi, List.filter_cons]
    simp only
    by_cases hk : keep arr[i] = true
    · have hset : (if cur ≠ i then arr.set cur arr[i] else arr) = arr.set cur arr[i] := by
        split
        · rfl
        · rename_i hc
          have : cur = i := by omega
          subst this
          simp
      simp only [hk, Bool.not_true, Bool.false_eq_true, if_false, if_true, hset]
      rw [filterAggLoop_eq keep n _ (i + 1) (cur + 1) (by omega) (by simp; omega), List.drop_set_of_lt (by omega)]
      have hc : cur < (arr.set cur arr[i]).length := by simp; omega
      rw [List.take_succ_eq_append_getElem hc, List.take_set_of_le (Nat.le_refl _)]
      simp
    · simp only [hk, Bool.not_false, if_true, Bool.false_eq_true, if_false]
      exact filterAggLoop_eq keep n arr (i + 1) cur (by omega) (by omega)

theorem filteredPipelines_eq (o : Agg.Options) (mt : Option Kind) (at' : AType) (ps : List PipelineMetadata) :
    filteredPipelines o mt at' ps = ps.filter (containsAggType o mt at') := by
  unfold filteredPipelines
  simp only
  rw [filterAggLoop_eq _ _ _ _ _ (Nat.le_refl _) (by simp)]
  simp

/-- Does a rollup operation fit the name and tags of an identifier. -/
def fits (env : Env) (name tags : Bytes) (op : Pipe.OpUnion) : Bool :=
  decide (op.type = 3) && (op.rollup.newName == name) && (rollupTagLoop (env.tagPairs tags) op.rollup.tags []).isSome

/-- What is found for an operation that fits. -/
def found (mt : Option Kind) (at' : AType) (multi : Bool) (o : Agg.Options) (cut : Int) (x : Pipe.OpUnion × List StoragePolicy) :
    Option StagedMetadata :=
  let p : PipelineMetadata := { aggID := x.1.rollup.aggID, storagePolicies := x.2 }
  if multi && !containsAggType o mt at' p then none
  else some { cutoverNanos := cut, tombstoned := false, pipelines := [p] }

theorem reverseOps_eq (env : Env) (name tags : Bytes) (mt : Option Kind) (at' : AType) (multi : Bool) (o : Agg.Options)
    (cut : Int) : ∀ l, reverseOps env name tags mt at' multi o cut l =
      (l.find? fun x => fits env name tags x.1).map (found mt at' multi o cut)
  | [] => rfl
  | (op, sps) :: rest => by
    have ih := reverseOps_eq env name tags mt at' multi o cut rest
    rw [reverseOps, List.find?_cons]
    by_cases h1 : op.type = 3
    · have h1' : ¬ op.type ≠ Pipe.RollupOpType := fun hne => hne h1
      rw [if_neg h1']
      by_cases h2 : (op.rollup.newName == name) = true
      · have h2' : ¬ (!(op.rollup.newName == name)) = true := by simpa using h2
        rw [if_neg h2']
        cases hr : rollupTagLoop (env.tagPairs tags) op.rollup.tags [] with
        | none =>
          have : fits env name tags op = false := by simp [fits, hr]
          simp only [this]
          exact ih
        | some l =>
          have : fits env name tags op = true := by simp only [fits, hr, h1, h2]; rfl
          simp only [this, Option.map_some, found]
          cases multi
          · simp
          · simp only [if_true, filteredPipelines_eq, Bool.true_and]
            by_cases hc : containsAggType o mt at' { aggID := op.rollup.aggID, storagePolicies := sps } = true
            · simp [hc]
            · simp [hc]
      · have h2' : (!(op.rollup.newName == name)) = true := by simpa using h2
        rw [if_pos h2']
        have : fits env name tags op = false := by simp [fits, h2]
        simp only [this]
        exact ih
    · have h1' : op.type ≠ Pipe.RollupOpType := h1
      rw [if_pos h1']
      have : fits env name tags op = false := by simp [fits, h1]
      simp only [this]
      exact ih

/-- The rollup operations in force with the change time of their rule, in order. -/
def opsInForce (as : ActiveRuleSet) (t : Int) : List (Int × Pipe.OpUnion × List StoragePolicy) :=
  (live (current as.rollupRules t)).flatMap fun s => (rollupOpsOf s.targets).map fun x => (s.cutoverNanos, x)

theorem reverseRollup_eq (env : Env) (name tags : Bytes) (t : Int) (mt : Option Kind) (at' : AType) (multi : Bool)
    (o : Agg.Options) : ∀ rs : List RollupRule, reverseRollup env name tags t mt at' multi o rs =
      (((live (current rs t)).flatMap fun s => (rollupOpsOf s.targets).map fun x => (s.cutoverNanos, x)).find?
        fun x => fits env name tags x.2.1).bind fun x => found mt at' multi o x.1 x.2
  | [] => rfl
  | r :: rs => by
    have ih := reverseRollup_eq env name tags t mt at' multi o rs
    rw [reverseRollup, activeSnapshot_eq]
    unfold current
    rw [List.filterMap_cons]
    cases hin : inForce r.snapshots t with
    | none => exact ih
    | some s =>
      simp only
      unfold live
      rw [List.filter_cons]
      by_cases ht : s.tombstoned = true
      · have : (!Snap.tombstoned s) = false := by simp [Snap.tombstoned, ht]
        rw [if_pos ht]
        simp only [this]
        exact ih
      · have : (!Snap.tombstoned s) = true := by simp [Snap.tombstoned, ht]
        rw [if_neg ht]
        simp only [this, if_true]
        rw [List.flatMap_cons, List.find?_append, List.find?_map, reverseOps_eq]
        simp only [Function.comp_def]
        cases hf : (rollupOpsOf s.targets).find? (fun x => fits env name tags x.1) with
        | none =>
          simp only [Option.map_none, Option.none_or]
          exact ih
        | some x => simp

/-! ### C35 -/

theorem reverseLoop_eq (f : Int → Option StagedMetadata) (to : Int) : ∀ (cs : List Int) (ex : List StagedMetadata),
    cs.Pairwise (· < ·) →
    reverseLoop f to cs ex =
      (((cs.filter (fun c => decide (to ≤ c))).head?).getD timeNanosMax,
       (cs.filter (fun c => decide (c < to))).foldl (fun ex c => reverseMerge ex (f c) c) ex)
  | [], ex, _ => by simp [reverseLoop]
  | c :: cs, ex, hs => by
    rw [reverseLoop]
    by_cases hc : c < to
    · have h' : ¬ to ≤ c := by omega
      rw [if_pos hc, reverseLoop_eq f to cs _ (List.pairwise_cons.mp hs).2]
      simp [hc, h']
    · rw [if_neg hc]
      have hall : ∀ d ∈ cs, ¬ d < to := by
        intro d hd
        have := (List.pairwise_cons.mp hs).1 d hd
        omega
      have : cs.filter (fun c => decide (c < to)) = [] := by
        rw [List.filter_eq_nil_iff]; intro d hd; simpa using hall d hd
      have h' : to ≤ c := by omega
      simp [hc, this, h']

/-- The point match of reverse matching. -/
def reverseAt (env : Env) (as : ActiveRuleSet) (id : Bytes) (mt : Option Kind) (at' : AType) (multi : Bool)
    (o : Agg.Options) (t : Int) : Option StagedMetadata :=
  reverseMappingsFor env as id (reverseKind env id).1 (reverseKind env id).2.1 (reverseKind env id).2.2 t mt at' multi o

theorem reverseMatch_eq (env : Env) (as : ActiveRuleSet) (h : Built as) (id : Bytes) (frm to : Int) (mt : Option Kind)
    (at' : AType) (multi : Bool) (o : Agg.Options) :
    reverseMatch env as id frm to mt at' multi o =
      { version := as.version
        expireAtNanos := ((as.cutoverTimesAsc.filter (fun c => decide (frm < c) && decide (to ≤ c))).head?).getD timeNanosMax
        forExistingID := (stages as frm to).foldl
          (fun ex c => reverseMerge ex (reverseAt env as id mt at' multi o c) c)
          (reverseMerge [] (reverseAt env as id mt at' multi o frm) frm)
        forNewRollupIDs := [] } := by
  unfold reverseMatch
  rw [nextCutover_drop as h.sorted]
  simp only [reverseLoop_eq _ to _ _ (h.sorted.filter _), List.filter_filter, stages]
  congr 1 <;> congr 1 <;> (try congr 1) <;> (try congr 1) <;> (funext c; exact Bool.and_comm _ _)

theorem reverseAt_congr (env : Env) (as as' : ActiveRuleSet) (id : Bytes) (mt : Option Kind) (at' : AType) (multi : Bool)
    (o : Agg.Options) (t : Int) (hM : current as.mappingRules t = current as'.mappingRules t)
    (hR : current as.rollupRules t = current as'.rollupRules t) :
    reverseAt env as id mt at' multi o t = reverseAt env as' id mt at' multi o t := by
  unfold reverseAt reverseMappingsFor
  have h1 : reverseNonRollup env as id t mt at' o = reverseNonRollup env as' id t mt at' o := by
    unfold reverseNonRollup
    rw [mappingsFor_congr env as as' id (t := t) (t' := t) (by unfold matchingM; rw [hM])]
  rw [h1, reverseRollup_eq, reverseRollup_eq, hR]

/-- C35 for reverse matching. -/
theorem C35_reverse (env : Env) (v : Int) (ms : List MappingRule) (rs : List RollupRule) (t : Int)
    (hm : ∀ r ∈ ms, TimeOrdered r.snapshots) (hr : ∀ r ∈ rs, TimeOrdered r.snapshots)
    (id : Bytes) (frm to : Int) (htf : t ≤ frm) (mt : Option Kind) (at' : AType) (multi : Bool) (o : Agg.Options) :
    reverseMatch env (activeSet v ms rs t) id frm to mt at' multi o =
      reverseMatch env (newActiveRuleSet v ms rs) id frm to mt at' multi o := by
  have h : Built (activeSet v ms rs t) := ⟨v, _, _, rfl⟩
  have h' : Built (newActiveRuleSet v ms rs) := ⟨v, ms, rs, rfl⟩
  have hp : ∀ u, t ≤ u → reverseAt env (activeSet v ms rs t) id mt at' multi o u =
      reverseAt env (newActiveRuleSet v ms rs) id mt at' multi o u := fun u hu =>
    reverseAt_congr env _ _ id mt at' multi o u (activeSet_current ms t u hu) (activeSet_current rs t u hu)
  have key : ∀ p : Int → Bool, (activeSet v ms rs t).cutoverTimesAsc.filter (fun c => decide (frm < c) && p c) =
      (newActiveRuleSet v ms rs).cutoverTimesAsc.filter (fun c => decide (frm < c) && p c) := by
    intro p
    refine sorted_ext (h.sorted.filter _) (h'.sorted.filter _) fun c => ?_
    simp only [List.mem_filter, Bool.and_eq_true, decide_eq_true_eq, h.mem, h'.mem]
    have ht : ∀ c, t < c → _ := activeSet_times v ms rs t hm hr
    constructor
    · rintro ⟨a, b, d⟩; exact ⟨(ht c (by omega)).mp a, b, d⟩
    · rintro ⟨a, b, d⟩; exact ⟨(ht c (by omega)).mpr a, b, d⟩
  rw [reverseMatch_eq env _ h, reverseMatch_eq env _ h']
  unfold stages
  rw [key, key, hp frm htf]
  congr 1
  apply foldl_congr'
  intro c hc ex
  simp only [List.mem_filter, Bool.and_eq_true, decide_eq_true_eq] at hc
  rw [hp c (by omega)]

/-! ### C45 -/

/-- The aggregation types a metric type has by default. -/
def defaultsOf (o : Agg.Options) : Option Kind → List AType
  | some .counter => o.defaultCounter
  | some .timer => o.defaultTimer
  | some .gauge => o.defaultGauge
  | none => []

/-- A pipeline produces an aggregation type: it names it, or it names none and the type is one of the defaults. -/
def Produces (o : Agg.Options) (mt : Option Kind) (at' : AType) (p : PipelineMetadata) : Prop :=
  if p.aggID = 0 then at' ∈ defaultsOf o mt else ValidAggType at' ∧ p.aggID.getLsbD at'.toNat = true

theorem containsAggType_iff (o : Agg.Options) (mt : Option Kind) (at' : AType) (p : PipelineMetadata) :
    containsAggType o mt at' p = true ↔ Produces o mt at' p := by
  have hmem : ∀ l : List AType, typesContains l at' = true ↔ at' ∈ l := by
    intro l
    induction l with
    | nil => simp [typesContains]
    | cons a l ih =>
      simp only [typesContains, List.any_cons, Bool.or_eq_true, beq_iff_eq, List.mem_cons] at ih ⊢
      rw [ih]
      constructor
      · rintro (h | h)
        · exact Or.inl h.symm
        · exact Or.inr h
      · rintro (h | h)
        · exact Or.inl h.symm
        · exact Or.inr h
  unfold containsAggType Produces ID.isDefault
  by_cases h : p.aggID = 0
  · have h' : (p.aggID == DefaultID) = true := beq_iff_eq.mpr h
    rw [if_pos h', if_pos h]
    unfold containedInDefault defaultsOf
    cases mt with
    | none => exact hmem []
    | some k => cases k <;> exact hmem _
  · have h' : ¬ (p.aggID == DefaultID) = true := fun hb => h (beq_iff_eq.mp hb)
    rw [if_neg h', if_neg h]
    exact C02_contains_iff p.aggID at'

instance (o : Agg.Options) (mt : Option Kind) (at' : AType) (p : PipelineMetadata) : Decidable (Produces o mt at' p) :=
  decidable_of_iff _ (containsAggType_iff o mt at' p)

/-- C45: reverse matching of a plain identifier at a time returns exactly the pipelines of the mapping rules that
produce the aggregation type, in order, and nothing exactly when there are none. -/
theorem C45_plain (env : Env) (as : ActiveRuleSet) (h : Built as) (id : Bytes) (t : Int) (mt : Option Kind) (at' : AType)
    (multi : Bool) (o : Agg.Options)
    (hplain : ∀ name tags, env.nameAndTags id = some (name, tags) → env.isRollupID name tags = false) :
    ∃ ps, ps = (mappingsFor env as id t).pipelines.filter (fun p => decide (Produces o mt at' p)) ∧
      (reverseMatch env as id t t mt at' multi o).forExistingID =
        if ps = [] then [] else [{ cutoverNanos := mappingCut env as id t, tombstoned := false, pipelines := ps }] := by
  refine ⟨(mappingsFor env as id t).pipelines.filter (containsAggType o mt at'), ?_, ?_⟩
  · congr 1
    funext p
    rw [Bool.eq_iff_iff, containsAggType_iff, decide_eq_true_iff]
  · rw [reverseMatch_eq env as h]
    have hs : stages as t t = [] := by
      unfold stages
      rw [List.filter_eq_nil_iff]
      intro c _
      simp only [Bool.and_eq_true, decide_eq_true_eq]
      omega
    have hk : (reverseKind env id).2.2 = false := by
      unfold reverseKind
      cases hn : env.nameAndTags id with
      | none => rfl
      | some nt => exact hplain nt.1 nt.2 hn
    have hcut : (mappingsFor env as id t).cutoverNanos = mappingCut env as id t := by rw [mappingsFor_eq]
    simp only [hs, List.foldl_nil]
    unfold reverseAt reverseMappingsFor reverseNonRollup
    simp only [hk, Bool.not_false, if_true, filteredPipelines_eq, List.length_eq_zero_iff, hcut]
    split <;> rfl

/-- Over a range: the reported metadatas are those of the start and of the rule changes inside the range at which
some pipeline produces the aggregation type, in order. -/
theorem C45_range (env : Env) (as : ActiveRuleSet) (h : Built as) (id : Bytes) (frm to : Int) (mt : Option Kind)
    (at' : AType) (multi : Bool) (o : Agg.Options) :
    (reverseMatch env as id frm to mt at' multi o).forExistingID.map (·.pipelines) =
      (frm :: stages as frm to).filterMap fun t => (reverseAt env as id mt at' multi o t).map (·.pipelines) := by
  have hmerge : ∀ (ex : List StagedMetadata) (m : StagedMetadata) (c : Int),
      (mergeExisting ex m c).map (·.pipelines) = ex.map (·.pipelines) ++ [m.pipelines] := by
    intro ex m c
    unfold mergeExisting
    cases hl : ex.getLast? with
    | none => rw [List.getLast?_eq_none_iff] at hl; subst hl; rfl
    | some last =>
      simp only
      split <;> simp
  have hrm : ∀ (ex : List StagedMetadata) (r : Option StagedMetadata) (c : Int),
      (reverseMerge ex r c).map (·.pipelines) = ex.map (·.pipelines) ++ (r.map (·.pipelines)).toList := by
    intro ex r c
    cases r with
    | none => simp [reverseMerge]
    | some m => simp [reverseMerge, hmerge]
  have hfold : ∀ (cs : List Int) (ex : List StagedMetadata),
      (cs.foldl (fun ex c => reverseMerge ex (reverseAt env as id mt at' multi o c) c) ex).map (·.pipelines) =
        ex.map (·.pipelines) ++ cs.filterMap fun t => (reverseAt env as id mt at' multi o t).map (·.pipelines) := by
    intro cs
    induction cs with
    | nil => simp
    | cons c cs ih =>
      intro ex
      rw [List.foldl_cons, ih, hrm, List.filterMap_cons]
      cases reverseAt env as id mt at' multi o c <;> simp
  rw [reverseMatch_eq env as h]
  simp only
  rw [hfold, hrm, List.filterMap_cons]
  cases reverseAt env as id mt at' multi o frm <;> simp

def exOpts : Agg.Options :=
  { defaultCounter := [7], defaultTimer := [7, 8], defaultGauge := [1], quantileFn := fun _ => [], counterFn := id,
    timerFn := id, gaugeFn := id, counterStrings := [], timerStrings := [], gaugeStrings := [], quantiles := [] }

def exThree : ActiveRuleSet :=
  newActiveRuleSet 1
    [⟨bs "1", [exSnap "city:s*" 10 4]⟩, ⟨bs "2", [exSnap "city:sf" 5 0]⟩, ⟨bs "3", [exSnap "host:a" 5 0x84]⟩] []

/-- Of three matching pipelines two name the type (one by default); of another type none is found. -/
example : ((reverseMatch m3Env exThree exID 15 15 (some .counter) 7 false exOpts).forExistingID.map fun m => m.pipelines.map (·.aggID)) =
      [[0, 0x84]] ∧
    (reverseMatch m3Env exThree exID 15 15 (some .counter) 9 false exOpts).forExistingID = [] := by decide +kernel

/-! ### C44 -/

theorem tagLoop_sound : ∀ (ps : List TagPair) (ts : List Bytes) (acc l : List TagPair), rollupTagLoop ps ts acc = some l →
    ∀ t ∈ ts, ∃ p ∈ ps, p.name = t
  | _, [], _, _, _ => by simp
  | [], _ :: _, _, _, h => by simp [rollupTagLoop] at h
  | p :: ps, t :: ts, acc, l, h => by
    rw [rollupTagLoop] at h
    split at h
    · rename_i he
      intro x hx
      rcases List.mem_cons.mp hx with rfl | hx
      · exact ⟨p, by simp, he⟩
      · obtain ⟨q, hq, hqn⟩ := tagLoop_sound ps ts _ l h x hx
        exact ⟨q, by simp [hq], hqn⟩
    · split at h
      · cases h
      · intro x hx
        obtain ⟨q, hq, hqn⟩ := tagLoop_sound ps (t :: ts) acc l h x hx
        exact ⟨q, by simp [hq], hqn⟩

theorem targetResult_rollup {env : Env} {tags : Bytes} {t : RollupTarget} {x : Bytes} {p : PipelineMetadata}
    (h : targetResult env tags t = some (some x, p)) :
    ∃ op rest, t.pipeline = op :: rest ∧ op.type = 3 ∧ matchRollupTarget env tags op.rollup.newName op.rollup.tags = some x ∧
      p.aggID = op.rollup.aggID ∧ p.storagePolicies = t.storagePolicies := by
  obtain ⟨k, hk, hm⟩ := targetResult_key h
  unfold targetKey at hk
  cases hp : t.pipeline with
  | nil => simp [hp] at hk
  | cons op ops =>
    simp only [hp] at hk
    split at hk
    · rename_i h3
      simp only [Option.some.injEq] at hk
      subst hk
      refine ⟨op, ops, rfl, h3, hm, ?_⟩
      unfold targetResult at h
      simp only [hp] at h
      have e1 : ¬ op.type = Pipe.AggregationOpType := by rw [h3]; decide
      have e2 : ¬ op.type = Pipe.TransformationOpType := by rw [h3]; decide
      have e3 : op.type = Pipe.RollupOpType := h3
      rw [if_neg e1, if_neg e2, if_pos e3] at h
      simp only at hm
      rw [hm] at h
      simp only [Option.map_some] at h
      cases ha : applyIDToPipeline env tags ops with
      | none => simp [ha] at h
      | some ap =>
        simp only [ha, Option.some.injEq, Prod.mk.injEq] at h
        rw [← h.2]
        exact ⟨rfl, rfl⟩
    · cases hk

/-- The rollup operations in force are unambiguous for reverse matching: whenever one has the new name of another
and no tags (other than the rollup marker) that the other has not, they have the same aggregation ID and storage
policies. -/
def Unambiguous (as : ActiveRuleSet) (t : Int) : Prop :=
  ∀ s₁ ∈ live (current as.rollupRules t), ∀ s₂ ∈ live (current as.rollupRules t),
    ∀ tg₁ ∈ s₁.targets, ∀ tg₂ ∈ s₂.targets, ∀ op₁ ∈ tg₁.pipeline, ∀ op₂ ∈ tg₂.pipeline, op₁.type = 3 → op₂.type = 3 →
      op₁.rollup.newName = op₂.rollup.newName →
      (∀ n ∈ op₁.rollup.tags, n ∈ op₂.rollup.tags ∨ n = bs "m3_rollup") →
      op₁.rollup.aggID = op₂.rollup.aggID ∧ tg₁.storagePolicies = tg₂.storagePolicies

/-- The rollup operations in force are well formed: no separator in the new name, tags in strictly ascending order,
none of them the rollup marker. -/
def WellFormed (as : ActiveRuleSet) (t : Int) : Prop :=
  ∀ s ∈ live (current as.rollupRules t), ∀ tg ∈ s.targets, ∀ op ∈ tg.pipeline, op.type = 3 →
    43 ∉ op.rollup.newName ∧ NamesAsc op.rollup.tags ∧ bs "m3_rollup" ∉ op.rollup.tags

theorem mem_opsInForce {as : ActiveRuleSet} {t : Int} {c : Int} {op : Pipe.OpUnion} {sps : List StoragePolicy} :
    (c, op, sps) ∈ opsInForce as t ↔ ∃ s ∈ live (current as.rollupRules t), ∃ tg ∈ s.targets, op ∈ tg.pipeline ∧
      tg.storagePolicies = sps ∧ s.cutoverNanos = c := by
  unfold opsInForce rollupOpsOf
  simp only [List.mem_flatMap, List.mem_map, Prod.mk.injEq]
  constructor
  · rintro ⟨s, hs, _, ⟨tg, htg, _, hop, rfl⟩, rfl, he⟩
    cases he
    exact ⟨s, hs, tg, htg, hop, rfl, rfl⟩
  · rintro ⟨s, hs, tg, htg, hop, rfl, rfl⟩
    exact ⟨s, hs, _, ⟨tg, htg, op, hop, rfl⟩, rfl, rfl⟩

/-- C44, under unambiguity: reverse matching a rollup identifier that forward matching generates at a time returns
the aggregation ID and the storage policies it was generated with. -/
theorem C44_reverse_partial (as : ActiveRuleSet) (h : Built as) (name : Bytes) (tags : List (Bytes × Bytes))
    (hc : Clean name tags) (ha : Ascending tags) (t : Int) (hu : Unambiguous as t) (hw : WellFormed as t)
    (y : IDWithMetadatas) (hy : y ∈ (forwardMatchAt m3Env as (idText name tags) t).forNewRollupIDs)
    (m : StagedMetadata) (hm : m ∈ y.metadatas) (p : PipelineMetadata) (hp : p ∈ m.pipelines)
    (mt : Option Kind) (at' : AType) (multi : Bool) (o : Agg.Options) (hat : multi = true → Produces o mt at' p) :
    ∃ cut, (reverseMatch m3Env as y.id t t mt at' multi o).forExistingID =
      [{ cutoverNanos := cut, tombstoned := false,
         pipelines := [{ aggID := p.aggID, storagePolicies := p.storagePolicies }] }] := by
  obtain ⟨_, tb, s, tg, p', hn, hs, htg, hres, hmeta⟩ := C40_rollup_pipeline m3Env as _ t y hy
  have hpp : p' = p := by
    cases hmd : y.metadatas with
    | nil => rw [hmd] at hm; cases hm
    | cons a l =>
      rw [hmd] at hm hmeta
      simp only [List.map_cons, List.cons.injEq, List.map_eq_nil_iff, Prod.mk.injEq] at hmeta
      obtain ⟨⟨h1, _⟩, rfl⟩ := hmeta
      simp only [List.mem_singleton] at hm
      subst hm
      rw [h1] at hp
      exact (List.mem_singleton.mp hp).symm
  subst hpp
  obtain ⟨op, rest, hpl, h3, hmt, hagg, hsps⟩ := targetResult_rollup hres
  have hop : op ∈ tg.pipeline := by rw [hpl]; simp
  have hsc : s ∈ live (current as.rollupRules t) := by
    unfold live matchingR at hs
    unfold live
    simp only [List.mem_filter] at hs ⊢
    exact ⟨hs.1.1, hs.2⟩
  obtain ⟨hplus, hasc, hmark⟩ := hw s hsc tg htg op hop h3
  -- the identifier and its parts
  obtain ⟨tb', e1, e2⟩ := m3_parse name tags hc
  rw [hn] at e1
  simp only [Option.some.injEq, Prod.mk.injEq] at e1
  obtain ⟨rfl, rfl⟩ := e1
  have htasc : TagsAsc (m3Env.tagPairs tb) := by rw [e2]; exact asc_pairs ha
  obtain ⟨picked, hid, hpn, hpf⟩ := (C43_identifier m3Env tb _ _ _ htasc hasc).mp hmt
  rw [e2] at hpf
  obtain ⟨hpick, hall⟩ := picked_eq hpn hpf
  have hid' : y.id = newRollupID op.rollup.newName ((pickTags tags op.rollup.tags).map ofPair) := by
    rw [hid, hpick]; rfl
  have hclean : Clean op.rollup.newName (pickTags tags op.rollup.tags) := by
    refine ⟨hplus, ?_⟩
    intro q hq
    simp only [pickTags, List.mem_map] at hq
    obtain ⟨n, hn', rfl⟩ := hq
    have := hall n hn'
    cases hl : lookup n tags with
    | none => simp [hl] at this
    | some v => exact hc.2 (n, v) (lookup_mem hl)
  have hnodup : op.rollup.tags.Nodup := hasc.imp fun hlt => ne_of_lt hlt
  have hdist : Distinct (pickTags tags op.rollup.tags) := by
    have e1 : (pickTags tags op.rollup.tags).map (·.1) = op.rollup.tags := by simp [pickTags, Function.comp_def]
    show ((pickTags tags op.rollup.tags ++ [marker]).map (·.1)).Nodup
    rw [List.map_append, e1, List.nodup_append]
    refine ⟨hnodup, by simp, ?_⟩
    intro a ha' b hb hab
    simp only [List.map_cons, List.map_nil, List.mem_singleton, marker] at hb
    subst hab
    rw [hb] at ha'
    exact hmark ha'
  obtain ⟨ts, l, k1, k2, k3, k4, k5⟩ := C32_parse_back op.rollup.newName _ hclean hdist
  have hkind : reverseKind m3Env y.id = (op.rollup.newName, ts, true) := by
    unfold reverseKind
    have : m3Env.nameAndTags y.id = some (op.rollup.newName, ts) := by
      show m3NameAndTags _ = _
      rw [hid']
      simp [m3NameAndTags, k1]
    rw [this]
    show (_, _, okOr false (isRollupID ts)) = _
    rw [k5]
    rfl
  have hpairs : m3Env.tagPairs ts = l.map ofPair := by
    show (m3Stream ts).pairs = _
    simp [m3Stream, k2]
  have hlasc : TagsAsc (m3Env.tagPairs ts) := by
    rw [hpairs]
    apply asc_pairs
    exact k4.imp fun hlt => bytesLt_strictTotal.asymm hlt
  have hlnames : ∀ n, (∃ q ∈ m3Env.tagPairs ts, q.name = n) ↔ n ∈ op.rollup.tags ∨ n = bs "m3_rollup" := by
    intro n
    rw [hpairs]
    have hperm := (k3.map (·.1)).mem_iff (a := n)
    have e : (pickTags tags op.rollup.tags ++ [marker]).map (·.1) = op.rollup.tags ++ [bs "m3_rollup"] := by
      simp [pickTags, Function.comp_def, marker]
    rw [e] at hperm
    simp only [List.mem_append, List.mem_singleton] at hperm
    rw [← hperm]
    simp only [List.mem_map]
    constructor
    · rintro ⟨_, ⟨a, ha', rfl⟩, rfl⟩; exact ⟨a, ha', rfl⟩
    · rintro ⟨a, ha', rfl⟩; exact ⟨_, ⟨a, ha', rfl⟩, rfl⟩
  have hfit : fits m3Env op.rollup.newName ts op = true := by
    unfold fits
    have : ∃ x, matchRollupTarget m3Env ts op.rollup.newName op.rollup.tags = some x := by
      rw [C43_applies m3Env ts _ _ hlasc hasc]
      intro n hn'
      exact (hlnames n).mpr (Or.inl hn')
    obtain ⟨x, hx⟩ := this
    unfold matchRollupTarget at hx
    cases hr : rollupTagLoop (m3Env.tagPairs ts) op.rollup.tags [] with
    | none => simp [hr] at hx
    | some _ => simp [h3]
  -- the first fitting operation
  have hmemop : (s.cutoverNanos, op, tg.storagePolicies) ∈ opsInForce as t :=
    mem_opsInForce.mpr ⟨s, hsc, tg, htg, hop, rfl, rfl⟩
  cases hfind : (opsInForce as t).find? (fun x => fits m3Env op.rollup.newName ts x.2.1) with
  | none =>
    rw [List.find?_eq_none] at hfind
    exact absurd hfit (hfind _ hmemop)
  | some r =>
    obtain ⟨cut, op', sps'⟩ := r
    have hfit' : fits m3Env op.rollup.newName ts op' = true := by
      have := List.find?_some hfind
      simpa using this
    obtain ⟨s', hs', tg', htg', hop', rfl, rfl⟩ := mem_opsInForce.mp (List.mem_of_find?_eq_some hfind)
    unfold fits at hfit'
    simp only [Bool.and_eq_true, decide_eq_true_eq, beq_iff_eq] at hfit'
    obtain ⟨⟨h3', hname⟩, htl⟩ := hfit'
    have hsub : ∀ n ∈ op'.rollup.tags, n ∈ op.rollup.tags ∨ n = bs "m3_rollup" := by
      intro n hn'
      cases hr : rollupTagLoop (m3Env.tagPairs ts) op'.rollup.tags [] with
      | none => simp [hr] at htl
      | some l' => exact (hlnames n).mp (tagLoop_sound _ _ _ _ hr n hn')
    obtain ⟨eagg, esps⟩ := hu s' hs' s hsc tg' htg' tg htg op' hop' op hop h3' h3 hname hsub
    refine ⟨s'.cutoverNanos, ?_⟩
    rw [reverseMatch_eq m3Env as h]
    have hs0 : stages as t t = [] := by
      unfold stages
      rw [List.filter_eq_nil_iff]
      intro c _
      simp only [Bool.and_eq_true, decide_eq_true_eq]
      omega
    simp only [hs0, List.foldl_nil]
    unfold reverseAt reverseMappingsFor
    rw [hkind]
    simp only [Bool.not_true, Bool.false_eq_true, if_false]
    rw [reverseRollup_eq]
    have hfind' : (((live (current as.rollupRules t)).flatMap fun s => (rollupOpsOf s.targets).map fun x =>
        (s.cutoverNanos, x)).find? fun x => fits m3Env op.rollup.newName ts x.2.1) =
        some (s'.cutoverNanos, op', tg'.storagePolicies) := hfind
    rw [hfind']
    simp only [Option.bind_some, found]
    have hcontains : ¬ (multi && !containsAggType o mt at' { aggID := op'.rollup.aggID, storagePolicies := tg'.storagePolicies }) = true := by
      simp only [Bool.and_eq_true, Bool.not_eq_true', not_and, Bool.not_eq_false]
      intro hmul
      rw [containsAggType_iff]
      have := hat hmul
      unfold Produces at this ⊢
      rw [eagg, ← hagg]
      exact this
    rw [if_neg hcontains, eagg, esps, ← hagg, ← hsps]
    rfl

/-- Two targets of different tags for the same new name. -/
def exAmbiguous : ActiveRuleSet :=
  newActiveRuleSet 1 [] [⟨bs "4", [exRollup 5 false [exRollTo "r" ["city"] 2, exRollTo "r" ["city", "host"] 4]]⟩]

/-- C44 is violated although no two targets share new name and tags: the identifier generated for the second target
is attributed to the first. -/
theorem C44_violated : Built exAmbiguous ∧
    (((live (current exAmbiguous.rollupRules 6)).flatMap (·.targets)).filterMap targetKey).Nodup ∧
    ((forwardMatchAt m3Env exAmbiguous exID 6).forNewRollupIDs.map fun y =>
      (y.id, y.metadatas.map fun m => m.pipelines.map (·.aggID))) =
      [(bs "m3+r+city=sf,host=a,m3_rollup=true", [[4]]), (bs "m3+r+city=sf,m3_rollup=true", [[2]])] ∧
    ((reverseMatch m3Env exAmbiguous (bs "m3+r+city=sf,host=a,m3_rollup=true") 6 6 none 0 false exOpts).forExistingID.map
      fun m => m.pipelines.map (·.aggID)) = [[2]] :=
  ⟨⟨1, _, _, rfl⟩, by decide +kernel, by decide +kernel, by decide +kernel⟩

/-- A rule set meeting the conditions, with two rules and both directions of matching. -/
def exClear : ActiveRuleSet :=
  newActiveRuleSet 1 [] [⟨bs "4", [exRollup 5 false [exRollTo "r" ["city"] 2]]⟩,
    ⟨bs "5", [exRollup 5 false [exRollTo "q" ["city", "host"] 4]]⟩]

instance (ts : List Bytes) : Decidable (NamesAsc ts) := by unfold NamesAsc; exact inferInstance

example : Unambiguous exClear 6 ∧ WellFormed exClear 6 ∧
    ((reverseMatch m3Env exClear (bs "m3+q+city=sf,host=a,m3_rollup=true") 6 6 none 0 false exOpts).forExistingID.map
      fun m => m.pipelines.map (·.aggID)) = [[4]] := by
  have hl : live (current exClear.rollupRules 6) =
      [exRollup 5 false [exRollTo "r" ["city"] 2], exRollup 5 false [exRollTo "q" ["city", "host"] 4]] := rfl
  refine ⟨?_, ?_, by decide +kernel⟩
  · unfold Unambiguous
    rw [hl]
    simp only [List.mem_cons, List.not_mem_nil, or_false, forall_eq_or_imp, forall_eq, exRollup, exRollTo]
    have hne : ¬ bs "r" = bs "q" := by decide
    simp only [hne, false_implies, implies_true, true_and, and_true]
    simp
    exact fun h => absurd h.symm hne
  · unfold WellFormed
    rw [hl]
    simp only [List.mem_cons, List.not_mem_nil, or_false, forall_eq_or_imp, forall_eq, exRollup, exRollTo]
    decide +kernel

end Verif.Active
