import Verif.Spec.Rules
import Verif.Props.Metadata
/- Lemmas about active rule sets. -/
namespace Verif.Active
open Verif.Agg Verif.Policy Verif.Meta Verif.Id Verif.TagsFlt Verif.Rules Verif.Spec.Rules

variable {S : Type} [Snap S]

/-! ### Active snapshots -/

theorem activeIndexLoop_eq (snaps : List S) (t : Int) : ∀ k, k ≤ snaps.length →
    (match activeIndexLoop snaps t k with | 0 => none | j + 1 => snaps[j]?) =
      ((snaps.take k).filter (fun s => decide (Snap.cutover s ≤ t))).getLast?
  | 0, _ => by simp [activeIndexLoop]
  | k + 1, h => by
    have hk : k < snaps.length := h
    rw [activeIndexLoop, List.getElem?_eq_getElem hk, List.take_succ_eq_append_getElem hk, List.filter_append]
    simp only
    by_cases hc : Snap.cutover snaps[k] > t
    · rw [if_pos hc, activeIndexLoop_eq snaps t k (by omega)]
      have : ¬ Snap.cutover snaps[k] ≤ t := by omega
      simp [this]
    · rw [if_neg hc]
      have : Snap.cutover snaps[k] ≤ t := by omega
      simp [this, List.getElem?_eq_getElem hk]

theorem activeSnapshot_eq (r : Rule S) (t : Int) : r.activeSnapshot t = inForce r.snapshots t := by
  have := activeIndexLoop_eq r.snapshots t r.snapshots.length (Nat.le_refl _)
  rw [List.take_length] at this
  exact this

theorem activeIndexLoop_le (snaps : List S) (t : Int) : ∀ k, activeIndexLoop snaps t k ≤ k
  | 0 => by simp [activeIndexLoop]
  | k + 1 => by
    have := activeIndexLoop_le snaps t k
    rw [activeIndexLoop]
    split
    · omega
    · split <;> omega

theorem inForce_mem {snaps : List S} {t : Int} {s : S} (h : inForce snaps t = some s) :
    s ∈ snaps ∧ Snap.cutover s ≤ t := by
  have := List.mem_of_getLast? h
  simpa using this

/-- A snapshot in force at a later time that had cut over before was in force before. -/
theorem inForce_earlier {snaps : List S} {t t' : Int} {s : S} (h : inForce snaps t' = some s) (htt : t ≤ t')
    (hc : Snap.cutover s ≤ t) : inForce snaps t = some s := by
  unfold inForce at *
  have hf : snaps.filter (fun s => decide (Snap.cutover s ≤ t)) =
      (snaps.filter (fun s => decide (Snap.cutover s ≤ t'))).filter (fun s => decide (Snap.cutover s ≤ t)) := by
    rw [List.filter_filter]
    congr 1
    funext s
    simp
    omega
  rw [hf]
  obtain ⟨l, hl⟩ := List.getLast?_eq_some_iff.mp h
  rw [hl, List.filter_append]
  simp [hc]

/-- If no rule changes in between, the snapshot in force stays. -/
theorem inForce_congr {snaps : List S} {t t' : Int} (h : ∀ s ∈ snaps, Snap.cutover s ≤ t ↔ Snap.cutover s ≤ t') :
    inForce snaps t = inForce snaps t' := by
  unfold inForce
  congr 1
  apply List.filter_congr
  intro s hs
  simp [h s hs]

/-! ### Point matching -/

theorem foldl_max_le {ts : List Int} : ∀ {a b : Int}, (ts.foldl max a ≤ b ↔ a ≤ b ∧ ∀ t ∈ ts, t ≤ b) := by
  induction ts with
  | nil => simp
  | cons t ts ih =>
    intro a b
    simp only [List.foldl_cons, ih, List.mem_cons, forall_eq_or_imp, Int.max_le, and_assoc]

theorem le_foldl_max {ts : List Int} {a : Int} : a ≤ ts.foldl max a := (foldl_max_le.mp (Int.le_refl _)).1

theorem latest_le {ts : List Int} {b : Int} : latest ts ≤ b ↔ 0 ≤ b ∧ ∀ t ∈ ts, t ≤ b := foldl_max_le

theorem le_latest {ts : List Int} {t : Int} (h : t ∈ ts) : t ≤ latest ts := (latest_le.mp (Int.le_refl _)).2 t h

theorem latest_nonneg {ts : List Int} : 0 ≤ latest ts := (latest_le.mp (Int.le_refl _)).1

theorem mappingLoop_eq (env : Env) (id : Bytes) (t : Int) : ∀ (rs : List MappingRule) (acc : MatchRes),
    mappingLoop env id t rs acc =
      { cutoverNanos := ((matchingM env rs id t).map (·.cutoverNanos)).foldl max acc.cutoverNanos
        pipelines := acc.pipelines ++ (live (matchingM env rs id t)).map mappingPipeline }
  | [], acc => by simp [mappingLoop, matchingM, current, live]
  | r :: rs, acc => by
    rw [mappingLoop, activeSnapshot_eq]
    cases h : inForce r.snapshots t with
    | none =>
      have : matchingM env (r :: rs) id t = matchingM env rs id t := by simp [matchingM, current, h]
      rw [this]; exact mappingLoop_eq env id t rs acc
    | some s =>
      simp only
      by_cases hm : env.filterMatches s.filter id = true
      · have : matchingM env (r :: rs) id t = s :: matchingM env rs id t := by
          simp [matchingM, current, h, hm]
        rw [this]
        have hmax : (if acc.cutoverNanos < s.cutoverNanos then { acc with cutoverNanos := s.cutoverNanos } else acc)
            = ({ acc with cutoverNanos := max acc.cutoverNanos s.cutoverNanos } : MatchRes) := by
          split
          · congr 1; omega
          · cases acc; simp at *; omega
        simp only [hm, Bool.not_true, Bool.false_eq_true, if_false, hmax]
        by_cases ht : s.tombstoned = true
        · rw [if_pos ht, mappingLoop_eq]
          have hl : live (s :: matchingM env rs id t) = live (matchingM env rs id t) := by
            simp [live, Snap.tombstoned, ht]
          simp only [hl, List.map_cons, List.foldl_cons]
        · rw [if_neg ht, mappingLoop_eq]
          have hl : live (s :: matchingM env rs id t) = s :: live (matchingM env rs id t) := by
            simp [live, Snap.tombstoned, ht]
          simp only [hl, List.map_cons, List.foldl_cons, List.append_assoc, mappingPipeline]
          rfl
      · have : matchingM env (r :: rs) id t = matchingM env rs id t := by
          simp [matchingM, current, h, hm]
        rw [this]
        simp only [Bool.not_eq_true] at hm
        simp only [hm, Bool.not_false, if_true]
        exact mappingLoop_eq env id t rs acc

theorem applyIDToPipeline_clone (env : Env) (tags : Bytes) : ∀ p : Pipe.Pipeline,
    applyIDToPipeline env tags (Pipe.pipelineClone p) = applyIDToPipeline env tags p
  | [] => rfl
  | op :: ops => by
    have ih := applyIDToPipeline_clone env tags ops
    unfold Pipe.pipelineClone at ih ⊢
    simp only [List.map_cons, applyIDToPipeline, ih]
    unfold Pipe.OpUnion.clone Pipe.AggregationOpType Pipe.TransformationOpType Pipe.RollupOpType Pipe.RollupOp.clone
    by_cases h1 : op.type = 1
    · simp [h1]
    · by_cases h2 : op.type = 2
      · simp [h2]
      · by_cases h3 : op.type = 3
        · simp [h3]
        · simp [h1, h2, h3]

theorem targetResult_clone (env : Env) (tags : Bytes) (t : RollupTarget) :
    targetResult env tags (cloneTarget t) = targetResult env tags t := by
  unfold targetResult cloneTarget
  cases h : t.pipeline with
  | nil => rfl
  | cons op ops =>
    have ih1 := applyIDToPipeline_clone env tags ops
    have ih2 := applyIDToPipeline_clone env tags (op :: ops)
    unfold Pipe.pipelineClone at ih1 ih2 ⊢
    simp only [List.map_cons] at ih2 ⊢
    by_cases h1 : op.type = 1
    · have ht : op.clone.type = 1 := by simp [Pipe.OpUnion.clone, Pipe.AggregationOpType, h1]
      have ha : op.clone.aggregation = op.aggregation := by simp [Pipe.OpUnion.clone, Pipe.AggregationOpType, h1]
      simp only [ht, h1, ha, Pipe.AggregationOpType, if_true]
      cases compressTypes [op.aggregation] with
      | none => rfl
      | some _ => simp [ih1]
    · by_cases h2 : op.type = 2
      · have ht : op.clone.type = 2 := by simp [Pipe.OpUnion.clone, Pipe.AggregationOpType, Pipe.TransformationOpType, h2]
        simp [ht, h2, Pipe.AggregationOpType, Pipe.TransformationOpType, ih2]
      · by_cases h3 : op.type = 3
        · have ht : op.clone.type = 3 := by
            simp [Pipe.OpUnion.clone, Pipe.AggregationOpType, Pipe.TransformationOpType, Pipe.RollupOpType, h3]
          have ha : op.clone.rollup = op.rollup := by
            simp [Pipe.OpUnion.clone, Pipe.AggregationOpType, Pipe.TransformationOpType, Pipe.RollupOpType,
              Pipe.RollupOp.clone, h3]
          simp only [ht, h3, ha, Pipe.AggregationOpType, Pipe.TransformationOpType, Pipe.RollupOpType]
          simp only [if_true]
          cases matchRollupTarget env tags op.rollup.newName op.rollup.tags with
          | none => rfl
          | some _ => simp [ih1]
        · have ht : op.clone.type = op.type := by
            simp [Pipe.OpUnion.clone, Pipe.AggregationOpType, Pipe.TransformationOpType, Pipe.RollupOpType, h1, h2, h3]
          simp [ht, Pipe.AggregationOpType, Pipe.TransformationOpType, Pipe.RollupOpType, h1, h2, h3]

theorem rollupLoop_eq (env : Env) (id : Bytes) (t : Int) : ∀ (rs : List RollupRule) (cut : Int) (ts : List RollupTarget),
    rollupLoop env id t rs cut ts =
      (((matchingR env rs id t).map (·.cutoverNanos)).foldl max cut,
       ts ++ ((live (matchingR env rs id t)).flatMap (·.targets)).map cloneTarget)
  | [], cut, ts => by simp [rollupLoop, matchingR, current, live]
  | r :: rs, cut, ts => by
    rw [rollupLoop, activeSnapshot_eq]
    cases h : inForce r.snapshots t with
    | none =>
      have : matchingR env (r :: rs) id t = matchingR env rs id t := by simp [matchingR, current, h]
      rw [this]; exact rollupLoop_eq env id t rs cut ts
    | some s =>
      simp only
      by_cases hm : env.filterMatches s.filter id = true
      · have : matchingR env (r :: rs) id t = s :: matchingR env rs id t := by
          simp [matchingR, current, h, hm]
        rw [this]
        have hmax : (if cut < s.cutoverNanos then s.cutoverNanos else cut) = max cut s.cutoverNanos := by
          split <;> omega
        simp only [hm, Bool.not_true, Bool.false_eq_true, if_false, hmax]
        by_cases ht : s.tombstoned = true
        · rw [if_pos ht, rollupLoop_eq]
          have hl : live (s :: matchingR env rs id t) = live (matchingR env rs id t) := by
            simp [live, Snap.tombstoned, ht]
          simp only [hl, List.map_cons, List.foldl_cons]
        · rw [if_neg ht, rollupLoop_eq]
          have hl : live (s :: matchingR env rs id t) = s :: live (matchingR env rs id t) := by
            simp [live, Snap.tombstoned, ht]
          simp only [hl, List.map_cons, List.foldl_cons, List.flatMap_cons, List.map_append, List.append_assoc]
      · have : matchingR env (r :: rs) id t = matchingR env rs id t := by
          simp [matchingR, current, h, hm]
        rw [this]
        simp only [Bool.not_eq_true] at hm
        simp only [hm, Bool.not_false, if_true]
        exact rollupLoop_eq env id t rs cut ts

theorem targetLoop_eq (env : Env) (tags : Bytes) (cut : Int) : ∀ (ts : List RollupTarget) ps ids,
    targetLoop env tags cut ts ps ids =
      (ps ++ (ts.filterMap (targetResult env tags)).filterMap (fun r => if r.1 = none then some r.2 else none),
       ids ++ (ts.filterMap (targetResult env tags)).filterMap
          (fun r => r.1.map fun id => (id, { cutoverNanos := cut, pipelines := [r.2] })))
  | [], ps, ids => by simp [targetLoop]
  | t :: ts, ps, ids => by
    rw [targetLoop]
    rcases h : targetResult env tags t with _ | ⟨_ | id, p⟩
    · simp only [targetLoop_eq env tags cut ts]
      simp [h]
    · simp only [targetLoop_eq env tags cut ts]
      simp [h]
    · simp only [targetLoop_eq env tags cut ts]
      simp [h]

/-! ### Rule change times -/

theorem mem_addTime (set : List Int) (t c : Int) : c ∈ addTime set t ↔ c ∈ set ∨ c = t := by
  unfold addTime
  split
  · rename_i h
    simp at h
    constructor
    · exact Or.inl
    · rintro (h' | rfl) <;> assumption
  · simp

theorem nodup_addTime {set : List Int} (h : set.Nodup) (t : Int) : (addTime set t).Nodup := by
  unfold addTime
  split
  · exact h
  · rename_i hc
    simp at hc
    rw [List.nodup_append]
    refine ⟨h, by simp, ?_⟩
    intro a ha b hb
    simp at hb
    subst hb
    intro hab
    exact hc (hab ▸ ha)

theorem foldl_addTime {α : Type} (f : α → Int) : ∀ (l : List α) (set : List Int), set.Nodup →
    (l.foldl (fun set s => addTime set (f s)) set).Nodup ∧
    ∀ c, c ∈ l.foldl (fun set s => addTime set (f s)) set ↔ c ∈ set ∨ ∃ s ∈ l, f s = c
  | [], set, h => by simp [h]
  | a :: l, set, h => by
    obtain ⟨h1, h2⟩ := foldl_addTime f l (addTime set (f a)) (nodup_addTime h _)
    refine ⟨h1, fun c => ?_⟩
    rw [List.foldl_cons, h2, mem_addTime]
    simp only [List.mem_cons, exists_eq_or_imp]
    constructor
    · rintro ((h | rfl) | h)
      · exact Or.inl h
      · exact Or.inr (Or.inl rfl)
      · exact Or.inr (Or.inr h)
    · rintro (h | rfl | h)
      · exact Or.inl (Or.inl h)
      · exact Or.inl (Or.inr rfl)
      · exact Or.inr h

theorem foldl_rules {S : Type} (f : S → Int) : ∀ (l : List (Rule S)) (set : List Int), set.Nodup →
    (l.foldl (fun set r => r.snapshots.foldl (fun set s => addTime set (f s)) set) set).Nodup ∧
    ∀ c, c ∈ l.foldl (fun set r => r.snapshots.foldl (fun set s => addTime set (f s)) set) set ↔
      c ∈ set ∨ ∃ r ∈ l, ∃ s ∈ r.snapshots, f s = c
  | [], set, h => by simp [h]
  | a :: l, set, h => by
    obtain ⟨h0, h0'⟩ := foldl_addTime f a.snapshots set h
    obtain ⟨h1, h2⟩ := foldl_rules f l _ h0
    refine ⟨h1, fun c => ?_⟩
    rw [List.foldl_cons, h2, h0']
    simp only [List.mem_cons, exists_eq_or_imp]
    rw [or_assoc]

theorem intLt_strictTotal : StrictTotal (fun a b : Int => decide (a < b)) :=
  { irrefl := by intro a; simp
    trans := by intro a b c; simp; omega
    tri := by intro a b; simp; omega }

theorem newActive_cutovers (v : Int) (ms : List MappingRule) (rs : List RollupRule) :
    (newActiveRuleSet v ms rs).cutoverTimesAsc.Pairwise (· < ·) ∧
    ∀ c, c ∈ (newActiveRuleSet v ms rs).cutoverTimesAsc ↔ IsRuleTime ms rs c := by
  obtain ⟨h1, h2⟩ := foldl_rules (fun s : MappingSnapshot => s.cutoverNanos) ms [] List.nodup_nil
  obtain ⟨h3, h4⟩ := foldl_rules (fun s : RollupSnapshot => s.cutoverNanos) rs _ h1
  constructor
  · have := sortByKey_strict intLt_strictTotal (id : Int → Int) _ (by simpa using h3)
    simpa [newActiveRuleSet] using this
  · intro c
    simp only [newActiveRuleSet, mem_sortBy, h4, h2]
    simp [IsRuleTime]

/-! ### Binary search -/

theorem nextCutoverLoop_spec (ts : List Int) (hs : ts.Pairwise (· < ·)) (t : Int) : ∀ (n i j : Nat), j ≤ n + i → i ≤ j →
    j ≤ ts.length →
    (∀ k (h : k < ts.length), k < i → ts[k] ≤ t) → (∀ k (h : k < ts.length), j ≤ k → t < ts[k]) →
    (∀ k (h : k < ts.length), k < nextCutoverLoop ts t n i j ↔ ts[k] ≤ t) ∧ nextCutoverLoop ts t n i j ≤ ts.length := by
  have stop : ∀ i j, i = j → j ≤ ts.length →
      (∀ k (h : k < ts.length), k < i → ts[k] ≤ t) → (∀ k (h : k < ts.length), j ≤ k → t < ts[k]) →
      (∀ k (h : k < ts.length), k < i ↔ ts[k] ≤ t) ∧ i ≤ ts.length := by
    intro i j hij hj h1 h2
    refine ⟨fun k hk => ⟨fun h => h1 k hk h, fun h => ?_⟩, by omega⟩
    apply Classical.byContradiction
    intro hn
    have := h2 k hk (by omega)
    omega
  intro n
  induction n with
  | zero =>
    intro i j hn hle hj h1 h2
    exact stop i j (by omega) hj h1 h2
  | succ n ih =>
    intro i j hn hle hj h1 h2
    rw [nextCutoverLoop]
    by_cases hij : i < j
    · rw [if_pos hij]
      have hl : i + (j - i) / 2 < ts.length := by omega
      have hhj : i + (j - i) / 2 + 1 ≤ j := by omega
      simp only [List.getElem?_eq_getElem hl]
      split
      · rename_i hct
        refine ih _ _ (by omega) hhj hj ?_ h2
        intro k hk hki
        rcases Nat.lt_or_eq_of_le (Nat.lt_succ_iff.mp hki) with hlt | heq
        · have := List.pairwise_iff_getElem.mp hs k _ hk hl hlt
          omega
        · subst heq; omega
      · rename_i hct
        refine ih _ _ (by omega) (by omega) (by omega) h1 ?_
        intro k hk hki
        rcases Nat.lt_or_eq_of_le hki with hlt | heq
        · have := List.pairwise_iff_getElem.mp hs _ k hl hk hlt
          omega
        · subst heq; omega
    · rw [if_neg hij]
      exact stop i j (by omega) hj h1 h2

theorem drop_eq_filter (ts : List Int) (t : Int) (n : Nat) (hn : n ≤ ts.length)
    (h : ∀ k (h : k < ts.length), k < n ↔ ts[k] ≤ t) : ts.drop n = ts.filter (fun c => decide (t < c)) := by
  conv => rhs; rw [← List.take_append_drop n ts, List.filter_append]
  have h1 : (ts.take n).filter (fun c => decide (t < c)) = [] := by
    rw [List.filter_eq_nil_iff]
    intro c hc
    obtain ⟨k, hk, rfl⟩ := List.getElem_of_mem hc
    simp only [List.length_take] at hk
    have := (h k (by omega)).mp (by omega)
    simp; omega
  have h2 : (ts.drop n).filter (fun c => decide (t < c)) = ts.drop n := by
    rw [List.filter_eq_self]
    intro c hc
    obtain ⟨k, hk, rfl⟩ := List.getElem_of_mem hc
    simp only [List.length_drop] at hk
    have := h (n + k) (by omega)
    simp
    omega
  rw [h1, h2]; simp

theorem nextCutover_drop (as : ActiveRuleSet) (hs : as.cutoverTimesAsc.Pairwise (· < ·)) (t : Int) :
    as.cutoverTimesAsc.drop (as.nextCutoverIdx t) = as.cutoverTimesAsc.filter (fun c => decide (t < c)) := by
  obtain ⟨h1, h2⟩ := nextCutoverLoop_spec as.cutoverTimesAsc hs t _ 0 _ (Nat.le_refl _) (Nat.zero_le _) (Nat.le_refl _)
    (by intro k _ h; omega) (by intro k h h'; omega)
  exact drop_eq_filter _ t _ h2 h1

end Verif.Active
