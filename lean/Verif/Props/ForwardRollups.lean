import Verif.Props.ForwardRange
/- C39: rollup identifiers over a range. -/
namespace Verif.Active
open Verif.Agg Verif.Policy Verif.Meta Verif.Id Verif.TagsFlt Verif.Rules Verif.Spec.Rules Verif.Spec

/-! ### Merging the rollup identifiers of two stages -/

theorem mergeLoop_ids (T : Int) : ∀ (k : Nat) (cs ns : List IDWithMetadatas) (x : Bytes),
    (x ∈ ((mergeRollupLoop T k cs ns).1 ++ (mergeRollupLoop T k cs ns).2).map (·.id)) ↔
      x ∈ cs.map (·.id) ∨ x ∈ ns.map (·.id)
  | 0, cs, ns, x => by simp [mergeRollupLoop]
  | k + 1, [], ns, x => by simp [mergeRollupLoop]
  | k + 1, c :: cs, [], x => by
    have ih := mergeLoop_ids T k cs [] x
    simp only [mergeRollupLoop, List.map_append, List.map_cons, List.mem_append, List.mem_cons] at ih ⊢
    rw [or_assoc, ih, or_assoc]
  | k + 1, c :: cs, n :: ns, x => by
    rw [mergeRollupLoop]
    by_cases he : c.id = n.id
    · have ih := mergeLoop_ids T k cs ns x
      simp only [he, if_true, List.map_append, List.map_cons, List.mem_append, List.mem_cons] at ih ⊢
      rw [or_assoc, ih]
      constructor
      · rintro (h | h | h) <;> simp [h]
      · rintro ((h | h) | h | h) <;> simp [h]
    · by_cases hl : bytesLt c.id n.id = true
      · have ih := mergeLoop_ids T k cs (n :: ns) x
        simp only [he, hl, if_true, if_false, List.map_append, List.map_cons, List.mem_append, List.mem_cons] at ih ⊢
        rw [or_assoc, ih, or_assoc]
      · have ih := mergeLoop_ids T k (c :: cs) ns x
        rw [if_neg he, if_neg hl]
        simp only [List.map_append, List.map_cons, List.mem_append, List.mem_cons] at ih ⊢
        constructor
        · rintro (h | h | h)
          · rcases ih.mp (Or.inl h) with h | h
            · exact Or.inl h
            · exact Or.inr (Or.inr h)
          · exact Or.inr (Or.inl h)
          · rcases ih.mp (Or.inr h) with h | h
            · exact Or.inl h
            · exact Or.inr (Or.inr h)
        · rintro (h | h | h)
          · rcases ih.mpr (Or.inl h) with h | h
            · exact Or.inl h
            · exact Or.inr (Or.inr h)
          · exact Or.inr (Or.inl h)
          · rcases ih.mpr (Or.inr h) with h | h
            · exact Or.inl h
            · exact Or.inr (Or.inr h)

theorem mergeRollup_ids (cs ns : List IDWithMetadatas) (T : Int) (x : Bytes) :
    x ∈ (mergeRollup cs ns T).map (·.id) ↔ x ∈ cs.map (·.id) ∨ x ∈ ns.map (·.id) := by
  rw [← mergeLoop_ids T (cs.length + ns.length) cs ns x]
  unfold mergeRollup sortByID
  simp only [List.mem_map, mem_sortBy]

theorem fold_ids (env : Env) (as : ActiveRuleSet) (id : Bytes) (x : Bytes) : ∀ (cs : List Int) (ids : List IDWithMetadatas),
    x ∈ (cs.foldl (fun ids c => mergeRollup ids (forwardMatchAt env as id c).forNewRollupIDs c) ids).map (·.id) ↔
      x ∈ ids.map (·.id) ∨ ∃ c ∈ cs, x ∈ (forwardMatchAt env as id c).forNewRollupIDs.map (·.id)
  | [], ids => by simp
  | c :: cs, ids => by
    rw [List.foldl_cons, fold_ids env as id x cs, mergeRollup_ids, or_assoc]
    simp only [List.mem_cons, exists_eq_or_imp]

theorem fold_sorted (env : Env) (as : ActiveRuleSet) (id : Bytes) : ∀ (cs : List Int) (ids : List IDWithMetadatas),
    ids.Pairwise (fun a b => bytesLt b.id a.id = false) →
    (cs.foldl (fun ids c => mergeRollup ids (forwardMatchAt env as id c).forNewRollupIDs c) ids).Pairwise
      (fun a b => bytesLt b.id a.id = false)
  | [], _, h => h
  | c :: cs, _, _ => by
    rw [List.foldl_cons]
    exact fold_sorted env as id cs _ (sortByKey_sorted bytesLt_strictTotal (fun y : IDWithMetadatas => y.id) _)

/-- C39: over a range, the rollup identifiers returned are exactly those generated at the start or at a rule change
inside the range. -/
theorem C39_ids (env : Env) (as : ActiveRuleSet) (h : Built as) (id : Bytes) (frm to : Int) (x : Bytes) :
    x ∈ (forwardMatch env as id frm to).forNewRollupIDs.map (·.id) ↔
      ∃ τ, (τ = frm ∨ (IsRuleTime as.mappingRules as.rollupRules τ ∧ frm < τ ∧ τ < to)) ∧
        x ∈ (forwardMatchAt env as id τ).forNewRollupIDs.map (·.id) := by
  rw [forwardMatch_eq env as h]
  simp only [fold_ids]
  constructor
  · rintro (hx | ⟨c, hc, hx⟩)
    · exact ⟨frm, Or.inl rfl, hx⟩
    · exact ⟨c, Or.inr ((mem_stages h).mp hc), hx⟩
  · rintro ⟨τ, rfl | hτ, hx⟩
    · exact Or.inl hx
    · exact Or.inr ⟨τ, (mem_stages h).mpr hτ, hx⟩

/-- C39: the rollup identifiers are in order. -/
theorem C39_sorted (env : Env) (as : ActiveRuleSet) (h : Built as) (id : Bytes) (frm to : Int) :
    (forwardMatch env as id frm to).forNewRollupIDs.Pairwise (fun a b => bytesLt b.id a.id = false) := by
  rw [forwardMatch_eq env as h]
  apply fold_sorted
  exact sortByKey_sorted bytesLt_strictTotal (fun y : IDWithMetadatas => y.id) _

/-- Strictly sorted by identifier. -/
def ByID (l : List IDWithMetadatas) : Prop := l.Pairwise fun a b => bytesLt a.id b.id = true

/-- What becomes of a known identifier. -/
def carried (T : Int) (ns : List IDWithMetadatas) (c : IDWithMetadatas) : IDWithMetadatas :=
  match ns.find? (fun n => decide (n.id = c.id)) with
  | some n => { c with metadatas := c.metadatas ++ n.metadatas.take 1 }
  | none => { c with metadatas := c.metadatas ++ [tombstoneAt T] }

theorem find_none_of_lt {ns : List IDWithMetadatas} {x : Bytes} (h : ∀ n ∈ ns, bytesLt x n.id = true) :
    ns.find? (fun n => decide (n.id = x)) = none := by
  rw [List.find?_eq_none]
  intro n hn
  have := h n hn
  intro he
  simp only [decide_eq_true_eq] at he
  rw [he, bytesLt_irrefl] at this
  cases this

theorem ne_of_lt {a b : Bytes} (h : bytesLt a b = true) : a ≠ b := by
  rintro rfl
  rw [bytesLt_irrefl] at h
  cases h

theorem mergeLoop_eq (T : Int) : ∀ (k : Nat) (cs ns : List IDWithMetadatas), ByID cs → ByID ns → cs.length + ns.length ≤ k →
    mergeRollupLoop T k cs ns =
      (cs.map (carried T ns), ns.filter fun n => decide (n.id ∉ cs.map (·.id)))
  | 0, cs, ns, _, _, hk => by
    have h1 : cs = [] := List.length_eq_zero_iff.mp (by omega)
    have h2 : ns = [] := List.length_eq_zero_iff.mp (by omega)
    subst h1 h2
    rfl
  | k + 1, [], ns, _, _, _ => by
    have : ns.filter (fun n => decide (n.id ∉ ([] : List IDWithMetadatas).map (·.id))) = ns :=
      List.filter_eq_self.mpr (by simp)
    rw [this]
    rfl
  | k + 1, c :: cs, [], hc, hn, hk => by
    simp only [List.length_cons, List.length_nil] at hk
    rw [mergeRollupLoop, mergeLoop_eq T k cs [] (List.pairwise_cons.mp hc).2 hn (by simp; omega)]
    simp [carried]
  | k + 1, c :: cs, n :: ns, hc, hn, hk => by
    simp only [List.length_cons] at hk
    obtain ⟨hc1, hc2⟩ := List.pairwise_cons.mp hc
    obtain ⟨hn1, hn2⟩ := List.pairwise_cons.mp hn
    rw [mergeRollupLoop]
    by_cases he : c.id = n.id
    · rw [if_pos he, mergeLoop_eq T k cs ns hc2 hn2 (by omega)]
      simp only [List.map_cons]
      congr 1
      · have h1 : carried T (n :: ns) c = { c with metadatas := c.metadatas ++ n.metadatas.take 1 } := by
          simp [carried, he]
        rw [h1]
        congr 1
        apply List.map_congr_left
        intro y hy
        have : ¬ n.id = y.id := by rw [← he]; exact ne_of_lt (hc1 y hy)
        simp [carried, this]
      · rw [List.filter_cons]
        have : ¬ (n.id ∉ c.id :: cs.map (·.id)) := by simp [he]
        simp only [this, decide_false, Bool.false_eq_true, if_false]
        apply List.filter_congr
        intro y hy
        have : ¬ y.id = c.id := by rw [he]; exact fun h => ne_of_lt (hn1 y hy) h.symm
        simp [this]
    · rw [if_neg he]
      by_cases hl : bytesLt c.id n.id = true
      · have hall : ∀ y ∈ n :: ns, bytesLt c.id y.id = true := by
          intro y hy
          rcases List.mem_cons.mp hy with rfl | hy
          · exact hl
          · exact bytesLt_trans _ _ _ hl (hn1 y hy)
        rw [if_pos hl, mergeLoop_eq T k cs (n :: ns) hc2 hn (by simp; omega)]
        simp only [List.map_cons]
        congr 1
        · have h1 : carried T (n :: ns) c = { c with metadatas := c.metadatas ++ [tombstoneAt T] } := by
            simp only [carried, find_none_of_lt hall]
          rw [h1]
        · apply List.filter_congr
          intro y hy
          have : ¬ y.id = c.id := fun h => ne_of_lt (hall y hy) h.symm
          simp [this]
      · have hl' : bytesLt n.id c.id = true := by
          rcases bytesLt_tri c.id n.id with h | h | h
          · exact absurd h hl
          · exact absurd h he
          · exact h
        have hall : ∀ y ∈ c :: cs, bytesLt n.id y.id = true := by
          intro y hy
          rcases List.mem_cons.mp hy with rfl | hy
          · exact hl'
          · exact bytesLt_trans _ _ _ hl' (hc1 y hy)
        rw [if_neg hl, mergeLoop_eq T k (c :: cs) ns hc hn2 (by simp; omega)]
        simp only
        congr 1
        · apply List.map_congr_left
          intro y hy
          have : ¬ n.id = y.id := ne_of_lt (hall y hy)
          simp [carried, this]
        · rw [List.filter_cons]
          have : n.id ∉ (c :: cs).map (·.id) := by
            intro hm
            obtain ⟨y, hy, hye⟩ := List.mem_map.mp hm
            exact ne_of_lt (hall y hy) hye.symm
          rw [if_pos (decide_eq_true this)]

/-! ### The history of a rollup identifier -/

/-- What is reported for an identifier at a stage: what is generated for it, or a tombstone. -/
def entryAt (F : Int → List IDWithMetadatas) (x : Bytes) (τ : Int) : List StagedMetadata :=
  match (F τ).find? (fun n => decide (n.id = x)) with
  | some n => n.metadatas.take 1
  | none => [tombstoneAt τ]

/-- The stages from the first one that generates the identifier on. -/
def since (F : Int → List IDWithMetadatas) (x : Bytes) (ts : List Int) : List Int :=
  ts.dropWhile (fun τ => decide (x ∉ (F τ).map (·.id)))

theorem since_append (F : Int → List IDWithMetadatas) (x : Bytes) (c : Int) : ∀ ts : List Int,
    since F x (ts ++ [c]) = if ∃ τ ∈ ts, x ∈ (F τ).map (·.id) then since F x ts ++ [c] else since F x [c]
  | [] => by simp
  | τ :: ts => by
    unfold since
    rw [List.cons_append, List.dropWhile_cons, List.dropWhile_cons]
    by_cases h : x ∈ (F τ).map (·.id)
    · have h1 : ¬ (x ∉ (F τ).map (·.id)) := by simpa using h
      have h2 : ∃ τ' ∈ τ :: ts, x ∈ (F τ').map (·.id) := ⟨τ, by simp, h⟩
      simp only [h1, decide_false, Bool.false_eq_true, if_false, h2, if_true]
      rfl
    · have ih := since_append F x c ts
      unfold since at ih
      simp only [h, not_false_eq_true, decide_true, if_true, ih, List.mem_cons, exists_eq_or_imp, false_or]

theorem take_one_of_mem {F : Int → List IDWithMetadatas} (hF : ∀ τ, ∀ y ∈ F τ, y.metadatas.length = 1) {τ : Int}
    {y : IDWithMetadatas} (h : y ∈ F τ) : y.metadatas.take 1 = y.metadatas :=
  List.take_of_length_le (by have := hF τ y h; omega)

theorem find_of_mem {l : List IDWithMetadatas} (hs : ByID l) {y : IDWithMetadatas} (h : y ∈ l) :
    l.find? (fun n => decide (n.id = y.id)) = some y := by
  induction l with
  | nil => cases h
  | cons a l ih =>
    obtain ⟨h1, h2⟩ := List.pairwise_cons.mp hs
    rcases List.mem_cons.mp h with rfl | h
    · simp
    · have : ¬ a.id = y.id := ne_of_lt (h1 y h)
      simp [this, ih h2 h]

theorem fold_history (F : Int → List IDWithMetadatas) (hs : ∀ τ, ByID (F τ)) (hF : ∀ τ, ∀ y ∈ F τ, y.metadatas.length = 1) :
    ∀ (cs ts : List Int) (l : List IDWithMetadatas), ByID l →
    (∀ x, x ∈ l.map (·.id) ↔ ∃ τ ∈ ts, x ∈ (F τ).map (·.id)) →
    (∀ y ∈ l, y.metadatas = (since F y.id ts).flatMap (entryAt F y.id)) →
    let l' := cs.foldl (fun ids c => mergeRollup ids (F c) c) l
    ByID l' ∧ ∀ y ∈ l', y.metadatas = (since F y.id (ts ++ cs)).flatMap (entryAt F y.id)
  | [], ts, l, h1, _, h3 => by simpa using ⟨h1, h3⟩
  | c :: cs, ts, l, h1, h2, h3 => by
    have hm : mergeRollup l (F c) c =
        sortByID (l.map (carried c (F c)) ++ (F c).filter fun n => decide (n.id ∉ l.map (·.id))) := by
      unfold mergeRollup
      simp only [mergeLoop_eq c _ l (F c) h1 (hs c) (Nat.le_refl _)]
    have hid : ∀ y, (carried c (F c) y).id = y.id := by
      intro y
      unfold carried
      split <;> rfl
    have hids : (l.map (carried c (F c))).map (·.id) = l.map (·.id) := by
      rw [List.map_map]
      exact List.map_congr_left fun y _ => hid y
    have hnodup : ∀ l : List IDWithMetadatas, ByID l → (l.map (·.id)).Nodup := by
      intro l hl
      rw [List.Nodup, List.pairwise_map]
      exact hl.imp fun h => ne_of_lt h
    have hnd : ((l.map (carried c (F c)) ++ (F c).filter fun n => decide (n.id ∉ l.map (·.id))).map (·.id)).Nodup := by
      rw [List.map_append, hids, List.nodup_append]
      refine ⟨hnodup l h1, hnodup _ ((hs c).filter _), ?_⟩
      intro a ha b hb hab
      obtain ⟨n, hn, rfl⟩ := List.mem_map.mp hb
      rw [List.mem_filter] at hn
      have := of_decide_eq_true hn.2
      exact this (hab ▸ ha)
    have hby : ByID (mergeRollup l (F c) c) := by
      rw [hm]
      exact sortByKey_strict bytesLt_strictTotal (fun y : IDWithMetadatas => y.id) _ hnd
    have hres := fold_history F hs hF cs (ts ++ [c]) (mergeRollup l (F c) c) hby
      (by
        intro x
        rw [mergeRollup_ids, h2]
        constructor
        · rintro (⟨τ, hτ, hx⟩ | hx)
          · exact ⟨τ, by simp [hτ], hx⟩
          · exact ⟨c, by simp, hx⟩
        · rintro ⟨τ, hτ, hx⟩
          rcases List.mem_append.mp hτ with hτ | hτ
          · exact Or.inl ⟨τ, hτ, hx⟩
          · simp only [List.mem_singleton] at hτ
            subst hτ
            exact Or.inr hx)
      (by
        intro y hy
        rw [hm] at hy
        unfold sortByID at hy
        rw [mem_sortBy, List.mem_append] at hy
        rcases hy with hy | hy
        · obtain ⟨z, hz, rfl⟩ := List.mem_map.mp hy
          rw [hid, since_append, if_pos ((h2 z.id).mp (List.mem_map_of_mem hz)), List.flatMap_append, ← h3 z hz]
          simp only [List.flatMap_cons, List.flatMap_nil, List.append_nil]
          unfold carried entryAt
          split <;> rfl
        · rw [List.mem_filter] at hy
          have hn := of_decide_eq_true hy.2
          rw [since_append, if_neg (by rw [← h2]; exact hn)]
          have hin : y.id ∈ (F c).map (·.id) := List.mem_map_of_mem hy.1
          have : since F y.id [c] = [c] := by
            unfold since
            rw [List.dropWhile_cons]
            have h1 : ¬ (y.id ∉ (F c).map (·.id)) := by simpa using hin
            simp only [h1, decide_false, Bool.false_eq_true, if_false]
          rw [this]
          simp only [List.flatMap_cons, List.flatMap_nil, List.append_nil, entryAt, find_of_mem (hs c) hy.1]
          rw [take_one_of_mem hF hy.1])
    simpa using hres

theorem generated_one (env : Env) (as : ActiveRuleSet) (id : Bytes) (τ : Int) (y : IDWithMetadatas)
    (h : y ∈ (forwardMatchAt env as id τ).forNewRollupIDs) :
    ∃ q, (y.id, q) ∈ generated env as id τ ∧ y.metadatas = [stagedOf env as id τ q] := by
  rw [forward_rollups] at h
  unfold sortByID at h
  rw [mem_sortBy] at h
  obtain ⟨r, hr, rfl⟩ := List.mem_map.mp h
  exact ⟨r.2, hr, rfl⟩

theorem point_sorted (env : Env) (as : ActiveRuleSet) (id : Bytes) (τ : Int)
    (h : ((forwardMatchAt env as id τ).forNewRollupIDs.map (·.id)).Nodup) :
    ByID (forwardMatchAt env as id τ).forNewRollupIDs := by
  rw [forward_rollups] at h ⊢
  refine sortByKey_strict bytesLt_strictTotal (fun y : IDWithMetadatas => y.id) _ ?_
  exact ((sortBy_perm _ _).map (fun y : IDWithMetadatas => y.id)).nodup_iff.mp h

/-- C39: what is returned for a rollup identifier is its history over the start and the rule changes inside the
range, from the first of them that generates it on: what is generated for it there, or a tombstone. -/
theorem C39_history_partial (env : Env) (as : ActiveRuleSet) (h : Built as) (id : Bytes) (frm to : Int)
    (hnd : ∀ τ, ((forwardMatchAt env as id τ).forNewRollupIDs.map (·.id)).Nodup)
    (y : IDWithMetadatas) (hy : y ∈ (forwardMatch env as id frm to).forNewRollupIDs) :
    y.metadatas = (since (fun τ => (forwardMatchAt env as id τ).forNewRollupIDs) y.id (frm :: stages as frm to)).flatMap
      (entryAt (fun τ => (forwardMatchAt env as id τ).forNewRollupIDs) y.id) := by
  rw [forwardMatch_eq env as h] at hy
  simp only at hy
  have hs : ∀ τ, ByID (forwardMatchAt env as id τ).forNewRollupIDs := fun τ => point_sorted env as id τ (hnd τ)
  have hF : ∀ τ, ∀ y ∈ (forwardMatchAt env as id τ).forNewRollupIDs, y.metadatas.length = 1 := by
    intro τ y hy
    obtain ⟨q, _, hq⟩ := generated_one env as id τ y hy
    simp [hq]
  have := fold_history (fun τ => (forwardMatchAt env as id τ).forNewRollupIDs) hs hF (stages as frm to) [frm]
    (forwardMatchAt env as id frm).forNewRollupIDs (hs frm) (by simp)
    (by
      intro y hy
      have h1 : since (fun τ => (forwardMatchAt env as id τ).forNewRollupIDs) y.id [frm] = [frm] := by
        unfold since
        rw [List.dropWhile_cons]
        have h1 : ¬ (y.id ∉ ((forwardMatchAt env as id frm).forNewRollupIDs).map (·.id)) := by
          simpa using ⟨y, hy, rfl⟩
        simp only [h1, decide_false, Bool.false_eq_true, if_false]
      rw [h1]
      simp only [List.flatMap_cons, List.flatMap_nil, List.append_nil, entryAt, find_of_mem (hs frm) hy]
      rw [take_one_of_mem hF hy])
  exact this.2 y hy

/-! ### What is active at a time -/

/-- Whatever a later stage generates from snapshots that had all cut over is generated earlier too. -/
theorem generated_earlier (env : Env) (as : ActiveRuleSet) (id : Bytes) {t τ : Int} (ht : t ≤ τ)
    (hc : rollupCut env as id τ ≤ t) {r : Bytes × PipelineMetadata} (hr : r ∈ generated env as id τ) :
    r ∈ generated env as id t := by
  unfold generated rolled at *
  cases hn : env.nameAndTags id with
  | none => simp [hn] at hr
  | some nt =>
    simp only [hn, List.mem_filterMap] at hr ⊢
    obtain ⟨a, ⟨tg, htg, ha⟩, hra⟩ := hr
    refine ⟨a, ⟨tg, ?_, ha⟩, hra⟩
    have hne : targetsAt env as id τ ≠ [] := List.ne_nil_of_mem htg
    unfold rollupCut at hc
    rw [if_neg (by simp [hne, hn])] at hc
    have hall := (latest_le.mp hc).2
    unfold targetsAt at htg ⊢
    rw [List.mem_flatMap] at htg ⊢
    obtain ⟨s, hs, hst⟩ := htg
    refine ⟨s, ?_, hst⟩
    have hsc : s.cutoverNanos ≤ t := by
      apply hall
      unfold live at hs
      exact List.mem_map_of_mem (List.mem_filter.mp hs).1
    unfold live matchingR current at *
    simp only [List.mem_filter, List.mem_filterMap] at hs ⊢
    obtain ⟨⟨⟨rule, hrule, hin⟩, hm⟩, hl⟩ := hs
    exact ⟨⟨⟨rule, hrule, inForce_earlier hin ht hsc⟩, hm⟩, hl⟩

theorem mem_ids_iff (env : Env) (as : ActiveRuleSet) (id : Bytes) (τ : Int) (x : Bytes) :
    x ∈ (forwardMatchAt env as id τ).forNewRollupIDs.map (·.id) ↔ ∃ q, (x, q) ∈ generated env as id τ := by
  rw [forward_rollups]
  unfold sortByID
  simp only [List.mem_map, mem_sortBy]
  constructor
  · rintro ⟨_, ⟨r, hr, rfl⟩, rfl⟩
    exact ⟨r.2, hr⟩
  · rintro ⟨q, hq⟩
    exact ⟨_, ⟨_, hq, rfl⟩, rfl⟩

theorem generated_unique (env : Env) (as : ActiveRuleSet) (id : Bytes) (τ : Int)
    (hnd : ((forwardMatchAt env as id τ).forNewRollupIDs.map (·.id)).Nodup) {x : Bytes} {p q : PipelineMetadata}
    (hp : (x, p) ∈ generated env as id τ) (hq : (x, q) ∈ generated env as id τ) : p = q := by
  have hn : ((generated env as id τ).map Prod.fst).Nodup := by
    rw [forward_rollups] at hnd
    have := ((sortBy_perm _ _).map (fun y : IDWithMetadatas => y.id)).nodup_iff.mp hnd
    rw [List.map_map] at this
    exact this
  have := inj_of_nodup_map Prod.fst _ hn _ _ hp hq rfl
  simpa using this

/-- An entry of the history is the tombstone of its stage or something generated there. -/
theorem entry_cases (env : Env) (as : ActiveRuleSet) (id : Bytes) (x : Bytes) (τ : Int) :
    (x ∉ (forwardMatchAt env as id τ).forNewRollupIDs.map (·.id) ∧
      entryAt (fun τ => (forwardMatchAt env as id τ).forNewRollupIDs) x τ = [tombstoneAt τ]) ∨
    ∃ q, (x, q) ∈ generated env as id τ ∧
      entryAt (fun τ => (forwardMatchAt env as id τ).forNewRollupIDs) x τ = [stagedOf env as id τ q] := by
  unfold entryAt
  simp only
  cases hf : (forwardMatchAt env as id τ).forNewRollupIDs.find? (fun n => decide (n.id = x)) with
  | none =>
    left
    refine ⟨?_, rfl⟩
    rw [List.find?_eq_none] at hf
    intro hm
    obtain ⟨y, hy, hyx⟩ := List.mem_map.mp hm
    exact hf y hy (by simpa using hyx)
  | some n =>
    right
    have hn := List.mem_of_find?_eq_some hf
    have hid : n.id = x := by simpa using List.find?_some hf
    obtain ⟨q, hq, hm⟩ := generated_one env as id τ n hn
    exact ⟨q, hid ▸ hq, by simp [hm]⟩

theorem dropWhile_split {α : Type} (p : α → Bool) : ∀ l : List α, ∃ pre, l = pre ++ l.dropWhile p ∧ ∀ a ∈ pre, p a = true
  | [] => ⟨[], rfl, by simp⟩
  | a :: l => by
    rw [List.dropWhile_cons]
    by_cases h : p a = true
    · obtain ⟨pre, h1, h2⟩ := dropWhile_split p l
      refine ⟨a :: pre, by simp [h, ← h1], ?_⟩
      intro b hb
      rcases List.mem_cons.mp hb with rfl | hb
      · exact h
      · exact h2 b hb
    · exact ⟨[], by simp [h], by simp⟩

/-- C39: at every time of the range, what is reported as active for a rollup identifier that is generated at that
time has the pipelines generated then; for one not generated at that time it is a tombstone, or else nothing has
cut over yet.  Requires that no two targets generate the same identifier at the same time. -/
theorem C39_active_partial (env : Env) (as : ActiveRuleSet) (h : Built as) (id : Bytes) (frm to t : Int) (h0 : 0 ≤ frm)
    (hnd : ∀ τ, ((forwardMatchAt env as id τ).forNewRollupIDs.map (·.id)).Nodup) (hft : frm ≤ t) (htt : t < to)
    (y : IDWithMetadatas) (hy : y ∈ (forwardMatch env as id frm to).forNewRollupIDs) :
    ∃ m rest, activeStagedMetadatasAt y.metadatas t = m :: rest ∧
      (∀ z ∈ (forwardMatchAt env as id t).forNewRollupIDs, z.id = y.id →
        m.cutoverNanos ≤ t ∧ m.tombstoned = false ∧ z.metadatas.map (·.pipelines) = [m.pipelines]) ∧
      (y.id ∉ (forwardMatchAt env as id t).forNewRollupIDs.map (·.id) →
        (m.tombstoned = true ∧ m.cutoverNanos ≤ t) ∨ ∀ m' ∈ y.metadatas, t < m'.cutoverNanos) := by
  have hhist := C39_history_partial env as h id frm to hnd y hy
  obtain ⟨pre, hsplit, hpre⟩ := dropWhile_split
    (fun τ => decide (y.id ∉ ((forwardMatchAt env as id τ).forNewRollupIDs).map (·.id))) (frm :: stages as frm to)
  have hsince : since (fun τ => (forwardMatchAt env as id τ).forNewRollupIDs) y.id (frm :: stages as frm to) =
      (frm :: stages as frm to).dropWhile
        (fun τ => decide (y.id ∉ ((forwardMatchAt env as id τ).forNewRollupIDs).map (·.id))) := rfl
  rw [hsince] at hhist
  generalize hls : (frm :: stages as frm to).dropWhile
        (fun τ => decide (y.id ∉ ((forwardMatchAt env as id τ).forNewRollupIDs).map (·.id))) = ls at hhist hsplit
  -- the identifier occurs in the range, so the history is not empty
  have hlsne : ls ≠ [] := by
    intro hnil
    obtain ⟨τ, hτ, hx⟩ := (C39_ids env as h id frm to y.id).mp (List.mem_map_of_mem hy)
    have hτm : τ ∈ frm :: stages as frm to := by
      rcases hτ with rfl | hτ
      · simp
      · exact List.mem_cons_of_mem _ ((mem_stages h).mpr hτ)
    rw [hsplit, hnil, List.append_nil] at hτm
    have := of_decide_eq_true (hpre τ hτm)
    exact this hx
  let e : Int → StagedMetadata := fun τ =>
    ((entryAt (fun τ => (forwardMatchAt env as id τ).forNewRollupIDs) y.id τ).head?).getD (tombstoneAt τ)
  have he : ∀ τ, entryAt (fun τ => (forwardMatchAt env as id τ).forNewRollupIDs) y.id τ = [e τ] := by
    intro τ
    rcases entry_cases env as id y.id τ with ⟨_, h2⟩ | ⟨q, _, h2⟩ <;> simp only [e, h2] <;> rfl
  have hmd : y.metadatas = ls.map e := by
    rw [hhist]
    clear hhist hsplit hls hlsne
    induction ls with
    | nil => rfl
    | cons a l ih => rw [List.flatMap_cons, List.map_cons, he, ih]; rfl
  have hsort := times_sorted h frm to
  have hnn : ∀ τ ∈ frm :: stages as frm to, 0 ≤ τ := by
    intro τ hτ
    rcases List.mem_cons.mp hτ with rfl | hτ
    · exact h0
    · have := ((mem_stages h).mp hτ).2.1
      omega
  have hecut : ∀ τ ∈ frm :: stages as frm to, (e τ).cutoverNanos ≤ τ := by
    intro τ hτ
    rcases entry_cases env as id y.id τ with ⟨_, h2⟩ | ⟨q, _, h2⟩
    · simp only [e, h2]; exact Int.le_refl _
    · simp only [e, h2]; exact rollupCut_le env as id τ (hnn τ hτ)
  obtain ⟨τ₀, hτ₀, hle₀, hq₀⟩ := stage_of as h frm to t hft htt
  have hP₀ := forwardMatchAt_congr env as id hle₀ hq₀
  -- what an entry in the future that has already cut over says
  have hfut : ∀ τ ∈ frm :: stages as frm to, (e τ).cutoverNanos ≤ t → τ₀ < τ →
      ∃ q, (y.id, q) ∈ generated env as id t ∧ (e τ).tombstoned = false ∧ (e τ).pipelines = [q] := by
    intro τ hτ hc hlt
    have hτt : t < τ := by
      rcases List.mem_cons.mp hτ with rfl | hτ'
      · exfalso
        rcases List.mem_cons.mp hτ₀ with h1 | h1
        · omega
        · have := ((mem_stages h).mp h1).2.1
          omega
      · have hrt := ((mem_stages h).mp hτ').1
        have := hq₀ τ hrt
        omega
    rcases entry_cases env as id y.id τ with ⟨_, h2⟩ | ⟨q, hq, h2⟩
    · exfalso
      have : e τ = tombstoneAt τ := by simp only [e, h2]; rfl
      rw [this] at hc
      have hc' : τ ≤ t := hc
      omega
    · have : e τ = stagedOf env as id τ q := by simp only [e, h2]; rfl
      rw [this] at hc ⊢
      exact ⟨q, generated_earlier env as id (Int.le_of_lt hτt) hc hq, rfl, rfl⟩
  have hzgen : ∀ z ∈ (forwardMatchAt env as id t).forNewRollupIDs, z.id = y.id →
      ∃ q, (y.id, q) ∈ generated env as id t ∧ z.metadatas.map (·.pipelines) = [[q]] := by
    intro z hz hzid
    obtain ⟨q, hq, hzm⟩ := generated_one env as id t z hz
    exact ⟨q, hzid ▸ hq, by rw [hzm]; rfl⟩
  rw [hmd]
  rcases activeStaged_spec (ls.map e) t with ⟨hall, hres⟩ | ⟨P, m, Q, hPQ, hm, hpost, hres⟩
  · -- nothing has cut over
    cases hls' : ls with
    | nil => exact absurd hls' hlsne
    | cons a l =>
      refine ⟨e a, l.map e, by rw [← hls', hres, hls']; rfl, ?_, ?_⟩
      · intro z hz hzid
        exfalso
        have hx : y.id ∈ (forwardMatchAt env as id τ₀).forNewRollupIDs.map (·.id) := by
          rw [hP₀, ← hzid]; exact List.mem_map_of_mem hz
        have hτls : τ₀ ∈ ls := by
          rw [hsplit] at hτ₀
          rcases List.mem_append.mp hτ₀ with h1 | h1
          · exact absurd hx (of_decide_eq_true (hpre τ₀ h1))
          · exact h1
        have := hall (e τ₀) (List.mem_map_of_mem hτls)
        have := hecut τ₀ hτ₀
        omega
      · intro _
        right
        rw [← hls']
        exact hall
  · obtain ⟨L, a, R, rfl, hL, ha, hR⟩ := map_eq_append_cons hPQ
    subst ha
    have hamem : a ∈ frm :: stages as frm to := by rw [hsplit]; simp
    -- the active entry is at the stage of `t` or later, unless that stage comes before the history
    have hcase : a = τ₀ ∨ τ₀ < a := by
      apply Classical.byContradiction
      intro hn
      have hlt : a < τ₀ := by omega
      rw [hsplit] at hτ₀ hsort
      have hsort' := (List.pairwise_append.mp hsort)
      have hτR : τ₀ ∈ R := by
        rcases List.mem_append.mp hτ₀ with h1 | h1
        · have := hsort'.2.2 τ₀ h1 a (by simp)
          omega
        · rcases List.mem_append.mp h1 with h2 | h2
          · have := (List.pairwise_append.mp hsort'.2.1).2.2 τ₀ h2 a (by simp)
            omega
          · rcases List.mem_cons.mp h2 with h2 | h2
            · omega
            · exact h2
      have := hpost (e τ₀) (by rw [← hR]; exact List.mem_map_of_mem hτR)
      have := hecut τ₀ (by rw [hsplit]; exact hτ₀)
      omega
    refine ⟨e a, Q, hres, ?_, ?_⟩
    · intro z hz hzid
      obtain ⟨q, hq, hzp⟩ := hzgen z hz hzid
      rcases hcase with rfl | hlt
      · rcases entry_cases env as id y.id a with ⟨hno, _⟩ | ⟨q', hq', h2⟩
        · exfalso
          apply hno
          rw [hP₀, ← hzid]
          exact List.mem_map_of_mem hz
        · have hea : e a = stagedOf env as id a q' := by simp only [e, h2]; rfl
          refine ⟨hm, by rw [hea]; rfl, ?_⟩
          rw [hzp, hea]
          have hx : y.id ∈ (forwardMatchAt env as id a).forNewRollupIDs.map (·.id) := by
            rw [hP₀, ← hzid]; exact List.mem_map_of_mem hz
          have hq'' : (y.id, q') ∈ generated env as id t := by
            have hR := (matching_congr env as id hle₀ hq₀).2
            have : generated env as id a = generated env as id t := by
              unfold generated rolled targetsAt
              rw [hR]
            rw [← this]; exact hq'
          rw [generated_unique env as id t (hnd t) hq hq'']
          rfl
      · obtain ⟨q', hq', h1, h2⟩ := hfut a hamem hm hlt
        refine ⟨hm, h1, ?_⟩
        rw [hzp, h2, generated_unique env as id t (hnd t) hq hq']
    · intro hno
      left
      rcases hcase with rfl | hlt
      · rcases entry_cases env as id y.id a with ⟨_, h2⟩ | ⟨q', hq', _⟩
        · have hea : e a = tombstoneAt a := by simp only [e, h2]; rfl
          exact ⟨by rw [hea]; rfl, hm⟩
        · exfalso
          apply hno
          rw [← hP₀]
          exact (mem_ids_iff env as id a y.id).mpr ⟨q', hq'⟩
      · exfalso
        obtain ⟨q', hq', _, _⟩ := hfut a hamem hm hlt
        exact hno ((mem_ids_iff env as id t y.id).mpr ⟨q', hq'⟩)

end Verif.Active
