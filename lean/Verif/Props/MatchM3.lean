import Verif.Props.MatchPoint
/- C39 and C43 for identifiers of the m3 format. -/
namespace Verif.Active
open Verif.Agg Verif.Policy Verif.Meta Verif.Id Verif.TagsFlt Verif.Rules Verif.Spec.Rules Verif.Spec Verif.Spec.Id Verif.Spec.TagsFlt

theorem m3_parse (name : Bytes) (tags : List (Bytes × Bytes)) (hc : Clean name tags) :
    ∃ ts, m3Env.nameAndTags (idText name tags) = some (name, ts) ∧ m3Env.tagPairs ts = tags.map ofPair := by
  obtain ⟨ts, h1, h2⟩ := C33_parse_back name tags hc
  refine ⟨ts, ?_, ?_⟩
  · show m3NameAndTags _ = _
    simp [m3NameAndTags, h1]
  · show (m3Stream ts).pairs = _
    simp [m3Stream, h2]

theorem asc_pairs {tags : List (Bytes × Bytes)} (h : Ascending tags) : TagsAsc (tags.map ofPair) := by
  unfold TagsAsc
  rw [List.pairwise_map]
  exact h

theorem find_ofPair (tags : List (Bytes × Bytes)) (n : Bytes) :
    (tags.map ofPair).find? (fun q => decide (q.name = n)) = (lookup n tags).map fun v => ⟨n, v⟩ := by
  induction tags with
  | nil => rfl
  | cons p ps ih =>
    rw [List.map_cons, List.find?_cons]
    unfold lookup
    by_cases h : p.1 = n
    · simp [ofPair, h]
    · simp only [ofPair, h, decide_false, if_false]
      exact ih

/-- The target tags with the values of the metric. -/
def pickTags (tags : List (Bytes × Bytes)) (ts : List Bytes) : List (Bytes × Bytes) :=
  ts.map fun t => (t, (lookup t tags).getD [])

theorem picked_eq {tags : List (Bytes × Bytes)} : ∀ {picked : List TagPair} {ts : List Bytes}, picked.map (·.name) = ts →
    (∀ p ∈ picked, (tags.map ofPair).find? (fun q => decide (q.name = p.name)) = some p) →
    picked = (pickTags tags ts).map ofPair ∧ ∀ t ∈ ts, (lookup t tags).isSome
  | [], ts, h, _ => by simp only [List.map_nil] at h; subst h; exact ⟨rfl, by simp⟩
  | p :: picked, ts, h, hf => by
    subst h
    obtain ⟨h1, h2⟩ := picked_eq (tags := tags) (picked := picked) rfl fun q hq => hf q (by simp [hq])
    have hp := hf p (by simp)
    rw [find_ofPair] at hp
    cases hl : lookup p.name tags with
    | none => simp [hl] at hp
    | some v =>
      rw [hl] at hp
      simp only [Option.map_some, Option.some.injEq] at hp
      have hpv : p = ⟨p.name, v⟩ := hp.symm
      constructor
      · simp only [pickTags, List.map_cons, hl, Option.getD_some, ofPair]
        rw [← hpv]
        congr 1
      · intro t ht
        simp only [List.map_cons, List.mem_cons] at ht
        rcases ht with rfl | ht
        · simp [hl]
        · exact h2 t ht

/-- C43 for m3 identifiers: the rollup identifier exists exactly if the metric has all target tags, and it is the
text of the new name with those tags, their values and the rollup marker, sorted by tag name. -/
theorem C43_m3 (name : Bytes) (tags : List (Bytes × Bytes)) (hc : Clean name tags) (ha : Ascending tags)
    (newName : Bytes) (ts : List Bytes) (ht : NamesAsc ts) :
    ∃ tagBytes, m3Env.nameAndTags (idText name tags) = some (name, tagBytes) ∧
      matchRollupTarget m3Env tagBytes newName ts =
        if ∀ t ∈ ts, (lookup t tags).isSome then
          some (idText newName (sortBy (fun a b => bytesLt a.1 b.1) (pickTags tags ts ++ [(bs "m3_rollup", bs "true")])))
        else none := by
  obtain ⟨tb, h1, h2⟩ := m3_parse name tags hc
  refine ⟨tb, h1, ?_⟩
  have hasc : TagsAsc (m3Env.tagPairs tb) := by rw [h2]; exact asc_pairs ha
  by_cases hall : ∀ t ∈ ts, (lookup t tags).isSome
  · rw [if_pos hall]
    rw [C43_identifier m3Env tb newName ts _ hasc ht]
    refine ⟨(pickTags tags ts).map ofPair, ?_, ?_, ?_⟩
    · exact (newRollupID_text newName (pickTags tags ts)).symm
    · simp [pickTags, ofPair, Function.comp_def]
    · intro p hp
      rw [h2, find_ofPair]
      simp only [pickTags, List.map_map, List.mem_map, Function.comp] at hp
      obtain ⟨t, htm, rfl⟩ := hp
      have := hall t htm
      cases hl : lookup t tags with
      | none => simp [hl] at this
      | some v => simp [ofPair, hl]
  · rw [if_neg hall]
    cases hm : matchRollupTarget m3Env tb newName ts with
    | none => rfl
    | some x =>
      exfalso
      obtain ⟨picked, _, hn, hf⟩ := (C43_identifier m3Env tb newName ts x hasc ht).mp hm
      rw [h2] at hf
      exact hall (picked_eq hn hf).2

/-- A metric with the tags and one without. -/
example : let t : RollupTarget := ⟨[{ type := 3, rollup := ⟨bs "sum", [bs "city", bs "host"], 0⟩ }], []⟩
    let as := newActiveRuleSet 1 [] [⟨bs "r", [exRollup 5 false [t]]⟩]
    ((forwardMatchAt m3Env as (bs "m3+requests+app=x,city=sf,host=a") 15).forNewRollupIDs.map (·.id)) =
      [bs "m3+sum+city=sf,host=a,m3_rollup=true"] ∧
    ((forwardMatchAt m3Env as (bs "m3+requests+app=x,city=sf") 15).forNewRollupIDs.map (·.id)) = [] := by decide +kernel

/-! ### No two targets generate the same identifier -/

/-- New name and tags of a target that generates an identifier. -/
def targetKey (t : RollupTarget) : Option (Bytes × List Bytes) :=
  match t.pipeline with
  | [] => none
  | op :: _ => if op.type = 3 then some (op.rollup.newName, op.rollup.tags) else none

theorem targetResult_key {env : Env} {tags : Bytes} {t : RollupTarget} {x : Bytes} {p : PipelineMetadata}
    (h : targetResult env tags t = some (some x, p)) :
    ∃ k, targetKey t = some k ∧ matchRollupTarget env tags k.1 k.2 = some x := by
  unfold targetResult at h
  unfold targetKey
  cases hp : t.pipeline with
  | nil => simp [hp] at h
  | cons op ops =>
    simp only [hp] at h ⊢
    by_cases h3 : op.type = 3
    · have h1 : ¬ op.type = 1 := by rw [h3]; decide
      have h2 : ¬ op.type = 2 := by rw [h3]; decide
      simp only [h3, if_true]
      refine ⟨_, rfl, ?_⟩
      have e1 : ¬ op.type = Pipe.AggregationOpType := h1
      have e2 : ¬ op.type = Pipe.TransformationOpType := h2
      have e3 : op.type = Pipe.RollupOpType := h3
      rw [if_neg e1, if_neg e2, if_pos e3] at h
      cases hm : matchRollupTarget env tags op.rollup.newName op.rollup.tags with
      | none => simp [hm] at h
      | some y =>
        simp only [hm, Option.map_some] at h
        cases ha : applyIDToPipeline env tags ops with
        | none => simp [ha] at h
        | some ap =>
          simp only [ha, Option.some.injEq, Prod.mk.injEq] at h
          rw [h.1]
    · exfalso
      have e3 : ¬ op.type = Pipe.RollupOpType := h3
      rw [if_neg e3] at h
      by_cases h1 : op.type = Pipe.AggregationOpType
      · rw [if_pos h1] at h
        cases hc : compressTypes [op.aggregation] with
        | none => simp [hc] at h
        | some a =>
          simp only [hc, Option.map_some] at h
          cases ha : applyIDToPipeline env tags ops <;> simp [ha] at h
      · rw [if_neg h1] at h
        by_cases h2 : op.type = Pipe.TransformationOpType
        · rw [if_pos h2] at h
          simp only at h
          cases ha : applyIDToPipeline env tags (op :: ops) <;> simp [ha] at h
        · rw [if_neg h2] at h
          simp at h

theorem lookup_mem {n v : Bytes} : ∀ {tags : List (Bytes × Bytes)}, lookup n tags = some v → (n, v) ∈ tags
  | [], h => by simp [lookup] at h
  | p :: ps, h => by
    unfold lookup at h
    split at h
    · rename_i hn
      simp only [Option.some.injEq] at h
      simp [← hn, ← h]
    · exact List.mem_cons_of_mem _ (lookup_mem h)

theorem namesAsc_perm : ∀ {l₁ l₂ : List Bytes}, NamesAsc l₁ → NamesAsc l₂ → l₁.Perm l₂ → l₁ = l₂ := by
  intro l₁ l₂ h₁ h₂ hp
  have hlt : ∀ l : List Bytes, NamesAsc l → l.Pairwise (fun a b => bytesLt b a = false) :=
    fun l h => h.imp fun hab => bytesLt_strictTotal.asymm hab
  have e := (sortBy_eq_iff_perm bytesLt_strictTotal l₁ l₂).mpr hp
  rwa [sortBy_of_sorted _ (hlt l₁ h₁), sortBy_of_sorted _ (hlt l₂ h₂)] at e

/-- For m3 identifiers, different new names or tag lists give different rollup identifiers. -/
theorem m3_target_injective (name : Bytes) (tags : List (Bytes × Bytes)) (hc : Clean name tags) (ha : Ascending tags)
    (tb : Bytes) (htb : m3Env.nameAndTags (idText name tags) = some (name, tb))
    (n₁ n₂ : Bytes) (ts₁ ts₂ : List Bytes) (h₁ : NamesAsc ts₁) (h₂ : NamesAsc ts₂) (hn₁ : 43 ∉ n₁) (hn₂ : 43 ∉ n₂) (x : Bytes)
    (e₁ : matchRollupTarget m3Env tb n₁ ts₁ = some x) (e₂ : matchRollupTarget m3Env tb n₂ ts₂ = some x) :
    n₁ = n₂ ∧ ts₁ = ts₂ := by
  obtain ⟨tb', h1, h2⟩ := m3_parse name tags hc
  rw [htb] at h1
  simp only [Option.some.injEq, Prod.mk.injEq, true_and] at h1
  subst h1
  have hasc : TagsAsc (m3Env.tagPairs tb) := by rw [h2]; exact asc_pairs ha
  obtain ⟨p₁, x₁, m₁, f₁⟩ := (C43_identifier m3Env tb n₁ ts₁ x hasc h₁).mp e₁
  obtain ⟨p₂, x₂, m₂, f₂⟩ := (C43_identifier m3Env tb n₂ ts₂ x hasc h₂).mp e₂
  rw [h2] at f₁ f₂
  obtain ⟨q₁, a₁⟩ := picked_eq m₁ f₁
  obtain ⟨q₂, a₂⟩ := picked_eq m₂ f₂
  have hclean : ∀ n ts, 43 ∉ n → (∀ t ∈ ts, (lookup t tags).isSome) → Clean n (pickTags tags ts) := by
    intro n ts hn hall
    refine ⟨hn, ?_⟩
    intro p hp
    simp only [pickTags, List.mem_map] at hp
    obtain ⟨t, ht, rfl⟩ := hp
    have := hall t ht
    cases hl : lookup t tags with
    | none => simp [hl] at this
    | some v => exact hc.2 (t, v) (lookup_mem hl)
  have he : newRollupID n₁ ((pickTags tags ts₁).map ofPair) = newRollupID n₂ ((pickTags tags ts₂).map ofPair) := by
    rw [← q₁, ← q₂]
    exact x₁.symm.trans x₂
  obtain ⟨r1, r2⟩ := C32_injective n₁ n₂ _ _ (hclean n₁ ts₁ hn₁ a₁) (hclean n₂ ts₂ hn₂ a₂) he
  refine ⟨r1, namesAsc_perm h₁ h₂ ?_⟩
  have := r2.map (·.1)
  simpa [pickTags, Function.comp_def] using this

theorem nodup_filterMap_of_inj {α β γ : Type} {f : α → Option β} : ∀ {l : List α} {g : α → Option γ}, (l.filterMap g).Nodup →
    (∀ a ∈ l, ∀ x, f a = some x → ∃ k, g a = some k) →
    (∀ a ∈ l, ∀ b ∈ l, ∀ x, f a = some x → f b = some x → g a = g b) → (l.filterMap f).Nodup := by
  intro l
  induction l with
  | nil => intro g _ _ _; exact List.Pairwise.nil
  | cons a l ih =>
    intro g hn hk hi
    have hl : (l.filterMap g).Nodup := by
      rw [List.filterMap_cons] at hn
      split at hn
      · exact hn
      · exact (List.nodup_cons.mp hn).2
    have ih := ih hl (fun b hb => hk b (by simp [hb])) (fun b hb c hc => hi b (by simp [hb]) c (by simp [hc]))
    rw [List.filterMap_cons]
    cases hf : f a with
    | none => exact ih
    | some x =>
      simp only
      rw [List.nodup_cons]
      refine ⟨?_, ih⟩
      intro hx
      obtain ⟨b, hb, hbx⟩ := List.mem_filterMap.mp hx
      obtain ⟨k, hgk⟩ := hk a (by simp) x hf
      have := hi a (by simp) b (by simp [hb]) x hf hbx
      rw [List.filterMap_cons, hgk] at hn
      simp only [List.nodup_cons] at hn
      exact hn.1 (List.mem_filterMap.mpr ⟨b, hb, by rw [← this, hgk]⟩)

/-- The targets that apply to a metric at a time have well-formed and pairwise different new names and tags. -/
def TargetsDistinct (env : Env) (as : ActiveRuleSet) (id : Bytes) (t : Int) : Prop :=
  (((live (matchingR env as.rollupRules id t)).flatMap (·.targets)).filterMap targetKey).Nodup ∧
  ∀ s ∈ live (matchingR env as.rollupRules id t), ∀ tg ∈ s.targets, ∀ k, targetKey tg = some k → 43 ∉ k.1 ∧ NamesAsc k.2

/-- For m3 identifiers, targets with pairwise different new names and tags generate pairwise different identifiers. -/
theorem m3_ids_distinct (as : ActiveRuleSet) (name : Bytes) (tags : List (Bytes × Bytes)) (hc : Clean name tags)
    (ha : Ascending tags) (t : Int) (hd : TargetsDistinct m3Env as (idText name tags) t) :
    ((forwardMatchAt m3Env as (idText name tags) t).forNewRollupIDs.map (·.id)).Nodup := by
  obtain ⟨tb, h1, _⟩ := m3_parse name tags hc
  rw [forward_rollups]
  apply ((sortBy_perm _ _).map (fun y : IDWithMetadatas => y.id)).nodup_iff.mpr
  unfold generated rolled
  simp only [h1, List.filterMap_filterMap, List.map_filterMap]
  refine nodup_filterMap_of_inj (g := targetKey) hd.1 ?_ ?_
  all_goals
    have key : ∀ tg x, Option.map (fun y : IDWithMetadatas => y.id) (Option.map
        (fun r : Bytes × PipelineMetadata => (⟨r.1, [stagedOf m3Env as (idText name tags) t r.2]⟩ : IDWithMetadatas))
        ((targetResult m3Env tb tg).bind fun r => r.1.map fun x => (x, r.2))) = some x →
        ∃ p, targetResult m3Env tb tg = some (some x, p) := by
      intro tg x h
      cases hr : targetResult m3Env tb tg with
      | none => simp [hr] at h
      | some r =>
        obtain ⟨a, p⟩ := r
        cases a with
        | none => simp [hr] at h
        | some y =>
          simp only [hr, Option.bind_some, Option.map_some, Option.some.injEq] at h
          exact ⟨p, by rw [h]⟩
  · intro tg _ x hx
    obtain ⟨p, hp⟩ := key tg x hx
    obtain ⟨k, hk, _⟩ := targetResult_key hp
    exact ⟨k, hk⟩
  · intro t1 ht1 t2 ht2 x hx1 hx2
    obtain ⟨p1, hp1⟩ := key t1 x hx1
    obtain ⟨p2, hp2⟩ := key t2 x hx2
    obtain ⟨k1, hk1, hm1⟩ := targetResult_key hp1
    obtain ⟨k2, hk2, hm2⟩ := targetResult_key hp2
    obtain ⟨s1, hs1, hst1⟩ := List.mem_flatMap.mp ht1
    obtain ⟨s2, hs2, hst2⟩ := List.mem_flatMap.mp ht2
    obtain ⟨c1, n1⟩ := hd.2 s1 hs1 t1 hst1 k1 hk1
    obtain ⟨c2, n2⟩ := hd.2 s2 hs2 t2 hst2 k2 hk2
    obtain ⟨e1, e2⟩ := m3_target_injective name tags hc ha tb h1 k1.1 k2.1 k1.2 k2.2 n1 n2 c1 c2 x hm1 hm2
    rw [hk1, hk2]
    exact congrArg some (Prod.ext e1 e2)

/-- C39 for m3 identifiers and rule sets whose targets have pairwise different new names and tags (what the validator
enforces on the latest snapshots). -/
theorem C39_m3_partial (as : ActiveRuleSet) (h : Built as) (name : Bytes) (tags : List (Bytes × Bytes)) (hc : Clean name tags)
    (ha : Ascending tags) (hd : ∀ τ, TargetsDistinct m3Env as (idText name tags) τ)
    (frm to t : Int) (h0 : 0 ≤ frm) (hft : frm ≤ t) (htt : t < to)
    (y : IDWithMetadatas) (hy : y ∈ (forwardMatch m3Env as (idText name tags) frm to).forNewRollupIDs) :
    ∃ m rest, activeStagedMetadatasAt y.metadatas t = m :: rest ∧
      (∀ z ∈ (forwardMatchAt m3Env as (idText name tags) t).forNewRollupIDs, z.id = y.id →
        m.cutoverNanos ≤ t ∧ m.tombstoned = false ∧ z.metadatas.map (·.pipelines) = [m.pipelines]) ∧
      (y.id ∉ (forwardMatchAt m3Env as (idText name tags) t).forNewRollupIDs.map (·.id) →
        (m.tombstoned = true ∧ m.cutoverNanos ≤ t) ∨ ∀ m' ∈ y.metadatas, t < m'.cutoverNanos) :=
  C39_active_partial m3Env as h _ frm to t h0 (fun τ => m3_ids_distinct as name tags hc ha τ (hd τ)) hft htt y hy

def exRollTo (n : String) (tags : List String) (agg : Nat) : RollupTarget :=
  ⟨[{ type := 3, rollup := ⟨bs n, tags.map bs, agg⟩ }], []⟩

/-- Two rollup rules with the same new name and tags, the first of which is deleted at 10. -/
def exClash : ActiveRuleSet :=
  newActiveRuleSet 1 [] [⟨bs "4", [exRollup 5 false [exRollTo "r" ["city"] 0], exRollup 10 true []]⟩,
    ⟨bs "5", [exRollup 5 false [exRollTo "r" ["city"] 4]]⟩]

/-- C39 is violated when two rules generate the same identifier: at 12 it is generated, but one of the two entries
for it reports a tombstone. -/
theorem C39_violated : Built exClash ∧
    ((forwardMatchAt m3Env exClash exID 12).forNewRollupIDs.map fun y => (y.id, y.metadatas.map (·.tombstoned))) =
      [(bs "m3+r+city=sf,m3_rollup=true", [false])] ∧
    ((forwardMatch m3Env exClash exID 6 30).forNewRollupIDs.map fun y =>
      (y.id, (activeStagedMetadatasAt y.metadatas 12).map (·.tombstoned))) =
      [(bs "m3+r+city=sf,m3_rollup=true", [false]), (bs "m3+r+city=sf,m3_rollup=true", [true])] :=
  ⟨⟨1, _, _, rfl⟩, by decide +kernel, by decide +kernel⟩

def exAppear : ActiveRuleSet :=
  newActiveRuleSet 1 [⟨bs "m", [exSnap "city:s*" 20 4]⟩]
    [⟨bs "4", [exRollup 5 false [exRollTo "r" ["city"] 0]]⟩,
     ⟨bs "5", [exRollup 8 false [exRollTo "r" ["host"] 0], exRollup 10 true []]⟩]

/-- Identifiers that appear, stay and disappear inside a range. -/
example : ((forwardMatch m3Env exAppear exID 6 30).forNewRollupIDs.map fun y =>
      (y.id, y.metadatas.map fun m => (m.cutoverNanos, m.tombstoned))) =
      [(bs "m3+r+city=sf,m3_rollup=true", [(5, false), (8, false), (10, false), (10, false)]),
       (bs "m3+r+host=a,m3_rollup=true", [(8, false), (10, true), (20, true)])] := by decide +kernel

example : let as := newActiveRuleSet 1 [] [⟨bs "4", [exRollup 5 false [exRollTo "r" ["city"] 0, exRollTo "r" ["host"] 0]]⟩]
    (((live (matchingR m3Env as.rollupRules exID 6)).flatMap (·.targets)).filterMap targetKey) =
      [(bs "r", [bs "city"]), (bs "r", [bs "host"])] := by decide +kernel

end Verif.Active
