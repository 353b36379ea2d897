import Verif.Props.ViewEqual
/- C86: the order of the rules and reverse matching. -/
namespace Verif.Active
open Verif.Agg Verif.Policy Verif.Meta Verif.Id Verif.TagsFlt Verif.Rules Verif.RuleSet Verif.Spec.Rules Verif.Spec
open Verif.Spec.RuleOrder Verif.Spec.ViewEqual

theorem samePipelines_perm {x y : List PipelineMetadata} (h : x.Perm y) : SamePipelines x y :=
  ⟨x, h, AllPairs.refl alike_refl _⟩

/-- C86: reverse matching of a plain identifier at any time does not depend on the order of the rules. -/
theorem C86_plain (env : Env) (a b : ActiveRuleSet) (h : Reordered a b) (hv : DropsValid a) (id : Bytes) (t : Int) (mt : Option Kind)
    (at' : AType) (o : Agg.Options) :
    Opt SameStage (reverseNonRollup env a id t mt at' o) (reverseNonRollup env b id t mt at' o) := by
  have hask := h.asked (env := env) (id := id) (t := t)
  have hpl : (mappingsFor env a id t).pipelines.Perm (mappingsFor env b id t).pipelines := by
    rw [mappingsFor_eq, mappingsFor_eq]
    simp only [C14_pipelines _ (asked_valid hv), C14_pipelines _ (asked_valid (h.dropsValid hv)), resolve, dropEffective_perm hask]
    split
    · exact List.Perm.refl _
    · have h1 := hask.filter (fun p => p.drop == 0)
      by_cases h0 : (asked env a id t).filter (fun p => p.drop == 0) = []
      · have h0' : (asked env b id t).filter (fun p => p.drop == 0) = [] := by rw [h0] at h1; exact h1.symm.eq_nil
        rw [if_pos h0, if_pos h0']
      · have h0' : ¬ (asked env b id t).filter (fun p => p.drop == 0) = [] := by
          intro h'; rw [h'] at h1; exact h0 h1.eq_nil
        rw [if_neg h0, if_neg h0']
        exact h1
  have hcut : (mappingsFor env a id t).cutoverNanos = (mappingsFor env b id t).cutoverNanos := by
    rw [mappingsFor_eq, mappingsFor_eq]; exact h.mappingCut
  have hf := hpl.filter (containsAggType o mt at')
  unfold reverseNonRollup
  simp only [filteredPipelines_eq, hf.length_eq, hcut]
  split
  · trivial
  · exact ⟨rfl, rfl, samePipelines_perm hf⟩

/-- A rollup step that may have generated an identifier with this name and these tags: it has the name, and each of its tags
is one of the tags of the identifier. -/
def MayFit (name : Bytes) (pairs : List TagPair) (op : Pipe.OpUnion) : Prop :=
  op.type = 3 ∧ op.rollup.newName = name ∧ ∀ n ∈ op.rollup.tags, ∃ p ∈ pairs, p.name = n

/-- The rollup steps in force at a time that may have generated an identifier agree: their rules came into force at the same
time, and they have the same aggregations and storage policies. -/
def Agree (env : Env) (as : ActiveRuleSet) (name tags : Bytes) (t : Int) : Prop :=
  ∀ s₁ ∈ live (current as.rollupRules t), ∀ s₂ ∈ live (current as.rollupRules t), ∀ tg₁ ∈ s₁.targets, ∀ tg₂ ∈ s₂.targets,
    ∀ op₁ ∈ tg₁.pipeline, ∀ op₂ ∈ tg₂.pipeline, MayFit name (env.tagPairs tags) op₁ → MayFit name (env.tagPairs tags) op₂ →
      s₁.cutoverNanos = s₂.cutoverNanos ∧ op₁.rollup.aggID = op₂.rollup.aggID ∧ tg₁.storagePolicies = tg₂.storagePolicies

theorem fits_mayFit {env : Env} {name tags : Bytes} {op : Pipe.OpUnion} (h : fits env name tags op = true) :
    MayFit name (env.tagPairs tags) op := by
  unfold fits at h
  simp only [Bool.and_eq_true, decide_eq_true_eq, beq_iff_eq] at h
  obtain ⟨⟨h3, hn⟩, ht⟩ := h
  refine ⟨h3, hn, ?_⟩
  cases hr : rollupTagLoop (env.tagPairs tags) op.rollup.tags [] with
  | none => simp [hr] at ht
  | some l => exact tagLoop_sound _ _ _ _ hr

theorem find_perm {α β : Type} {p : α → Bool} {f : α → β} {l l' : List α} (h : l.Perm l')
    (hag : ∀ x ∈ l, ∀ y ∈ l, p x = true → p y = true → f x = f y) : (l.find? p).map f = (l'.find? p).map f := by
  cases h1 : l.find? p with
  | none =>
    have : l'.find? p = none := List.find?_eq_none.mpr fun x hx => List.find?_eq_none.mp h1 x (h.mem_iff.mpr hx)
    rw [this]
  | some x => cases h2 : l'.find? p with
    | none =>
      have := List.find?_eq_none.mp h2 x (h.mem_iff.mp (List.mem_of_find?_eq_some h1))
      exact absurd (List.find?_some h1) this
    | some y =>
      simp only [Option.map_some, Option.some.injEq]
      exact hag x (List.mem_of_find?_eq_some h1) y (h.mem_iff.mpr (List.mem_of_find?_eq_some h2)) (List.find?_some h1) (List.find?_some h2)

theorem reverse_rollup_order (env : Env) (a b : ActiveRuleSet) (h : Reordered a b) (name tags : Bytes) (t : Int) (mt : Option Kind)
    (at' : AType) (multi : Bool) (o : Agg.Options) (hag : Agree env a name tags t) :
    reverseRollup env name tags t mt at' multi o a.rollupRules = reverseRollup env name tags t mt at' multi o b.rollupRules := by
  rw [reverseRollup_eq, reverseRollup_eq]
  have hp : (opsInForce a t).Perm (opsInForce b t) := (((h.rollup.filterMap _).filter _).flatMap_right _)
  have := find_perm (p := fun x => fits env name tags x.2.1) (f := fun x => found mt at' multi o x.1 x.2) hp (by
    rintro ⟨c, op, sp⟩ hx ⟨c', op', sp'⟩ hy h1 h2
    obtain ⟨s, hs, tg, htg, hop, rfl, rfl⟩ := mem_opsInForce.mp hx
    obtain ⟨s', hs', tg', htg', hop', rfl, rfl⟩ := mem_opsInForce.mp hy
    obtain ⟨e1, e2, e3⟩ := hag s hs s' hs' tg htg tg' htg' op hop op' hop' (fits_mayFit h1) (fits_mayFit h2)
    simp only [found, e1, e2, e3])
  show ((opsInForce a t).find? _).bind _ = ((opsInForce b t).find? _).bind _
  revert this
  cases (opsInForce a t).find? (fun x => fits env name tags x.2.1) <;> cases (opsInForce b t).find? (fun x => fits env name tags x.2.1) <;>
    intro this
  · rfl
  · simp at this
  · simp at this
  · simpa using this

/-- C86: over any range of time, reverse matching does not depend on the order of the rules, if the identifier is a plain one
or the rollup steps that may have generated it agree.  Missing for the full claim: rollup identifiers that steps which differ may have generated
(`C86_violated`). -/
theorem C86_range_partial (env : Env) (v : Int) {ms ms' : List MappingRule} {rs rs' : List RollupRule} (hm : ms.Perm ms')
    (hr : rs.Perm rs') (hv : ∀ r ∈ ms, ∀ s ∈ r.snapshots, s.drop = 0 ∨ s.drop = 1 ∨ s.drop = 2) (id : Bytes) (frm to : Int)
    (mt : Option Kind) (at' : AType) (multi : Bool) (o : Agg.Options)
    (hag : ∀ name tags t, env.nameAndTags id = some (name, tags) → env.isRollupID name tags = true →
      Agree env (newActiveRuleSet v ms rs) name tags t) :
    let x := reverseMatch env (newActiveRuleSet v ms rs) id frm to mt at' multi o
    let y := reverseMatch env (newActiveRuleSet v ms' rs') id frm to mt at' multi o
    x.version = y.version ∧ x.expireAtNanos = y.expireAtNanos ∧ AllPairs SameStage x.forExistingID y.forExistingID := by
  have hre : Reordered (newActiveRuleSet v ms rs) (newActiveRuleSet v ms' rs') := ⟨hm, hr⟩
  have hcut : (newActiveRuleSet v ms rs).cutoverTimesAsc = (newActiveRuleSet v ms' rs').cutoverTimesAsc := reordered_cutovers hm hr
  have hat : ∀ c, Opt SameStage (reverseAt env (newActiveRuleSet v ms rs) id mt at' multi o c)
      (reverseAt env (newActiveRuleSet v ms' rs') id mt at' multi o c) := by
    intro c
    unfold reverseAt reverseMappingsFor reverseKind
    cases hn : env.nameAndTags id with
    | none => exact C86_plain env _ _ hre hv id c mt at' o
    | some nt =>
      obtain ⟨name, tags⟩ := nt
      simp only
      by_cases hR : env.isRollupID name tags = true
      · simp only [hR, Bool.not_true, Bool.false_eq_true, if_false]
        rw [reverse_rollup_order env _ _ hre name tags c mt at' multi o (hag name tags c hn hR)]
        cases reverseRollup env name tags c mt at' multi o (newActiveRuleSet v ms' rs').rollupRules with
        | none => trivial
        | some m => exact ⟨rfl, rfl, samePipelines_perm (List.Perm.refl _)⟩
      · have : env.isRollupID name tags = false := by simpa using hR
        simp only [this, Bool.not_false, if_true]
        exact C86_plain env _ _ hre hv id c mt at' o
  intro x y
  refine ⟨rfl, ?_⟩
  show (reverseMatch _ _ _ _ _ _ _ _ _).expireAtNanos = (reverseMatch _ _ _ _ _ _ _ _ _).expireAtNanos ∧
    AllPairs SameStage (reverseMatch _ _ _ _ _ _ _ _ _).forExistingID (reverseMatch _ _ _ _ _ _ _ _ _).forExistingID
  rw [reverseMatch_eq env _ ⟨v, ms, rs, rfl⟩, reverseMatch_eq env _ ⟨v, ms', rs', rfl⟩]
  unfold stages
  simp only [hcut]
  exact ⟨trivial, reverse_fold_like hat _ (reverseMerge_like frm trivial (hat frm))⟩

/-- Two rollup rules that roll up into different names. -/
def exApart : List RollupRule :=
  [⟨bs "4", [exRollup 5 false [exRollTo "r" ["city"] 2]]⟩, ⟨bs "5", [exRollup 9 false [exRollTo "q" ["city", "host"] 4]]⟩]

theorem exApart_live {t : Int} {s : RollupSnapshot} (h : s ∈ live (current exApart t)) :
    s = exRollup 5 false [exRollTo "r" ["city"] 2] ∨ s = exRollup 9 false [exRollTo "q" ["city", "host"] 4] := by
  simp only [live, current, List.mem_filter, List.mem_filterMap] at h
  obtain ⟨⟨r, hr, hs⟩, _⟩ := h
  have hm := (inForce_mem hs).1
  simp only [exApart, List.mem_cons, List.not_mem_nil, or_false] at hr
  rcases hr with rfl | rfl <;> simp only [List.mem_cons, List.not_mem_nil, or_false] at hm
  · exact Or.inl hm
  · exact Or.inr hm

/-- Rules meeting the conditions at all times and for all identifiers; both kinds of identifiers are matched. -/
example : (∀ name tags t, Agree m3Env (newActiveRuleSet 1 exOrderM exApart) name tags t) ∧
    ((reverseMatch m3Env (newActiveRuleSet 1 exOrderM exApart) exID 6 6 (some .counter) 2 false exOpts).forExistingID.map fun m =>
      m.pipelines.map (·.aggID)) = [[4]] ∧
    ((reverseMatch m3Env (newActiveRuleSet 1 exOrderM.reverse exApart.reverse) (bs "m3+q+city=sf,host=a,m3_rollup=true") 6 10 none 0
      false exOpts).forExistingID.map fun m => (m.cutoverNanos, m.pipelines.map (·.aggID))) = [(9, [4])] := by
  refine ⟨?_, by decide +kernel, by decide +kernel⟩
  intro name tags t s₁ h₁ s₂ h₂ tg₁ ht₁ tg₂ ht₂ op₁ ho₁ op₂ ho₂ m₁ m₂
  have hne : ¬ bs "r" = bs "q" := by decide
  have hnn : op₁.rollup.newName = op₂.rollup.newName := m₁.2.1.trans m₂.2.1.symm
  rcases exApart_live h₁ with rfl | rfl <;> rcases exApart_live h₂ with rfl | rfl <;>
    simp only [exRollup, exRollTo, List.mem_cons, List.not_mem_nil, or_false] at ht₁ ht₂ <;> subst ht₁ <;> subst ht₂ <;>
    simp only [List.mem_cons, List.not_mem_nil, or_false] at ho₁ ho₂ <;> subst ho₁ <;> subst ho₂
  · exact ⟨rfl, rfl, rfl⟩
  · exact absurd hnn hne
  · exact absurd hnn.symm hne
  · exact ⟨rfl, rfl, rfl⟩

/-- Two rollup rules that roll up into the same name, one by one tag more. -/
def exNested : List RollupRule :=
  [⟨bs "4", [exRollup 5 false [exRollTo "r" ["city"] 2]]⟩, ⟨bs "5", [exRollup 5 false [exRollTo "r" ["city", "host"] 4]]⟩]

/-- C86 is violated: with the same rules in another order, an identifier that both rules' steps fit is attributed to the
other rule, although the rules roll up by different tags. -/
theorem C86_violated : ∃ (rs rs' : List RollupRule) (id : Bytes), rs.Perm rs' ∧
    (((live (current rs 6)).flatMap (·.targets)).filterMap targetKey).Nodup ∧
    ((reverseMatch m3Env (newActiveRuleSet 1 [] rs) id 6 6 none 0 false exOpts).forExistingID.map fun m => m.pipelines.map (·.aggID)) = [[2]] ∧
    ((reverseMatch m3Env (newActiveRuleSet 1 [] rs') id 6 6 none 0 false exOpts).forExistingID.map fun m => m.pipelines.map (·.aggID)) = [[4]] :=
  ⟨exNested, exNested.reverse, bs "m3+r+city=sf,host=a,m3_rollup=true", (List.reverse_perm _).symm, by decide +kernel, by decide +kernel,
    by decide +kernel⟩

end Verif.Active
