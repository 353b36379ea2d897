import Verif.Props.MatchPoint
import Verif.Spec.RuleOrder
/- C66: the order of the rules does not matter. -/
namespace Verif.Active
open Verif.Agg Verif.Policy Verif.Meta Verif.Id Verif.TagsFlt Verif.Rules Verif.Spec.Rules Verif.Spec Verif.Spec.RuleOrder

/-! ### Lists -/

section
variable {α : Type} {E : α → α → Prop}

theorem AllPairs.of_index : ∀ {a b : List α}, a.length = b.length →
    (∀ i (h₁ : i < a.length) (h₂ : i < b.length), E a[i] b[i]) → AllPairs E a b
  | [], [], _, _ => trivial
  | [], _ :: _, h, _ => by simp at h
  | _ :: _, [], h, _ => by simp at h
  | _ :: _, _ :: _, h, hi => ⟨hi 0 (by simp) (by simp), AllPairs.of_index (by simpa using h)
      (fun i h₁ h₂ => hi (i + 1) (by simpa using h₁) (by simpa using h₂))⟩

theorem AllPairs.append : ∀ {a b c d : List α}, AllPairs E a b → AllPairs E c d → AllPairs E (a ++ c) (b ++ d)
  | [], [], _, _, _, h => h
  | [], _ :: _, _, _, h, _ => h.elim
  | _ :: _, [], _, _, h, _ => h.elim
  | _ :: _, _ :: _, _, _, h, h' => ⟨h.1, AllPairs.append h.2 h'⟩

theorem AllPairs.getLast : ∀ {a b : List α}, AllPairs E a b →
    (a.getLast? = none ∧ b.getLast? = none) ∨ ∃ x y, a.getLast? = some x ∧ b.getLast? = some y ∧ E x y
  | [], [], _ => Or.inl ⟨rfl, rfl⟩
  | [], _ :: _, h => h.elim
  | _ :: _, [], h => h.elim
  | [x], [y], h => Or.inr ⟨x, y, rfl, rfl, h.1⟩
  | [_], _ :: _ :: _, h => h.2.elim
  | _ :: _ :: _, [_], h => h.2.elim
  | _ :: a :: l, _ :: b :: r, h => by
    have := AllPairs.getLast (a := a :: l) (b := b :: r) h.2
    simpa [List.getLast?_cons_cons] using this

/-- Two lists of representatives of the same classes. -/
theorem match_up (hs : ∀ {x y}, E x y → E y x) (ht : ∀ {x y z}, E x y → E y z → E x z) :
    ∀ (a b : List α), a.Pairwise (fun x y => ¬ E x y) → b.Pairwise (fun x y => ¬ E x y) →
    (∀ x ∈ a, ∃ y ∈ b, E x y) → (∀ y ∈ b, ∃ x ∈ a, E x y) → ∃ b', b'.Perm b ∧ AllPairs E a b'
  | [], b, _, _, _, h => by
    cases b with
    | nil => exact ⟨[], List.Perm.refl _, trivial⟩
    | cons y b => obtain ⟨x, hx, _⟩ := h y (by simp); cases hx
  | x :: a, b, hpa, hpb, hab, hba => by
    obtain ⟨y, hy, hxy⟩ := hab x (by simp)
    obtain ⟨s, t, rfl⟩ := List.append_of_mem hy
    have hpa' := List.pairwise_cons.mp hpa
    have hperm : (y :: (s ++ t)).Perm (s ++ y :: t) := List.perm_middle.symm
    have hpb' : (y :: (s ++ t)).Pairwise (fun x y => ¬ E x y) :=
      (hperm.pairwise_iff (fun h h' => h (hs h'))).mpr hpb
    obtain ⟨hy', hst⟩ := List.pairwise_cons.mp hpb'
    obtain ⟨b', hb', hall⟩ := match_up hs ht a (s ++ t) hpa'.2 hst
      (fun x' hx' => by
        obtain ⟨y', hy1, h'⟩ := hab x' (by simp [hx'])
        rcases List.mem_cons.mp (hperm.mem_iff.mpr hy1) with rfl | hm
        · exact absurd (ht hxy (hs h')) (hpa'.1 x' hx')
        · exact ⟨y', hm, h'⟩)
      (fun y' hm => by
        obtain ⟨x', hx', h'⟩ := hba y' (hperm.mem_iff.mp (by simp [hm]))
        rcases List.mem_cons.mp hx' with rfl | hx'
        · exact absurd (ht (hs hxy) h') (hy' y' hm)
        · exact ⟨x', hx', h'⟩)
    exact ⟨y :: b', (hb'.cons y).trans hperm, hxy, hall⟩
end

theorem alike_of_equal {p q : PipelineMetadata} (h : p.equal q = true) : Alike p q := by
  obtain ⟨h1, h2, h3, h4⟩ := (equal_iff p q).mp h
  obtain ⟨h5, h6⟩ := (Applied.C11_equal_iff _ _).mp h3
  exact ⟨h1, h2, AllPairs.of_index h5 h6, h4⟩

theorem equal_symm {p q : PipelineMetadata} (h : p.equal q = true) : q.equal p = true := by
  obtain ⟨h1, h2, h3, h4⟩ := (equal_iff p q).mp h
  obtain ⟨h5, h6⟩ := (Applied.C11_equal_iff _ _).mp h3
  refine (equal_iff q p).mpr ⟨h1.symm, h2.symm, (Applied.C11_equal_iff _ _).mpr ⟨h5.symm, fun i h₁ h₂ => ?_⟩, h4.symm⟩
  obtain ⟨a, b, c⟩ := h6 i h₂ h₁
  exact ⟨a.symm, fun h => (b (a.trans h)).symm, fun h => (c (a.trans h)).symm⟩

theorem equal_trans {p q r : PipelineMetadata} (h : p.equal q = true) (h' : q.equal r = true) : p.equal r = true := by
  obtain ⟨h1, h2, h3, h4⟩ := (equal_iff p q).mp h
  obtain ⟨h5, h6⟩ := (Applied.C11_equal_iff _ _).mp h3
  obtain ⟨k1, k2, k3, k4⟩ := (equal_iff q r).mp h'
  obtain ⟨k5, k6⟩ := (Applied.C11_equal_iff _ _).mp k3
  refine (equal_iff p r).mpr ⟨h1.trans k1, h2.trans k2,
    (Applied.C11_equal_iff _ _).mpr ⟨h5.trans k5, fun i h₁ h₂ => ?_⟩, h4.trans k4⟩
  obtain ⟨a, b, c⟩ := h6 i h₁ (by omega)
  obtain ⟨a', b', c'⟩ := k6 i (by omega) h₂
  exact ⟨a.trans a', fun h => (b h).trans (b' (a.symm.trans h)), fun h => (c h).trans (c' (a.symm.trans h))⟩

/-- Without duplicates, lists with the same elements are the same sets of pipelines. -/
theorem dedup_same {a b : List PipelineMetadata} (h : ∀ p, p ∈ a ↔ p ∈ b) :
    SamePipelines (a.foldl dedupStep []) (b.foldl dedupStep []) := by
  obtain ⟨a1, a2, _, a4⟩ := dedup_spec a [] List.Pairwise.nil
  obtain ⟨b1, b2, _, b4⟩ := dedup_spec b [] List.Pairwise.nil
  obtain ⟨b', hb, hall⟩ := match_up (E := fun p q : PipelineMetadata => p.equal q = true) equal_symm equal_trans
    (a.foldl dedupStep []) (b.foldl dedupStep [])
    (a1.imp (fun h => by simp [h])) (b1.imp (fun h => by simp [h]))
    (fun x hx => by
      rcases a2 x hx with h' | h'
      · cases h'
      · obtain ⟨q, hq, he⟩ := b4 x ((h x).mp h'); exact ⟨q, hq, equal_symm he⟩)
    (fun y hy => by
      rcases b2 y hy with h' | h'
      · cases h'
      · exact a4 y ((h y).mpr h'))
  refine ⟨b', hb, ?_⟩
  generalize a.foldl dedupStep [] = x at hall
  clear hb
  induction x generalizing b' with
  | nil => cases b' with
    | nil => trivial
    | cons _ _ => exact hall.elim
  | cons p x ih => cases b' with
    | nil => exact hall.elim
    | cons q b' => exact ⟨alike_of_equal hall.1, ih b' hall.2⟩

theorem AllPairs.refl {α : Type} {E : α → α → Prop} (h : ∀ x, E x x) : ∀ l, AllPairs E l l
  | [] => trivial
  | x :: l => ⟨h x, AllPairs.refl h l⟩

theorem alike_refl (p : PipelineMetadata) : Alike p p :=
  ⟨rfl, List.Perm.refl _, AllPairs.refl (fun _ => ⟨rfl, fun _ => rfl, fun _ => rfl⟩) _, rfl⟩

/-! ### The same rules in another order -/

theorem latest_perm {a b : List Int} (h : a.Perm b) : latest a = latest b := by
  apply Int.le_antisymm
  · exact latest_le.mpr ⟨latest_nonneg, fun t ht => le_latest (h.mem_iff.mp ht)⟩
  · exact latest_le.mpr ⟨latest_nonneg, fun t ht => le_latest (h.mem_iff.mpr ht)⟩

/-- The same rules in another order. -/
structure Reordered (a b : ActiveRuleSet) : Prop where
  mapping : a.mappingRules.Perm b.mappingRules
  rollup : a.rollupRules.Perm b.rollupRules

section
variable {env : Env} {a b : ActiveRuleSet} {id : Bytes} {t : Int}

theorem Reordered.symm (h : Reordered a b) : Reordered b a := ⟨h.mapping.symm, h.rollup.symm⟩

theorem Reordered.matchingM (h : Reordered a b) :
    (matchingM env a.mappingRules id t).Perm (matchingM env b.mappingRules id t) :=
  (h.mapping.filterMap _).filter _

theorem Reordered.matchingR (h : Reordered a b) :
    (matchingR env a.rollupRules id t).Perm (matchingR env b.rollupRules id t) :=
  (h.rollup.filterMap _).filter _

theorem Reordered.asked (h : Reordered a b) : (asked env a id t).Perm (asked env b id t) :=
  (h.matchingM.filter _).map _

theorem Reordered.targetsAt (h : Reordered a b) : (targetsAt env a id t).Perm (targetsAt env b id t) :=
  (h.matchingR.filter _).flatMap_right _

theorem Reordered.rolled (h : Reordered a b) : (rolled env a id t).Perm (rolled env b id t) := by
  unfold Active.rolled
  split
  · exact List.Perm.refl _
  · exact h.targetsAt.filterMap _

theorem Reordered.mappingCut (h : Reordered a b) : mappingCut env a id t = mappingCut env b id t :=
  latest_perm (h.matchingM.map _)

theorem Reordered.rollupCut (h : Reordered a b) : rollupCut env a id t = rollupCut env b id t := by
  unfold Active.rollupCut
  rw [latest_perm (h.matchingR.map _)]
  have : Active.targetsAt env a id t = [] ↔ Active.targetsAt env b id t = [] := by
    constructor
    · intro h'; have := h.targetsAt (env := env) (id := id) (t := t); rw [h'] at this; exact this.symm.eq_nil
    · intro h'; have := h.targetsAt (env := env) (id := id) (t := t); rw [h'] at this; exact this.eq_nil
  simp only [this]

theorem Reordered.dropsValid (h : Reordered a b) (hv : DropsValid a) : DropsValid b :=
  fun r hr => hv r (h.mapping.mem_iff.mpr hr)

theorem dropEffective_perm {p q : List PipelineMetadata} (h : p.Perm q) : dropEffective p = dropEffective q := by
  unfold dropEffective
  rw [h.any_eq, h.all_eq, h.isEmpty_eq]

/-- C66: at any time, the metadata of the existing identifier do not depend on the order of the rules. -/
theorem C66_existing (env : Env) (a b : ActiveRuleSet) (h : Reordered a b) (hv : DropsValid a) (id : Bytes) (t : Int) :
    SameStage (forwardMatchAt env a id t).forExistingID (forwardMatchAt env b id t).forExistingID := by
  refine ⟨?_, rfl, ?_⟩
  · rw [existing_cutover, existing_cutover, h.mappingCut, h.rollupCut]
  · rw [pipelines_eq env a hv, pipelines_eq env b (h.dropsValid hv), dropEffective_perm (h.asked (env := env) (id := id) (t := t))]
    split
    · exact ⟨_, List.Perm.refl _, alike_refl _, trivial⟩
    · apply dedup_same
      intro p
      have h1 := (h.asked (env := env) (id := id) (t := t)).filter (fun p => p.drop == 0)
      have h2 := (h.rolled (env := env) (id := id) (t := t)).filterMap (fun r => if r.1 = none then some r.2 else none)
      unfold contributed rolledExisting
      rw [List.mem_append, List.mem_append, h2.mem_iff]
      by_cases h0 : (Active.asked env a id t).filter (fun p => p.drop == 0) = []
      · have h0' : (Active.asked env b id t).filter (fun p => p.drop == 0) = [] := by rw [h0] at h1; exact h1.symm.eq_nil
        rw [if_pos h0, if_pos h0']
      · have h0' : ¬ (Active.asked env b id t).filter (fun p => p.drop == 0) = [] := by
          intro h'; rw [h'] at h1; exact h0 h1.eq_nil
        rw [if_neg h0, if_neg h0', h1.mem_iff]

/-- C66: at any time, the rollup identifiers with their metadata are the same, each as often as before. -/
theorem C66_rollups (env : Env) (a b : ActiveRuleSet) (h : Reordered a b) (id : Bytes) (t : Int) :
    (forwardMatchAt env a id t).forNewRollupIDs.Perm (forwardMatchAt env b id t).forNewRollupIDs := by
  rw [forward_rollups, forward_rollups]
  unfold sortByID
  refine (sortBy_perm _ _).trans (List.Perm.trans ?_ (sortBy_perm _ _).symm)
  have : stagedOf env a id t = stagedOf env b id t := by funext p; unfold stagedOf; rw [h.rollupCut]
  rw [this]
  exact (h.rolled.filterMap _).map _

/-- C66: if no identifier is generated twice the lists are the same. -/
theorem C66_rollups_same (env : Env) (a b : ActiveRuleSet) (h : Reordered a b) (id : Bytes) (t : Int)
    (hnd : ((forwardMatchAt env a id t).forNewRollupIDs.map (·.id)).Nodup) :
    (forwardMatchAt env a id t).forNewRollupIDs = (forwardMatchAt env b id t).forNewRollupIDs := by
  have hp := C66_rollups env a b h id t
  have hs := point_sorted env a id t hnd
  have hs' := point_sorted env b id t (((hp.map _).nodup_iff).mp hnd)
  refine hp.eq_of_pairwise ?_ hs hs'
  intro x y _ _ h1 h2
  rw [bytesLt_strictTotal.asymm h1] at h2
  cases h2
end

/-! ### Ranges of time -/

theorem reordered_times {ms ms' : List MappingRule} {rs rs' : List RollupRule} (hm : ms.Perm ms') (hr : rs.Perm rs') (c : Int) :
    IsRuleTime ms rs c ↔ IsRuleTime ms' rs' c := by
  unfold IsRuleTime
  simp only [hm.mem_iff, hr.mem_iff]

theorem reordered_cutovers {v v' : Int} {ms ms' : List MappingRule} {rs rs' : List RollupRule} (hm : ms.Perm ms')
    (hr : rs.Perm rs') : (newActiveRuleSet v ms rs).cutoverTimesAsc = (newActiveRuleSet v' ms' rs').cutoverTimesAsc := by
  obtain ⟨h1, h2⟩ := newActive_cutovers v ms rs
  obtain ⟨h3, h4⟩ := newActive_cutovers v' ms' rs'
  exact sorted_ext h1 h3 fun c => by rw [h2, h4, reordered_times hm hr]

theorem mergeExisting_same {x y : List StagedMetadata} {p q : StagedMetadata} (T : Int) (h : AllPairs SameStage x y)
    (hp : SameStage p q) : AllPairs SameStage (mergeExisting x p T) (mergeExisting y q T) := by
  unfold mergeExisting
  rcases AllPairs.getLast h with ⟨h1, h2⟩ | ⟨u, w, h1, h2, hu⟩
  · rw [h1, h2]; exact ⟨hp, trivial⟩
  · rw [h1, h2]
    simp only
    apply AllPairs.append h
    rw [hu.1, hp.1]
    split
    · exact ⟨⟨rfl, hp.2.1, hp.2.2⟩, trivial⟩
    · exact ⟨hp, trivial⟩

theorem existing_same {F G : Int → StagedMetadata} : ∀ (cs : List Int), (∀ c ∈ cs, SameStage (F c) (G c)) →
    ∀ x y, AllPairs SameStage x y →
    AllPairs SameStage (cs.foldl (fun ex c => mergeExisting ex (F c) c) x) (cs.foldl (fun ex c => mergeExisting ex (G c) c) y)
  | [], _, _, _, h => h
  | c :: cs, hF, _, _, h => existing_same cs (fun d hd => hF d (by simp [hd])) _ _ (mergeExisting_same c h (hF c (by simp)))

/-- C66: over any range of time, the result for the existing identifier and its expiry do not depend on the order
of the rules. -/
theorem C66_range (env : Env) (v : Int) {ms ms' : List MappingRule} {rs rs' : List RollupRule} (hm : ms.Perm ms')
    (hr : rs.Perm rs') (hv : ∀ r ∈ ms, ∀ s ∈ r.snapshots, s.drop = 0 ∨ s.drop = 1 ∨ s.drop = 2) (id : Bytes) (frm to : Int) :
    let x := forwardMatch env (newActiveRuleSet v ms rs) id frm to
    let y := forwardMatch env (newActiveRuleSet v ms' rs') id frm to
    x.version = y.version ∧ x.expireAtNanos = y.expireAtNanos ∧ AllPairs SameStage x.forExistingID y.forExistingID ∧
    (∀ i, i ∈ x.forNewRollupIDs.map (·.id) ↔ i ∈ y.forNewRollupIDs.map (·.id)) := by
  have hre : Reordered (newActiveRuleSet v ms rs) (newActiveRuleSet v ms' rs') := ⟨hm, hr⟩
  have hcut : (newActiveRuleSet v ms rs).cutoverTimesAsc = (newActiveRuleSet v ms' rs').cutoverTimesAsc :=
    reordered_cutovers hm hr
  have hA : Built (newActiveRuleSet v ms rs) := ⟨v, ms, rs, rfl⟩
  have hB : Built (newActiveRuleSet v ms' rs') := ⟨v, ms', rs', rfl⟩
  refine ⟨rfl, ?_, ?_, ?_⟩
  · rw [forwardMatch_eq env _ hA, forwardMatch_eq env _ hB]
    simp only [hcut]
  · rw [forwardMatch_eq env _ hA, forwardMatch_eq env _ hB]
    unfold stages
    simp only [hcut]
    exact existing_same _ (fun c _ => C66_existing env _ _ hre hv id c) _ _ ⟨C66_existing env _ _ hre hv id frm, trivial⟩
  · intro i
    rw [C39_ids env _ hA, C39_ids env _ hB]
    have hi : ∀ τ, i ∈ (forwardMatchAt env (newActiveRuleSet v ms rs) id τ).forNewRollupIDs.map (·.id) ↔
        i ∈ (forwardMatchAt env (newActiveRuleSet v ms' rs') id τ).forNewRollupIDs.map (·.id) :=
      fun τ => ((C66_rollups env _ _ hre id τ).map _).mem_iff
    have ht : ∀ τ, IsRuleTime (newActiveRuleSet v ms rs).mappingRules (newActiveRuleSet v ms rs).rollupRules τ ↔
        IsRuleTime (newActiveRuleSet v ms' rs').mappingRules (newActiveRuleSet v ms' rs').rollupRules τ :=
      fun τ => reordered_times hm hr τ
    simp only [hi, ht]

/-- C66: the metadata of the rollup identifiers over a range are the same if no identifier is generated twice at a time. -/
theorem C66_range_rollups (env : Env) (v : Int) {ms ms' : List MappingRule} {rs rs' : List RollupRule} (hm : ms.Perm ms')
    (hr : rs.Perm rs') (id : Bytes) (frm to : Int)
    (hnd : ∀ τ, ((forwardMatchAt env (newActiveRuleSet v ms rs) id τ).forNewRollupIDs.map (·.id)).Nodup) :
    (forwardMatch env (newActiveRuleSet v ms rs) id frm to).forNewRollupIDs =
      (forwardMatch env (newActiveRuleSet v ms' rs') id frm to).forNewRollupIDs := by
  have hre : Reordered (newActiveRuleSet v ms rs) (newActiveRuleSet v ms' rs') := ⟨hm, hr⟩
  have hcut : (newActiveRuleSet v ms rs).cutoverTimesAsc = (newActiveRuleSet v ms' rs').cutoverTimesAsc :=
    reordered_cutovers hm hr
  rw [forwardMatch_eq env _ ⟨v, ms, rs, rfl⟩, forwardMatch_eq env _ ⟨v, ms', rs', rfl⟩]
  unfold stages
  simp only [hcut, C66_rollups_same env _ _ hre id _ (hnd _)]

/-- Two mapping rules asking for the same with policies in a different order, a third one, and two rollup rules. -/
def exOrderM : List MappingRule :=
  [⟨bs "1", [{ exSnap "city:s*" 10 4 with storagePolicies := [⟨⟨1, 1⟩, 5⟩, ⟨⟨2, 1⟩, 5⟩] }]⟩,
   ⟨bs "2", [{ exSnap "city:sf" 5 4 with storagePolicies := [⟨⟨2, 1⟩, 5⟩, ⟨⟨1, 1⟩, 5⟩] }]⟩, ⟨bs "3", [exSnap "host:a" 7 8]⟩]

def exOrderTarget (n : String) (agg : Agg.ID) : RollupTarget :=
  ⟨[{ type := 3, rollup := ⟨bs n, [bs "city"], agg⟩ }], []⟩

def exOrderR : List RollupRule :=
  [⟨bs "4", [exRollup 5 false [exOrderTarget "b" 4, exTarget]]⟩, ⟨bs "5", [exRollup 9 false [exOrderTarget "a" 8]]⟩]

/-- Reversing the rules keeps another one of the two equal pipelines. -/
example : exOrderM.Perm exOrderM.reverse ∧ exOrderR.Perm exOrderR.reverse ∧
    (∀ r ∈ exOrderM, ∀ s ∈ r.snapshots, s.drop = 0 ∨ s.drop = 1 ∨ s.drop = 2) ∧
    (forwardMatchAt m3Env (newActiveRuleSet 1 exOrderM exOrderR) exID 15).forExistingID.pipelines.length = 3 ∧
    (forwardMatchAt m3Env (newActiveRuleSet 1 exOrderM.reverse exOrderR.reverse) exID 15).forExistingID.pipelines ≠
      (forwardMatchAt m3Env (newActiveRuleSet 1 exOrderM exOrderR) exID 15).forExistingID.pipelines ∧
    (forwardMatchAt m3Env (newActiveRuleSet 1 exOrderM exOrderR) exID 15).forNewRollupIDs.length = 2 ∧
    ((forwardMatchAt m3Env (newActiveRuleSet 1 exOrderM exOrderR) exID 15).forNewRollupIDs.map (·.id)).Nodup := by
  refine ⟨(List.reverse_perm _).symm, (List.reverse_perm _).symm, ?_, by decide +kernel, by decide +kernel, by decide +kernel,
    by decide +kernel⟩
  intro r hr s hs
  simp only [exOrderM, List.mem_cons, List.not_mem_nil, or_false] at hr
  rcases hr with rfl | rfl | rfl <;> simp only [List.mem_cons, List.not_mem_nil, or_false] at hs <;> subst hs <;> exact Or.inl rfl

/-- Two rules that generate the same identifier; the first is deleted at 20. -/
def exTwice : List RollupRule :=
  [⟨bs "4", [exRollup 5 false [exOrderTarget "a" 4], exRollup 20 true []]⟩, ⟨bs "5", [exRollup 5 false [exOrderTarget "a" 8]]⟩]

/-- C66, outside of the claim: when two rules generate the same identifier, their metadata over a range of time are
paired by position, and which of the two gets the tombstone depends on the order of the rules. -/
theorem C66_range_twice : ∃ (rs rs' : List RollupRule) (id : Bytes), rs.Perm rs' ∧
    ¬ (forwardMatch m3Env (newActiveRuleSet 1 [] rs) id 10 30).forNewRollupIDs.Perm
      (forwardMatch m3Env (newActiveRuleSet 1 [] rs') id 10 30).forNewRollupIDs := by
  refine ⟨exTwice, exTwice.reverse, exID, (List.reverse_perm _).symm, ?_⟩
  intro h
  have h1 : ((forwardMatch m3Env (newActiveRuleSet 1 [] exTwice) exID 10 30).forNewRollupIDs).head? ≠ none := by decide +kernel
  have h2 : ∀ y ∈ (forwardMatch m3Env (newActiveRuleSet 1 [] exTwice) exID 10 30).forNewRollupIDs,
      y ∉ (forwardMatch m3Env (newActiveRuleSet 1 [] exTwice.reverse) exID 10 30).forNewRollupIDs := by decide +kernel
  cases hl : (forwardMatch m3Env (newActiveRuleSet 1 [] exTwice) exID 10 30).forNewRollupIDs with
  | nil => exact h1 (by rw [hl]; rfl)
  | cons y l => exact h2 y (by rw [hl]; simp) (h.mem_iff.mp (by rw [hl]; simp))

end Verif.Active
