import Verif.Props.RuleOrder
import Verif.Props.ReverseMatch
import Verif.Props.RuleSetProto
import Verif.Props.RuleSetViews
import Verif.Spec.ViewEqual
/- C84: comparing views. -/
namespace Verif.RuleSet
open Verif.Agg Verif.Policy Verif.Meta Verif.Id Verif.TagsFlt Verif.Rules Verif.Active Verif.Spec.Rules Verif.Spec
open Verif.Spec.RuleOrder Verif.Spec.ViewEqual

/-! ### Lists related position by position -/

section
variable {α β : Type} {R : α → α → Prop} {Q : β → β → Prop}

theorem AllPairs.mono {R' : α → α → Prop} : ∀ {a b : List α}, (∀ x ∈ a, ∀ y ∈ b, R x y → R' x y) → AllPairs R a b → AllPairs R' a b
  | [], [], _, _ => trivial
  | [], _ :: _, _, h => h.elim
  | _ :: _, [], _, h => h.elim
  | _ :: _, _ :: _, f, h => ⟨f _ (by simp) _ (by simp) h.1,
      AllPairs.mono (fun x hx y hy => f x (by simp [hx]) y (by simp [hy])) h.2⟩

theorem AllPairs.iff_mono {R' : α → α → Prop} (f : ∀ x y, R x y ↔ R' x y) {a b : List α} : AllPairs R a b ↔ AllPairs R' a b :=
  ⟨AllPairs.mono fun x _ y _ => (f x y).mp, AllPairs.mono fun x _ y _ => (f x y).mpr⟩

theorem AllPairs.map {f g : α → β} : ∀ {a b : List α}, (∀ x ∈ a, ∀ y ∈ b, R x y → Q (f x) (g y)) → AllPairs R a b →
    AllPairs Q (a.map f) (b.map g)
  | [], [], _, _ => trivial
  | [], _ :: _, _, h => h.elim
  | _ :: _, [], _, h => h.elim
  | _ :: _, _ :: _, f, h => ⟨f _ (by simp) _ (by simp) h.1,
      AllPairs.map (fun x hx y hy => f x (by simp [hx]) y (by simp [hy])) h.2⟩

theorem AllPairs.of_map {f g : α → β} : ∀ {a b : List α}, AllPairs Q (a.map f) (b.map g) → AllPairs (fun x y => Q (f x) (g y)) a b
  | [], [], _ => trivial
  | [], _ :: _, h => h.elim
  | _ :: _, [], h => h.elim
  | _ :: _, _ :: _, h => ⟨h.1, AllPairs.of_map h.2⟩

theorem AllPairs.filter {p q : α → Bool} (hpq : ∀ x y, R x y → p x = q y) : ∀ {a b : List α}, AllPairs R a b →
    AllPairs R (a.filter p) (b.filter q)
  | [], [], _ => trivial
  | [], _ :: _, h => h.elim
  | _ :: _, [], h => h.elim
  | x :: a, y :: b, h => by
    simp only [List.filter_cons, hpq x y h.1]
    cases q y
    · simpa using AllPairs.filter hpq h.2
    · simpa using ⟨h.1, AllPairs.filter hpq h.2⟩

theorem AllPairs.filterMap {f g : α → Option β} (hfg : ∀ x y, R x y → Opt Q (f x) (g y)) : ∀ {a b : List α}, AllPairs R a b →
    AllPairs Q (a.filterMap f) (b.filterMap g)
  | [], [], _ => trivial
  | [], _ :: _, h => h.elim
  | _ :: _, [], h => h.elim
  | x :: a, y :: b, h => by
    have h1 := hfg x y h.1
    have h2 := AllPairs.filterMap hfg h.2
    simp only [List.filterMap_cons]
    cases hx : f x <;> cases hy : g y <;> rw [hx, hy] at h1
    · exact h2
    · exact h1.elim
    · exact h1.elim
    · exact ⟨h1, h2⟩

theorem AllPairs.flatMap {f g : α → List β} (hfg : ∀ x y, R x y → AllPairs Q (f x) (g y)) : ∀ {a b : List α}, AllPairs R a b →
    AllPairs Q (a.flatMap f) (b.flatMap g)
  | [], [], _ => trivial
  | [], _ :: _, h => h.elim
  | _ :: _, [], h => h.elim
  | x :: a, y :: b, h => by
    simp only [List.flatMap_cons]
    exact AllPairs.append (hfg x y h.1) (AllPairs.flatMap hfg h.2)

theorem AllPairs.length_eq : ∀ {a b : List α}, AllPairs R a b → a.length = b.length
  | [], [], _ => rfl
  | [], _ :: _, h => h.elim
  | _ :: _, [], h => h.elim
  | _ :: _, _ :: _, h => by simp [AllPairs.length_eq h.2]

theorem AllPairs.nil_iff {a b : List α} (h : AllPairs R a b) : a = [] ↔ b = [] := by
  rw [← List.length_eq_zero_iff, ← List.length_eq_zero_iff, AllPairs.length_eq h]

theorem AllPairs.get {a b : List α} (h : AllPairs R a b) (i : Nat) : Opt R a[i]? b[i]? := by
  induction a generalizing b i with
  | nil => cases b with
    | nil => simp [Opt]
    | cons _ _ => exact h.elim
  | cons x a ih => cases b with
    | nil => exact h.elim
    | cons y b => cases i with
      | zero => exact h.1
      | succ i => simpa using ih h.2 i

theorem AllPairs.drop {a b : List α} (h : AllPairs R a b) (k : Nat) : AllPairs R (a.drop k) (b.drop k) := by
  induction k generalizing a b with
  | zero => exact h
  | succ k ih => cases a <;> cases b <;> first | exact h.elim | exact trivial | exact ih h.2

theorem AllPairs.left : ∀ {a b : List α}, AllPairs R a b → ∀ x ∈ a, ∃ y ∈ b, R x y
  | [], [], _, x, hx => by cases hx
  | [], _ :: _, h, _, _ => h.elim
  | _ :: _, [], h, _, _ => h.elim
  | _ :: a, y :: b, h, x, hx => by
    rcases List.mem_cons.mp hx with rfl | hx
    · exact ⟨y, by simp, h.1⟩
    · obtain ⟨z, hz, hr⟩ := AllPairs.left h.2 x hx
      exact ⟨z, by simp [hz], hr⟩

theorem AllPairs.right : ∀ {a b : List α}, AllPairs R a b → ∀ y ∈ b, ∃ x ∈ a, R x y
  | [], [], _, x, hx => by cases hx
  | [], _ :: _, h, _, _ => h.elim
  | _ :: _, [], h, _, _ => h.elim
  | x :: a, _ :: b, h, y, hy => by
    rcases List.mem_cons.mp hy with rfl | hy
    · exact ⟨x, by simp, h.1⟩
    · obtain ⟨z, hz, hr⟩ := AllPairs.right h.2 y hy
      exact ⟨z, by simp [hz], hr⟩

theorem AllPairs.symm : ∀ {a b : List α}, AllPairs R a b → AllPairs (fun x y => R y x) b a
  | [], [], _ => trivial
  | [], _ :: _, h => h.elim
  | _ :: _, [], h => h.elim
  | _ :: _, _ :: _, h => ⟨h.1, AllPairs.symm h.2⟩

theorem AllPairs.trans (ht : ∀ x y z, R x y → R y z → R x z) : ∀ {a b c : List α}, AllPairs R a b → AllPairs R b c → AllPairs R a c
  | [], [], [], _, _ => trivial
  | [], _ :: _, _, h, _ => h.elim
  | _ :: _, [], _, h, _ => h.elim
  | [], [], _ :: _, _, h => h.elim
  | _ :: _, _ :: _, [], _, h => h.elim
  | _ :: _, _ :: _, _ :: _, h, h' => ⟨ht _ _ _ h.1 h'.1, AllPairs.trans ht h.2 h'.2⟩

theorem AllPairs.eq_of : ∀ {a b : List α}, AllPairs (fun x y => x = y) a b → a = b
  | [], [], _ => rfl
  | [], _ :: _, h => h.elim
  | _ :: _, [], h => h.elim
  | _ :: _, _ :: _, h => by rw [h.1, AllPairs.eq_of h.2]

theorem AllPairs.listEqualBy (eq : α → α → Bool) (a b : List α) : listEqualBy eq a b = true ↔ AllPairs (fun x y => eq x y = true) a b := by
  rw [listEqualBy_iff]
  constructor
  · intro ⟨h1, h2⟩; exact AllPairs.of_index h1 h2
  · intro h
    refine ⟨AllPairs.length_eq h, fun i h₁ h₂ => ?_⟩
    have := AllPairs.get h i
    rw [List.getElem?_eq_getElem h₁, List.getElem?_eq_getElem h₂] at this
    exact this
end

/-! ### What the comparisons decide -/

theorem sameOp_equal (u v : Pipe.OpUnion) : u.equal v = true ↔ SameOp u v := by
  rw [Pipe.op_equal_iff]
  unfold Pipe.SameOp SameOp
  constructor
  · intro ⟨a, b, c, d⟩; exact ⟨a, b, c, fun h => ⟨(d h).2.1, (d h).1, (d h).2.2⟩⟩
  · intro ⟨a, b, c, d⟩; exact ⟨a, b, c, fun h => ⟨(d h).2.1, (d h).1, (d h).2.2⟩⟩

theorem pipelines_same (p q : Pipe.Pipeline) : Pipe.pipelineEqual p q = true ↔ AllPairs SameOp p q := by
  unfold Pipe.pipelineEqual
  rw [AllPairs.listEqualBy]
  exact AllPairs.iff_mono fun u v => sameOp_equal u v

theorem target_same (t t' : RollupTarget) : targetEqual (some t) (some t') = true ↔ SameTarget t t' := by
  unfold targetEqual SameTarget
  simp only [Bool.and_eq_true, pipelines_same, C07_equal_iff_perm]

/-- C84: two mapping rule views are equal exactly when both are absent or both say the same. -/
theorem C84_mapping_iff (m m' : Option MappingView) : MappingView.equal m m' = true ↔ Opt SameMapping m m' := by
  cases m <;> cases m' <;> simp [MappingView.equal, Opt, SameMapping, C07_equal_iff_perm, and_assoc]

/-- C84: two rollup targets are equal exactly when both are absent or both say the same. -/
theorem C84_target_iff (t t' : Option RollupTarget) : targetEqual t t' = true ↔ Opt SameTarget t t' := by
  cases t <;> cases t' <;> simp only [Opt]
  · simp [targetEqual]
  · simp [targetEqual]
  · simp [targetEqual]
  · exact target_same _ _

/-- C84: two rollup rule views are equal exactly when both are absent or both say the same. -/
theorem C84_rollup_iff (r r' : Option RollupView) : RollupView.equal r r' = true ↔ Opt SameRollup r r' := by
  cases r <;> cases r' <;> simp only [Opt]
  · simp [RollupView.equal]
  · simp [RollupView.equal]
  · simp [RollupView.equal]
  · simp only [RollupView.equal, SameRollup, targetsEqual, AllPairs.listEqualBy, Bool.and_eq_true, beq_iff_eq, and_assoc]
    rw [AllPairs.iff_mono target_same]

theorem sameOp_refl (u : Pipe.OpUnion) : SameOp u u := ⟨rfl, fun _ => rfl, fun _ => rfl, fun _ => ⟨rfl, rfl, .refl _⟩⟩

theorem sameOp_symm {u v : Pipe.OpUnion} (h : SameOp u v) : SameOp v u :=
  ⟨h.1.symm, fun e => (h.2.1 (h.1.trans e)).symm, fun e => (h.2.2.1 (h.1.trans e)).symm,
    fun e => let k := h.2.2.2 (h.1.trans e); ⟨k.1.symm, k.2.1.symm, k.2.2.symm⟩⟩

theorem sameOp_trans (u v w : Pipe.OpUnion) (h : SameOp u v) (h' : SameOp v w) : SameOp u w :=
  ⟨h.1.trans h'.1, fun e => (h.2.1 e).trans (h'.2.1 (h.1.symm.trans e)), fun e => (h.2.2.1 e).trans (h'.2.2.1 (h.1.symm.trans e)),
    fun e => let k := h.2.2.2 e; let k' := h'.2.2.2 (h.1.symm.trans e); ⟨k.1.trans k'.1, k.2.1.trans k'.2.1, k.2.2.trans k'.2.2⟩⟩

theorem sameTarget_refl (t : RollupTarget) : SameTarget t t := ⟨AllPairs.refl sameOp_refl _, .refl _⟩
theorem sameTarget_symm {t t' : RollupTarget} (h : SameTarget t t') : SameTarget t' t :=
  ⟨AllPairs.mono (fun _ _ _ _ => sameOp_symm) (AllPairs.symm h.1), h.2.symm⟩
theorem sameTarget_trans (t u v : RollupTarget) (h : SameTarget t u) (h' : SameTarget u v) : SameTarget t v :=
  ⟨AllPairs.trans sameOp_trans h.1 h'.1, h.2.trans h'.2⟩

theorem opt_equiv {α : Type} {R : α → α → Prop} (hr : ∀ x, R x x) (hs : ∀ x y, R x y → R y x) (ht : ∀ x y z, R x y → R y z → R x z) :
    (∀ a, Opt R a a) ∧ (∀ a b, Opt R a b → Opt R b a) ∧ ∀ a b c, Opt R a b → Opt R b c → Opt R a c := by
  refine ⟨fun a => ?_, fun a b h => ?_, fun a b c h h' => ?_⟩
  · cases a
    · trivial
    · exact hr _
  · cases a <;> cases b
    · trivial
    · exact h.elim
    · exact h.elim
    · exact hs _ _ h
  · cases a <;> cases b <;> cases c <;> first | trivial | exact h.elim | exact h'.elim | exact ht _ _ _ h h'

/-- C84: the comparisons of views are equivalence relations, absent views included. -/
theorem C84_equivalence :
    ((∀ a, MappingView.equal a a = true) ∧ (∀ a b, MappingView.equal a b = true → MappingView.equal b a = true) ∧
      ∀ a b c, MappingView.equal a b = true → MappingView.equal b c = true → MappingView.equal a c = true) ∧
    ((∀ a, RollupView.equal a a = true) ∧ (∀ a b, RollupView.equal a b = true → RollupView.equal b a = true) ∧
      ∀ a b c, RollupView.equal a b = true → RollupView.equal b c = true → RollupView.equal a c = true) ∧
    ((∀ a, targetEqual a a = true) ∧ (∀ a b, targetEqual a b = true → targetEqual b a = true) ∧
      ∀ a b c, targetEqual a b = true → targetEqual b c = true → targetEqual a c = true) := by
  simp only [C84_mapping_iff, C84_rollup_iff, C84_target_iff]
  refine ⟨opt_equiv ?_ ?_ ?_, opt_equiv ?_ ?_ ?_, opt_equiv sameTarget_refl (fun _ _ => sameTarget_symm) sameTarget_trans⟩
  · exact fun x => ⟨rfl, rfl, rfl, rfl, .refl _, rfl⟩
  · exact fun x y h => ⟨h.1.symm, h.2.1.symm, h.2.2.1.symm, h.2.2.2.1.symm, h.2.2.2.2.1.symm, h.2.2.2.2.2.symm⟩
  · exact fun x y z h k => ⟨h.1.trans k.1, h.2.1.trans k.2.1, h.2.2.1.trans k.2.2.1, h.2.2.2.1.trans k.2.2.2.1,
      h.2.2.2.2.1.trans k.2.2.2.2.1, h.2.2.2.2.2.trans k.2.2.2.2.2⟩
  · exact fun x => ⟨rfl, rfl, rfl, AllPairs.refl sameTarget_refl _⟩
  · exact fun x y h => ⟨h.1.symm, h.2.1.symm, h.2.2.1.symm, AllPairs.mono (fun _ _ _ _ => sameTarget_symm) (AllPairs.symm h.2.2.2)⟩
  · exact fun x y z h k => ⟨h.1.trans k.1, h.2.1.trans k.2.1, h.2.2.1.trans k.2.2.1, AllPairs.trans sameTarget_trans h.2.2.2 k.2.2.2⟩

/-! ### Loaded rules that say the same -/

structure LikeM (s s' : MappingSnapshot) : Prop where
  filter : s.filter = s'.filter
  cut : s.cutoverNanos = s'.cutoverNanos
  tomb : s.tombstoned = s'.tombstoned
  agg : s.aggID = s'.aggID
  policies : s.storagePolicies.Perm s'.storagePolicies
  drop : s.drop = s'.drop

def LikeT (t t' : RollupTarget) : Prop := t.pipeline = t'.pipeline ∧ t.storagePolicies.Perm t'.storagePolicies

structure LikeR (s s' : RollupSnapshot) : Prop where
  filter : s.filter = s'.filter
  cut : s.cutoverNanos = s'.cutoverNanos
  tomb : s.tombstoned = s'.tombstoned
  targets : AllPairs LikeT s.targets s'.targets

theorem sameOp_clone (u : Pipe.OpUnion) : SameOp u u.clone := by
  unfold SameOp Pipe.OpUnion.clone Pipe.AggregationOpType Pipe.TransformationOpType Pipe.RollupOpType
  by_cases h1 : u.type = 1
  · simp [h1]
  · by_cases h2 : u.type = 2
    · simp [h2]
    · by_cases h3 : u.type = 3
      · simp [h3, Pipe.RollupOp.clone]
      · simp [h1, h2, h3]

theorem readBack_eq {u v : Pipe.OpUnion} (h : SameOp u v) (hu : OpReadable u) : Pipe.readBack u = Pipe.readBack v := by
  obtain ⟨h0, h1, h2, h3⟩ := h
  unfold Pipe.readBack
  rcases hu with ⟨h, _⟩ | ⟨h, _⟩ | ⟨h, _⟩
  · simp [h, ← h0, h1 h]
  · simp [h, ← h0, h2 h]
  · obtain ⟨a, b, c⟩ := h3 h
    have : sortBy bytesLt u.rollup.tags = sortBy bytesLt v.rollup.tags := (sortBy_eq_iff_perm bytesLt_strictTotal _ _).mpr c
    simp [h, ← h0, a, b, this]

theorem like_mapping (key : Bytes) {u u' : Bytes} {s s' : MappingSnapshot}
    (h : MappingView.equal (some (mappingSnapView u s)) (some (mappingSnapView u' s')) = true)
    (hc : s.cutoverNanos = s'.cutoverNanos) (ht : s.tombstoned = s'.tombstoned) : LikeM (asReadM key s) (asReadM key s') := by
  obtain ⟨_, _, h3, h4, h5, h6⟩ := (C84_mapping_iff _ _).mp h
  simp only [mappingSnapView] at h3 h4 h5 h6
  have : s.storagePolicies = [] ↔ s'.storagePolicies = [] :=
    ⟨fun e => by rw [e] at h5; exact h5.symm.eq_nil, fun e => by rw [e] at h5; exact h5.eq_nil⟩
  refine ⟨?_, hc, ht, ?_, h5, h6⟩
  · simp only [asReadM, h3]
  · simp only [asReadM, h4, this]

theorem like_rollup (key : Bytes) {x : XTime} {u u' : Bytes} {s s' : RollupSnapshot} (hs : RollupReadable x s)
    (h : RollupView.equal (some (rollupSnapView u s)) (some (rollupSnapView u' s')) = true)
    (hc : s.cutoverNanos = s'.cutoverNanos) (ht : s.tombstoned = s'.tombstoned) : LikeR (asReadR key s) (asReadR key s') := by
  obtain ⟨_, _, h3, h4⟩ := (C84_rollup_iff _ _).mp h
  simp only [rollupSnapView] at h3 h4
  refine ⟨?_, hc, ht, ?_⟩
  · simp only [asReadR, h3]
  · simp only [asReadR]
    refine AllPairs.map (R := fun t t' => SameTarget (cloneTarget t) (cloneTarget t')) ?_ (AllPairs.of_map h4)
    intro t htm t' _ hl
    refine ⟨?_, hl.2⟩
    simp only [asReadT]
    have hp : AllPairs (fun u v : Pipe.OpUnion => SameOp u.clone v.clone) t.pipeline t'.pipeline := AllPairs.of_map hl.1
    apply AllPairs.eq_of
    refine AllPairs.map (R := fun u v : Pipe.OpUnion => SameOp u.clone v.clone) ?_ hp
    intro u hu v _ huv
    exact readBack_eq (sameOp_trans _ _ _ (sameOp_clone u) (sameOp_trans _ _ _ huv (sameOp_symm (sameOp_clone v))))
      ((hs.targets t htm).ops u hu)

/-! ### Matching loaded rules that say the same -/

section
variable {S : Type} [Snap S] {R : S → S → Prop}

theorem activeIndex_like (hc : ∀ s s', R s s' → Snap.cutover s = Snap.cutover s') {a b : List S} (h : AllPairs R a b) (t : Int) :
    ∀ k, activeIndexLoop a t k = activeIndexLoop b t k
  | 0 => rfl
  | k + 1 => by
    have := AllPairs.get h k
    unfold activeIndexLoop
    cases ha : a[k]? <;> cases hb : b[k]? <;> rw [ha, hb] at this
    · exact this.elim
    · exact this.elim
    · simp only [hc _ _ this, activeIndex_like hc h t k]

theorem activeRule_like (hc : ∀ s s', R s s' → Snap.cutover s = Snap.cutover s') (t : Int) {r r' : Rule S}
    (h : AllPairs R r.snapshots r'.snapshots) : AllPairs R (r.activeRule t).snapshots (r'.activeRule t).snapshots := by
  unfold Rule.activeRule Rule.activeIndex
  rw [activeIndex_like hc h, AllPairs.length_eq h]
  split
  · exact h
  · exact AllPairs.drop h _

theorem inForce_like (hc : ∀ s s', R s s' → Snap.cutover s = Snap.cutover s') (t : Int) {a b : List S} (h : AllPairs R a b) :
    Opt R (inForce a t) (inForce b t) := by
  unfold inForce
  rcases AllPairs.getLast (AllPairs.filter (p := fun s => decide (Snap.cutover s ≤ t)) (q := fun s => decide (Snap.cutover s ≤ t))
    (fun x y hxy => by rw [hc x y hxy]) h) with ⟨h1, h2⟩ | ⟨x, y, h1, h2, h3⟩
  · rw [h1, h2]; trivial
  · rw [h1, h2]; exact h3

theorem current_like (hc : ∀ s s', R s s' → Snap.cutover s = Snap.cutover s') (t : Int) {a b : List (Rule S)}
    (h : AllPairs (fun r r' => AllPairs R r.snapshots r'.snapshots) a b) : AllPairs R (current a t) (current b t) :=
  AllPairs.filterMap (fun _ _ hr => inForce_like hc t hr) h

theorem live_like (ht : ∀ s s', R s s' → Snap.tombstoned s = Snap.tombstoned s') {a b : List S} (h : AllPairs R a b) :
    AllPairs R (live a) (live b) := AllPairs.filter (fun x y hxy => by rw [ht x y hxy]) h

omit [Snap S] in
theorem latest_like {f : S → Int} (hc : ∀ s s', R s s' → f s = f s') {a b : List S} (h : AllPairs R a b) :
    latest (a.map f) = latest (b.map f) := by
  have : a.map f = b.map f := AllPairs.eq_of (AllPairs.map (fun x _ y _ hxy => hc x y hxy) h)
  rw [this]
end

/-- Two sets of loaded rules that say the same. -/
structure LikeA (a b : ActiveRuleSet) : Prop where
  mapping : AllPairs (fun r r' : MappingRule => AllPairs LikeM r.snapshots r'.snapshots) a.mappingRules b.mappingRules
  rollup : AllPairs (fun r r' : RollupRule => AllPairs LikeR r.snapshots r'.snapshots) a.rollupRules b.rollupRules

theorem targetResult_policies (env : Env) (tags : Bytes) (pl : Pipe.Pipeline) (sp sp' : List StoragePolicy) :
    targetResult env tags ⟨pl, sp⟩ = (targetResult env tags ⟨pl, sp'⟩).map fun r => (r.1, { r.2 with storagePolicies := sp }) := by
  unfold targetResult
  cases pl with
  | nil => rfl
  | cons op rest =>
    simp only
    split
    · rfl
    · split <;> rfl

theorem applied_equal_refl (p : Applied.Pipeline) : Applied.pipelineEqual p p = true :=
  (Applied.C11_equal_iff _ _).mpr ⟨rfl, fun _ _ _ => ⟨rfl, fun _ => rfl, fun _ => rfl⟩⟩

section
variable {env : Env} {a b : ActiveRuleSet} {id : Bytes} {t : Int}

def LikeRes (r r' : Option Bytes × PipelineMetadata) : Prop := r.1 = r'.1 ∧ r.2.equal r'.2 = true

theorem target_like (tags : Bytes) {x y : RollupTarget} (h : LikeT x y) :
    Opt LikeRes (targetResult env tags x) (targetResult env tags y) := by
  obtain ⟨pl, sp⟩ := x
  obtain ⟨pl', sp'⟩ := y
  obtain ⟨h1, h2⟩ := h
  simp only at h1 h2
  subst h1
  rw [targetResult_policies env tags pl sp [], targetResult_policies env tags pl sp' []]
  cases targetResult env tags ⟨pl, []⟩ with
  | none => trivial
  | some r => exact ⟨rfl, (equal_iff _ _).mpr ⟨rfl, h2, applied_equal_refl _, rfl⟩⟩

theorem LikeA.matchingM (h : LikeA a b) : AllPairs LikeM (matchingM env a.mappingRules id t) (matchingM env b.mappingRules id t) :=
  AllPairs.filter (fun x y hxy => by rw [hxy.filter]) (current_like (fun _ _ h => h.cut) t h.mapping)

theorem LikeA.matchingR (h : LikeA a b) : AllPairs LikeR (matchingR env a.rollupRules id t) (matchingR env b.rollupRules id t) :=
  AllPairs.filter (fun x y hxy => by rw [hxy.filter]) (current_like (fun _ _ h => h.cut) t h.rollup)

theorem LikeA.asked (h : LikeA a b) :
    AllPairs (fun p q : PipelineMetadata => p.equal q = true) (asked env a id t) (asked env b id t) := by
  refine AllPairs.map ?_ (live_like (fun _ _ h => h.tomb) h.matchingM)
  intro x _ y _ hxy
  exact (equal_iff _ _).mpr ⟨hxy.agg, hxy.policies, applied_equal_refl _, hxy.drop⟩

theorem LikeA.targetsAt (h : LikeA a b) : AllPairs LikeT (targetsAt env a id t) (targetsAt env b id t) :=
  AllPairs.flatMap (fun _ _ h => h.targets) (live_like (fun _ _ h => h.tomb) h.matchingR)

theorem LikeA.rolled (h : LikeA a b) : AllPairs LikeRes (rolled env a id t) (rolled env b id t) := by
  unfold Active.rolled
  split
  · trivial
  · exact AllPairs.filterMap (fun _ _ h => target_like _ h) h.targetsAt

theorem LikeA.mappingCut (h : LikeA a b) : mappingCut env a id t = mappingCut env b id t :=
  latest_like (fun _ _ h => h.cut) h.matchingM

theorem LikeA.rollupCut (h : LikeA a b) : rollupCut env a id t = rollupCut env b id t := by
  unfold Active.rollupCut
  rw [latest_like (f := (·.cutoverNanos)) (fun _ _ h => h.cut) (h.matchingR (env := env) (id := id) (t := t))]
  simp only [AllPairs.nil_iff (h.targetsAt (env := env) (id := id) (t := t))]

theorem LikeA.dropsValid (h : LikeA a b) (hv : DropsValid a) : DropsValid b := by
  intro r' hr' s' hs'
  obtain ⟨r, hr, hl⟩ := AllPairs.right h.mapping r' hr'
  obtain ⟨s, hs, hl⟩ := AllPairs.right hl s' hs'
  rw [← hl.drop]
  exact hv r hr s hs


theorem dropEffective_drops (ps : List PipelineMetadata) :
    dropEffective ps = ((ps.map (·.drop)).any (· == 1) || (!(ps.map (·.drop)).isEmpty && (ps.map (·.drop)).all (· != 0))) := by
  unfold dropEffective
  simp only [List.any_map, List.all_map, List.isEmpty_map]
  rfl

theorem equal_drop {p q : PipelineMetadata} (h : p.equal q = true) : p.drop = q.drop := ((equal_iff p q).mp h).2.2.2

theorem dropEffective_like {x y : List PipelineMetadata} (h : AllPairs (fun p q : PipelineMetadata => p.equal q = true) x y) :
    dropEffective x = dropEffective y := by
  have : x.map (·.drop) = y.map (·.drop) := AllPairs.eq_of (AllPairs.map (fun _ _ _ _ h => equal_drop h) h)
  rw [dropEffective_drops, dropEffective_drops, this]

/-- Without duplicates, lists of pipelines that are alike one by one are the same sets of pipelines. -/
theorem dedup_like {a b : List PipelineMetadata} (h : AllPairs (fun p q : PipelineMetadata => p.equal q = true) a b) :
    SamePipelines (a.foldl dedupStep []) (b.foldl dedupStep []) := by
  obtain ⟨a1, a2, _, a4⟩ := dedup_spec a [] List.Pairwise.nil
  obtain ⟨b1, b2, _, b4⟩ := dedup_spec b [] List.Pairwise.nil
  obtain ⟨b', hb, hall⟩ := match_up (E := fun p q : PipelineMetadata => p.equal q = true) equal_symm equal_trans
    (a.foldl dedupStep []) (b.foldl dedupStep [])
    (a1.imp (fun h => by simp [h])) (b1.imp (fun h => by simp [h]))
    (fun x hx => by
      rcases a2 x hx with h' | h'
      · cases h'
      · obtain ⟨y, hy, hxy⟩ := AllPairs.left h x h'
        obtain ⟨q, hq, he⟩ := b4 y hy
        exact ⟨q, hq, equal_trans hxy (equal_symm he)⟩)
    (fun y hy => by
      rcases b2 y hy with h' | h'
      · cases h'
      · obtain ⟨x, hx, hxy⟩ := AllPairs.right h y h'
        obtain ⟨q, hq, he⟩ := a4 x hx
        exact ⟨q, hq, equal_trans he hxy⟩)
  exact ⟨b', hb, AllPairs.mono (fun _ _ _ _ h => alike_of_equal h) hall⟩

theorem LikeA.existing (h : LikeA a b) (hv : DropsValid a) :
    SameStage (forwardMatchAt env a id t).forExistingID (forwardMatchAt env b id t).forExistingID := by
  refine ⟨?_, rfl, ?_⟩
  · rw [existing_cutover, existing_cutover, h.mappingCut, h.rollupCut]
  · have hask := h.asked (env := env) (id := id) (t := t)
    rw [pipelines_eq env a hv, pipelines_eq env b (h.dropsValid hv), dropEffective_like hask]
    split
    · exact ⟨_, List.Perm.refl _, alike_refl _, trivial⟩
    · apply dedup_like
      have h1 := AllPairs.filter (p := fun p => p.drop == 0) (q := fun p => p.drop == 0) (fun x y hxy => by rw [equal_drop hxy]) hask
      unfold contributed
      apply AllPairs.append
      · by_cases h0 : (Active.asked env a id t).filter (fun p => p.drop == 0) = []
        · rw [if_pos h0, if_pos ((AllPairs.nil_iff h1).mp h0)]
          exact ⟨(equal_iff _ _).mpr ⟨rfl, .refl _, applied_equal_refl _, rfl⟩, trivial⟩
        · rw [if_neg h0, if_neg (fun e => h0 ((AllPairs.nil_iff h1).mpr e))]
          exact h1
      · refine AllPairs.filterMap ?_ h.rolled
        intro x y hxy
        rw [hxy.1]
        split
        · exact hxy.2
        · trivial

theorem sortByID_like {x y : List IDWithMetadatas} (h : AllPairs SameRolled x y) : AllPairs SameRolled (sortByID x) (sortByID y) := by
  unfold sortByID
  have hins : ∀ (c c' : IDWithMetadatas), SameRolled c c' → ∀ {x y : List IDWithMetadatas}, AllPairs SameRolled x y →
      AllPairs SameRolled (insertBy (fun a b => bytesLt a.id b.id) c x) (insertBy (fun a b => bytesLt a.id b.id) c' y) := by
    intro c c' hc x
    induction x with
    | nil => intro y h; cases y with
      | nil => exact ⟨hc, trivial⟩
      | cons _ _ => exact h.elim
    | cons p x ih => intro y h; cases y with
      | nil => exact h.elim
      | cons q y =>
        simp only [insertBy, h.1.1, hc.1]
        split
        · exact ⟨h.1, ih h.2⟩
        · exact ⟨hc, h⟩
  induction x generalizing y with
  | nil => cases y with
    | nil => trivial
    | cons _ _ => exact h.elim
  | cons p x ih => cases y with
    | nil => exact h.elim
    | cons q y => exact hins p q h.1 (ih h.2)

theorem LikeA.rollups (h : LikeA a b) :
    AllPairs SameRolled (forwardMatchAt env a id t).forNewRollupIDs (forwardMatchAt env b id t).forNewRollupIDs := by
  rw [forward_rollups, forward_rollups]
  apply sortByID_like
  refine AllPairs.map (R := fun x y : Bytes × PipelineMetadata => x.1 = y.1 ∧ x.2.equal y.2 = true) ?_ ?_
  · intro x _ y _ hxy
    refine ⟨hxy.1, ⟨h.rollupCut, rfl, ?_⟩, trivial⟩
    exact ⟨_, List.Perm.refl _, alike_of_equal hxy.2, trivial⟩
  · refine AllPairs.filterMap ?_ h.rolled
    intro x y hxy
    rw [hxy.1]
    cases y.1 with
    | none => trivial
    | some i => exact ⟨rfl, hxy.2⟩

theorem mergeRollupLoop_like (T : Int) : ∀ (k : Nat) {cs cs' ns ns' : List IDWithMetadatas}, AllPairs SameRolled cs cs' →
    AllPairs SameRolled ns ns' →
    AllPairs SameRolled (mergeRollupLoop T k cs ns).1 (mergeRollupLoop T k cs' ns').1 ∧
    AllPairs SameRolled (mergeRollupLoop T k cs ns).2 (mergeRollupLoop T k cs' ns').2 := by
  have htomb : SameStage (tombstoneAt T) (tombstoneAt T) := ⟨rfl, rfl, [], List.Perm.refl _, trivial⟩
  intro k
  induction k with
  | zero => intro cs cs' ns ns' h h'; exact ⟨h, h'⟩
  | succ k ih =>
    intro cs cs' ns ns' h h'
    cases cs with
    | nil => cases cs' with
      | nil => exact ⟨trivial, h'⟩
      | cons _ _ => exact h.elim
    | cons c cs => cases cs' with
      | nil => exact h.elim
      | cons c' cs' =>
        cases ns with
        | nil => cases ns' with
          | cons _ _ => exact h'.elim
          | nil =>
            simp only [mergeRollupLoop]
            have := ih h.2 h'
            exact ⟨⟨⟨h.1.1, AllPairs.append h.1.2 ⟨htomb, trivial⟩⟩, this.1⟩, this.2⟩
        | cons n ns => cases ns' with
          | nil => exact h'.elim
          | cons n' ns' =>
            simp only [mergeRollupLoop, h.1.1, h'.1.1]
            split
            · have := ih h.2 h'.2
              refine ⟨⟨⟨rfl, AllPairs.append h.1.2 ?_⟩, this.1⟩, this.2⟩
              have hm := h'.1.2
              revert hm
              cases n.metadatas <;> cases n'.metadatas <;> intro hm
              · trivial
              · exact hm.elim
              · exact hm.elim
              · exact ⟨hm.1, trivial⟩
            · split
              · have := ih h.2 h'
                exact ⟨⟨⟨rfl, AllPairs.append h.1.2 ⟨htomb, trivial⟩⟩, this.1⟩, this.2⟩
              · have := ih h h'.2
                exact ⟨this.1, h'.1, this.2⟩

theorem mergeRollup_like (T : Int) {x y n n' : List IDWithMetadatas} (h : AllPairs SameRolled x y) (h' : AllPairs SameRolled n n') :
    AllPairs SameRolled (mergeRollup x n T) (mergeRollup y n' T) := by
  unfold mergeRollup
  apply sortByID_like
  rw [AllPairs.length_eq h, AllPairs.length_eq h']
  exact AllPairs.append (mergeRollupLoop_like T _ h h').1 (mergeRollupLoop_like T _ h h').2

theorem rollups_like {F G : Int → List IDWithMetadatas} (hF : ∀ c, AllPairs SameRolled (F c) (G c)) : ∀ (cs : List Int) {x y},
    AllPairs SameRolled x y →
    AllPairs SameRolled (cs.foldl (fun ids c => mergeRollup ids (F c) c) x) (cs.foldl (fun ids c => mergeRollup ids (G c) c) y)
  | [], _, _, h => h
  | c :: cs, _, _, h => rollups_like hF cs (mergeRollup_like c h (hF c))
end

theorem times_like {ms ms' : List MappingRule} {rs rs' : List RollupRule}
    (hm : AllPairs (fun r r' : MappingRule => AllPairs LikeM r.snapshots r'.snapshots) ms ms')
    (hr : AllPairs (fun r r' : RollupRule => AllPairs LikeR r.snapshots r'.snapshots) rs rs') (c : Int) :
    IsRuleTime ms rs c ↔ IsRuleTime ms' rs' c := by
  unfold IsRuleTime
  constructor
  · rintro (⟨r, h, s, hs, rfl⟩ | ⟨r, h, s, hs, rfl⟩)
    · obtain ⟨r', h', hl⟩ := AllPairs.left hm r h
      obtain ⟨s', hs', hl⟩ := AllPairs.left hl s hs
      exact Or.inl ⟨r', h', s', hs', hl.cut.symm⟩
    · obtain ⟨r', h', hl⟩ := AllPairs.left hr r h
      obtain ⟨s', hs', hl⟩ := AllPairs.left hl s hs
      exact Or.inr ⟨r', h', s', hs', hl.cut.symm⟩
  · rintro (⟨r, h, s, hs, rfl⟩ | ⟨r, h, s, hs, rfl⟩)
    · obtain ⟨r', h', hl⟩ := AllPairs.right hm r h
      obtain ⟨s', hs', hl⟩ := AllPairs.right hl s hs
      exact Or.inl ⟨r', h', s', hs', hl.cut⟩
    · obtain ⟨r', h', hl⟩ := AllPairs.right hr r h
      obtain ⟨s', hs', hl⟩ := AllPairs.right hl s hs
      exact Or.inr ⟨r', h', s', hs', hl.cut⟩

theorem forward_like (env : Env) {A B : ActiveRuleSet} (hA : Built A) (hB : Built B) (h : LikeA A B) (hv : DropsValid A) (id : Bytes)
    (frm to : Int) :
    (forwardMatch env A id frm to).expireAtNanos = (forwardMatch env B id frm to).expireAtNanos ∧
    AllPairs SameStage (forwardMatch env A id frm to).forExistingID (forwardMatch env B id frm to).forExistingID ∧
    AllPairs SameRolled (forwardMatch env A id frm to).forNewRollupIDs (forwardMatch env B id frm to).forNewRollupIDs := by
  have hcut : A.cutoverTimesAsc = B.cutoverTimesAsc :=
    sorted_ext hA.sorted hB.sorted fun c => by rw [hA.mem, hB.mem, times_like h.mapping h.rollup]
  rw [forwardMatch_eq env _ hA, forwardMatch_eq env _ hB]
  unfold stages
  simp only [hcut]
  exact ⟨trivial, existing_same _ (fun c _ => h.existing hv) _ _ ⟨h.existing hv, trivial⟩, rollups_like (fun c => h.rollups) _ h.rollups⟩

theorem keep_like (o : Agg.Options) (mt : Option Kind) (at' : AType) {p q : PipelineMetadata} (h : p.equal q = true) :
    containsAggType o mt at' p = containsAggType o mt at' q := by
  unfold containsAggType
  rw [((equal_iff p q).mp h).1]

theorem alikes_of_equal {x y : List PipelineMetadata} (h : AllPairs (fun p q : PipelineMetadata => p.equal q = true) x y) :
    SamePipelines x y := ⟨y, List.Perm.refl _, AllPairs.mono (fun _ _ _ _ h => alike_of_equal h) h⟩

theorem LikeA.reversePlain {A B : ActiveRuleSet} (h : LikeA A B) (hv : DropsValid A) (env : Env) (id : Bytes) (t : Int) (mt : Option Kind)
    (at' : AType) (o : Agg.Options) :
    Opt SameStage (reverseNonRollup env A id t mt at' o) (reverseNonRollup env B id t mt at' o) := by
  have hask := h.asked (env := env) (id := id) (t := t)
  have hpl : AllPairs (fun p q : PipelineMetadata => p.equal q = true) (mappingsFor env A id t).pipelines (mappingsFor env B id t).pipelines := by
    rw [mappingsFor_eq, mappingsFor_eq]
    simp only [C14_pipelines _ (asked_valid hv), C14_pipelines _ (asked_valid (h.dropsValid hv)), resolve, dropEffective_like hask]
    have hone : ∀ p : PipelineMetadata, p.equal p = true := fun p => (equal_iff _ _).mpr ⟨rfl, .refl _, applied_equal_refl _, rfl⟩
    split
    · simp only [List.cons_ne_nil, if_false]; exact ⟨hone _, trivial⟩
    · have h1 := AllPairs.filter (p := fun p => p.drop == 0) (q := fun p => p.drop == 0) (fun x y hxy => by rw [equal_drop hxy]) hask
      by_cases h0 : (Active.asked env A id t).filter (fun p => p.drop == 0) = []
      · rw [if_pos h0, if_pos ((AllPairs.nil_iff h1).mp h0)]
        exact ⟨hone _, trivial⟩
      · rw [if_neg h0, if_neg (fun e => h0 ((AllPairs.nil_iff h1).mpr e))]
        exact h1
  have hcut : (mappingsFor env A id t).cutoverNanos = (mappingsFor env B id t).cutoverNanos := by
    rw [mappingsFor_eq, mappingsFor_eq]; exact h.mappingCut
  have hf := AllPairs.filter (p := containsAggType o mt at') (q := containsAggType o mt at') (fun x y hxy => keep_like o mt at' hxy) hpl
  unfold reverseNonRollup
  simp only [filteredPipelines_eq, AllPairs.length_eq hf, hcut]
  split
  · trivial
  · exact ⟨rfl, rfl, alikes_of_equal hf⟩

def LikeOp (x y : Pipe.OpUnion × List StoragePolicy) : Prop := x.1 = y.1 ∧ x.2.Perm y.2

theorem reverseOps_like (env : Env) (name tags : Bytes) (mt : Option Kind) (at' : AType) (multi : Bool) (o : Agg.Options) (cut : Int) :
    ∀ {x y : List (Pipe.OpUnion × List StoragePolicy)}, AllPairs LikeOp x y →
    Opt (Opt SameStage) (reverseOps env name tags mt at' multi o cut x) (reverseOps env name tags mt at' multi o cut y)
  | [], [], _ => trivial
  | [], _ :: _, h => h.elim
  | _ :: _, [], h => h.elim
  | (op, sp) :: x, (op', sp') :: y, h => by
    obtain ⟨⟨h1, h2⟩, h3⟩ := h
    simp only at h1 h2
    subst h1
    have ih := reverseOps_like env name tags mt at' multi o cut h3
    simp only [reverseOps]
    split
    · exact ih
    · split
      · exact ih
      · split
        · exact ih
        · have he : AllPairs (fun p q : PipelineMetadata => p.equal q = true)
              [({ aggID := op.rollup.aggID, storagePolicies := sp } : PipelineMetadata)] [{ aggID := op.rollup.aggID, storagePolicies := sp' }] :=
            ⟨(equal_iff _ _).mpr ⟨rfl, h2, applied_equal_refl _, rfl⟩, trivial⟩
          have he' := AllPairs.filter (p := containsAggType o mt at') (q := containsAggType o mt at') (fun x y hxy => keep_like o mt at' hxy) he
          cases multi
          · exact ⟨rfl, rfl, alikes_of_equal he⟩
          · simp only [if_true, filteredPipelines_eq, AllPairs.length_eq he']
            split
            · trivial
            · exact ⟨rfl, rfl, alikes_of_equal he'⟩

theorem reverseRollup_like (env : Env) (name tags : Bytes) (t : Int) (mt : Option Kind) (at' : AType) (multi : Bool) (o : Agg.Options) :
    ∀ {x y : List RollupRule}, AllPairs (fun r r' : RollupRule => AllPairs LikeR r.snapshots r'.snapshots) x y →
    Opt SameStage (reverseRollup env name tags t mt at' multi o x) (reverseRollup env name tags t mt at' multi o y)
  | [], [], _ => trivial
  | [], _ :: _, h => h.elim
  | _ :: _, [], h => h.elim
  | r :: x, r' :: y, h => by
    have ih := reverseRollup_like env name tags t mt at' multi o h.2
    have hs := inForce_like (R := LikeR) (fun _ _ h => h.cut) t h.1
    simp only [reverseRollup, activeSnapshot_eq]
    cases h1 : inForce r.snapshots t <;> cases h2 : inForce r'.snapshots t <;> rw [h1, h2] at hs
    · exact ih
    · exact hs.elim
    · exact hs.elim
    · next s s' =>
      simp only [hs.tomb]
      split
      · exact ih
      · have hops : AllPairs LikeOp (rollupOpsOf s.targets) (rollupOpsOf s'.targets) := by
          unfold rollupOpsOf
          refine AllPairs.flatMap (R := LikeT) ?_ hs.targets
          intro u v huv
          rw [huv.1]
          exact AllPairs.map (R := fun a b => a = b) (fun a _ b _ e => ⟨e, huv.2⟩) (AllPairs.refl (fun _ => rfl) _)
        have := reverseOps_like env name tags mt at' multi o s'.cutoverNanos hops
        rw [hs.cut]
        revert this
        cases reverseOps env name tags mt at' multi o s'.cutoverNanos (rollupOpsOf s.targets) <;>
          cases reverseOps env name tags mt at' multi o s'.cutoverNanos (rollupOpsOf s'.targets) <;> intro this
        · exact ih
        · exact this.elim
        · exact this.elim
        · exact this

theorem reverseMerge_like {x y : List StagedMetadata} {p q : Option StagedMetadata} (T : Int) (h : AllPairs SameStage x y)
    (hp : Opt SameStage p q) : AllPairs SameStage (reverseMerge x p T) (reverseMerge y q T) := by
  cases p <;> cases q
  · exact h
  · exact hp.elim
  · exact hp.elim
  · exact mergeExisting_same T h hp

theorem reverse_fold_like {F G : Int → Option StagedMetadata} (hF : ∀ c, Opt SameStage (F c) (G c)) : ∀ (cs : List Int) {x y},
    AllPairs SameStage x y →
    AllPairs SameStage (cs.foldl (fun ex c => reverseMerge ex (F c) c) x) (cs.foldl (fun ex c => reverseMerge ex (G c) c) y)
  | [], _, _, h => h
  | c :: cs, _, _, h => reverse_fold_like hF cs (reverseMerge_like c h (hF c))

theorem reverse_like (env : Env) {A B : ActiveRuleSet} (hA : Built A) (hB : Built B) (h : LikeA A B) (hv : DropsValid A) (id : Bytes)
    (frm to : Int) (mt : Option Kind) (at' : AType) (multi : Bool) (o : Agg.Options) :
    (reverseMatch env A id frm to mt at' multi o).expireAtNanos = (reverseMatch env B id frm to mt at' multi o).expireAtNanos ∧
    AllPairs SameStage (reverseMatch env A id frm to mt at' multi o).forExistingID
      (reverseMatch env B id frm to mt at' multi o).forExistingID := by
  have hcut : A.cutoverTimesAsc = B.cutoverTimesAsc :=
    sorted_ext hA.sorted hB.sorted fun c => by rw [hA.mem, hB.mem, times_like h.mapping h.rollup]
  have hat : ∀ c, Opt SameStage (reverseAt env A id mt at' multi o c) (reverseAt env B id mt at' multi o c) := by
    intro c
    unfold reverseAt reverseMappingsFor
    split
    · exact h.reversePlain hv env id c mt at' o
    · exact reverseRollup_like env _ _ c mt at' multi o h.rollup
  rw [reverseMatch_eq env _ hA, reverseMatch_eq env _ hB]
  unfold stages
  simp only [hcut]
  exact ⟨trivial, reverse_fold_like hat _ (reverseMerge_like frm trivial (hat frm))⟩

/-- Rule sets shown alike are, stored and loaded, rule sets that say the same. -/
theorem loaded_like {x : XTime} (hx : UnitsOK x) (key : Bytes) (v : Int) (a b a' b' : RuleSet) (hd : KnownDrops a)
    (hm : AllPairs ShownAlikeM a.mappingRules b.mappingRules) (hr : AllPairs ShownAlikeR a.rollupRules b.rollupRules)
    (ha : reload x key v a = some a') (hb : reload x key v b = some b') (at_ : Int) :
    ∃ w, a'.version = w ∧ b'.version = w ∧
    LikeA (activeSet w a'.mappingRules a'.rollupRules at_) (activeSet w b'.mappingRules b'.rollupRules at_) ∧
    DropsValid (activeSet w a'.mappingRules a'.rollupRules at_) := by
  have hdb : KnownDrops b := by
    intro r' hr' s' hs'
    obtain ⟨r, hr, hl⟩ := AllPairs.right hm r' hr'
    obtain ⟨s, hs, hl⟩ := AllPairs.right hl s' hs'
    have : s.drop = s'.drop := ((C84_mapping_iff _ _).mp hl.1).2.2.2.2.2
    rw [← this]
    exact hd r hr s hs
  obtain ⟨ra, rfl⟩ := (C51_reload_partial hx key v a a' hd).mp ha
  obtain ⟨rb, rfl⟩ := (C51_reload_partial hx key v b b' hdb).mp hb
  have hM : AllPairs (fun r r' : MappingRule => AllPairs LikeM r.snapshots r'.snapshots) ((asRead key v a).mappingRules.map fun r => r.activeRule at_)
      ((asRead key v b).mappingRules.map fun r => r.activeRule at_) := by
    refine AllPairs.map (R := fun r r' : MappingRule => AllPairs LikeM r.snapshots r'.snapshots)
      (fun _ _ _ _ h => activeRule_like (fun _ _ h => h.cut) at_ h) ?_
    exact AllPairs.map (fun r _ r' _ h => AllPairs.map (fun s _ s' _ h => like_mapping key h.1 h.2.1 h.2.2) h) hm
  have hR : AllPairs (fun r r' : RollupRule => AllPairs LikeR r.snapshots r'.snapshots) ((asRead key v a).rollupRules.map fun r => r.activeRule at_)
      ((asRead key v b).rollupRules.map fun r => r.activeRule at_) := by
    refine AllPairs.map (R := fun r r' : RollupRule => AllPairs LikeR r.snapshots r'.snapshots)
      (fun _ _ _ _ h => activeRule_like (fun _ _ h => h.cut) at_ h) ?_
    exact AllPairs.map (fun r hr r' _ h => AllPairs.map (fun s hs s' _ h =>
      like_rollup key (ra.rollup r hr s hs) h.1 h.2.1 h.2.2) h) hr
  have hA : LikeA (activeSet v (asRead key v a).mappingRules (asRead key v a).rollupRules at_)
      (activeSet v (asRead key v b).mappingRules (asRead key v b).rollupRules at_) := ⟨hM, hR⟩
  have hv : DropsValid (activeSet v (asRead key v a).mappingRules (asRead key v a).rollupRules at_) := by
    intro r' hr' s' hs'
    obtain ⟨r1, h1, rfl⟩ := List.mem_map.mp hr'
    obtain ⟨r, hr, rfl⟩ := List.mem_map.mp h1
    have hs : s' ∈ (asReadRule (asReadM key) r).snapshots := by
      unfold Rule.activeRule at hs'
      split at hs'
      · exact hs'
      · exact List.mem_of_mem_drop hs'
    obtain ⟨s, hs0, rfl⟩ := List.mem_map.mp hs
    have := hd r hr s hs0
    simp only [asReadM]
    omega
  exact ⟨v, rfl, rfl, hA, hv⟩

/-- C84: take two rule sets whose rules, position by position, have histories shown by equal views and changing (and
deleted) at the same times.  Stored and loaded, they give every metric over every range of time the same metadata. -/
theorem C84_matches {x : XTime} (hx : UnitsOK x) (key : Bytes) (v : Int) (a b a' b' : RuleSet) (hd : KnownDrops a)
    (hm : AllPairs ShownAlikeM a.mappingRules b.mappingRules) (hr : AllPairs ShownAlikeR a.rollupRules b.rollupRules)
    (ha : reload x key v a = some a') (hb : reload x key v b = some b') (env : Env) (at_ : Int) (id : Bytes) (frm to : Int) :
    let p := forwardMatch env (activeSet a'.version a'.mappingRules a'.rollupRules at_) id frm to
    let q := forwardMatch env (activeSet b'.version b'.mappingRules b'.rollupRules at_) id frm to
    p.version = q.version ∧ p.expireAtNanos = q.expireAtNanos ∧ AllPairs SameStage p.forExistingID q.forExistingID ∧
    AllPairs SameRolled p.forNewRollupIDs q.forNewRollupIDs := by
  obtain ⟨w, h1, h2, hl, hv⟩ := loaded_like hx key v a b a' b' hd hm hr ha hb at_
  rw [h1, h2]
  exact ⟨rfl, forward_like env ⟨w, _, _, rfl⟩ ⟨w, _, _, rfl⟩ hl hv id frm to⟩

/-- C84: the same for reverse matching. -/
theorem C84_reverse_matches {x : XTime} (hx : UnitsOK x) (key : Bytes) (v : Int) (a b a' b' : RuleSet) (hd : KnownDrops a)
    (hm : AllPairs ShownAlikeM a.mappingRules b.mappingRules) (hr : AllPairs ShownAlikeR a.rollupRules b.rollupRules)
    (ha : reload x key v a = some a') (hb : reload x key v b = some b') (env : Env) (at_ : Int) (id : Bytes) (frm to : Int)
    (mt : Option Kind) (at' : AType) (multi : Bool) (o : Agg.Options) :
    let p := reverseMatch env (activeSet a'.version a'.mappingRules a'.rollupRules at_) id frm to mt at' multi o
    let q := reverseMatch env (activeSet b'.version b'.mappingRules b'.rollupRules at_) id frm to mt at' multi o
    p.version = q.version ∧ p.expireAtNanos = q.expireAtNanos ∧ AllPairs SameStage p.forExistingID q.forExistingID := by
  obtain ⟨w, h1, h2, hl, hv⟩ := loaded_like hx key v a b a' b' hd hm hr ha hb at_
  rw [h1, h2]
  exact ⟨rfl, reverse_like env ⟨w, _, _, rfl⟩ ⟨w, _, _, rfl⟩ hl hv id frm to mt at' multi o⟩

/-- A rule set; the parameters choose an order of policies and tags and an author. -/
def exViews (ps : List StoragePolicy) (tags : List Bytes) (who : String) : RuleSet :=
  { exEmpty with
    mappingRules := [⟨bs "1", [⟨bs "a", false, 5, none, bs "city:sf", 4, ps, 0, 3, bs who⟩]⟩]
    rollupRules := [⟨bs "2", [⟨bs "r", false, 6, none, [⟨[{ type := 3, rollup := ⟨bs "new", tags, 8⟩ }], ps⟩], bs "city:*", 4, bs who⟩]⟩] }

def exP1 : StoragePolicy := ⟨⟨10000000000, 1⟩, 3600000000000⟩
def exP2 : StoragePolicy := ⟨⟨60000000000, 1⟩, 7200000000000⟩

/-- Beside C84: rule sets differing in the order of policies and tags and in their author are shown alike, can be stored and
loaded, and match a metric; the results are not identical. -/
example :
    let a := exViews [exP1, exP2] [bs "host", bs "city"] "x"
    let b := exViews [exP2, exP1] [bs "city", bs "host"] "y"
    AllPairs ShownAlikeM a.mappingRules b.mappingRules ∧ AllPairs ShownAlikeR a.rollupRules b.rollupRules ∧
    (reload exUnits (bs "name") 1 a).isSome = true ∧ (reload exUnits (bs "name") 1 b).isSome = true ∧
    (let a' := (reload exUnits (bs "name") 1 a).getD exEmpty
      let b' := (reload exUnits (bs "name") 1 b).getD exEmpty
      let p := forwardMatchAt m3Env (activeSet 1 a'.mappingRules a'.rollupRules 10) exID 10
      let q := forwardMatchAt m3Env (activeSet 1 b'.mappingRules b'.rollupRules 10) exID 10
      p.forExistingID.pipelines ≠ q.forExistingID.pipelines ∧ p.forExistingID.pipelines.map (·.aggID) = [4] ∧
        p.forNewRollupIDs.map (·.id) = [bs "m3+new+city=sf,host=a,m3_rollup=true"] ∧
        q.forNewRollupIDs.map (·.id) = [bs "m3+new+city=sf,host=a,m3_rollup=true"]) := by
  refine ⟨⟨⟨⟨by decide +kernel, rfl, rfl⟩, trivial⟩, trivial⟩, ⟨⟨⟨by decide +kernel, rfl, rfl⟩, trivial⟩, trivial⟩, by decide +kernel,
    by decide +kernel, ?_⟩
  decide +kernel

/-- C84, outside of the claim: the comparison does not look at whether the rule is deleted, nor at its cutover time, so equal
views may describe a rule that applies and one that does not. -/
theorem C84_ignores_deletion : ∃ (s s' : MappingSnapshot) (u : Bytes),
    MappingView.equal (some (mappingSnapView u s)) (some (mappingSnapView u s')) = true ∧ s.tombstoned = false ∧ s'.tombstoned = true ∧
    mappingSnapView u s ≠ mappingSnapView u s' ∧
    (forwardMatchAt m3Env (newActiveRuleSet 1 [⟨u, [s]⟩] []) exID 10).forExistingID.pipelines ≠
      (forwardMatchAt m3Env (newActiveRuleSet 1 [⟨u, [s']⟩] []) exID 10).forExistingID.pipelines :=
  ⟨exSnap "city:sf" 5 4, { exSnap "city:sf" 5 4 with tombstoned := true }, bs "1", by decide +kernel, by decide +kernel, by decide +kernel,
    by decide +kernel, by decide +kernel⟩

end Verif.RuleSet
