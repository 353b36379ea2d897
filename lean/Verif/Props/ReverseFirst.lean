import Verif.Props.ReverseOrder
/- C44, C86: which rule a rollup identifier is attributed to, for every rule set; exactly when the order of the rules shows. -/
namespace Verif.Active
open Verif.Agg Verif.Policy Verif.Meta Verif.Id Verif.TagsFlt Verif.Rules Verif.RuleSet Verif.Spec.Rules Verif.Spec
open Verif.Spec.RuleOrder Verif.Spec.ViewEqual

/-- A step of a rollup rule: the snapshot in force, the target and the operation. -/
abbrev RollupStep := RollupSnapshot × RollupTarget × Pipe.OpUnion

/-- The steps of the rules in force at a time, in the order of the rules, of their targets and of the operations. -/
def stepsInForce (rs : List RollupRule) (t : Int) : List RollupStep :=
  (live (current rs t)).flatMap fun s => s.targets.flatMap fun tg => tg.pipeline.map fun op => (s, tg, op)

/-- `x` is the first element of the list with the property. -/
def IsFirst {α : Type} (P : α → Prop) (l : List α) (x : α) : Prop :=
  ∃ pre post, l = pre ++ x :: post ∧ (∀ y ∈ pre, ¬ P y) ∧ P x

/-- The answer a step gives: its aggregations and the storage policies of its target from the cutover time of its rule on,
nothing if only one aggregation type is asked for and the step does not produce it. -/
def stepAnswer (mt : Option Kind) (at' : AType) (multi : Bool) (o : Agg.Options) (x : RollupStep) : List StagedMetadata :=
  let p : PipelineMetadata := { aggID := x.2.2.rollup.aggID, storagePolicies := x.2.1.storagePolicies }
  if multi = true ∧ ¬ Produces o mt at' p then [] else [{ cutoverNanos := x.1.cutoverNanos, tombstoned := false, pipelines := [p] }]

/-- The tags of the rollup steps in force are in ascending order, as the constructors of rollup targets leave them. -/
def StepTagsAsc (rs : List RollupRule) (t : Int) : Prop := ∀ x ∈ stepsInForce rs t, NamesAsc x.2.2.rollup.tags

theorem isFirst_or_none {α : Type} (P : α → Prop) [DecidablePred P] : ∀ l : List α, (∀ x ∈ l, ¬ P x) ∨ ∃ x, IsFirst P l x
  | [] => Or.inl (by simp)
  | a :: l => by
    by_cases ha : P a
    · exact Or.inr ⟨a, [], l, rfl, by simp, ha⟩
    · rcases isFirst_or_none P l with h | ⟨x, pre, post, e, h1, h2⟩
      · left
        intro x hx
        rcases List.mem_cons.mp hx with rfl | hx
        · exact ha
        · exact h x hx
      · right
        refine ⟨x, a :: pre, post, by rw [e]; rfl, ?_, h2⟩
        intro y hy
        rcases List.mem_cons.mp hy with rfl | hy
        · exact ha
        · exact h1 y hy

theorem isFirst_left {α : Type} {P : α → Prop} {l : List α} {x : α} (h : IsFirst P l x) (m : List α) : IsFirst P (l ++ m) x := by
  obtain ⟨pre, post, rfl, h1, h2⟩ := h
  exact ⟨pre, post ++ m, by simp, h1, h2⟩

theorem isFirst_append {α : Type} {P : α → Prop} [DecidablePred P] {l m : List α} {x : α} (h : IsFirst P (l ++ m) x) :
    IsFirst P l x ∨ IsFirst P m x := by
  induction l with
  | nil => exact Or.inr h
  | cons a l ih =>
    obtain ⟨pre, post, e, h1, h2⟩ := h
    cases pre with
    | nil =>
      simp only [List.cons_append, List.nil_append, List.cons.injEq] at e
      obtain ⟨rfl, _⟩ := e
      exact Or.inl ⟨[], l, rfl, by simp, h2⟩
    | cons b pre =>
      simp only [List.cons_append, List.cons.injEq] at e
      obtain ⟨rfl, e⟩ := e
      rcases ih ⟨pre, post, e, fun y hy => h1 y (List.mem_cons_of_mem _ hy), h2⟩ with ⟨pre', post', e', h1', _⟩ | h
      · refine Or.inl ⟨a :: pre', post', by rw [e']; rfl, ?_, h2⟩
        intro y hy
        rcases List.mem_cons.mp hy with rfl | hy
        · exact h1 _ (List.mem_cons_self ..)
        · exact h1' y hy
      · exact Or.inr h

theorem find_first {α : Type} {P : α → Prop} {p : α → Bool} {l : List α} {x : α} (hp : ∀ y ∈ l, p y = true ↔ P y)
    (h : IsFirst P l x) : l.find? p = some x := by
  obtain ⟨pre, post, rfl, h1, h2⟩ := h
  rw [List.find?_append, List.find?_eq_none.mpr (fun y hy hy' => h1 y hy ((hp y (by simp [hy])).mp hy'))]
  simp [(hp x (by simp)).mpr h2]

theorem opsInForce_steps (as : ActiveRuleSet) (t : Int) :
    opsInForce as t = (stepsInForce as.rollupRules t).map fun x => (x.1.cutoverNanos, x.2.2, x.2.1.storagePolicies) := by
  unfold opsInForce stepsInForce rollupOpsOf
  simp only [List.map_flatMap, List.map_map, Function.comp_def]

theorem fits_iff {env : Env} {name tags : Bytes} {op : Pipe.OpUnion} (hp : TagsAsc (env.tagPairs tags))
    (ht : NamesAsc op.rollup.tags) : fits env name tags op = true ↔ MayFit name (env.tagPairs tags) op := by
  refine ⟨fits_mayFit, ?_⟩
  rintro ⟨h3, hn, hall⟩
  obtain ⟨x, hx⟩ := (C43_applies env tags op.rollup.newName op.rollup.tags hp ht).mpr hall
  unfold matchRollupTarget at hx
  unfold fits
  cases hr : rollupTagLoop (env.tagPairs tags) op.rollup.tags [] with
  | none => simp [hr] at hx
  | some _ => simp [h3, hn]

theorem reverse_at_instant (env : Env) (as : ActiveRuleSet) (h : Built as) (id name tags : Bytes)
    (hn : env.nameAndTags id = some (name, tags)) (hR : env.isRollupID name tags = true) (t : Int) (mt : Option Kind)
    (at' : AType) (multi : Bool) (o : Agg.Options) :
    (reverseMatch env as id t t mt at' multi o).forExistingID =
      (((stepsInForce as.rollupRules t).find? fun x => fits env name tags x.2.2).map (stepAnswer mt at' multi o)).getD [] := by
  rw [reverseMatch_eq env as h]
  have hs0 : stages as t t = [] := by
    unfold stages
    rw [List.filter_eq_nil_iff]
    intro c _
    simp only [Bool.and_eq_true, decide_eq_true_eq]
    omega
  simp only [hs0, List.foldl_nil]
  unfold reverseAt reverseMappingsFor reverseKind
  rw [hn]
  simp only [hR, Bool.not_true, Bool.false_eq_true, if_false]
  rw [reverseRollup_eq]
  show reverseMerge [] (((opsInForce as t).find? fun x => fits env name tags x.2.1).bind _) t = _
  rw [opsInForce_steps, List.find?_map]
  show reverseMerge [] ((Option.map _ ((stepsInForce as.rollupRules t).find? fun x => fits env name tags x.2.2)).bind _) t = _
  cases (stepsInForce as.rollupRules t).find? fun x => fits env name tags x.2.2 with
  | none => rfl
  | some x =>
    simp only [Option.map_some, Option.bind_some, found, Option.getD_some, stepAnswer]
    have e : (multi && !containsAggType o mt at' { aggID := x.2.2.rollup.aggID, storagePolicies := x.2.1.storagePolicies }) = true ↔
        multi = true ∧ ¬ Produces o mt at' { aggID := x.2.2.rollup.aggID, storagePolicies := x.2.1.storagePolicies } := by
      rw [← containsAggType_iff]
      simp
    by_cases hc : multi = true ∧ ¬ Produces o mt at' { aggID := x.2.2.rollup.aggID, storagePolicies := x.2.1.storagePolicies }
    · rw [if_pos (e.mpr hc), if_pos hc]
      rfl
    · rw [if_neg (fun h' => hc (e.mp h')), if_neg hc]
      rfl

/-- C44, for every rule set, time and rollup identifier: reverse matching attributes the identifier to the first step in force
with its name and with no other tags than it has, whether or not that step generated it; without such a step nothing is
found.  In particular a step that fits but does not produce the type asked for hides the later ones. -/
theorem C44_exact (env : Env) (as : ActiveRuleSet) (h : Built as) (id name tags : Bytes)
    (hn : env.nameAndTags id = some (name, tags)) (hR : env.isRollupID name tags = true) (hp : TagsAsc (env.tagPairs tags))
    (t : Int) (hs : StepTagsAsc as.rollupRules t) (mt : Option Kind) (at' : AType) (multi : Bool) (o : Agg.Options) :
    ((∀ x ∈ stepsInForce as.rollupRules t, ¬ MayFit name (env.tagPairs tags) x.2.2) →
      (reverseMatch env as id t t mt at' multi o).forExistingID = []) ∧
    ∀ x, IsFirst (fun x => MayFit name (env.tagPairs tags) x.2.2) (stepsInForce as.rollupRules t) x →
      (reverseMatch env as id t t mt at' multi o).forExistingID = stepAnswer mt at' multi o x := by
  rw [reverse_at_instant env as h id name tags hn hR]
  constructor
  · intro hno
    rw [List.find?_eq_none.mpr fun x hx hf => hno x hx (fits_mayFit hf)]
    rfl
  · intro x hx
    rw [find_first (fun y hy => fits_iff hp (hs y hy)) hx]
    rfl

theorem stepsInForce_cons (r : RollupRule) (rs : List RollupRule) (t : Int) :
    stepsInForce (r :: rs) t = stepsInForce [r] t ++ stepsInForce rs t := by
  unfold stepsInForce live current
  rw [← List.flatMap_append, ← List.filter_append, ← List.filterMap_append]
  rfl

theorem stepsInForce_perm {rs rs' : List RollupRule} (h : rs.Perm rs') (t : Int) :
    (stepsInForce rs t).Perm (stepsInForce rs' t) := ((h.filterMap _).filter _).flatMap_right _

theorem isFirst_rule {P : RollupStep → Prop} [DecidablePred P] {t : Int} {x : RollupStep} : ∀ {rs : List RollupRule},
    IsFirst P (stepsInForce rs t) x → ∃ r ∈ rs, IsFirst P (stepsInForce [r] t) x
  | [], h => by obtain ⟨pre, post, e, _⟩ := h; simp [stepsInForce, live, current] at e
  | r :: rs, h => by
    rw [stepsInForce_cons] at h
    rcases isFirst_append h with h | h
    · exact ⟨r, List.mem_cons_self .., h⟩
    · obtain ⟨r', hr', h'⟩ := isFirst_rule h
      exact ⟨r', List.mem_cons_of_mem _ hr', h'⟩

/-- C86, exactly: reverse matching a rollup identifier at a time does not depend on the order of the rollup rules if and only if
the rules that have a step fitting it all give the same answer by the first such step of each. -/
theorem C86_exact (env : Env) (v : Int) (ms : List MappingRule) (rs : List RollupRule) (id name tags : Bytes)
    (hn : env.nameAndTags id = some (name, tags)) (hR : env.isRollupID name tags = true) (hp : TagsAsc (env.tagPairs tags))
    (t : Int) (hs : StepTagsAsc rs t) (mt : Option Kind) (at' : AType) (multi : Bool) (o : Agg.Options) :
    (∀ rs', rs.Perm rs' → (reverseMatch env (newActiveRuleSet v ms rs') id t t mt at' multi o).forExistingID =
      (reverseMatch env (newActiveRuleSet v ms rs) id t t mt at' multi o).forExistingID) ↔
    ∀ r₁ ∈ rs, ∀ r₂ ∈ rs, ∀ x₁ x₂, IsFirst (fun x => MayFit name (env.tagPairs tags) x.2.2) (stepsInForce [r₁] t) x₁ →
      IsFirst (fun x => MayFit name (env.tagPairs tags) x.2.2) (stepsInForce [r₂] t) x₂ →
      stepAnswer mt at' multi o x₁ = stepAnswer mt at' multi o x₂ := by
  classical
  have hs' : ∀ rs', rs.Perm rs' → StepTagsAsc rs' t := fun rs' hpm x hx => hs x ((stepsInForce_perm hpm t).mem_iff.mpr hx)
  have hex := fun rs' (hpm : rs.Perm rs') =>
    C44_exact env (newActiveRuleSet v ms rs') ⟨v, ms, rs', rfl⟩ id name tags hn hR hp t (hs' rs' hpm) mt at' multi o
  constructor
  · intro hall r₁ h₁ r₂ h₂ x₁ x₂ f₁ f₂
    have key : ∀ r ∈ rs, ∀ x, IsFirst (fun x => MayFit name (env.tagPairs tags) x.2.2) (stepsInForce [r] t) x →
        (reverseMatch env (newActiveRuleSet v ms rs) id t t mt at' multi o).forExistingID = stepAnswer mt at' multi o x := by
      intro r hr x hx
      have hpm : rs.Perm (r :: rs.erase r) := List.perm_cons_erase hr
      rw [← hall _ hpm]
      refine (hex _ hpm).2 x ?_
      show IsFirst _ (stepsInForce (r :: rs.erase r) t) x
      rw [stepsInForce_cons]
      exact isFirst_left hx _
    rw [← key r₁ h₁ x₁ f₁, ← key r₂ h₂ x₂ f₂]
  · intro hag rs' hpm
    have hperm := stepsInForce_perm hpm t
    rcases isFirst_or_none (fun x : RollupStep => MayFit name (env.tagPairs tags) x.2.2) (stepsInForce rs t) with hno | ⟨x, hx⟩
    · rw [(hex rs (List.Perm.refl _)).1 hno, (hex rs' hpm).1 fun x hx => hno x (hperm.mem_iff.mpr hx)]
    · rcases isFirst_or_none (fun x : RollupStep => MayFit name (env.tagPairs tags) x.2.2) (stepsInForce rs' t) with hno | ⟨x', hx'⟩
      · obtain ⟨pre, post, e, _, hfit⟩ := hx
        exact absurd hfit (hno x (hperm.mem_iff.mp (by rw [e]; simp)))
      · rw [(hex rs (List.Perm.refl _)).2 x hx, (hex rs' hpm).2 x' hx']
        obtain ⟨r, hr, f⟩ := isFirst_rule hx
        obtain ⟨r', hr', f'⟩ := isFirst_rule hx'
        exact hag r' (hpm.mem_iff.mpr hr') r hr x' x f' f

/-- A rollup identifier that two steps fit is attributed to the first, also if that one does not produce the type asked for; the
conditions on the identifier and on the rules hold, and the rules do not agree. -/
example : m3Env.nameAndTags (bs "m3+r+city=sf,host=a,m3_rollup=true") = some (bs "r", bs "city=sf,host=a,m3_rollup=true") ∧
    m3Env.isRollupID (bs "r") (bs "city=sf,host=a,m3_rollup=true") = true ∧
    (m3Env.tagPairs (bs "city=sf,host=a,m3_rollup=true")).map (·.name) = [bs "city", bs "host", bs "m3_rollup"] ∧
    (stepsInForce exNested 6).map (fun x => x.2.2.rollup.tags) = [[bs "city"], [bs "city", bs "host"]] ∧
    ((reverseMatch m3Env (newActiveRuleSet 1 [] exNested) (bs "m3+r+city=sf,host=a,m3_rollup=true") 6 6 none 2 true
      exOpts).forExistingID) = [] ∧
    ((reverseMatch m3Env (newActiveRuleSet 1 [] exNested.reverse) (bs "m3+r+city=sf,host=a,m3_rollup=true") 6 6 none 2 true
      exOpts).forExistingID.map fun m => (m.cutoverNanos, m.pipelines.map (·.aggID))) = [(5, [4])] := by decide +kernel

end Verif.Active
