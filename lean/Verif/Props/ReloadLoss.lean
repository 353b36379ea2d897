import Verif.Props.RuleSetProto
/- C51: exactly when a rule set loses aggregation types in storage. -/
namespace Verif.RuleSet
open Verif.Agg Verif.Policy Verif.Meta Verif.Rules

/-- C51, exactly: if a rule set is written and read back, its mapping rules have the aggregation types they had if and only if none without
storage policies has any; and all else of the mapping rules is as it was, but for the built filters. -/
theorem C51_loss_iff {x : XTime} (hx : UnitsOK x) (key : Bytes) (version : Int) (rs rs' : RuleSet) (hd : KnownDrops rs)
    (h : reload x key version rs = some rs') :
    ((rs'.mappingRules.map fun r => r.snapshots.map (·.aggID)) = (rs.mappingRules.map fun r => r.snapshots.map (·.aggID)) ↔
      ∀ r ∈ rs.mappingRules, ∀ s ∈ r.snapshots, s.storagePolicies = [] → s.aggID = 0) ∧
    (rs'.mappingRules.map fun r => (r.uuid, r.snapshots.map fun s => { s with aggID := 0, filter := none })) =
      rs.mappingRules.map fun r => (r.uuid, r.snapshots.map fun s => { s with aggID := 0, filter := none }) := by
  obtain ⟨_, rfl⟩ := (C51_reload_partial hx key version rs rs' hd).1 h
  simp only [asRead, List.map_map]
  refine ⟨?_, List.map_congr_left fun r _ => ?_⟩
  · rw [List.map_inj_left]
    refine forall_congr' fun r => forall_congr' fun _ => ?_
    simp only [Function.comp_apply, asReadRule, List.map_map]
    rw [List.map_inj_left]
    refine forall_congr' fun s => forall_congr' fun _ => ?_
    simp only [Function.comp_apply, asReadM]
    by_cases hs : s.storagePolicies = []
    · simp only [hs, if_true, true_implies]
      exact eq_comm
    · simp [hs]
  · simp only [Function.comp_apply, asReadRule, List.map_map]
    rfl

/-- A rule that keeps its aggregation types, as it has storage policies, and one that loses them. -/
example : (exDropAgg.mappingRules.map fun r => r.snapshots.map fun s => decide (s.storagePolicies = [] → s.aggID = 0)) = [[false]] ∧
    KnownDrops exDropAgg := by
  refine ⟨by decide +kernel, ?_⟩
  intro r hr s hs
  simp only [exDropAgg, List.mem_singleton] at hr
  subst hr
  simp only [List.mem_singleton] at hs
  subst hs
  decide

end Verif.RuleSet
