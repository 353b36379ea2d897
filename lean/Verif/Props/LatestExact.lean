import Verif.Props.RuleSetViews
/- C68: the latest view of every rule set, also with repeated identifiers. -/
namespace Verif.RuleSet
open Verif.Rules Verif.Spec.Rules Verif.Id Verif.Spec

/-- A rule that is not deleted. -/
def LiveRule [Snap S] (r : Rule S) : Prop := ∃ s, r.snapshots.getLast? = some s ∧ Snap.tombstoned s = false

/-- No rule that is not deleted is followed by another rule with the same identifier. -/
def NoLiveHidden [Snap S] (rules : List (Rule S)) : Prop :=
  ∀ pre r post, rules = pre ++ r :: post → LiveRule r → ∀ r' ∈ post, r'.uuid ≠ r.uuid

theorem liveShown_cons [Snap S] (f : Bytes → S → V) (r : Rule S) (rules : List (Rule S)) :
    (LiveRule r → (liveShown f (r :: rules)).length = (liveShown f rules).length + 1) ∧
    (¬ LiveRule r → liveShown f (r :: rules) = liveShown f rules) := by
  unfold liveShown
  rw [List.filterMap_cons]
  constructor
  · rintro ⟨s, hs, ht⟩
    simp [hs, ht]
  · intro hn
    cases hl : r.snapshots.getLast? with
    | none => rfl
    | some s =>
      cases ht : Snap.tombstoned s with
      | true => simp [ht]
      | false => exact absurd ⟨s, hl, ht⟩ hn

theorem noLiveHidden_cons [Snap S] (r : Rule S) (rules : List (Rule S)) :
    NoLiveHidden (r :: rules) ↔ (LiveRule r → r.uuid ∉ rules.map (·.uuid)) ∧ NoLiveHidden rules := by
  constructor
  · intro h
    refine ⟨?_, fun pre r' post e hl r'' hr'' => h (r :: pre) r' post (by rw [e]; rfl) hl r'' hr''⟩
    intro hl hmem
    obtain ⟨r', hr', e⟩ := List.mem_map.mp hmem
    exact h [] r rules rfl hl r' hr' e
  · rintro ⟨h1, h2⟩ pre r' post e hl r'' hr''
    cases pre with
    | nil =>
      simp only [List.nil_append, List.cons.injEq] at e
      obtain ⟨rfl, rfl⟩ := e
      intro he
      exact h1 hl (List.mem_map.mpr ⟨r'', hr'', he⟩)
    | cons a pre =>
      simp only [List.cons_append, List.cons.injEq] at e
      exact h2 pre r' post e.2 hl r'' hr''

theorem liveShown_visible [Snap S] (f : Bytes → S → V) : ∀ rules : List (Rule S),
    (liveShown f (visible rules)).length ≤ (liveShown f rules).length ∧
    ((liveShown f (visible rules)).length = (liveShown f rules).length ↔ NoLiveHidden rules) ∧
    (NoLiveHidden rules → liveShown f (visible rules) = liveShown f rules)
  | [] => by
    refine ⟨Nat.le_refl _, ⟨fun _ => ?_, fun _ => rfl⟩, fun _ => rfl⟩
    intro pre r post e
    simp at e
  | r :: rules => by
    obtain ⟨h1, h2, h3⟩ := liveShown_visible f rules
    rw [noLiveHidden_cons]
    by_cases hmem : r.uuid ∈ rules.map (·.uuid)
    · have ev : visible (r :: rules) = visible rules := by rw [visible, if_pos hmem]
      rw [ev]
      by_cases hl : LiveRule r
      · have := (liveShown_cons f r rules).1 hl
        refine ⟨by omega, ⟨fun h => by omega, fun h => absurd hmem (h.1 hl)⟩, fun h => absurd hmem (h.1 hl)⟩
      · rw [(liveShown_cons f r rules).2 hl]
        exact ⟨h1, ⟨fun h => ⟨fun h' => absurd h' hl, h2.mp h⟩, fun h => h2.mpr h.2⟩, fun h => h3 h.2⟩
    · have ev : visible (r :: rules) = r :: visible rules := by rw [visible, if_neg hmem]
      rw [ev]
      have hc : ∀ l : List (Rule S), liveShown f (r :: l) = liveShown f [r] ++ liveShown f l := by
        intro l
        unfold liveShown
        rw [← List.filterMap_append]
        rfl
      rw [hc, hc rules, List.length_append, List.length_append]
      refine ⟨by omega, ⟨fun h => ⟨fun _ => hmem, h2.mp (by omega)⟩, fun h => ?_⟩, fun h => by rw [h3 h.2]⟩
      have := h2.mpr h.2
      omega

/-- C68, for every rule set and whatever order the maps are read in: the latest view lists, sorted by name, the last snapshots
of the rules that are not deleted and not hidden by a later rule with the same identifier; and it lists those of all rules that
are not deleted if and only if none of them is hidden. -/
theorem C68_exact (rs : RuleSet) (ms : List (Bytes × List MappingView)) (rr : List (Bytes × List RollupView))
    (hms : ∃ m, rs.mappingViews = some m ∧ ms.Perm m) (hrr : ∃ m, rs.rollupViews = some m ∧ rr.Perm m) :
    SortedByName (·.name) (rs.latestWith ms rr).mappingRules (liveShown shownMapping (visible rs.mappingRules)) ∧
    SortedByName (·.name) (rs.latestWith ms rr).rollupRules (liveShown shownRollup (visible rs.rollupRules)) ∧
    (SortedByName (·.name) (rs.latestWith ms rr).mappingRules (liveShown shownMapping rs.mappingRules) ↔
      NoLiveHidden rs.mappingRules) ∧
    (SortedByName (·.name) (rs.latestWith ms rr).rollupRules (liveShown shownRollup rs.rollupRules) ↔
      NoLiveHidden rs.rollupRules) := by
  obtain ⟨m1, h1, p1⟩ := hms
  obtain ⟨m2, h2, p2⟩ := hrr
  rw [(C68_history rs).1] at h1
  rw [(C68_history rs).2] at h2
  cases h1
  cases h2
  have a1 : SortedByName (·.name) (rs.latestWith ms rr).mappingRules (liveShown shownMapping (visible rs.mappingRules)) := by
    refine ⟨(sortBy_perm _ _).trans ((perm_latestOf p1).trans ?_), sortByKey_sorted bytesLt_strictTotal (fun v : MappingView => v.name) _⟩
    rw [latestOf_eq (f := shownMapping) (fun _ _ => rfl)]
  have a2 : SortedByName (·.name) (rs.latestWith ms rr).rollupRules (liveShown shownRollup (visible rs.rollupRules)) := by
    refine ⟨(sortBy_perm _ _).trans ((perm_latestOf p2).trans ?_), sortByKey_sorted bytesLt_strictTotal (fun v : RollupView => v.name) _⟩
    rw [latestOf_eq (f := shownRollup) (fun _ _ => rfl)]
  refine ⟨a1, a2, ⟨fun h => ?_, fun h => ?_⟩, ⟨fun h => ?_, fun h => ?_⟩⟩
  · exact (liveShown_visible shownMapping rs.mappingRules).2.1.mp (a1.1.length_eq.symm.trans h.1.length_eq)
  · rw [← (liveShown_visible shownMapping rs.mappingRules).2.2 h]; exact a1
  · exact (liveShown_visible shownRollup rs.rollupRules).2.1.mp (a2.1.length_eq.symm.trans h.1.length_eq)
  · rw [← (liveShown_visible shownRollup rs.rollupRules).2.2 h]; exact a2

/-- A deleted rule followed by a live one with the same identifier: all live rules are shown; the other way round none is. -/
example :
    let live := mappingSnapshotOf (exData "b" "city:sf") (exMeta 1)
    let gone := { mappingSnapshotOf (exData "a" "city:sf") (exMeta 1) with tombstoned := true }
    (({ exEmpty with mappingRules := [⟨bs "1", [gone]⟩, ⟨bs "1", [live]⟩] } : RuleSet).latest.map fun v => v.mappingRules.map (·.name)) =
      some [bs "b"] ∧
    (({ exEmpty with mappingRules := [⟨bs "1", [live]⟩, ⟨bs "1", [gone]⟩] } : RuleSet).latest.map fun v => v.mappingRules.map (·.name)) =
      some [] := by decide +kernel

end Verif.RuleSet
