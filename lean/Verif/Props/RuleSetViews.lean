import Verif.Props.RuleSetEdits
/- C68: the views of a rule set. -/
namespace Verif.RuleSet
variable {S V : Type}
open Verif.Agg Verif.Policy Verif.Meta Verif.Rules Verif.Active Verif.Spec.Rules

/-! ### Specification -/

/-- What a user is shown of a mapping snapshot. -/
def shownMapping (uuid : Bytes) (s : MappingSnapshot) : MappingView :=
  ⟨uuid, s.name, s.tombstoned, s.cutoverNanos.tdiv 1000000, s.rawFilter, s.aggID, s.storagePolicies, s.drop,
    s.lastUpdatedBy, s.lastUpdatedAtNanos.tdiv 1000000⟩

/-- A pipeline step with the payload of its kind only. -/
def payload (u : Pipe.OpUnion) : Pipe.OpUnion :=
  { type := u.type, aggregation := if u.type = 1 then u.aggregation else 0,
    transformation := if u.type = 2 then u.transformation else 0, rollup := if u.type = 3 then u.rollup else {} }

/-- What a user is shown of a rollup snapshot. -/
def shownRollup (uuid : Bytes) (s : RollupSnapshot) : RollupView :=
  ⟨uuid, s.name, s.tombstoned, s.cutoverNanos.tdiv 1000000, s.rawFilter,
    s.targets.map fun t => ⟨t.pipeline.map payload, t.storagePolicies⟩, s.lastUpdatedBy,
    s.lastUpdatedAtNanos.tdiv 1000000⟩

/-- The rules that no later rule with the same identifier hides. -/
def visible : List (Rule S) → List (Rule S)
  | [] => []
  | r :: rules => if r.uuid ∈ rules.map (·.uuid) then visible rules else r :: visible rules

/-- The last snapshots of the rules that are not deleted, as shown. -/
def liveShown [Snap S] (shown : Bytes → S → V) (rules : List (Rule S)) : List V :=
  rules.filterMap fun r => match r.snapshots.getLast? with
    | none => none
    | some s => if Snap.tombstoned s then none else some (shown r.uuid s)

/-! ### Proofs -/

theorem mappingSnapView_eq : mappingSnapView = shownMapping := rfl

theorem op_clone_payload (u : Pipe.OpUnion) : u.clone = payload u := by
  unfold Pipe.OpUnion.clone payload Pipe.AggregationOpType Pipe.TransformationOpType Pipe.RollupOpType
  split
  · next h => simp [h]
  · next h1 =>
    split
    · next h => simp [h]
    · next h2 =>
      split
      · next h => simp [h]; rfl
      · next h3 => simp [h1, h2, h3]

theorem rollupSnapView_eq : rollupSnapView = shownRollup := by
  funext uuid s
  unfold rollupSnapView shownRollup
  have : ∀ t : RollupTarget, cloneTarget t = ⟨t.pipeline.map payload, t.storagePolicies⟩ := by
    intro t
    simp only [cloneTarget, Pipe.pipelineClone, List.map_congr_left fun u (_ : u ∈ t.pipeline) => op_clone_payload u]
  simp only [List.map_congr_left fun t (_ : t ∈ s.targets) => this t, toMillis]

theorem historyLoop_eq (f : Bytes → S → V) (r : Rule S) : ∀ n i, n + i = r.snapshots.length →
    historyLoop f r n i = some (((r.snapshots.map (f r.uuid)).take n).reverse)
  | 0, i, _ => by simp [historyLoop]
  | n + 1, i, h => by
    have ih := historyLoop_eq f r n (i + 1) (by omega)
    have hn : n < r.snapshots.length := by omega
    have hi : ((r.snapshots.length : Int) - 1 - i) = (n : Int) := by omega
    simp only [historyLoop, hi, ruleView]
    rw [if_neg (by omega)]
    simp only [Int.toNat_natCast, List.getElem?_eq_getElem hn, Option.map_some, ih, Option.some.injEq]
    rw [List.take_succ_eq_append_getElem (by simpa using hn)]
    simp

/-- C68: the history of a rule never fails and lists all snapshots, newest first. -/
theorem history_eq (f : Bytes → S → V) (r : Rule S) : history f r = some ((r.snapshots.map (f r.uuid)).reverse) := by
  unfold history
  rw [historyLoop_eq f r _ 0 (by simp), List.take_of_length_le (by simp)]

theorem mem_visible {rules : List (Rule S)} : ∀ {r}, r ∈ visible rules → r ∈ rules := by
  induction rules with
  | nil => simp [visible]
  | cons a l ih =>
    intro r hr
    unfold visible at hr
    split at hr
    · exact List.mem_cons_of_mem _ (ih hr)
    · rcases List.mem_cons.mp hr with rfl | h
      · exact List.mem_cons_self
      · exact List.mem_cons_of_mem _ (ih h)

theorem visible_of_nodup {rules : List (Rule S)} (h : (rules.map (·.uuid)).Nodup) : visible rules = rules := by
  induction rules with
  | nil => rfl
  | cons a l ih =>
    simp only [List.map_cons, List.nodup_cons] at h
    simp only [visible, if_neg h.1, ih h.2]

theorem visible_ids {rules : List (Rule S)} : ((visible rules).map (·.uuid)).Nodup ∧
    ∀ i, i ∈ (visible rules).map (·.uuid) ↔ i ∈ rules.map (·.uuid) := by
  induction rules with
  | nil => simp [visible]
  | cons a l ih =>
    obtain ⟨h1, h2⟩ := ih
    unfold visible
    split
    · next h =>
      refine ⟨h1, fun i => ?_⟩
      rw [h2, List.map_cons, List.mem_cons]
      exact ⟨Or.inr, fun h' => h'.elim (fun e => e ▸ h) id⟩
    · next h =>
      refine ⟨?_, fun i => ?_⟩
      · rw [List.map_cons, List.nodup_cons]
        exact ⟨fun h' => h ((h2 _).mp h'), h1⟩
      · rw [List.map_cons, List.mem_cons, h2, List.map_cons, List.mem_cons]

theorem histories_eq (f : Bytes → S → V) : ∀ (rules : List (Rule S)) (m : List (Bytes × List V)),
    histories f rules m = some (m.filter (fun e => decide (e.1 ∉ rules.map (·.uuid))) ++
      (visible rules).map fun r => (r.uuid, (r.snapshots.map (f r.uuid)).reverse))
  | [], m => by
    have : m.filter (fun e => decide (e.1 ∉ ([] : List (Rule S)).map (·.uuid))) = m :=
      List.filter_eq_self.mpr (by simp)
    rw [this]
    simp [histories, visible]
  | r :: rules, m => by
    simp only [histories, history_eq, histories_eq f rules, mapPut, Option.some.injEq]
    rw [List.filter_append, List.filter_filter]
    have e1 : m.filter (fun e => decide (e.1 ∉ rules.map (·.uuid)) && !(e.1 == r.uuid)) =
        m.filter (fun e => decide (e.1 ∉ (r :: rules).map (·.uuid))) := by
      apply List.filter_congr
      intro e _
      by_cases h : e.1 = r.uuid <;> by_cases h' : e.1 ∈ rules.map (·.uuid) <;> simp_all
    rw [e1, List.append_assoc]
    congr 1
    by_cases h : r.uuid ∈ rules.map (·.uuid)
    · have e2 : visible (r :: rules) = visible rules := by rw [visible, if_pos h]
      rw [e2, List.filter_cons_of_neg (by simpa using h)]
      rfl
    · have e2 : visible (r :: rules) = r :: visible rules := by rw [visible, if_neg h]
      rw [e2, List.filter_cons_of_pos (by simpa using h)]
      rfl

/-- C68, part: the full view of the mapping rules maps every identifier to all snapshots of its rule, newest first; with
several rules of one identifier, of the last of them. -/
theorem C68_history (rs : RuleSet) :
    rs.mappingViews = some ((visible rs.mappingRules).map fun r => (r.uuid, (r.snapshots.map (shownMapping r.uuid)).reverse)) ∧
    rs.rollupViews = some ((visible rs.rollupRules).map fun r => (r.uuid, (r.snapshots.map (shownRollup r.uuid)).reverse)) := by
  unfold RuleSet.mappingViews RuleSet.rollupViews
  rw [histories_eq, histories_eq, mappingSnapView_eq, rollupSnapView_eq]
  simp

theorem latestOf_eq [Snap S] {f : Bytes → S → V} {tomb : V → Bool} (ht : ∀ u s, tomb (f u s) = Snap.tombstoned s)
    (rules : List (Rule S)) :
    latestOf tomb (rules.map fun r => (r.uuid, (r.snapshots.map (f r.uuid)).reverse)) = liveShown f rules := by
  unfold latestOf liveShown
  rw [List.filterMap_map]
  apply filterMap_congr'
  intro r _
  simp only [Function.comp_apply]
  cases hl : r.snapshots.getLast? with
  | none =>
    rw [List.getLast?_eq_none_iff] at hl
    simp [hl]
  | some s =>
    obtain ⟨ys, hys⟩ := List.getLast?_eq_some_iff.mp hl
    simp only [hys, List.map_append, List.map_cons, List.map_nil, List.reverse_append, List.reverse_cons, List.reverse_nil,
      List.nil_append, List.cons_append]
    simp only [ht]
    cases Snap.tombstoned s <;> rfl

theorem perm_latestOf {tomb : V → Bool} {a b : List (Bytes × List V)} (h : a.Perm b) :
    (latestOf tomb a).Perm (latestOf tomb b) := h.filterMap _

/-- The list is the given one, in order of names. -/
def SortedByName (name : V → Bytes) (out expected : List V) : Prop :=
  out.Perm expected ∧ out.Pairwise fun a b => bytesLt (name b) (name a) = false

/-- C68, part: whatever order the maps are read in, the latest view lists exactly the last snapshots of the rules that are
not deleted, sorted by name.  Missing for the full claim: identifiers must be distinct (`C68_violated`), which they are
for rule sets built by edits (C48). -/
theorem C68_latest_partial (rs : RuleSet) (hm : (rs.mappingRules.map (·.uuid)).Nodup) (hr : (rs.rollupRules.map (·.uuid)).Nodup)
    (ms : List (Bytes × List MappingView)) (rr : List (Bytes × List RollupView))
    (hms : ∃ m, rs.mappingViews = some m ∧ ms.Perm m) (hrr : ∃ m, rs.rollupViews = some m ∧ rr.Perm m) :
    (rs.latestWith ms rr).namespace_ = rs.namespace_ ∧ (rs.latestWith ms rr).version = rs.version ∧
    (rs.latestWith ms rr).cutoverMillis = rs.cutoverNanos.tdiv 1000000 ∧
    SortedByName (·.name) (rs.latestWith ms rr).mappingRules (liveShown shownMapping rs.mappingRules) ∧
    SortedByName (·.name) (rs.latestWith ms rr).rollupRules (liveShown shownRollup rs.rollupRules) := by
  obtain ⟨m1, h1, p1⟩ := hms
  obtain ⟨m2, h2, p2⟩ := hrr
  rw [(C68_history rs).1, visible_of_nodup hm] at h1
  rw [(C68_history rs).2, visible_of_nodup hr] at h2
  cases h1
  cases h2
  refine ⟨rfl, rfl, rfl, ⟨?_, sortByKey_sorted bytesLt_strictTotal (fun v : MappingView => v.name) _⟩,
    ⟨?_, sortByKey_sorted bytesLt_strictTotal (fun v : RollupView => v.name) _⟩⟩
  · refine (sortBy_perm _ _).trans ((perm_latestOf p1).trans ?_)
    rw [latestOf_eq (f := shownMapping) (fun _ _ => rfl)]
  · refine (sortBy_perm _ _).trans ((perm_latestOf p2).trans ?_)
    rw [latestOf_eq (f := shownRollup) (fun _ _ => rfl)]

/-- C68: when moreover the live names are distinct, the latest view does not depend on the order of the maps at all. -/
theorem C68_deterministic (rs : RuleSet)
    (nm : ((liveShown shownMapping (visible rs.mappingRules)).map (·.name)).Nodup)
    (nr : ((liveShown shownRollup (visible rs.rollupRules)).map (·.name)).Nodup)
    (ms ms' : List (Bytes × List MappingView)) (rr rr' : List (Bytes × List RollupView))
    (hms : ∃ m, rs.mappingViews = some m ∧ ms.Perm m ∧ ms'.Perm m) (hrr : ∃ m, rs.rollupViews = some m ∧ rr.Perm m ∧ rr'.Perm m) :
    rs.latestWith ms rr = rs.latestWith ms' rr' := by
  obtain ⟨m1, h1, p1, q1⟩ := hms
  obtain ⟨m2, h2, p2, q2⟩ := hrr
  rw [(C68_history rs).1] at h1
  rw [(C68_history rs).2] at h2
  cases h1
  cases h2
  unfold RuleSet.latestWith
  congr 1
  · refine sortByKey_perm bytesLt_strictTotal (fun v : MappingView => v.name) _ _ ?_ ((perm_latestOf p1).trans (perm_latestOf q1).symm)
    refine (((perm_latestOf p1).map _).nodup_iff).mpr ?_
    rw [latestOf_eq (f := shownMapping) (fun _ _ => rfl)]
    exact nm
  · refine sortByKey_perm bytesLt_strictTotal (fun v : RollupView => v.name) _ _ ?_ ((perm_latestOf p2).trans (perm_latestOf q2).symm)
    refine (((perm_latestOf p2).map _).nodup_iff).mpr ?_
    rw [latestOf_eq (f := shownRollup) (fun _ _ => rfl)]
    exact nr

/-- C68 is violated with repeated identifiers, which reading accepts: one of two live rules is not shown. -/
theorem C68_violated : ∃ (rs : RuleSet) (v : RuleSetView), rs.latest = some v ∧
    (liveShown shownMapping rs.mappingRules).map (·.name) = [bs "a", bs "b"] ∧ v.mappingRules.map (·.name) = [bs "b"] := by
  have : ∃ v, ({ exEmpty with mappingRules := [⟨bs "1", [mappingSnapshotOf (exData "a" "city:sf") (exMeta 1)]⟩,
      ⟨bs "1", [mappingSnapshotOf (exData "b" "city:sf") (exMeta 1)]⟩] } : RuleSet).latest = some v ∧
      v.mappingRules.map (·.name) = [bs "b"] := Option.map_eq_some_iff.mp (by decide +kernel)
  obtain ⟨v, h1, h2⟩ := this
  exact ⟨_, v, h1, by decide +kernel, h2⟩

/-- Beside C68: two live rules, one deleted and one renamed rule; latest view and a history. -/
example :
    let rs := exEmpty.run [(.addMapping (bs "1") (exData "m" "city:sf"), exMeta 10000000),
      (.addMapping (bs "2") (exData "k" "city:sf"), exMeta 20000000), (.addMapping (bs "3") (exData "l" "city:sf"), exMeta 30000000),
      (.updateMapping (bs "1") (exData "a" "city:nyc"), exMeta 40000000), (.deleteMapping (bs "2"), exMeta 50000000)]
    (rs.latest.map fun v => v.mappingRules.map fun r => (r.name, r.cutoverMillis)) = some [(bs "a", 40), (bs "l", 30)] ∧
    (rs.mappingViews.map fun m => m.map fun e => (e.1, e.2.map fun v => (v.name, v.tombstoned))) =
      some [(bs "1", [(bs "a", false), (bs "m", false)]), (bs "2", [(bs "k", true), (bs "k", false)]), (bs "3", [(bs "l", false)])] ∧
    (rs.mappingRules.map (·.uuid)).Nodup ∧ ((liveShown shownMapping (visible rs.mappingRules)).map (·.name)).Nodup := by
  decide +kernel

end Verif.RuleSet
