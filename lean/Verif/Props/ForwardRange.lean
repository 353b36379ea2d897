import Verif.Props.ForwardMatch
/- C36 and C39: what a range match reports as active at a time. -/
namespace Verif.Active
open Verif.Agg Verif.Policy Verif.Meta Verif.Id Verif.TagsFlt Verif.Rules Verif.Spec.Rules Verif.Spec

/-! ### The metadata active at a time -/

theorem activeStagedLoop_spec (ms : List StagedMetadata) (t : Int) : ∀ k, k ≤ ms.length →
    (∀ i (h : i < ms.length), k ≤ i → t < ms[i].cutoverNanos) →
    ((∀ m ∈ ms, t < m.cutoverNanos) ∧ activeStagedLoop ms t k = ms) ∨
    (∃ pre m post, ms = pre ++ m :: post ∧ m.cutoverNanos ≤ t ∧ (∀ x ∈ post, t < x.cutoverNanos) ∧
      activeStagedLoop ms t k = m :: post)
  | 0, _, h => by
    left
    refine ⟨?_, rfl⟩
    intro m hm
    obtain ⟨i, hi, rfl⟩ := List.getElem_of_mem hm
    exact h i hi (by omega)
  | k + 1, hk, h => by
    have hk' : k < ms.length := hk
    rw [activeStagedLoop, List.getElem?_eq_getElem hk']
    simp only
    by_cases hc : ms[k].cutoverNanos ≤ t
    · right
      rw [if_pos hc]
      refine ⟨ms.take k, ms[k], ms.drop (k + 1), ?_, hc, ?_, ?_⟩
      · rw [← List.drop_eq_getElem_cons hk', List.take_append_drop]
      · intro x hx
        obtain ⟨i, hi, rfl⟩ := List.getElem_of_mem hx
        rw [List.getElem_drop]
        simp only [List.length_drop] at hi
        exact h _ (by omega) (by omega)
      · rw [← List.drop_eq_getElem_cons hk']
    · rw [if_neg hc]
      apply activeStagedLoop_spec ms t k (by omega)
      intro i hi hki
      rcases Nat.lt_or_eq_of_le hki with hlt | heq
      · exact h i hi (by omega)
      · subst heq; omega

/-- The metadatas active at `t`: from the last one that has cut over on, or all if none has. -/
theorem activeStaged_spec (ms : List StagedMetadata) (t : Int) :
    ((∀ m ∈ ms, t < m.cutoverNanos) ∧ activeStagedMetadatasAt ms t = ms) ∨
    (∃ pre m post, ms = pre ++ m :: post ∧ m.cutoverNanos ≤ t ∧ (∀ x ∈ post, t < x.cutoverNanos) ∧
      activeStagedMetadatasAt ms t = m :: post) :=
  activeStagedLoop_spec ms t ms.length (Nat.le_refl _) (by intro i h h'; omega)

/-! ### Which stage a time belongs to -/

theorem map_eq_append_cons {α β : Type} {f : α → β} {l : List α} {pre post : List β} {b : β} (h : l.map f = pre ++ b :: post) :
    ∃ p a q, l = p ++ a :: q ∧ p.map f = pre ∧ f a = b ∧ q.map f = post := by
  obtain ⟨p, r, rfl, hp, hr⟩ := List.map_eq_append_iff.mp h
  obtain ⟨a, q, rfl, ha, hq⟩ := List.map_eq_cons_iff.mp hr
  exact ⟨p, a, q, rfl, hp, ha, hq⟩

theorem quiet_of (as : ActiveRuleSet) (h : Built as) (frm to τ t : Int) (hτ : τ ∈ frm :: stages as frm to)
    (hto : t < to) (hn : ∀ τ' ∈ frm :: stages as frm to, τ < τ' → t < τ') : Quiet as τ t := by
  intro c hc ⟨h1, h2⟩
  have hf : frm ≤ τ := by
    rcases List.mem_cons.mp hτ with rfl | hm
    · omega
    · have := ((mem_stages h).mp hm).2.1; omega
  have hcs : c ∈ stages as frm to := (mem_stages h).mpr ⟨hc, by omega, by omega⟩
  have := hn c (by simp [hcs]) h1
  omega

theorem getLast_max {l : List Int} (hs : l.Pairwise (· < ·)) {τ : Int} (h : l.getLast? = some τ) : ∀ c ∈ l, c ≤ τ := by
  obtain ⟨l', rfl⟩ := List.getLast?_eq_some_iff.mp h
  intro c hc
  rcases List.mem_append.mp hc with hc | hc
  · have := (List.pairwise_append.mp hs).2.2 c hc τ (by simp)
    omega
  · simp at hc; omega

theorem times_sorted {as : ActiveRuleSet} (h : Built as) (frm to : Int) : (frm :: stages as frm to).Pairwise (· < ·) := by
  rw [List.pairwise_cons]
  exact ⟨fun c hc => ((mem_stages h).mp hc).2.1, stages_sorted h frm to⟩

theorem stage_of (as : ActiveRuleSet) (h : Built as) (frm to t : Int) (hf : frm ≤ t) (hto : t < to) :
    ∃ τ ∈ frm :: stages as frm to, τ ≤ t ∧ Quiet as τ t := by
  let l := (frm :: stages as frm to).filter (fun c => decide (c ≤ t))
  have hs : l.Pairwise (· < ·) := (times_sorted h frm to).filter _
  have hfl : frm ∈ l := by simp [l, hf]
  cases hl : l.getLast? with
  | none => rw [List.getLast?_eq_none_iff] at hl; rw [hl] at hfl; cases hfl
  | some τ =>
    have hτ : τ ∈ l := List.mem_of_getLast? hl
    simp only [l, List.mem_filter, decide_eq_true_eq] at hτ
    refine ⟨τ, hτ.1, hτ.2, quiet_of as h frm to τ t hτ.1 hto ?_⟩
    intro τ' hτ' hlt
    apply Classical.byContradiction
    intro hn
    have : τ' ∈ l := by
      simp only [l, List.mem_filter, decide_eq_true_eq]
      exact ⟨hτ', by omega⟩
    have := getLast_max hs hl τ' this
    omega

/-! ### C36 -/

/-- A pipeline change just before `c` is reported with cutover `c`. -/
def ChangesReported (env : Env) (as : ActiveRuleSet) (id : Bytes) (frm to : Int) : Prop :=
  ∀ c, frm < c → c < to →
    (forwardMatchAt env as id (c - 1)).forExistingID.pipelines ≠ (forwardMatchAt env as id c).forExistingID.pipelines →
    (forwardMatchAt env as id c).forExistingID.cutoverNanos = c

/-- C36, part that holds: the metadata reported as active for the existing identifier at any time `t` of the range
has the pipelines obtained by matching at `t`, provided the point match reports every change of pipelines inside the
range with the time of that change. -/
theorem C36_range_agrees_partial (env : Env) (as : ActiveRuleSet) (h : Built as) (id : Bytes) (frm to t : Int)
    (h0 : 0 ≤ frm) (hrep : ChangesReported env as id frm to) (hf : frm ≤ t) (ht : t < to) :
    ∃ m rest, (forwardMatch env as id frm to).forExistingIDAt t = m :: rest ∧
      m.pipelines = (forwardMatchAt env as id t).forExistingID.pipelines ∧ m.tombstoned = false ∧ m.cutoverNanos ≤ t := by
  obtain ⟨pairs, e1, e2, e3, e4⟩ := existing_pairs env as h id frm to h0
  unfold MatchResult.forExistingIDAt
  rw [← e2]
  have hsort : (pairs.map Prod.fst).Pairwise (· < ·) := by rw [e1]; exact times_sorted h frm to
  rcases activeStaged_spec (pairs.map Prod.snd) t with ⟨hall, _⟩ | ⟨pre, m, post, hsplit, hm, hpost, hres⟩
  · exfalso
    have hfm : frm ∈ pairs.map Prod.fst := by rw [e1]; simp
    obtain ⟨p, hp, hp1⟩ := List.mem_map.mp hfm
    have := hall p.2 (List.mem_map_of_mem hp)
    have := (e3 p hp).le
    omega
  · obtain ⟨P, a, Q, rfl, hP, ha, hQ⟩ := map_eq_append_cons hsplit
    subst ha
    have haOK := e3 a (by simp)
    refine ⟨a.2, post, hres, ?_, haOK.tombstoned, hm⟩
    rw [haOK.pipelines]
    have hQt : ∀ q ∈ Q, t < q.1 := by
      intro q hq
      have := hpost q.2 (by rw [← hQ]; exact List.mem_map_of_mem hq)
      have := (e3 q (by simp [hq])).le
      omega
    have hmono : ∀ p ∈ P ++ [a], p.2.cutoverNanos ≤ a.2.cutoverNanos := by
      intro p hp
      rcases List.mem_append.mp hp with hp | hp
      · exact (List.pairwise_append.mp e4).2.2 p hp a (by simp)
      · simp only [List.mem_singleton] at hp; subst hp; omega
    have hafter : ∀ τ' ∈ frm :: stages as frm to, a.1 < τ' → t < τ' := by
      intro τ' hτ' hlt
      rw [← e1] at hτ'
      obtain ⟨q, hq, rfl⟩ := List.mem_map.mp hτ'
      rcases List.mem_append.mp hq with hq | hq
      · exfalso
        rw [List.map_append, List.pairwise_append] at hsort
        have := hsort.2.2 q.1 (List.mem_map_of_mem hq) a.1 (by simp)
        omega
      · rcases List.mem_cons.mp hq with rfl | hq
        · omega
        · exact hQt q hq
    have hamem : a.1 ∈ frm :: stages as frm to := by rw [← e1]; exact List.mem_map_of_mem (by simp)
    by_cases hat : a.1 ≤ t
    · rw [forwardMatchAt_congr env as id hat (quiet_of as h frm to a.1 t hamem ht hafter)]
    · -- the reported stage lies in the future: nothing changed in between
      have hto' : a.1 < to := by
        rcases List.mem_cons.mp hamem with hm' | hm'
        · omega
        · exact ((mem_stages h).mp hm').2.2
      have key : ∀ n : Nat, t + n ≤ a.1 →
          (forwardMatchAt env as id (t + n)).forExistingID.pipelines = (forwardMatchAt env as id t).forExistingID.pipelines := by
        intro n
        induction n with
        | zero => intro _; simp
        | succ n ih =>
          intro hn
          rw [← ih (by omega)]
          apply Classical.byContradiction
          intro hne
          have hc1 : t + ((n + 1 : Nat) : Int) - 1 = t + n := by omega
          have hcut := hrep (t + (n + 1 : Nat)) (by omega) (by omega) (by rw [hc1]; exact Ne.symm hne)
          have hrule : IsRuleTime as.mappingRules as.rollupRules (t + (n + 1 : Nat)) := by
            apply Classical.byContradiction
            intro hnr
            apply hne
            rw [forwardMatchAt_congr env as id (t := t + n) (t' := t + (n + 1 : Nat)) (by omega)]
            intro c hc hcc
            have : c = t + (n + 1 : Nat) := by omega
            exact hnr (this ▸ hc)
          have hmem : t + ((n + 1 : Nat) : Int) ∈ (P ++ a :: Q).map Prod.fst := by
            rw [e1]
            exact List.mem_cons_of_mem _ ((mem_stages h).mpr ⟨hrule, by omega, by omega⟩)
          obtain ⟨q, hq, hq1⟩ := List.mem_map.mp hmem
          have hqP : q ∈ P ++ [a] := by
            rcases List.mem_append.mp hq with hq | hq
            · simp [hq]
            · rcases List.mem_cons.mp hq with rfl | hq
              · simp
              · exfalso
                rw [List.map_append, List.pairwise_append, List.map_cons, List.pairwise_cons] at hsort
                have := hsort.2.1.1 q.1 (List.mem_map_of_mem hq)
                omega
          have h1 := hmono q hqP
          rcases (e3 q hq).cutover with h2 | h2
          · rw [hq1, hcut] at h2; omega
          · omega
      have := key (a.1 - t).toNat (by omega)
      rw [show t + ((a.1 - t).toNat : Int) = a.1 by omega] at this
      exact this

/-- Every rule keeps deciding alike whether it applies to the metric. -/
def StableFilters (env : Env) (as : ActiveRuleSet) (id : Bytes) : Prop :=
  (∀ r ∈ as.mappingRules, ∀ s ∈ r.snapshots, ∀ s' ∈ r.snapshots, env.filterMatches s.filter id = env.filterMatches s'.filter id) ∧
  (∀ r ∈ as.rollupRules, ∀ s ∈ r.snapshots, ∀ s' ∈ r.snapshots, env.filterMatches s.filter id = env.filterMatches s'.filter id)

theorem filterMap_filter_congr {α β : Type} {f g : α → Option β} {p : β → Bool} : ∀ {l : List α},
    (∀ a ∈ l, (f a).filter p = (g a).filter p) → (l.filterMap f).filter p = (l.filterMap g).filter p
  | [], _ => rfl
  | a :: l, h => by
    have ih := filterMap_filter_congr (p := p) fun b hb => h b (List.mem_cons_of_mem a hb)
    have ha := h a (by simp)
    rw [List.filterMap_cons, List.filterMap_cons]
    cases hf : f a with
    | none =>
      cases hg : g a with
      | none => exact ih
      | some y =>
        rw [hf, hg] at ha
        by_cases hy : p y = true
        · simp [Option.filter, hy] at ha
        · simp [hy, ih]
    | some x =>
      cases hg : g a with
      | none =>
        rw [hf, hg] at ha
        by_cases hx : p x = true
        · simp [Option.filter, hx] at ha
        · simp [hx, ih]
      | some y =>
        rw [hf, hg] at ha
        by_cases hx : p x = true
        · by_cases hy : p y = true
          · simp [Option.filter, hx, hy] at ha
            subst ha
            simp [hx, ih]
          · simp [Option.filter, hx, hy] at ha
        · by_cases hy : p y = true
          · simp [Option.filter, hx, hy] at ha
          · simp [hx, hy, ih]

/-- With stable filters, if every snapshot that applies at `c` had cut over before, the same ones applied before. -/
theorem matching_before {S : Type} [Snap S] (rules : List (Rule S)) (p : S → Bool) (c : Int)
    (hst : ∀ r ∈ rules, ∀ s ∈ r.snapshots, ∀ s' ∈ r.snapshots, p s = p s')
    (hold : ∀ s ∈ (current rules c).filter p, Snap.cutover s ≤ c - 1) :
    (current rules (c - 1)).filter p = (current rules c).filter p := by
  unfold current
  apply filterMap_filter_congr
  intro r hr
  cases hc : inForce r.snapshots c with
  | none =>
    cases hc' : inForce r.snapshots (c - 1) with
    | none => rfl
    | some s' =>
      exfalso
      obtain ⟨h1, h2⟩ := inForce_mem hc'
      have h3 : s' ∈ r.snapshots.filter (fun s => decide (Snap.cutover s ≤ c)) := by simp [h1]; omega
      unfold inForce at hc
      rw [List.getLast?_eq_none_iff] at hc
      rw [hc] at h3
      cases h3
  | some s =>
    by_cases hp : p s = true
    · have hsm : s ∈ (current rules c).filter p := by
        simp only [current, List.mem_filter, List.mem_filterMap]
        exact ⟨⟨r, hr, hc⟩, hp⟩
      rw [inForce_earlier hc (by omega) (hold s hsm)]
    · cases hc' : inForce r.snapshots (c - 1) with
      | none => simp [Option.filter, hp]
      | some s' =>
        have := hst r hr s (inForce_mem hc).1 s' (inForce_mem hc').1
        have hp' : ¬ p s' = true := by rw [← this]; exact hp
        simp [Option.filter, hp, hp']

/-- C36: when no rule changes whether it applies to the metric and no rollup rule that applies is ever deleted or
without targets, range matching agrees with point matching at every time. -/
theorem C36_stable_filters_partial (env : Env) (as : ActiveRuleSet) (h : Built as) (id : Bytes) (frm to t : Int)
    (h0 : 0 ≤ frm) (hst : StableFilters env as id)
    (hroll : ∀ r ∈ as.rollupRules, ∀ s ∈ r.snapshots, env.filterMatches s.filter id = true →
      s.tombstoned = false ∧ s.targets ≠ [])
    (hf : frm ≤ t) (ht : t < to) :
    ∃ m rest, (forwardMatch env as id frm to).forExistingIDAt t = m :: rest ∧
      m.pipelines = (forwardMatchAt env as id t).forExistingID.pipelines ∧ m.tombstoned = false ∧ m.cutoverNanos ≤ t := by
  refine C36_range_agrees_partial env as h id frm to t h0 ?_ hf ht
  intro c hfc hct hne
  have hle := existing_cutover_le env as id c (by omega)
  apply Classical.byContradiction
  intro hcut
  apply hne
  have hlt : (forwardMatchAt env as id c).forExistingID.cutoverNanos ≤ c - 1 := by omega
  rw [existing_cutover] at hlt
  have hM : matchingM env as.mappingRules id (c - 1) = matchingM env as.mappingRules id c := by
    unfold matchingM
    refine matching_before as.mappingRules (fun s => env.filterMatches s.filter id) c hst.1 ?_
    intro s hs
    have : s.cutoverNanos ≤ mappingCut env as id c := le_latest (List.mem_map_of_mem hs)
    show s.cutoverNanos ≤ _
    omega
  by_cases hn : env.nameAndTags id = none
  · have : ∀ u, rolledExisting env as id u = [] ∧ rollupCut env as id u = 0 := by
      intro u
      unfold rolledExisting rolled rollupCut
      simp [hn]
    have e : ∀ u, rollupResultsFor env as id u = {} := by
      intro u
      rw [rollupResultsFor_eq, (this u).2]
      unfold rolled
      simp [hn]
    unfold forwardMatchAt
    simp only [e, mappingsFor_congr env as as id hM]
  · have hR : matchingR env as.rollupRules id (c - 1) = matchingR env as.rollupRules id c := by
      unfold matchingR
      refine matching_before as.rollupRules (fun s => env.filterMatches s.filter id) c hst.2 ?_
      intro s hs
      have hs' : s ∈ matchingR env as.rollupRules id c := hs
      simp only [current, List.mem_filter, List.mem_filterMap] at hs
      obtain ⟨⟨r, hr, hin⟩, hmt⟩ := hs
      obtain ⟨hlive, htar⟩ := hroll r hr s (inForce_mem hin).1 hmt
      have hT : targetsAt env as id c ≠ [] := by
        intro hnil
        unfold targetsAt at hnil
        rw [List.flatMap_eq_nil_iff] at hnil
        exact htar (hnil s (by simp [live, hs', Snap.tombstoned, hlive]))
      have : s.cutoverNanos ≤ rollupCut env as id c := by
        unfold rollupCut
        rw [if_neg (by simp [hT, hn])]
        exact le_latest (List.mem_map_of_mem hs')
      show s.cutoverNanos ≤ _
      omega
    rw [forwardMatchAt_congr' env as as id hM hR]

/-! ### C36 without conditions -/

/-- The times of the stages of a range with the cutovers reported for them: what the point match reports, or the
stage's own time where that would fall behind the stage before. -/
def reportedAfter (cut : Int → Int) (prev : Int) : List Int → List (Int × Int)
  | [] => []
  | c :: cs =>
    let r := if cut c < prev then c else cut c
    (c, r) :: reportedAfter cut r cs

def reported (cut : Int → Int) (frm : Int) (cs : List Int) : List (Int × Int) :=
  (frm, cut frm) :: reportedAfter cut (cut frm) cs

/-- The point match at the first component, with the second as its cutover. -/
def stageAs (env : Env) (as : ActiveRuleSet) (id : Bytes) (p : Int × Int) : StagedMetadata :=
  { (forwardMatchAt env as id p.1).forExistingID with cutoverNanos := p.2 }

theorem reported_fold (env : Env) (as : ActiveRuleSet) (id : Bytes) :
    ∀ (cs : List Int) (ms : List StagedMetadata) (last : StagedMetadata),
    cs.foldl (fun ex c => mergeExisting ex (forwardMatchAt env as id c).forExistingID c) (ms ++ [last]) =
      ms ++ [last] ++ (reportedAfter (fun t => (forwardMatchAt env as id t).forExistingID.cutoverNanos)
        last.cutoverNanos cs).map (stageAs env as id)
  | [], ms, last => by simp [reportedAfter]
  | c :: cs, ms, last => by
    let next := (forwardMatchAt env as id c).forExistingID
    let next' : StagedMetadata := if last.cutoverNanos > next.cutoverNanos then { next with cutoverNanos := c } else next
    have hm : mergeExisting (ms ++ [last]) next c = (ms ++ [last]) ++ [next'] := by
      unfold mergeExisting
      simp only [List.getLast?_append, List.getLast?_singleton, Option.some_or]
      rfl
    rw [List.foldl_cons, hm, reported_fold env as id cs]
    simp only [reportedAfter, List.map_cons, List.append_assoc, List.singleton_append]
    by_cases hgt : next.cutoverNanos < last.cutoverNanos
    · have e : next' = { next with cutoverNanos := c } := if_pos hgt
      rw [if_pos hgt, e]
      rfl
    · have e : next' = next := if_neg hgt
      rw [if_neg hgt, e]
      rfl

/-- C36, what range matching returns, whatever the rules: a stage for the start and one for every rule time inside
the range, each with the point match at its time, and with the cutovers of `reported`. -/
theorem C36_exact (env : Env) (as : ActiveRuleSet) (h : Built as) (id : Bytes) (frm to : Int) :
    (forwardMatch env as id frm to).forExistingID =
      (reported (fun t => (forwardMatchAt env as id t).forExistingID.cutoverNanos) frm (stages as frm to)).map
        (stageAs env as id) := by
  rw [forwardMatch_eq env as h]
  have := reported_fold env as id (stages as frm to) [] (forwardMatchAt env as id frm).forExistingID
  simp only [List.nil_append] at this
  simp only [this, reported, List.map_cons, List.singleton_append]
  rfl

/-- C36 without conditions: what is reported as active at a time of the range is the point match at the last stage
whose reported cutover has passed, and this is the point match at that very time or at a later rule time of the
range, never an earlier one. -/
theorem C36_now_or_later (env : Env) (as : ActiveRuleSet) (h : Built as) (id : Bytes) (frm to t : Int)
    (h0 : 0 ≤ frm) (hf : frm ≤ t) (ht : t < to) :
    ∃ pre τ c post,
      reported (fun t => (forwardMatchAt env as id t).forExistingID.cutoverNanos) frm (stages as frm to) =
        pre ++ (τ, c) :: post ∧ c ≤ t ∧ (∀ q ∈ post, t < q.2) ∧
      (forwardMatch env as id frm to).forExistingIDAt t = ((τ, c) :: post).map (stageAs env as id) ∧
      (forwardMatchAt env as id τ = forwardMatchAt env as id t ∨
        IsRuleTime as.mappingRules as.rollupRules τ ∧ t < τ ∧ τ < to) := by
  have hex := C36_exact env as h id frm to
  obtain ⟨pairs, e1, e2, e3, e4⟩ := existing_pairs env as h id frm to h0
  have hsort : (pairs.map Prod.fst).Pairwise (· < ·) := by rw [e1]; exact times_sorted h frm to
  have hlen : ∀ (cut : Int → Int) (cs : List Int) (prev : Int), (reportedAfter cut prev cs).map Prod.fst = cs := by
    intro cut cs
    induction cs with
    | nil => intro _; rfl
    | cons c cs ih => intro prev; simp [reportedAfter, ih]
  -- the pairs are the reported stages
  have hpairs : pairs = (reported (fun t => (forwardMatchAt env as id t).forExistingID.cutoverNanos) frm
      (stages as frm to)).map (fun p => (p.1, stageAs env as id p)) := by
    have h1 : pairs.map Prod.fst = ((reported (fun t => (forwardMatchAt env as id t).forExistingID.cutoverNanos) frm
      (stages as frm to)).map (fun p => (p.1, stageAs env as id p))).map Prod.fst := by
      rw [e1, List.map_map]
      show _ = (reported _ frm (stages as frm to)).map Prod.fst
      simp [reported, hlen]
    have h2 : pairs.map Prod.snd = ((reported (fun t => (forwardMatchAt env as id t).forExistingID.cutoverNanos) frm
      (stages as frm to)).map (fun p => (p.1, stageAs env as id p))).map Prod.snd := by
      rw [e2, hex, List.map_map]
      rfl
    have key : ∀ (l l' : List (Int × StagedMetadata)), l.map Prod.fst = l'.map Prod.fst →
        l.map Prod.snd = l'.map Prod.snd → l = l' := by
      intro l
      induction l with
      | nil => intro l' a _; cases l' <;> simp_all
      | cons x l ih =>
        intro l' a b
        cases l' with
        | nil => simp at a
        | cons y l' =>
          simp only [List.map_cons, List.cons.injEq] at a b
          rw [ih l' a.2 b.2, Prod.ext a.1 b.1]
    exact key _ _ h1 h2
  unfold MatchResult.forExistingIDAt
  rcases activeStaged_spec (forwardMatch env as id frm to).forExistingID t with ⟨hall, _⟩ | ⟨pre, m, post, hsplit, hm, hpost, hres⟩
  · exfalso
    have hfm : frm ∈ pairs.map Prod.fst := by rw [e1]; simp
    obtain ⟨p, hp, hp1⟩ := List.mem_map.mp hfm
    have := hall p.2 (by rw [← e2]; exact List.mem_map_of_mem hp)
    have := (e3 p hp).le
    omega
  · rw [hex] at hsplit
    obtain ⟨P, a, Q, hr, hP, ha, hQ⟩ := map_eq_append_cons hsplit
    refine ⟨P, a.1, a.2, Q, hr, by rw [← ha] at hm; exact hm, ?_, ?_, ?_⟩
    · intro q hq
      exact hpost (stageAs env as id q) (by rw [← hQ]; exact List.mem_map_of_mem hq)
    · rw [hres, ← ha, ← hQ]; rfl
    · rw [hr] at hpairs
      have hamem : a.1 ∈ frm :: stages as frm to := by
        rw [← e1, hpairs]
        simp
      have hQt : ∀ q ∈ Q, t < q.1 := by
        intro q hq
        have h1 := hpost (stageAs env as id q) (by rw [← hQ]; exact List.mem_map_of_mem hq)
        have := (e3 (q.1, stageAs env as id q) (by rw [hpairs]; exact List.mem_map.mpr ⟨q, by simp [hq], rfl⟩)).le
        simp only at this
        omega
      by_cases hat : a.1 ≤ t
      · left
        have hafter : ∀ τ' ∈ frm :: stages as frm to, a.1 < τ' → t < τ' := by
          intro τ' hτ' hlt
          rw [hpairs, List.map_map] at hsort
          rw [← e1, hpairs, List.map_map] at hτ'
          obtain ⟨q, hq, hq1⟩ := List.mem_map.mp hτ'
          simp only [Function.comp] at hq1
          subst hq1
          rcases List.mem_append.mp hq with hq | hq
          · exfalso
            rw [List.map_append, List.pairwise_append] at hsort
            have := hsort.2.2 q.1 (List.mem_map.mpr ⟨q, hq, rfl⟩) a.1 (by simp)
            omega
          · rcases List.mem_cons.mp hq with rfl | hq
            · omega
            · exact hQt q hq
        exact (forwardMatchAt_congr env as id hat (quiet_of as h frm to a.1 t hamem ht hafter))
      · right
        rcases List.mem_cons.mp hamem with hm' | hm'
        · omega
        · have := (mem_stages h).mp hm'
          exact ⟨this.1, by omega, this.2.2⟩

/-- The rule set of `C36_violated`: the stage matched at 20 is reported with cutover 10, so it is what counts
at 15. -/
example : reported (fun t => (forwardMatchAt m3Env (newActiveRuleSet 1 exRules []) exID t).forExistingID.cutoverNanos) 15
    (stages (newActiveRuleSet 1 exRules []) 15 30) = [(15, 10), (20, 10)] := by
  decide +kernel

/-! #### Where C36 fails -/

/-- C36 is violated: over [15, 30) the metadata reported as active at 15 is the one in effect only from 20 on, with
one pipeline instead of two. -/
theorem C36_violated : ∃ as id, Built as ∧
    (((forwardMatch m3Env as id 15 30).forExistingIDAt 15).head?.map fun m => m.pipelines.length) = some 1 ∧
    (forwardMatchAt m3Env as id 15).forExistingID.pipelines.length = 2 :=
  ⟨newActiveRuleSet 1 exRules [], exID, ⟨1, _, [], rfl⟩, by decide +kernel, by decide +kernel⟩

/-- C36 is violated by the deletion of a rollup rule too, even if no filter ever changes. -/
theorem C36_violated_by_deletion : ∃ as id, Built as ∧ StableFilters m3Env as id ∧
    (((forwardMatch m3Env as id 15 30).forExistingIDAt 15).head?.map fun m => m.pipelines.length) = some 1 ∧
    (forwardMatchAt m3Env as id 15).forExistingID.pipelines.length = 2 :=
  ⟨newActiveRuleSet 1 [⟨bs "1", [exSnap "city:s*" 10 4]⟩] exDeleted, exID, ⟨1, _, _, rfl⟩,
    ⟨by simp [newActiveRuleSet], by simp [newActiveRuleSet, exDeleted, exRollup]⟩, by decide +kernel, by decide +kernel⟩

/-- The hypotheses of the theorem are met by a rule set that changes inside the range. -/
example : ∃ as id, Built as ∧ StableFilters m3Env as id ∧
    (∀ r ∈ as.rollupRules, ∀ s ∈ r.snapshots, m3Env.filterMatches s.filter id = true → s.tombstoned = false ∧ s.targets ≠ []) ∧
    stages as 6 30 = [10, 20] ∧ ((forwardMatch m3Env as id 6 30).forExistingID.map (·.pipelines.length)) = [1, 2, 2] :=
  ⟨newActiveRuleSet 1 [⟨bs "1", [exSnap "city:s*" 10 4]⟩, ⟨bs "2", [exSnap "city:s*" 5 8, exSnap "city:s*" 20 16]⟩] [], exID,
    ⟨1, _, _, rfl⟩, ⟨by simp [newActiveRuleSet, exSnap], by simp [newActiveRuleSet]⟩, by simp [newActiveRuleSet],
    by decide +kernel, by decide +kernel⟩

end Verif.Active
