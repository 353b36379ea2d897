import Verif.Props.Configured
/- C103: exactly what was built answers after later assignments to the configurations. -/
namespace Verif.Configured
open Verif.Keys Verif.TagsFlt Verif.Spec.Configured
open scoped Verif.Agg

theorem lastArray_cons (a : Nat) (s : St) (act : Act) (l : List Int) (after : List Act) (h : s.arrays[a]? = some l) :
    ∃ l', (s.step act).arrays[a]? = some l' ∧ lastArray a l (act :: after) = lastArray a l' after := by
  have ha := lt_of_some h
  cases act
  case setArray b l' =>
    by_cases e : b = a
    · subst e
      exact ⟨l', List.getElem?_set_self ha, by rw [lastArray, if_pos rfl]⟩
    · refine ⟨l, ?_, by rw [lastArray, if_neg e]⟩
      simp only [St.step]
      rw [List.getElem?_set_ne e]
      exact h
  all_goals
    refine ⟨l, ?_, rfl⟩
    rw [← h]
    exact step_arrays s _ a ha (fun _ e => nomatch e)

/-- An array holds what was assigned to it last. -/
theorem run_lastArray (a : Nat) : ∀ (after : List Act) (s : St) (l : List Int), s.arrays[a]? = some l →
    (run s after).arrays[a]? = some (lastArray a l after)
  | [], _, _, h => h
  | act :: after, s, l, h => by
    obtain ⟨l', h', e⟩ := lastArray_cons a s act l after h
    rw [e]
    exact run_lastArray a after (s.step act) l' h'

theorem lastFormat_cons (p : Nat) (s : St) (act : Act) (d : MatcherConfig) (after : List Act) (h : s.matchers[p]? = some d) :
    ∃ d', (s.step act).matchers[p]? = some d' ∧
      lastFormat p d.ruleSetKeyFmt (act :: after) = lastFormat p d'.ruleSetKeyFmt after := by
  have hp := lt_of_some h
  have k := step_fmt s act p d h
  cases act
  case setMatcherConfig q c =>
    by_cases e : q = p
    · subst e
      exact ⟨c, List.getElem?_set_self hp, by rw [lastFormat, if_pos rfl]⟩
    · refine ⟨d, ?_, by rw [lastFormat, if_neg e]⟩
      simp only [St.step]
      rw [List.getElem?_set_ne e]
      exact h
  all_goals
    obtain ⟨d', e, f⟩ := k (fun _ e => nomatch e)
    exact ⟨d', e, by rw [f]; rfl⟩

/-- The format of a configuration is the one assigned last. -/
theorem run_lastFormat (p : Nat) : ∀ (after : List Act) (s : St) (d : MatcherConfig), s.matchers[p]? = some d →
    ∃ d', (run s after).matchers[p]? = some d' ∧ d'.ruleSetKeyFmt = lastFormat p d.ruleSetKeyFmt after
  | [], _, d, h => ⟨d, h, rfl⟩
  | act :: after, s, d, h => by
    obtain ⟨d', h', e⟩ := lastFormat_cons p s act d after h
    rw [e]
    exact run_lastFormat p after (s.step act) d' h'

/-- C103, exactly.  After any program, (1) the options of a matcher make the keys of rule sets with the format that was assigned to the
configuration last; (2) a validator takes the metric types from the list as assigned last; (3) the default types of aggregation options
are those lists as assigned last, where a list was given, while all else, with the quantiles, stays as it was built.  So what was built
answers as before if and only if what was assigned last to what it refers to makes the same keys, or has the same elements. -/
theorem C103_exact (before after : List Act) (b : Built) (hb : b ∈ (run {} before).built) :
    match (generalizing := false) b with
    | .matcher o => ∃ p d, o.keyFn = .ofConfig p ∧ (run {} before).matchers[p]? = some d ∧
        (∀ ns, ruleSetKey (run {} (before ++ after)) o ns = sprintfBytes (lastFormat p d.ruleSetKeyFmt after) ns) ∧
        (Same (run {} before) (run {} (before ++ after)) b ↔
          ∀ ns, sprintfBytes d.ruleSetKeyFmt ns = sprintfBytes (lastFormat p d.ruleSetKeyFmt after) ns)
    | .cache _ => Same (run {} before) (run {} (before ++ after)) b
    | .validator o tag a => ∃ l, (run {} before).arrays[a]? = some l ∧
        (validatorNow (run {} (before ++ after)) o tag a).metricTypesFn =
          ({ ns := {}, typeTag := tag, allowedTypes := lastArray a l after } : Val.Config).metricTypesFn ∧
        (Same (run {} before) (run {} (before ++ after)) b ↔ l = lastArray a l after)
    | .types o c t g =>
        (∀ a ∈ c, ∃ l, (run {} before).arrays[a]? = some l ∧
          (typesNow (run {} (before ++ after)) o c t g).defaultCounter = lastArray a l after) ∧
        (∀ a ∈ t, ∃ l, (run {} before).arrays[a]? = some l ∧
          (typesNow (run {} (before ++ after)) o c t g).defaultTimer = lastArray a l after) ∧
        (∀ a ∈ g, ∃ l, (run {} before).arrays[a]? = some l ∧
          (typesNow (run {} (before ++ after)) o c t g).defaultGauge = lastArray a l after) ∧
        (typesNow (run {} (before ++ after)) o c t g).quantiles = o.quantiles ∧
        (Same (run {} before) (run {} (before ++ after)) b ↔
          ∀ a l, some a ∈ [c, t, g] → (run {} before).arrays[a]? = some l → l = lastArray a l after) := by
  have hr := all_refer before {} (fun _ h => nomatch h) b hb
  clear hb
  simp only [run_append]
  generalize run {} before = s at hr ⊢
  cases b with
  | matcher o =>
    obtain ⟨p, d, e, hd⟩ := hr
    obtain ⟨d', e', f⟩ := run_lastFormat p after s d hd
    have k : ∀ ns, ruleSetKey (run s after) o ns = sprintfBytes (lastFormat p d.ruleSetKeyFmt after) ns := by
      intro ns
      simp only [ruleSetKey, e, e', f]
      rfl
    refine ⟨p, d, e, hd, k, ?_⟩
    have k0 : ∀ ns, ruleSetKey s o ns = sprintfBytes d.ruleSetKeyFmt ns := by
      intro ns
      simp only [ruleSetKey, e, hd]
      rfl
    simp only [Same, k, k0]
  | cache o => trivial
  | validator o tag a =>
    have hl : s.arrays[a]? = some s.arrays[a] := List.getElem?_eq_getElem hr
    have h2 := run_lastArray a after s _ hl
    refine ⟨_, hl, ?_, ?_⟩
    · simp only [validatorNow, St.array, h2, Option.getD_some]
    · constructor
      · intro h
        have := congrArg (fun o : Val.Options => o.metricTypesFn []) h
        simpa [validatorNow, St.array, h2, hl, Val.Config.metricTypesFn] using this
      · intro h
        simp only [Same, validatorNow, St.array, h2, hl, Option.getD_some]
        rw [← h]
  | types o c t g =>
    have key : ∀ a, some a ∈ [c, t, g] → ∃ l, s.arrays[a]? = some l ∧ s.array a = l ∧ (run s after).array a = lastArray a l after := by
      intro a ha
      have hl : s.arrays[a]? = some s.arrays[a]! := by
        rw [List.getElem?_eq_getElem (hr a ha), getElem!_pos s.arrays a (hr a ha)]
      exact ⟨_, hl, by simp only [St.array, hl, Option.getD_some],
        by simp only [St.array, run_lastArray a after s _ hl, Option.getD_some]⟩
    refine ⟨?_, ?_, ?_, rfl, ?_⟩
    · intro a ha
      obtain ⟨l, h1, _, h3⟩ := key a (by simp [Option.mem_def.1 ha])
      exact ⟨l, h1, by simp only [typesNow, Option.mem_def.1 ha, Option.map_some, Option.getD_some, h3]⟩
    · intro a ha
      obtain ⟨l, h1, _, h3⟩ := key a (by simp [Option.mem_def.1 ha])
      exact ⟨l, h1, by simp only [typesNow, Option.mem_def.1 ha, Option.map_some, Option.getD_some, h3]⟩
    · intro a ha
      obtain ⟨l, h1, _, h3⟩ := key a (by simp [Option.mem_def.1 ha])
      exact ⟨l, h1, by simp only [typesNow, Option.mem_def.1 ha, Option.map_some, Option.getD_some, h3]⟩
    · constructor
      · intro h a l ha hl
        obtain ⟨l', h1, h2, h3⟩ := key a ha
        have e : l = l' := Option.some.inj (hl.symm.trans h1)
        subst e
        rw [← h3, ← h2]
        simp only [List.mem_cons, List.not_mem_nil, or_false] at ha
        rcases ha with rfl | rfl | rfl
        · simpa [typesNow] using congrArg Agg.Options.defaultCounter h
        · simpa [typesNow] using congrArg Agg.Options.defaultTimer h
        · simpa [typesNow] using congrArg Agg.Options.defaultGauge h
      · intro h
        have m : ∀ x : Option Nat, x ∈ [c, t, g] → x.map s.array = x.map (run s after).array := by
          intro x hx
          cases x with
          | none => rfl
          | some a =>
            obtain ⟨l, h1, h2, h3⟩ := key a hx
            simp only [Option.map_some, h2, h3]
            rw [← h a l hx h1]
        simp only [Same, typesNow, m c (by simp), m t (by simp), m g (by simp)]

/-- Another format assigned to a configuration is the one in force, until the first is assigned again; an array holds what was assigned
to it, whatever is assigned to others. -/
example : lastFormat 0 exMatcher.ruleSetKeyFmt
      [.setMatcherConfig 0 { exMatcher with ruleSetKeyFmt := bs "/other/%s" }, .buildMatcher 0] = bs "/other/%s" ∧
    lastFormat 0 exMatcher.ruleSetKeyFmt
      [.setMatcherConfig 0 { exMatcher with ruleSetKeyFmt := bs "/other/%s" }, .setMatcherConfig 0 exMatcher] = bs "/rules/%s" ∧
    lastArray 1 [14] [.setArray 0 [2, 3], .setArray 1 [20], .newArray [5]] = [20] := by decide +kernel

end Verif.Configured
