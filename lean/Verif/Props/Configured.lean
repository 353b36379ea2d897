import Verif.Spec.Configured
import Verif.Props.ValidatorConfig
import Verif.Props.TypesConfig
import Verif.Props.Keys
/- C103: what is built from a configuration, and later changes of the configuration. -/
namespace Verif.Configured
open Verif.Keys Verif.TagsFlt Verif.Spec.Configured
open scoped Verif.Agg

theorem run_append (s : St) (a b : List Act) : run s (a ++ b) = run (run s a) b := by simp [run, List.foldl_append]

/-- What was built stays, and what was built after it comes behind. -/
theorem step_built (s : St) (a : Act) : ∃ l, (s.step a).built = s.built ++ l := by
  cases a <;> simp only [St.step]
  case buildMatcher p => cases s.matchers[p]? with
    | none => exact ⟨[], by simp⟩
    | some c => exact ⟨_, rfl⟩
  case buildCache p => cases s.caches[p]? with
    | none => exact ⟨[], by simp⟩
    | some c => exact ⟨_, rfl⟩
  case buildValidator c ns p => cases s.arrays[p]? with
    | none => exact ⟨[], by simp⟩
    | some c => exact ⟨_, rfl⟩
  case buildTypes c =>
    split
    · exact ⟨[], by simp⟩
    · cases (c.now s).newOptions with
      | none => exact ⟨[], by simp⟩
      | some c => exact ⟨_, rfl⟩
  all_goals exact ⟨[], by simp⟩

theorem run_built : ∀ (acts : List Act) (s : St), ∃ l, (run s acts).built = s.built ++ l
  | [], s => ⟨[], by simp [run]⟩
  | a :: acts, s => by
    obtain ⟨l, hl⟩ := step_built s a
    obtain ⟨l', hl'⟩ := run_built acts (s.step a)
    exact ⟨l ++ l', by rw [show run s (a :: acts) = run (s.step a) acts from rfl, hl', hl, List.append_assoc]⟩

/-- What a step does to the arrays. -/
theorem step_arrays (s : St) (act : Act) (a : Nat) (ha : a < s.arrays.length) (h : ∀ l, act = .setArray a l → some l = s.arrays[a]?) :
    (s.step act).arrays[a]? = s.arrays[a]? := by
  cases act <;> simp only [St.step]
  case newArray l => exact List.getElem?_append_left ha
  case setArray b l =>
    by_cases e : b = a
    · subst e
      rw [List.getElem?_set_self ha]
      exact h l rfl
    · exact List.getElem?_set_ne e
  all_goals repeat' split
  all_goals rfl

theorem step_arrays_length (s : St) (act : Act) : s.arrays.length ≤ (s.step act).arrays.length := by
  cases act <;> simp only [St.step]
  case newArray l => simp
  case setArray b l => simp
  all_goals repeat' split
  all_goals exact Nat.le_refl _

theorem run_arrays : ∀ (acts : List Act) (s : St) (a : Nat), a < s.arrays.length →
    (∀ l, .setArray a l ∈ acts → some l = s.arrays[a]?) → (run s acts).arrays[a]? = s.arrays[a]?
  | [], _, _, _, _ => rfl
  | act :: acts, s, a, ha, h => by
    have e := step_arrays s act a ha fun l hl => h l (hl ▸ List.mem_cons_self)
    rw [show run s (act :: acts) = run (s.step act) acts from rfl,
      run_arrays acts (s.step act) a (Nat.lt_of_lt_of_le ha (step_arrays_length s act))
        fun l hl => e ▸ h l (List.mem_cons_of_mem _ hl)]
    exact e

/-- What a step does to the formats. -/
theorem step_fmt (s : St) (act : Act) (p : Nat) (d : MatcherConfig) (hd : s.matchers[p]? = some d)
    (h : ∀ c, act = .setMatcherConfig p c → c.ruleSetKeyFmt = d.ruleSetKeyFmt) :
    ∃ d', (s.step act).matchers[p]? = some d' ∧ d'.ruleSetKeyFmt = d.ruleSetKeyFmt := by
  have hp : p < s.matchers.length := by
    rcases Nat.lt_or_ge p s.matchers.length with h | h
    · exact h
    · rw [List.getElem?_eq_none h] at hd; cases hd
  cases act <;> simp only [St.step]
  case newMatcherConfig c => exact ⟨d, by rw [List.getElem?_append_left hp]; exact hd, rfl⟩
  case setMatcherConfig q c =>
    by_cases e : q = p
    · subst e
      exact ⟨c, List.getElem?_set_self hp, h c rfl⟩
    · exact ⟨d, by rw [List.getElem?_set_ne e]; exact hd, rfl⟩
  all_goals repeat' split
  all_goals exact ⟨d, hd, rfl⟩

theorem run_fmt : ∀ (acts : List Act) (s : St) (p : Nat) (d : MatcherConfig), s.matchers[p]? = some d →
    (∀ c, .setMatcherConfig p c ∈ acts → c.ruleSetKeyFmt = d.ruleSetKeyFmt) →
    ∃ d', (run s acts).matchers[p]? = some d' ∧ d'.ruleSetKeyFmt = d.ruleSetKeyFmt
  | [], _, _, d, hd, _ => ⟨d, hd, rfl⟩
  | act :: acts, s, p, d, hd, h => by
    obtain ⟨d', e, f⟩ := step_fmt s act p d hd fun c hc => h c (hc ▸ List.mem_cons_self)
    obtain ⟨d'', e', f'⟩ := run_fmt acts (s.step act) p d' e fun c hc => (h c (List.mem_cons_of_mem _ hc)).trans f.symm
    exact ⟨d'', e', f'.trans f⟩

/-- What was built refers to what is there. -/
def Refers (s : St) : Built → Prop
  | .matcher o => ∃ p d, o.keyFn = .ofConfig p ∧ s.matchers[p]? = some d
  | .cache _ => True
  | .validator _ _ a => a < s.arrays.length
  | .types _ c t g => ∀ a, some a ∈ [c, t, g] → a < s.arrays.length

theorem step_matchers_length (s : St) (act : Act) : s.matchers.length ≤ (s.step act).matchers.length := by
  cases act <;> simp only [St.step]
  case newMatcherConfig l => simp
  case setMatcherConfig b l => simp
  all_goals repeat' split
  all_goals exact Nat.le_refl _

theorem refers_step (s : St) (act : Act) (b : Built) (h : Refers s b) : Refers (s.step act) b := by
  cases b with
  | matcher o =>
    obtain ⟨p, d, e, hd⟩ := h
    have hp : p < s.matchers.length := by
      rcases Nat.lt_or_ge p s.matchers.length with h | h
      · exact h
      · rw [List.getElem?_eq_none h] at hd; cases hd
    have hp' := Nat.lt_of_lt_of_le hp (step_matchers_length s act)
    exact ⟨p, _, e, List.getElem?_eq_getElem hp'⟩
  | cache o => trivial
  | validator o tag a => exact Nat.lt_of_lt_of_le h (step_arrays_length s act)
  | types o c t g => exact fun a ha => Nat.lt_of_lt_of_le (h a ha) (step_arrays_length s act)

theorem lt_of_some {l : List α} {i : Nat} {x : α} (h : l[i]? = some x) : i < l.length := by
  rcases Nat.lt_or_ge i l.length with h' | h'
  · exact h'
  · rw [List.getElem?_eq_none h'] at h; cases h

theorem newOptions_keyFn (c : MatcherConfig) (p : Nat) : (c.newOptions p).keyFn = .ofConfig p := by
  unfold MatcherConfig.newOptions
  repeat' split
  all_goals rfl

theorem all_refer_step (s : St) (act : Act) (h : ∀ b ∈ s.built, Refers s b) : ∀ b ∈ (s.step act).built, Refers (s.step act) b := by
  intro b hb
  by_cases old : b ∈ s.built
  · exact refers_step s act b (h b old)
  · cases act <;> simp only [St.step] at hb ⊢
    case buildMatcher p =>
      cases e : s.matchers[p]? with
      | none => simp only [e] at hb; exact absurd hb old
      | some c =>
        simp only [e, List.mem_append, List.mem_singleton] at hb ⊢
        rcases hb with hb | rfl
        · exact absurd hb old
        · exact ⟨p, c, newOptions_keyFn c p, e⟩
    case buildCache p =>
      cases e : s.caches[p]? with
      | none => simp only [e] at hb; exact absurd hb old
      | some c =>
        simp only [e, List.mem_append, List.mem_singleton] at hb ⊢
        rcases hb with hb | rfl
        · exact absurd hb old
        · trivial
    case buildValidator c ns a =>
      cases e : s.arrays[a]? with
      | none => simp only [e] at hb; exact absurd hb old
      | some l =>
        simp only [e, List.mem_append, List.mem_singleton] at hb ⊢
        rcases hb with hb | rfl
        · exact absurd hb old
        · exact lt_of_some e
    case buildTypes c =>
      by_cases hx : c.exist s = true
      · simp only [hx, Bool.not_true, Bool.false_eq_true, if_false] at hb ⊢
        cases e : (c.now s).newOptions with
        | none => simp only [e] at hb; exact absurd hb old
        | some o =>
          simp only [e, List.mem_append, List.mem_singleton] at hb ⊢
          rcases hb with hb | rfl
          · exact absurd hb old
          · intro a ha
            simp only [TypesRef.exist, Bool.and_eq_true, Option.all_eq_true, decide_eq_true_eq] at hx
            simp only [List.mem_cons, List.not_mem_nil, or_false] at ha
            rcases ha with ha | ha | ha
            · exact hx.1.1 a ha.symm
            · exact hx.1.2 a ha.symm
            · exact hx.2 a ha.symm
      · simp only [Bool.not_eq_true] at hx
        simp only [hx, Bool.not_false, if_true] at hb
        exact absurd hb old
    all_goals exact absurd hb old

theorem all_refer : ∀ (acts : List Act) (s : St), (∀ b ∈ s.built, Refers s b) → ∀ b ∈ (run s acts).built, Refers (run s acts) b
  | [], _, h => h
  | a :: acts, s, h => all_refer acts (s.step a) (all_refer_step s a h)

/-- C103, in part: what was built stays, and goes on to answer as it did, whatever is built or written later, as long as what it keeps
a reference to is not given other contents.  For caches there is no such thing. -/
theorem C103_partial (before after : List Act) (i : Nat) (b : Built) (hb : (run {} before).built[i]? = some b)
    (hu : Untouched (run {} before) b after) :
    (run {} (before ++ after)).built[i]? = some b ∧ Same (run {} before) (run {} (before ++ after)) b := by
  have hr := all_refer before {} (fun _ h => nomatch h) b (List.mem_of_getElem? hb)
  rw [run_append]
  refine ⟨?_, ?_⟩
  · obtain ⟨l, hl⟩ := run_built after (run {} before)
    rw [hl, List.getElem?_append_left (lt_of_some hb)]
    exact hb
  · generalize run {} before = s at hu hr ⊢
    cases b with
    | matcher o =>
      obtain ⟨p, d, e, hd⟩ := hr
      obtain ⟨d', e', f⟩ := run_fmt after s p d hd fun c hc => hu p c d e hc hd
      intro ns
      simp only [ruleSetKey, e, hd, e', f]
    | cache o => trivial
    | validator o tag a =>
      have := run_arrays after s a hr hu
      simp only [Same, validatorNow, St.array, this]
    | types o c t g =>
      have key : ∀ x : Option Nat, x ∈ [c, t, g] → x.map (run s after).array = x.map s.array := by
        intro x hx
        cases x with
        | none => rfl
        | some a =>
          have := run_arrays after s a (hr a hx) fun l hl => hu a l hx hl
          simp only [Option.map_some, St.array, this]
      simp only [Same, typesNow, key c (by simp), key t (by simp), key g (by simp)]

/-- C103: a cache answers to the settings it was built with, whatever happens later. -/
theorem C103_cache (before after : List Act) (i : Nat) (o : CacheOpts) (hb : (run {} before).built[i]? = some (.cache o)) :
    (run {} (before ++ after)).built[i]? = some (.cache o) :=
  (C103_partial before after i (.cache o) hb trivial).1

/-- C103: settings that are given are in force in what is built, and the defaults are for those that are not. -/
theorem C103_settings (s : St) (p : Nat) :
    (∀ c, s.matchers[p]? = some c → ∃ o, (s.step (.buildMatcher p)).built = s.built ++ [.matcher o] ∧
      o.namespacesKey = c.namespacesKey ∧ o.namespaceTag = c.namespaceTag ∧ o.defaultNamespace = c.defaultNamespace ∧
      o.nameTagKey = c.nameTagKey ∧ o.initWatchTimeout = given c.initWatchTimeout 10000000000 ∧
      o.matchRangePast = c.matchRangePast.getD 9223372036854775807 ∧
      ∀ ns, ruleSetKey (s.step (.buildMatcher p)) o ns = sprintfBytes c.ruleSetKeyFmt ns) ∧
    (∀ c, s.caches[p]? = some c → (s.step (.buildCache p)).built = s.built ++ [.cache
      { opts := { capacity := given c.capacity 200000, freshDuration := given c.freshDuration (5 * 60 * 1000000000)
                  stutterDuration := given c.stutterDuration (60 * 1000000000)
                  evictionBatchSize := given c.evictionBatchSize 1024, invalidateAll := true }
        deletionBatchSize := given c.deletionBatchSize 1024 }]) ∧
    (∀ c ns l, s.arrays[p]? = some l → ∃ o, (s.step (.buildValidator c ns p)).built = s.built ++ [.validator o c.typeTag p] ∧
      validatorNow (s.step (.buildValidator c ns p)) o c.typeTag p = ({ c with allowedTypes := l } : Val.Config).newOptions ns) ∧
    (∀ c o, c.exist s = true → (c.now s).newOptions = some o →
      (s.step (.buildTypes c)).built = s.built ++ [.types o c.counter c.timer c.gauge] ∧
      typesNow (s.step (.buildTypes c)) o c.counter c.timer c.gauge = o) := by
  refine ⟨?_, ?_, ?_, ?_⟩
  · intro c hc
    simp only [St.step, hc]
    refine ⟨_, rfl, ?_⟩
    have hk := newOptions_keyFn c p
    refine ⟨?_, ?_, ?_, ?_, ?_, ?_, ?_⟩
    case _ => unfold MatcherConfig.newOptions; repeat' split
              all_goals rfl
    case _ => unfold MatcherConfig.newOptions; repeat' split
              all_goals rfl
    case _ => unfold MatcherConfig.newOptions; repeat' split
              all_goals rfl
    case _ => unfold MatcherConfig.newOptions; repeat' split
              all_goals rfl
    case _ =>
      unfold MatcherConfig.newOptions given
      by_cases h0 : c.initWatchTimeout = 0
      · simp only [h0, ne_eq, not_true_eq_false, if_false, if_true]
        cases c.matchRangePast <;> rfl
      · simp only [h0, ne_eq, not_false_eq_true, if_true, if_false]
        cases c.matchRangePast <;> rfl
    case _ =>
      unfold MatcherConfig.newOptions
      cases c.matchRangePast with
      | none => by_cases h0 : c.initWatchTimeout = 0 <;> simp [h0, newMatcherOpts]
      | some d => rfl
    case _ => intro ns; simp only [ruleSetKey, hk, hc]; rfl
  · intro c hc
    simp only [St.step, hc, CacheConfig.newOptions, given]
    congr 2
    by_cases h1 : c.capacity = 0 <;> by_cases h2 : c.freshDuration = 0 <;> by_cases h3 : c.stutterDuration = 0 <;>
      by_cases h4 : c.evictionBatchSize = 0 <;> by_cases h5 : c.deletionBatchSize = 0 <;> simp [h1, h2, h3, h4, h5, newCacheOpts]
  · intro c ns l hl
    simp only [St.step, hl]
    refine ⟨_, rfl, ?_⟩
    have e := (Val.C80_options ({ c with allowedTypes := l } : Val.Config) ns 0).2.2.2.2.2.2.2.2.1
    have f : ({ ns := {}, typeTag := c.typeTag, allowedTypes := l } : Val.Config).metricTypesFn =
        ({ c with allowedTypes := l } : Val.Config).metricTypesFn := rfl
    simp only [validatorNow, St.array, hl, Option.getD_some, f, ← e]
  · intro c o hx ho
    simp only [St.step, hx, Bool.not_true, Bool.false_eq_true, if_false, ho, true_and]
    obtain ⟨_, h1, h2, h3⟩ := Agg.C82_names _ o ho
    have key : ∀ (x : Option Nat) (l d : List Int), l = (x.map s.array).getD d →
        (x.map s.array).getD l = l := by
      intro x l d h
      cases x with
      | none => rfl
      | some a => exact h.symm
    have k1 := key c.counter _ _ h1
    have k2 := key c.gauge _ _ h2
    have k3 := key c.timer _ _ h3
    have arr : ({ s with built := s.built ++ [.types o c.counter c.timer c.gauge] } : St).array = s.array := rfl
    simp only [typesNow, arr, k1, k2, k3]

/-! ### Violations -/

def exMatcher : MatcherConfig :=
  { namespacesKey := bs "/ns", ruleSetKeyFmt := bs "/rules/%s", namespaceTag := bs "app", defaultNamespace := bs "none", nameTagKey := bs "name"
    matchRangePast := some 5 }

/-- A program that builds from four configurations. -/
def exBuild : List Act :=
  [.newMatcherConfig exMatcher, .newCacheConfig { capacity := 7 }, .newArray [1, 3], .newArray [14], .buildMatcher 0, .buildCache 0,
    .buildValidator { ns := {}, typeTag := bs "t", allowedTypes := [] } (fun _ => none) 0, .buildTypes { timer := some 1 }]

/-- C103: options that no key format was set in have the keys "/ruleset/" followed by the namespace, whatever is built or changed. -/
theorem C103_default_key (s : St) (o : MatcherOpts) (h : o.keyFn = .default) (ns : Bytes) :
    ruleSetKey s o ns = some (bs "/ruleset/" ++ ns) := by
  unfold ruleSetKey
  rw [h]
  have hf : defaultRuleSetKeyFormat = Keys.around (bs "/ruleset/") [] := by decide
  simp only [hf]
  simpa using (Keys.C92_key (bs "/ruleset/") [] ns).2

/-- C103 fails: (1) options of a matcher whose configuration gets another key format, as for a second matcher, read the rules of the
first under other keys; (2) a validator built for counters and gauges takes rules to be for timers, after an assignment to the list its
configuration was made with; (3) aggregation options built with the median as the default of timers say that the default is the 99th
percentile, and go on to compute quantiles for the median. -/
theorem C103_violation :
    (∃ o, (run {} exBuild).built[0]? = some (.matcher o) ∧
      ruleSetKey (run {} exBuild) o (bs "a") = some (bs "/rules/a") ∧
      ruleSetKey (run {} (exBuild ++ [.setMatcherConfig 0 { exMatcher with ruleSetKeyFmt := bs "/other/%s" }, .buildMatcher 0])) o (bs "a") =
        some (bs "/other/a")) ∧
    (∃ o, (run {} exBuild).built[2]? = some (.validator o (bs "t") 0) ∧
      (validatorNow (run {} exBuild) o (bs "t") 0).metricTypesFn [] = some [1, 3] ∧
      (validatorNow (run {} (exBuild ++ [.setArray 0 [2, 3]])) o (bs "t") 0).metricTypesFn [] = some [2, 3]) ∧
    (∃ o, (run {} exBuild).built[3]? = some (.types o none (some 1) none) ∧
      (typesNow (run {} exBuild) o none (some 1) none).defaultTimer = [14] ∧
      (typesNow (run {} (exBuild ++ [.setArray 1 [20]])) o none (some 1) none).defaultTimer = [20] ∧
      (typesNow (run {} (exBuild ++ [.setArray 1 [20]])) o none (some 1) none).quantiles = [5000]) := by
  refine ⟨⟨_, rfl, ?_, ?_⟩, ⟨_, rfl, ?_, ?_⟩, ⟨_, rfl, ?_, ?_, ?_⟩⟩
  all_goals decide +kernel

/-- The program builds all four, and writes that leave the references alone satisfy the hypothesis of `C103_partial`. -/
example : (run {} exBuild).built.length = 4 ∧ ∀ b ∈ (run {} exBuild).built, Untouched (run {} exBuild) b
    [.setMatcherConfig 0 { exMatcher with namespacesKey := bs "/n" }, .setCacheConfig 0 {}, .setArray 0 [1, 3], .setArray 5 [2], .newArray [],
      .buildMatcher 0] := by
  refine ⟨by decide +kernel, ?_⟩
  intro b hb
  have e : (run {} exBuild).built = [_, _, _, _] := rfl
  rw [e] at hb
  simp only [List.mem_cons, List.not_mem_nil, or_false] at hb
  rcases hb with rfl | rfl | rfl | rfl
  · intro p c d hk hc hd
    cases hk
    simp only [List.mem_cons, Act.setMatcherConfig.injEq, true_and, reduceCtorEq, List.not_mem_nil, or_false] at hc
    subst hc
    cases hd
    rfl
  · trivial
  · intro l hl
    simp only [List.mem_cons, reduceCtorEq, Act.setArray.injEq, true_and, List.not_mem_nil, or_false, false_or] at hl
    rcases hl with rfl | ⟨h, _⟩
    · rfl
    · cases h
  · intro a l ha hl
    simp only [List.mem_cons, reduceCtorEq, Option.some.injEq, List.not_mem_nil, or_false, false_or] at ha
    subst ha
    simp at hl

end Verif.Configured
