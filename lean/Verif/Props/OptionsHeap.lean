import Verif.Spec.OptionsHeap
import Verif.Props.Validator
/-
C99: calling a setter leaves the options it is called on, and all that was built from them, as they were.
-/
namespace Verif.Opts
open Verif.Spec.OptionsHeap Verif.Policy
open scoped Verif.Agg

variable {α σ : Type}

/-- What holds of memory while setters copy: the `i`-th pointer is to an object of its own that holds the `i`-th value. -/
structure Copied (v : World α) (vals : List α) : Prop where
  heap : v.heap = vals
  ptrs : v.ptrs = List.range vals.length

theorem copied_read {v : World α} {vals : List α} (h : Copied v vals) (i : Nat) : v.read i = vals[i]? := by
  unfold World.read
  rw [h.ptrs, h.heap]
  rcases Nat.lt_or_ge i vals.length with hi | hi
  · simp [hi]
  · simp [List.getElem?_eq_none hi, Nat.not_lt.mpr hi]

theorem copied_step {new : α} {apply : σ → α → α} {v : World α} {vals : List α} (h : Copied v vals) (c : Call σ) :
    Copied (v.step .copies new apply c) (valuesStep new apply vals c) := by
  obtain ⟨h1, h2⟩ := h
  cases c with
  | new =>
    refine ⟨?_, ?_⟩
    · simp [World.step, valuesStep, h1]
    · simp [World.step, valuesStep, h1, h2, List.range_succ]
  | set i s =>
    rcases Nat.lt_or_ge i vals.length with hi | hi
    · have hp : v.ptrs[i]? = some i := by rw [h2]; simp [hi]
      have hh : v.heap[i]? = some vals[i] := by rw [h1]; exact List.getElem?_eq_getElem hi
      have hv : vals[i]? = some vals[i] := List.getElem?_eq_getElem hi
      refine ⟨?_, ?_⟩
      · simp only [World.step, hp, valuesStep, hv, callSetter, hh, h1]
      · simp only [World.step, hp, valuesStep, hv, callSetter, hh]
        simp [List.range_succ, h1, h2]
    · have hp : v.ptrs[i]? = none := by rw [h2]; simp [hi]
      have hv : vals[i]? = none := List.getElem?_eq_none hi
      simp only [World.step, hp, valuesStep, hv]
      exact ⟨h1, h2⟩

theorem copied_run (new : α) (apply : σ → α → α) : ∀ (cs : List (Call σ)) (v : World α) (vals : List α), Copied v vals →
    Copied (v.run .copies new apply cs) (cs.foldl (valuesStep new apply) vals)
  | [], _, _, h => h
  | c :: cs, v, vals, h => copied_run new apply cs _ _ (copied_step (new := new) (apply := apply) h c)

/-- C99, for all options but those of the validator: whatever a program does, each of the options it got holds the value that the
calls leading to it give, as if options were values. -/
theorem C99_values (new : α) (apply : σ → α → α) (cs : List (Call σ)) (i : Nat) :
    (World.run otherWay new apply {} cs).read i = (values new apply cs)[i]? :=
  copied_read (copied_run new apply cs {} [] ⟨rfl, rfl⟩) i

theorem valuesStep_prefix (new : α) (apply : σ → α → α) (vals : List α) (c : Call σ) :
    vals <+: valuesStep new apply vals c := by
  cases c with
  | new => exact List.prefix_append _ _
  | set i s =>
    simp only [valuesStep]
    cases vals[i]? with
    | none => exact List.prefix_refl _
    | some o => exact List.prefix_append _ _

theorem values_prefix (new : α) (apply : σ → α → α) : ∀ (cs : List (Call σ)) (vals : List α),
    vals <+: cs.foldl (valuesStep new apply) vals
  | [], _ => List.prefix_refl _
  | c :: cs, vals => (valuesStep_prefix new apply vals c).trans (values_prefix new apply cs _)

/-- C99, for all options but those of the validator: options a program has got hold the same whatever is done afterwards, and so does
anything built from them. -/
theorem C99_kept (new : α) (apply : σ → α → α) (before after : List (Call σ)) (i : Nat) (o : α)
    (h : (World.run otherWay new apply {} before).read i = some o) :
    (World.run otherWay new apply {} (before ++ after)).read i = some o := by
  rw [C99_values] at h ⊢
  obtain ⟨hi, rfl⟩ := List.getElem?_eq_some_iff.mp h
  have hp : values new apply before <+: values new apply (before ++ after) := by
    unfold values
    rw [List.foldl_append]
    exact values_prefix new apply after _
  exact (List.prefix_iff_getElem?.mp hp) i hi

/-- C99: options that only hold what they are given.  The new options have the value that was set and are otherwise as those the
setter was called on. -/
theorem C99_setting [DecidableEq φ] (new : φ → ν) (cs : List (Call (φ × ν))) (i : Nat) (f : φ) (x : ν) (o : φ → ν)
    (h : (World.run otherWay new setField {} cs).read i = some o) :
    ∃ o', (World.run otherWay new setField {} (cs ++ [.set i (f, x)])).read (values new setField cs).length = some o' ∧
      o' f = x ∧ ∀ g, g ≠ f → o' g = o g := by
  rw [C99_values] at h
  refine ⟨setField (f, x) o, ?_, by simp [setField], fun g hg => by simp [setField, hg]⟩
  rw [C99_values]
  unfold values at h ⊢
  rw [List.foldl_append]
  simp only [List.foldl_cons, List.foldl_nil, valuesStep, h]
  simp

/-- Beside C99: two matchers' options made of the same base, and the base. -/
example :
    let v := World.run otherWay (fun _ : MatcherField => 0) setField {}
      [.new, .set 0 (.matchRangePast, 5), .set 0 (.matchRangePast, 7), .set 1 (.namespaceTag, 2)]
    (v.read 0).map (fun o => (o .matchRangePast, o .namespaceTag)) = some (0, 0) ∧
    (v.read 1).map (fun o => (o .matchRangePast, o .namespaceTag)) = some (5, 0) ∧
    (v.read 2).map (fun o => (o .matchRangePast, o .namespaceTag)) = some (7, 0) ∧
    (v.read 3).map (fun o => (o .matchRangePast, o .namespaceTag)) = some (5, 2) := by decide +kernel

/-- Beside C99: aggregation options. The counters' names of the base are as they were after names of others were set. -/
example :
    let v := World.run otherWay (Agg.newTypesOptions fun _ => bs "p") (fun s o => o.apply s) {}
      [.new, .set 0 (.counterFn fun b => bs "." ++ b), .set 1 (.defaultCounter [2])]
    (v.read 0).map (fun o => (o.typeStringFor .counter 7, o.defaultCounter)) = some (some (bs "sum"), [7]) ∧
    (v.read 1).map (fun o => (o.typeStringFor .counter 7, o.defaultCounter)) = some (some (bs ".sum"), [7]) ∧
    (v.read 2).map (fun o => (o.typeStringFor .counter 7, o.defaultCounter)) = some (some (bs ".sum"), [2]) := by decide +kernel

/-! ### The validator's options -/

/-- What holds while setters write in place: the options not called on yet have objects of their own, which hold their values. -/
structure Moved (v : World α) (vals : List α) (used : List Nat) : Prop where
  len : v.ptrs.length = vals.length
  valid : ∀ p ∈ v.ptrs, p < v.heap.length
  apart : ∀ i j p, v.ptrs[i]? = some p → v.ptrs[j]? = some p → i ∉ used → j ∉ used → i = j
  holds : ∀ i, i ∉ used → v.read i = vals[i]?

theorem moved_step {new : α} {apply : σ → α → α} {v : World α} {vals : List α} {us : List Nat} (h : Moved v vals us) (c : Call σ)
    (hc : ∀ i s, c = .set i s → i ∉ us) :
    Moved (v.step .writes new apply c) (valuesStep new apply vals c) (us ++ used [c]) := by
  cases c with
  | new =>
    have hus : us ++ used [(Call.new : Call σ)] = us := by simp [used]
    rw [hus]
    refine ⟨by simp [World.step, valuesStep, h.len], ?_, ?_, ?_⟩
    · intro p hp
      simp only [World.step, List.mem_append, List.mem_singleton, List.length_append, List.length_singleton] at hp ⊢
      rcases hp with hp | rfl
      · exact Nat.lt_succ_of_lt (h.valid p hp)
      · exact Nat.lt_succ_self _
    · intro i j p hi hj hni hnj
      simp only [World.step] at hi hj
      rcases Nat.lt_or_ge i v.ptrs.length with li | li <;> rcases Nat.lt_or_ge j v.ptrs.length with lj | lj
      · rw [List.getElem?_append_left li] at hi
        rw [List.getElem?_append_left lj] at hj
        exact h.apart i j p hi hj hni hnj
      · rw [List.getElem?_append_left li] at hi
        rw [List.getElem?_append_right lj] at hj
        have hp := h.valid p (List.mem_of_getElem? hi)
        have : p = v.heap.length := by
          have := List.mem_of_getElem? hj
          simpa using this
        omega
      · rw [List.getElem?_append_right li] at hi
        rw [List.getElem?_append_left lj] at hj
        have hp := h.valid p (List.mem_of_getElem? hj)
        have : p = v.heap.length := by
          have := List.mem_of_getElem? hi
          simpa using this
        omega
      · rw [List.getElem?_append_right li] at hi
        rw [List.getElem?_append_right lj] at hj
        have hi' := (List.getElem?_eq_some_iff.mp hi).1
        have hj' := (List.getElem?_eq_some_iff.mp hj).1
        simp at hi' hj'
        omega
    · intro i hni
      have hh := h.holds i hni
      unfold World.read at hh ⊢
      simp only [World.step, valuesStep]
      rcases Nat.lt_trichotomy i v.ptrs.length with li | li | li
      · rw [List.getElem?_append_left li, List.getElem?_append_left (h.len ▸ li), ← hh]
        cases hp : v.ptrs[i]? with
        | none => rfl
        | some p => simp only [Option.bind_some]; rw [List.getElem?_append_left (h.valid p (List.mem_of_getElem? hp))]
      · rw [List.getElem?_append_right (Nat.le_of_eq li.symm), List.getElem?_append_right (by rw [← h.len, li]; exact Nat.le_refl _), li,
          h.len]
        simp
      · rw [List.getElem?_eq_none (by simp; omega), List.getElem?_eq_none (by simp; have := h.len; omega)]
        rfl
  | set k s =>
    have hus : us ++ used [Call.set k s] = us ++ [k] := by simp [used]
    have hk := hc k s rfl
    rw [hus]
    have hsub : ∀ i, i ∉ us ++ [k] → i ∉ us ∧ i ≠ k := fun i hi => by
      simp only [List.mem_append, List.mem_singleton, not_or] at hi
      exact hi
    have hhk := h.holds k hk
    cases hp : v.ptrs[k]? with
    | none =>
      have hv : vals[k]? = none := by
        rw [← hhk]
        unfold World.read
        rw [hp]
        rfl
      have e1 : v.step .writes new apply (.set k s) = v := by simp only [World.step, hp]
      have e2 : valuesStep new apply vals (.set k s) = vals := by simp only [valuesStep, hv]
      rw [e1, e2]
      exact ⟨h.len, h.valid, fun i j p hi hj hni hnj => h.apart i j p hi hj (hsub i hni).1 (hsub j hnj).1,
        fun i hni => h.holds i (hsub i hni).1⟩
    | some p =>
      have hpl := h.valid p (List.mem_of_getElem? hp)
      have hheap : v.heap[p]? = some v.heap[p] := List.getElem?_eq_getElem hpl
      have hv : vals[k]? = some v.heap[p] := by
        rw [← hhk]
        unfold World.read
        rw [hp]
        exact hheap
      have e1 : v.step .writes new apply (.set k s) = ⟨v.heap.set p (apply s v.heap[p]), v.ptrs ++ [p]⟩ := by
        simp only [World.step, hp, callSetter, hheap]
      have e2 : valuesStep new apply vals (.set k s) = vals ++ [apply s v.heap[p]] := by simp only [valuesStep, hv]
      have hkl : k < v.ptrs.length := (List.getElem?_eq_some_iff.mp hp).1
      rw [e1, e2]
      refine ⟨by simp [h.len], ?_, ?_, ?_⟩
      · intro q hq
        simp only [List.mem_append, List.mem_singleton] at hq
        rw [List.length_set]
        rcases hq with hq | rfl
        · exact h.valid q hq
        · exact hpl
      · intro i j q hi hj hni hnj
        obtain ⟨ni, nik⟩ := hsub i hni
        obtain ⟨nj, njk⟩ := hsub j hnj
        rcases Nat.lt_or_ge i v.ptrs.length with li | li <;> rcases Nat.lt_or_ge j v.ptrs.length with lj | lj
        · rw [List.getElem?_append_left li] at hi
          rw [List.getElem?_append_left lj] at hj
          exact h.apart i j q hi hj ni nj
        · rw [List.getElem?_append_left li] at hi
          rw [List.getElem?_append_right lj] at hj
          have : q = p := by simpa using List.mem_of_getElem? hj
          exact absurd (h.apart i k p (this ▸ hi) hp ni hk) nik
        · rw [List.getElem?_append_right li] at hi
          rw [List.getElem?_append_left lj] at hj
          have : q = p := by simpa using List.mem_of_getElem? hi
          exact absurd (h.apart j k p (this ▸ hj) hp nj hk) njk
        · rw [List.getElem?_append_right li] at hi
          rw [List.getElem?_append_right lj] at hj
          have hi' := (List.getElem?_eq_some_iff.mp hi).1
          have hj' := (List.getElem?_eq_some_iff.mp hj).1
          simp at hi' hj'
          omega
      · intro i hni
        obtain ⟨ni, nik⟩ := hsub i hni
        have hh := h.holds i ni
        unfold World.read at hh ⊢
        simp only
        rcases Nat.lt_trichotomy i v.ptrs.length with li | li | li
        · rw [List.getElem?_append_left li, List.getElem?_append_left (h.len ▸ li), ← hh]
          cases hq : v.ptrs[i]? with
          | none => rfl
          | some q =>
            have hne : p ≠ q := fun e => nik (h.apart i k p (e ▸ hq) hp ni hk)
            simp only [Option.bind_some]
            rw [List.getElem?_set_ne hne]
        · rw [List.getElem?_append_right (Nat.le_of_eq li.symm), List.getElem?_append_right (by rw [← h.len, li]; exact Nat.le_refl _), li,
            h.len]
          simp [hpl]
        · rw [List.getElem?_eq_none (by simp; omega), List.getElem?_eq_none (by simp; have := h.len; omega)]
          rfl

theorem moved_run (new : α) (apply : σ → α → α) : ∀ (cs : List (Call σ)) (v : World α) (vals : List α) (us : List Nat), Moved v vals us →
    (us ++ used cs).Nodup → Moved (v.run .writes new apply cs) (cs.foldl (valuesStep new apply) vals) (us ++ used cs)
  | [], _, _, us, h, _ => by simpa [used, World.run] using h
  | c :: cs, v, vals, us, h, hn => by
    have hu : used (c :: cs) = used [c] ++ used cs := by
      show List.filterMap _ ([c] ++ cs) = _
      rw [List.filterMap_append]
      rfl
    rw [hu, ← List.append_assoc] at hn ⊢
    refine moved_run new apply cs _ _ _ (moved_step (new := new) (apply := apply) h c fun i s hc hi => ?_) hn
    subst hc
    have hn' := (List.nodup_append.mp hn).1
    exact (List.nodup_append.mp hn').2.2 i hi i (by simp [used]) rfl

/-- C99, part: a program that calls a setter at most once on each of the validator options it has.  The options on which it has called
none hold the value that the calls leading to them give.  Missing for the full claim: options on which a setter was called
change with it, and so do all that come of the same call to `NewOptions` (`C99_violation`, `C99_all_alike`). -/
theorem C99_partial (new : Val.Options) (cs : List (Call VSetter)) (i : Nat) (once : (used cs).Nodup) (hi : i ∉ used cs) :
    (World.run validatorWay new VSetter.apply {} cs).read i = (values new VSetter.apply cs)[i]? := by
  have h := moved_run new VSetter.apply cs {} [] [] ⟨rfl, by simp, by simp, by simp [World.read]⟩ (by simpa using once)
  rw [List.nil_append] at h
  exact h.holds i hi

/-- Beside C99, part: options made in a chain, and others made apart. -/
example :
    let cs : List (Call VSetter) := [.new, .set 0 (.maxLevels 2), .new, .set 1 (.maxOrder 3), .set 2 (.maxLevels 5)]
    (used cs).Nodup ∧ 3 ∉ used cs ∧ 4 ∉ used cs ∧
    ((World.run validatorWay (Val.newOptions fun _ => none) VSetter.apply {} cs).read 3).map (fun o => (o.maxLevels, o.maxOrder)) =
      some (2, 3) ∧
    ((World.run validatorWay (Val.newOptions fun _ => none) VSetter.apply {} cs).read 4).map (fun o => (o.maxLevels, o.maxOrder)) =
      some (5, 1) := by decide +kernel

/-- Writing in place, one pointer. -/
theorem writes_one (new : α) (apply : σ → α → α) : ∀ (ss : List (Nat × σ)) (n : Nat) (o : α),
    (∀ k (hk : k < ss.length), ss[k].1 < n + 1 + k) →
    (World.run .writes new apply ⟨[o], List.replicate (n + 1) 0⟩ (ss.map fun e => .set e.1 e.2)) =
      ⟨[ss.foldl (fun o e => apply e.2 o) o], List.replicate (n + 1 + ss.length) 0⟩
  | [], _, _, _ => rfl
  | e :: ss, n, o, h => by
    have he : (List.replicate (n + 1) 0)[e.1]? = some 0 := by
      rw [List.getElem?_replicate, if_pos (show e.1 < n + 1 from h 0 (Nat.zero_lt_succ _))]
    have hs : World.step .writes new apply ⟨[o], List.replicate (n + 1) 0⟩ (.set e.1 e.2) =
        ⟨[apply e.2 o], List.replicate (n + 1 + 1) 0⟩ := by
      simp only [World.step, he, callSetter, List.getElem?_cons_zero, List.set_cons_zero]
      rw [List.replicate_succ' (n := n + 1)]
    have ih := writes_one new apply ss (n + 1) (apply e.2 o)
      (fun k hk => by have := h (k + 1) (by simpa using hk); simp only [List.getElem_cons_succ] at this; omega)
    simp only [List.map_cons, World.run, List.foldl_cons] at ih ⊢
    rw [hs, ih]
    simp only [List.length_cons]
    congr 2
    omega

/-- C99, what is the case instead for the validator: all options that come of one call to `NewOptions` hold the same, all that was
set on any of them, in the order of the calls. -/
theorem C99_all_alike (new : Val.Options) (ss : List (Nat × VSetter)) (h : ∀ k (hk : k < ss.length), ss[k].1 ≤ k) (i : Nat) (hi : i ≤ ss.length) :
    (World.run validatorWay new VSetter.apply {} (.new :: ss.map fun e => .set e.1 e.2)).read i =
      some (ss.foldl (fun o e => e.2.apply o) new) := by
  have hw := writes_one new VSetter.apply ss 0 new (fun k hk => by have := h k hk; omega)
  have e : World.run validatorWay new VSetter.apply {} (.new :: ss.map fun e => .set e.1 e.2) =
      World.run .writes new VSetter.apply ⟨[new], List.replicate (0 + 1) 0⟩ (ss.map fun e => .set e.1 e.2) := rfl
  rw [e, hw]
  unfold World.read
  simp only [List.getElem?_replicate]
  rw [if_pos (by omega)]
  rfl

/-- Beside C99: three options of one base, called on in turn. -/
example :
    let v := World.run validatorWay (Val.newOptions fun _ => none) VSetter.apply {}
      (.new :: [(0, VSetter.maxLevels 2), (0, .maxLevels 3), (1, .maxOrder 4)].map fun e => .set e.1 e.2)
    (v.read 0).map (fun o => (o.maxLevels, o.maxOrder)) = some (3, 4) ∧ (v.read 1).map (fun o => (o.maxLevels, o.maxOrder)) = some (3, 4) ∧
    (v.read 2).map (fun o => (o.maxLevels, o.maxOrder)) = some (3, 4) := by decide +kernel

/-- C99: a setter of the validator options sets what it is called after, and nothing else. -/
theorem C99_setters (o : Val.Options) :
    (∀ v, let o' := VSetter.apply (.nsValidator v) o
      o'.nsValidator = v ∧ { o' with nsValidator := o.nsValidator } = o) ∧
    (∀ fn, let o' := VSetter.apply (.metricTypesFn fn) o
      o'.metricTypesFn = fn ∧ { o' with metricTypesFn := o.metricTypesFn } = o) ∧
    (∀ ts, let o' := VSetter.apply (.requiredTags ts) o
      o'.requiredTags = ts ∧ { o' with requiredTags := o.requiredTags } = o) ∧
    (∀ n, let o' := VSetter.apply (.maxOrder n) o
      o'.maxOrder = n ∧ { o' with maxOrder := o.maxOrder } = o) ∧
    (∀ n, let o' := VSetter.apply (.maxLevels n) o
      o'.maxLevels = n ∧ { o' with maxLevels := o.maxLevels } = o) ∧
    (∀ cs, let o' := VSetter.apply (.tagInvalid cs) o
      o'.tagInvalid = cs ∧ { o' with tagInvalid := o.tagInvalid } = o) ∧
    (∀ cs, let o' := VSetter.apply (.nameInvalid cs) o
      o'.nameInvalid = cs ∧ { o' with nameInvalid := o.nameInvalid } = o) ∧
    (∀ ts, let o' := VSetter.apply (.of (.multi ts)) o
      o'.multi = ts ∧ { o' with multi := o.multi } = o) :=
  ⟨fun _ => ⟨rfl, rfl⟩, fun _ => ⟨rfl, rfl⟩, fun _ => ⟨rfl, rfl⟩, fun _ => ⟨rfl, rfl⟩, fun _ => ⟨rfl, rfl⟩, fun _ => ⟨rfl, rfl⟩,
    fun _ => ⟨rfl, rfl⟩, fun _ => ⟨rfl, rfl⟩⟩

/-- Two teams start from the same options: one wants rollups of two levels and makes a validator, the other wants none. -/
def exTeams : List (Call VSetter) := [.new, .set 0 (.maxLevels 2), .set 0 (.maxLevels 0)]

/-- C99 is violated by the validator's options: the validator of the first team accepts a rule set, and no longer does when the second
team has set its options. -/
theorem C99_violation : ∃ v s,
    newValidator (World.run validatorWay Val.exDeployment VSetter.apply {} (exTeams.take 2)).heap 0 = some v ∧
    v.validate (World.run validatorWay Val.exDeployment VSetter.apply {} (exTeams.take 2)).heap s = some none ∧
    v.validate (World.run validatorWay Val.exDeployment VSetter.apply {} exTeams).heap s ≠ some none ∧
    ((values Val.exDeployment VSetter.apply exTeams)[1]?.map fun o => Val.validateSnapshot o s) = some none := by
  refine ⟨⟨0, Val.exDeployment.nsValidator⟩, Val.exSnapshot [bs "c"], rfl, ?_, ?_, ?_⟩ <;> decide +kernel

/-- C99, what a validator goes by: the namespace check of the options at the time it was made and, for the rest, the options as they
are when it is asked.  Whatever is called on its options in between, it accepts what meets these. -/
theorem C99_validator (h h' : Heap Val.Options) (p : Nat) (o o' : Val.Options) (v : Validator) (s : RuleSet.RuleSetView)
    (hv : newValidator h p = some v) (ho : h[p]? = some o) (ho' : h'[p]? = some o') :
    v.validate h' s = some none ↔ Spec.Val.SnapshotOk (Val.limits { o' with nsValidator := o.nsValidator }) s := by
  unfold newValidator at hv
  rw [ho, Option.map_some] at hv
  cases hv
  unfold Validator.validate
  simp only [ho', Option.map_some, Option.some.injEq]
  exact Val.C53_accepts_iff _ s

/-- Beside C99: a namespace check set after the validator was made is not made by it. -/
example :
    let h := [{ Val.exDeployment with nsValidator := fun _ => none }]
    let h' := [VSetter.apply (.nsValidator fun _ => some .other) Val.exDeployment]
    (newValidator h 0).map (fun v => v.validate h' (Val.exSnapshot [bs "c"])) = some (some none) ∧
    (newValidator h' 0).map (fun v => v.validate h' (Val.exSnapshot [bs "c"])) ≠ some (some none) := by decide +kernel

end Verif.Opts
