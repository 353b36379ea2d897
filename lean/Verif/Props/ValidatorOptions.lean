import Verif.Model.Validator
/-
C76: what the validator options allow for a metric type, as a function of the history of setter calls.
-/
namespace Verif.Val
open Verif.Policy Verif.TagsFlt
open scoped Verif.Agg

/-! ### Specification -/

/-- The value of the last call that sets one, or `d`. -/
def lastVal (f : Setter → Option β) (d : β) (ss : List Setter) : β := ((ss.filterMap f).getLast?).getD d

def asDefaultStorage : Setter → Option (List StoragePolicy) | .defaultStorage ps => some ps | _ => none
def asDefaultFirst : Setter → Option (List AType) | .defaultFirst ts => some ts | _ => none
def asDefaultNonFirst : Setter → Option (List AType) | .defaultNonFirst ts => some ts | _ => none
def asStorage (t : MetricType) : Setter → Option (List StoragePolicy) | .storageFor u ps => if u = t then some ps else none | _ => none
def asFirst (t : MetricType) : Setter → Option (List AType) | .firstFor u ts => if u = t then some ts else none | _ => none
def asNonFirst (t : MetricType) : Setter → Option (List AType) | .nonFirstFor u ts => if u = t then some ts else none | _ => none
def asMulti : Setter → Option (List MetricType) | .multi ts => some ts | _ => none

/-- A call about the metric type `t` in particular. -/
def About (t : MetricType) : Setter → Bool
  | .storageFor u _ => u == t
  | .firstFor u _ => u == t
  | .nonFirstFor u _ => u == t
  | _ => false

/-- A call that sets a default. -/
def IsDefault : Setter → Bool
  | .defaultStorage _ => true
  | .defaultFirst _ => true
  | .defaultNonFirst _ => true
  | _ => false

/-- The calls before the first one about `t`; all of them when there is none. -/
def before (t : MetricType) (ss : List Setter) : List Setter := ss.takeWhile fun s => !(About t s)

/-! ### Proofs -/

theorem lastVal_snoc (f : Setter → Option β) (d : β) (ss : List Setter) (s : Setter) :
    lastVal f d (ss ++ [s]) = (f s).getD (lastVal f d ss) := by
  unfold lastVal
  rw [List.filterMap_append]
  cases h : f s with
  | none => simp [h]
  | some v => simp [h]

theorem before_snoc (t : MetricType) (ss : List Setter) (s : Setter) : before t (ss ++ [s]) =
    if ss.any (About t) then before t ss else if About t s then ss else ss ++ [s] := by
  unfold before
  induction ss with
  | nil => by_cases h : About t s = true <;> simp [h]
  | cons a ss ih =>
    by_cases h : About t a = true
    · simp [h]
    · simp only [List.cons_append, List.takeWhile_cons, h, List.any_cons, Bool.false_or]
      simp only [Bool.not_false, if_true, ih]
      repeat' split
      all_goals simp_all

theorem before_all (t : MetricType) (ss : List Setter) (h : ss.any (About t) = false) : before t ss = ss := by
  unfold before
  induction ss with
  | nil => rfl
  | cons a ss ih =>
    rw [List.any_cons, Bool.or_eq_false_iff] at h
    rw [List.takeWhile_cons, h.1, Bool.not_false, if_pos rfl, ih h.2]

/-- The history as the options record it. -/
structure Recorded (o : Options) (ss : List Setter) : Prop where
  storage : o.defaultStorage = lastVal asDefaultStorage [] ss
  first : o.defaultFirst = lastVal asDefaultFirst [] ss
  nonFirst : o.defaultNonFirst = lastVal asDefaultNonFirst [] ss
  multi : o.multi = lastVal asMulti [2] ss
  find : ∀ t, o.find t = if ss.any (About t) then some
    { storagePolicies := lastVal (asStorage t) (lastVal asDefaultStorage [] (before t ss)) ss
      firstLevel := lastVal (asFirst t) (lastVal asDefaultFirst [] (before t ss)) ss
      nonFirstLevel := lastVal (asNonFirst t) (lastVal asDefaultNonFirst [] (before t ss)) ss } else none

theorem find_put (o : Options) (t u : MetricType) (m : TypeMeta) :
    (o.put t m).find u = if t = u then some m else o.find u := by
  unfold Options.put Options.find
  simp only [List.find?_cons]
  by_cases h : t = u
  · simp [h]
  · have h1 : (t == u) = false := by simpa using h
    simp only [h1, h, if_false]
    congr 1
    rw [List.find?_filter]
    congr 1
    funext p
    by_cases hp : p.1 = u
    · have : ¬ u = t := fun e => h e.symm
      simp [hp, this]
    · simp [hp]

theorem findOrCreate_recorded {o : Options} {ss : List Setter} (h : Recorded o ss) (t : MetricType) : o.findOrCreate t =
    { storagePolicies := lastVal (asStorage t) (lastVal asDefaultStorage [] (before t ss)) ss
      firstLevel := lastVal (asFirst t) (lastVal asDefaultFirst [] (before t ss)) ss
      nonFirstLevel := lastVal (asNonFirst t) (lastVal asDefaultNonFirst [] (before t ss)) ss } := by
  have none_of : ∀ {β : Type} (f : Setter → Option β), (∀ s, About t s = false → f s = none) → ∀ d,
      ss.any (About t) = false → lastVal f d ss = d := by
    intro β f hf d ha
    unfold lastVal
    rw [List.filterMap_eq_nil_iff.mpr fun s hs => hf s (by simpa using List.any_eq_false.mp ha s hs)]
    rfl
  unfold Options.findOrCreate
  rw [h.find t]
  cases ha : ss.any (About t) with
  | true => rfl
  | false =>
    simp only [Bool.false_eq_true, if_false]
    rw [before_all t ss ha, none_of (asStorage t) _ _ ha, none_of (asFirst t) _ _ ha, none_of (asNonFirst t) _ _ ha,
      h.storage, h.first, h.nonFirst]
    all_goals
      intro s hs
      cases s <;> simp_all [asStorage, asFirst, asNonFirst, About]

theorem recorded_apply {o : Options} {ss : List Setter} (h : Recorded o ss) (s : Setter) : Recorded (o.apply s) (ss ++ [s]) := by
  -- a call that is not about any type leaves what is recorded for the types
  have plain : (∀ t, About t s = false) → (∀ t, asStorage t s = none) → (∀ t, asFirst t s = none) → (∀ t, asNonFirst t s = none) →
      ∀ o' : Options, o'.byType = o.byType → ∀ t, o'.find t = if (ss ++ [s]).any (About t) then some
        { storagePolicies := lastVal (asStorage t) (lastVal asDefaultStorage [] (before t (ss ++ [s]))) (ss ++ [s])
          firstLevel := lastVal (asFirst t) (lastVal asDefaultFirst [] (before t (ss ++ [s]))) (ss ++ [s])
          nonFirstLevel := lastVal (asNonFirst t) (lastVal asDefaultNonFirst [] (before t (ss ++ [s]))) (ss ++ [s]) } else none := by
    intro ha h1 h2 h3 o' ho t
    have hf : o'.find t = o.find t := by unfold Options.find; rw [ho]
    rw [hf, h.find t, List.any_append, before_snoc]
    simp only [List.any_cons, List.any_nil, Bool.or_false, ha t, lastVal_snoc, h1, h2, h3, Option.getD_none]
    cases hany : ss.any (About t) <;> simp
  -- a call about `u` rewrites what is recorded for `u`
  have about : ∀ (u : MetricType) (m : TypeMeta), About u s = true → (∀ t, t ≠ u → About t s = false ∧ asStorage t s = none ∧
      asFirst t s = none ∧ asNonFirst t s = none) →
      (m = { storagePolicies := (asStorage u s).getD (o.findOrCreate u).storagePolicies
             firstLevel := (asFirst u s).getD (o.findOrCreate u).firstLevel
             nonFirstLevel := (asNonFirst u s).getD (o.findOrCreate u).nonFirstLevel }) →
      ∀ t, (o.put u m).find t = if (ss ++ [s]).any (About t) then some
        { storagePolicies := lastVal (asStorage t) (lastVal asDefaultStorage [] (before t (ss ++ [s]))) (ss ++ [s])
          firstLevel := lastVal (asFirst t) (lastVal asDefaultFirst [] (before t (ss ++ [s]))) (ss ++ [s])
          nonFirstLevel := lastVal (asNonFirst t) (lastVal asDefaultNonFirst [] (before t (ss ++ [s]))) (ss ++ [s]) } else none := by
    intro u m ha hne hm t
    rw [find_put, List.any_append, before_snoc]
    simp only [List.any_cons, List.any_nil, Bool.or_false, lastVal_snoc]
    by_cases e : u = t
    · subst e
      rw [if_pos rfl, ha, Bool.or_true, if_pos rfl, hm, findOrCreate_recorded h u]
      simp only [if_true]
      cases hany : ss.any (About u) with
      | true => rfl
      | false =>
        rw [before_all u ss hany]
        rfl
    · obtain ⟨h0, h1, h2, h3⟩ := hne t (fun h => e h.symm)
      rw [if_neg e, h.find t, h0, h1, h2, h3]
      simp only [Bool.or_false, Option.getD_none]
      cases hany : ss.any (About t) <;> simp
  cases s with
  | defaultStorage ps =>
    exact ⟨by simp [lastVal_snoc, asDefaultStorage, Options.apply], by simp [lastVal_snoc, asDefaultFirst, Options.apply, h.first],
      by simp [lastVal_snoc, asDefaultNonFirst, Options.apply, h.nonFirst], by simp [lastVal_snoc, asMulti, Options.apply, h.multi],
      plain (fun _ => rfl) (fun _ => rfl) (fun _ => rfl) (fun _ => rfl) _ rfl⟩
  | defaultFirst ps =>
    exact ⟨by simp [lastVal_snoc, asDefaultStorage, Options.apply, h.storage], by simp [lastVal_snoc, asDefaultFirst, Options.apply],
      by simp [lastVal_snoc, asDefaultNonFirst, Options.apply, h.nonFirst], by simp [lastVal_snoc, asMulti, Options.apply, h.multi],
      plain (fun _ => rfl) (fun _ => rfl) (fun _ => rfl) (fun _ => rfl) _ rfl⟩
  | defaultNonFirst ps =>
    exact ⟨by simp [lastVal_snoc, asDefaultStorage, Options.apply, h.storage], by simp [lastVal_snoc, asDefaultFirst, Options.apply, h.first],
      by simp [lastVal_snoc, asDefaultNonFirst, Options.apply], by simp [lastVal_snoc, asMulti, Options.apply, h.multi],
      plain (fun _ => rfl) (fun _ => rfl) (fun _ => rfl) (fun _ => rfl) _ rfl⟩
  | multi ps =>
    exact ⟨by simp [lastVal_snoc, asDefaultStorage, Options.apply, h.storage], by simp [lastVal_snoc, asDefaultFirst, Options.apply, h.first],
      by simp [lastVal_snoc, asDefaultNonFirst, Options.apply, h.nonFirst], by simp [lastVal_snoc, asMulti, Options.apply],
      plain (fun _ => rfl) (fun _ => rfl) (fun _ => rfl) (fun _ => rfl) _ rfl⟩
  | storageFor u ps =>
    refine ⟨by simp [lastVal_snoc, asDefaultStorage, Options.apply, Options.put, h.storage],
      by simp [lastVal_snoc, asDefaultFirst, Options.apply, Options.put, h.first],
      by simp [lastVal_snoc, asDefaultNonFirst, Options.apply, Options.put, h.nonFirst],
      by simp [lastVal_snoc, asMulti, Options.apply, Options.put, h.multi],
      about u _ (by simp [About]) (fun t ht => ?_) (by simp [asStorage, asFirst, asNonFirst])⟩
    have : ¬ u = t := fun e => ht e.symm
    simp [About, asStorage, asFirst, asNonFirst, this]
  | firstFor u ps =>
    refine ⟨by simp [lastVal_snoc, asDefaultStorage, Options.apply, Options.put, h.storage],
      by simp [lastVal_snoc, asDefaultFirst, Options.apply, Options.put, h.first],
      by simp [lastVal_snoc, asDefaultNonFirst, Options.apply, Options.put, h.nonFirst],
      by simp [lastVal_snoc, asMulti, Options.apply, Options.put, h.multi],
      about u _ (by simp [About]) (fun t ht => ?_) (by simp [asStorage, asFirst, asNonFirst])⟩
    have : ¬ u = t := fun e => ht e.symm
    simp [About, asStorage, asFirst, asNonFirst, this]
  | nonFirstFor u ps =>
    refine ⟨by simp [lastVal_snoc, asDefaultStorage, Options.apply, Options.put, h.storage],
      by simp [lastVal_snoc, asDefaultFirst, Options.apply, Options.put, h.first],
      by simp [lastVal_snoc, asDefaultNonFirst, Options.apply, Options.put, h.nonFirst],
      by simp [lastVal_snoc, asMulti, Options.apply, Options.put, h.multi],
      about u _ (by simp [About]) (fun t ht => ?_) (by simp [asStorage, asFirst, asNonFirst])⟩
    have : ¬ u = t := fun e => ht e.symm
    simp [About, asStorage, asFirst, asNonFirst, this]

theorem recorded_foldl (fn : TagFilterValueMap → Option (List MetricType)) (ss : List Setter) :
    Recorded (ss.foldl Options.apply (newOptions fn)) ss := by
  have : ∀ (ss pre : List Setter) (o : Options), Recorded o pre → Recorded (ss.foldl Options.apply o) (pre ++ ss) := by
    intro ss
    induction ss with
    | nil => intro pre o h; simpa using h
    | cons s ss ih =>
      intro pre o h
      have := ih (pre ++ [s]) (o.apply s) (recorded_apply h s)
      simpa using this
  have h := this ss [] (newOptions fn) ⟨rfl, rfl, rfl, rfl, fun t => by simp [newOptions, Options.find]⟩
  simpa using h

/-- C76: after any calls on new options, what is allowed for a metric type is the last list given for that type, or else
the last default given before the first call about that type. -/
theorem C76_history (fn : TagFilterValueMap → Option (List MetricType)) (ss : List Setter) (t : MetricType) :
    let o := ss.foldl Options.apply (newOptions fn)
    (∀ p, o.allowsStorage t p = true ↔ p ∈ lastVal (asStorage t) (lastVal asDefaultStorage [] (before t ss)) ss) ∧
    (∀ a, o.allowsFirst t a = true ↔ a ∈ lastVal (asFirst t) (lastVal asDefaultFirst [] (before t ss)) ss) ∧
    (∀ a, o.allowsNonFirst t a = true ↔ a ∈ lastVal (asNonFirst t) (lastVal asDefaultNonFirst [] (before t ss)) ss) ∧
    (o.allowsMulti t = true ↔ t ∈ lastVal asMulti [2] ss) := by
  have h := recorded_foldl fn ss
  generalize ss.foldl Options.apply (newOptions fn) = o at h
  have hc := findOrCreate_recorded h t
  simp only
  have e1 : ∀ p, o.allowsStorage t p = (o.findOrCreate t).storagePolicies.contains p := by
    intro p; unfold Options.allowsStorage Options.findOrCreate; cases o.find t <;> rfl
  have e2 : ∀ p, o.allowsFirst t p = (o.findOrCreate t).firstLevel.contains p := by
    intro p; unfold Options.allowsFirst Options.findOrCreate; cases o.find t <;> rfl
  have e3 : ∀ p, o.allowsNonFirst t p = (o.findOrCreate t).nonFirstLevel.contains p := by
    intro p; unfold Options.allowsNonFirst Options.findOrCreate; cases o.find t <;> rfl
  refine ⟨fun p => ?_, fun p => ?_, fun p => ?_, ?_⟩
  · rw [e1, hc, List.contains_iff_mem]
  · rw [e2, hc, List.contains_iff_mem]
  · rw [e3, hc, List.contains_iff_mem]
  · unfold Options.allowsMulti
    rw [h.multi, List.contains_iff_mem]

theorem lastVal_before {β : Type} (f : Setter → Option β) (hf : ∀ s, IsDefault s = false → f s = none) (d : β) (t : MetricType) :
    ∀ ss : List Setter, (∀ pre post, ss = pre ++ post → pre.any (About t) = true → ∀ s ∈ post, IsDefault s = false) →
    lastVal f d (before t ss) = lastVal f d ss := by
  intro ss hd
  have hsplit : ss = before t ss ++ ss.dropWhile (fun s => !(About t s)) := (List.takeWhile_append_dropWhile).symm
  have hnone : (ss.dropWhile (fun s => !(About t s))).filterMap f = [] := by
    rw [List.filterMap_eq_nil_iff]
    intro s hs
    cases hdw : ss.dropWhile (fun s => !(About t s)) with
    | nil => rw [hdw] at hs; cases hs
    | cons a rest =>
      have ha : About t a = true := by
        have := List.head?_dropWhile_not (fun s => !(About t s)) ss
        rw [hdw] at this
        simpa using this
      have hna : IsDefault a = false := by
        clear hs hsplit hdw
        revert ha
        cases a <;> simp [About, IsDefault]
      rw [hdw] at hs hsplit
      rcases List.mem_cons.mp hs with rfl | hs
      · exact hf _ hna
      · exact hf s (hd (before t ss ++ [a]) rest (by rw [List.append_assoc]; exact hsplit) (by simp [ha]) s hs)
  unfold lastVal
  have : ss.filterMap f = (before t ss).filterMap f := by
    have := congrArg (List.filterMap f) hsplit
    rw [List.filterMap_append, hnone, List.append_nil] at this
    exact this
  rw [this]

/-- C76, part: when no default is set after a call about the type, what is allowed for the type is what was last given for
it, and otherwise the defaults as last set.  Missing for the full claim: a default set after a call about the type is ignored
for it (`C76_violation`). -/
theorem C76_partial (fn : TagFilterValueMap → Option (List MetricType)) (ss : List Setter) (t : MetricType)
    (hd : ∀ pre post, ss = pre ++ post → pre.any (About t) = true → ∀ s ∈ post, IsDefault s = false) :
    let o := ss.foldl Options.apply (newOptions fn)
    (∀ p, o.allowsStorage t p = true ↔ p ∈ lastVal (asStorage t) (lastVal asDefaultStorage [] ss) ss) ∧
    (∀ a, o.allowsFirst t a = true ↔ a ∈ lastVal (asFirst t) (lastVal asDefaultFirst [] ss) ss) ∧
    (∀ a, o.allowsNonFirst t a = true ↔ a ∈ lastVal (asNonFirst t) (lastVal asDefaultNonFirst [] ss) ss) := by
  obtain ⟨h1, h2, h3, _⟩ := C76_history fn ss t
  rw [lastVal_before asDefaultStorage (by intro s; cases s <;> simp [IsDefault, asDefaultStorage]) [] t ss hd] at h1
  rw [lastVal_before asDefaultFirst (by intro s; cases s <;> simp [IsDefault, asDefaultFirst]) [] t ss hd] at h2
  rw [lastVal_before asDefaultNonFirst (by intro s; cases s <;> simp [IsDefault, asDefaultNonFirst]) [] t ss hd] at h3
  exact ⟨h1, h2, h3⟩

/-- Types of aggregation allowed by default (7 is sum), and storage policies for counters. -/
def exDefaultsFirst : List Setter := [.defaultFirst [7], .storageFor 1 [⟨⟨10, 1⟩, 60⟩]]

def exDefaultsLast : List Setter := [.storageFor 1 [⟨⟨10, 1⟩, 60⟩], .defaultFirst [7]]

/-- C76 is violated: the same calls in another order forbid all aggregation types for counters. -/
theorem C76_violation (fn : TagFilterValueMap → Option (List MetricType)) :
    (exDefaultsFirst.foldl Options.apply (newOptions fn)).allowsFirst 1 7 = true ∧
    (∀ a, (exDefaultsLast.foldl Options.apply (newOptions fn)).allowsFirst 1 a = false) ∧
    exDefaultsFirst.Perm exDefaultsLast := by
  refine ⟨rfl, fun a => rfl, List.Perm.swap _ _ _⟩

example : (exDefaultsLast.foldl Options.apply (newOptions fun _ => none)).allowsFirst 3 7 = true ∧
    (∀ pre post, exDefaultsFirst = pre ++ post → pre.any (About 1) = true → ∀ s ∈ post, IsDefault s = false) := by
  refine ⟨rfl, fun pre post h hp => ?_⟩
  match pre, h with
  | [], _ => simp at hp
  | [_], h => simp only [exDefaultsFirst, List.cons_append, List.cons.injEq] at h; obtain ⟨rfl, _⟩ := h; simp [About] at hp
  | [_, _], h => simp only [exDefaultsFirst, List.cons_append, List.cons.injEq] at h; obtain ⟨_, _, h⟩ := h; simp at h; simp [h]
  | _ :: _ :: _ :: _, h => simp [exDefaultsFirst] at h

end Verif.Val
