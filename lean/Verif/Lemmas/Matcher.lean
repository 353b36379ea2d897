import Verif.Model.Matcher
import Verif.Lemmas.Cache
/-
Lemmas on the processing of namespace updates.
-/
namespace Verif.Matcher
open Verif.Active Verif.Cache Verif.NS

/-- The ruleset of a namespace. -/
def NsSt.ruleset (s : NsSt) (ns : Bytes) : Option RS := (mget s.rules ns).map s.objs

/-- Each namespace has at most one ruleset, and no two share one. -/
structure WF (s : NsSt) : Prop where
  keys : (s.rules.map (·.1)).Nodup
  vals : (s.rules.map (·.2)).Nodup

theorem WF.inj {s : NsSt} (h : WF s) {a b : Bytes} {src : Nat} (ha : mget s.rules a = some src) (hb : mget s.rules b = some src) : a = b := by
  have := inj_of_nodup_map _ _ h.vals _ _ (mget_mem ha) (mget_mem hb) rfl
  exact congrArg Prod.fst this

theorem mget_none_of_notMem {α : Type} {m : List (Bytes × α)} {k : Bytes} (h : k ∉ m.map (·.1)) : mget m k = none := by
  cases hg : mget m k with
  | none => rfl
  | some v => exact absurd (List.mem_map.mpr ⟨(k, v), mget_mem hg, rfl⟩) h

theorem mget_isSome_iff {α : Type} {m : List (Bytes × α)} {k : Bytes} : (mget m k).isSome ↔ k ∈ m.map (·.1) := by
  constructor
  · intro h
    refine Classical.byContradiction fun hc => ?_
    rw [mget_none_of_notMem hc] at h; cases h
  · intro h
    obtain ⟨⟨k', v⟩, hm, rfl⟩ := List.mem_map.mp h
    unfold mget
    rw [Option.isSome_map, List.find?_isSome]
    exact ⟨_, hm, by simp⟩

theorem mem_mdel {α : Type} {m : List (Bytes × α)} {k : Bytes} {x : Bytes × α} : x ∈ mdel m k ↔ x ∈ m ∧ x.1 ≠ k := by
  simp [mdel]

theorem mdel_of_notMem {α : Type} {m : List (Bytes × α)} {k : Bytes} (h : k ∉ m.map (·.1)) : mdel m k = m := by
  unfold mdel
  rw [List.filter_eq_self]
  intro x hx
  simp only [ne_eq, decide_eq_true_eq]
  intro e
  exact h (List.mem_map.mpr ⟨x, hx, e⟩)

/-! ### The first loop -/

/-- The object used for a namespace of the update. -/
def target (e : Env63) (s : NsSt) (ns : Bytes) : Nat := (mget s.rules ns).getD (e.fresh ns)

/-- The object of the namespace before it is watched or unwatched. -/
def before (s : NsSt) (ns : Bytes) : RS := (s.ruleset ns).getD newRuleSet

theorem addOne_objs (e : Env63) (s : NsSt) (ns : Bytes) (elem : Namespace) (x : Nat) :
    (addOne e s ns elem).1.objs x = if x = target e s ns then (watchOrNot e elem ns (before s ns)).1 else s.objs x := by
  unfold addOne target before NsSt.getOrNew NsSt.ruleset
  cases h : mget s.rules ns with
  | some src => simp [NsSt.put]
  | none =>
    simp only [NsSt.put, Option.getD_none, Option.map_none, if_true]
    split <;> rfl

theorem addOne_rules (e : Env63) (s : NsSt) (ns : Bytes) (elem : Namespace) :
    (addOne e s ns elem).1.rules = if (mget s.rules ns).isSome then s.rules else mset s.rules ns (e.fresh ns) := by
  unfold addOne NsSt.getOrNew
  cases h : mget s.rules ns <;> simp [NsSt.put]

theorem addOne_mget (e : Env63) (s : NsSt) (ns : Bytes) (elem : Namespace) (ns' : Bytes) :
    mget (addOne e s ns elem).1.rules ns' = if ns' = ns then some (target e s ns) else mget s.rules ns' := by
  rw [addOne_rules]
  unfold target
  cases h : mget s.rules ns with
  | some src =>
    simp only [Option.isSome_some, if_true, Option.getD_some]
    split
    · next hc => rw [hc, h]
    · rfl
  | none =>
    simp only [Option.isSome_none, Bool.false_eq_true, if_false, Option.getD_none]
    rw [mget_mset]

theorem addOne_events (e : Env63) (s : NsSt) (ns : Bytes) (elem : Namespace) :
    (addOne e s ns elem).2 = (if (watchOrNot e elem ns (before s ns)).2 then [.updated (target e s ns)] else []) ++
      (if (mget s.rules ns).isSome then [] else [.added ns (e.fresh ns)]) := by
  unfold addOne target before NsSt.getOrNew NsSt.ruleset
  cases h : mget s.rules ns with
  | some src => simp
  | none => simp [NsSt.put]

theorem addOne_wf (e : Env63) {s : NsSt} (h : WF s) (ns : Bytes) (elem : Namespace)
    (hf : mget s.rules ns = none → e.fresh ns ∉ s.rules.map (·.2)) : WF (addOne e s ns elem).1 := by
  cases hg : mget s.rules ns with
  | some src =>
    have : (addOne e s ns elem).1.rules = s.rules := by rw [addOne_rules, hg]; rfl
    exact ⟨by rw [this]; exact h.keys, by rw [this]; exact h.vals⟩
  | none =>
    have hr : (addOne e s ns elem).1.rules = mset s.rules ns (e.fresh ns) := by rw [addOne_rules, hg]; rfl
    refine ⟨by rw [hr]; exact nodup_mset h.keys _ _, ?_⟩
    have hn : ns ∉ s.rules.map (·.1) := fun hm => by
      rw [← mget_isSome_iff, hg] at hm; cases hm
    rw [hr]
    unfold mset
    rw [mdel_of_notMem hn, List.map_append, List.nodup_append]
    refine ⟨h.vals, by simp, ?_⟩
    intro a ha b hb
    simp only [List.map_cons, List.map_nil, List.mem_singleton] at hb
    subst hb
    exact fun e' => hf hg (e' ▸ ha)

theorem addOne_ruleset (e : Env63) {s : NsSt} (h : WF s) (ns : Bytes) (elem : Namespace)
    (hf : mget s.rules ns = none → e.fresh ns ∉ s.rules.map (·.2)) (ns' : Bytes) :
    (addOne e s ns elem).1.ruleset ns' = if ns' = ns then some (watchOrNot e elem ns (before s ns)).1 else s.ruleset ns' := by
  unfold NsSt.ruleset
  rw [addOne_mget]
  split
  · simp only [Option.map_some, addOne_objs, if_true]
  · next hc =>
    cases hg : mget s.rules ns' with
    | none => rfl
    | some src =>
      simp only [Option.map_some, addOne_objs]
      rw [if_neg]
      intro e'
      unfold target at e'
      cases h0 : mget s.rules ns with
      | some src0 =>
        rw [h0] at e'
        simp only [Option.getD_some] at e'
        exact hc (h.inj hg (e' ▸ h0))
      | none =>
        rw [h0] at e'
        simp only [Option.getD_none] at e'
        exact hf h0 (e' ▸ List.mem_map.mpr ⟨_, mget_mem hg, rfl⟩)

/-- What the first loop is given: distinct names, and new objects for the names that have none. -/
structure AddOK (e : Env63) (l : List (Bytes × Namespace)) (s : NsSt) : Prop where
  names : (l.map (·.1)).Nodup
  unused : ∀ ns ∈ l.map (·.1), mget s.rules ns = none → e.fresh ns ∉ s.rules.map (·.2)
  distinct : ∀ a ∈ l.map (·.1), ∀ b ∈ l.map (·.1), e.fresh a = e.fresh b → a = b

theorem AddOK.tail {e : Env63} {ns : Bytes} {elem : Namespace} {l : List (Bytes × Namespace)} {s : NsSt}
    (h : AddOK e ((ns, elem) :: l) s) : AddOK e l (addOne e s ns elem).1 := by
  refine ⟨(List.nodup_cons.mp h.names).2, ?_, fun a ha b hb => h.distinct a (List.mem_cons_of_mem _ ha) b (List.mem_cons_of_mem _ hb)⟩
  intro ns' hm hg
  rw [addOne_mget] at hg
  split at hg
  · cases hg
  · next hne =>
    have h0 := h.unused ns' (List.mem_cons_of_mem _ hm) hg
    rw [addOne_rules]
    split
    · exact h0
    · intro hc
      obtain ⟨⟨k, v⟩, hx, hv⟩ := List.mem_map.mp hc
      unfold mset at hx
      rw [List.mem_append, mem_mdel] at hx
      rcases hx with hx | hx
      · exact h0 (List.mem_map.mpr ⟨_, hx.1, hv⟩)
      · simp only [List.mem_singleton, Prod.mk.injEq] at hx
        simp only at hv
        exact hne (h.distinct ns' (List.mem_cons_of_mem _ hm) ns (by simp) (by rw [← hv, hx.2]))

theorem addLoop_spec (e : Env63) : ∀ (l : List (Bytes × Namespace)) (s : NsSt), WF s → AddOK e l s →
    WF (addLoop e l s).1 ∧
    (∀ ns, ns ∉ l.map (·.1) → mget (addLoop e l s).1.rules ns = mget s.rules ns ∧ (addLoop e l s).1.ruleset ns = s.ruleset ns) ∧
    (∀ ns elem, (ns, elem) ∈ l → mget (addLoop e l s).1.rules ns = some (target e s ns) ∧
      (addLoop e l s).1.ruleset ns = some (watchOrNot e elem ns (before s ns)).1) ∧
    (∀ ns src, (addLoop e l s).2.count (.added ns src) = if ns ∈ l.map (·.1) ∧ mget s.rules ns = none ∧ src = e.fresh ns then 1 else 0) ∧
    (∀ ns, (addLoop e l s).2.count (.removed ns) = 0) ∧
    (∀ src, .updated src ∈ (addLoop e l s).2 ↔ ∃ ns elem, (ns, elem) ∈ l ∧ src = target e s ns ∧ (watchOrNot e elem ns (before s ns)).2 = true) := by
  intro l
  induction l with
  | nil => intro s h _; exact ⟨h, fun _ _ => ⟨rfl, rfl⟩, by simp, by simp [addLoop], by simp [addLoop], by simp [addLoop]⟩
  | cons x rest ih =>
    obtain ⟨n0, el⟩ := x
    intro s h ok
    have hf := ok.unused n0 (by simp)
    obtain ⟨i1, i2, i3, i4, i5, i6⟩ := ih (addOne e s n0 el).1 (addOne_wf e h n0 el hf) ok.tail
    have hn0 : n0 ∉ rest.map (·.1) := (List.nodup_cons.mp ok.names).1
    have other : ∀ ns, ns ≠ n0 → mget (addOne e s n0 el).1.rules ns = mget s.rules ns ∧ (addOne e s n0 el).1.ruleset ns = s.ruleset ns ∧
        target e (addOne e s n0 el).1 ns = target e s ns ∧ before (addOne e s n0 el).1 ns = before s ns := by
      intro ns hne
      have a : mget (addOne e s n0 el).1.rules ns = mget s.rules ns := by rw [addOne_mget, if_neg hne]
      have b : (addOne e s n0 el).1.ruleset ns = s.ruleset ns := by rw [addOne_ruleset e h n0 el hf, if_neg hne]
      exact ⟨a, b, by unfold target; rw [a], by unfold before; rw [b]⟩
    refine ⟨i1, ?_, ?_, ?_, ?_, ?_⟩
    · intro ns hns
      simp only [List.map_cons, List.mem_cons, not_or] at hns
      obtain ⟨a, b⟩ := i2 ns hns.2
      obtain ⟨c, d, _⟩ := other ns hns.1
      exact ⟨a.trans c, b.trans d⟩
    · intro ns elem hm
      rcases List.mem_cons.mp hm with hm | hm
      · cases hm
        obtain ⟨a, b⟩ := i2 n0 hn0
        refine ⟨a.trans ?_, b.trans ?_⟩
        · rw [addOne_mget, if_pos rfl]
        · rw [addOne_ruleset e h _ _ hf, if_pos rfl]
      · have hne : ns ≠ n0 := fun e' => hn0 (e' ▸ List.mem_map.mpr ⟨_, hm, rfl⟩)
        obtain ⟨a, b⟩ := i3 ns elem hm
        obtain ⟨_, _, c, d⟩ := other ns hne
        rw [c] at a; rw [d] at b
        exact ⟨a, b⟩
    · intro ns src
      show ((addOne e s n0 el).2 ++ (addLoop e rest (addOne e s n0 el).1).2).count (.added ns src) = _
      rw [List.count_append, i4, addOne_events, List.count_append]
      have u : List.count (Event.added ns src) (if (watchOrNot e el n0 (before s n0)).2 then [.updated (target e s n0)] else []) = 0 := by
        split <;> simp
      rw [u, Nat.zero_add]
      by_cases hne : ns = n0
      · subst hne
        simp only [List.map_cons, List.mem_cons, true_or, true_and, hn0, false_and, if_false, Nat.add_zero]
        cases hg : mget s.rules ns with
        | some _ => simp
        | none => simp only [Option.isSome_none, Bool.false_eq_true, if_false, true_and, List.count_cons, List.count_nil, Nat.zero_add]
                  by_cases hs : src = e.fresh ns
                  · subst hs; simp
                  · rw [if_neg hs, if_neg]; simp; exact fun e' => hs e'.symm
      · obtain ⟨c, _⟩ := other ns hne
        rw [c]
        have z : List.count (Event.added ns src) (if (mget s.rules n0).isSome then [] else [.added n0 (e.fresh n0)]) = 0 := by
          split
          · rfl
          · rw [List.count_eq_zero]
            simp only [List.mem_singleton, Event.added.injEq, not_and]
            exact fun e' => absurd e' hne
        rw [z, Nat.zero_add]
        have : (ns ∈ List.map (fun x => x.1) ((n0, el) :: rest)) ↔ ns ∈ List.map (fun x => x.1) rest := by
          rw [List.map_cons, List.mem_cons]
          exact ⟨fun h => h.resolve_left hne, Or.inr⟩
        simp only [this]
    · intro ns
      show ((addOne e s n0 el).2 ++ (addLoop e rest (addOne e s n0 el).1).2).count (.removed ns) = _
      rw [List.count_append, i5, Nat.add_zero, addOne_events, List.count_eq_zero, List.mem_append]
      rintro (hm | hm) <;> split at hm <;> simp at hm
    · intro src
      show .updated src ∈ (addOne e s n0 el).2 ++ (addLoop e rest (addOne e s n0 el).1).2 ↔ _
      rw [List.mem_append, i6, addOne_events, List.mem_append]
      have z : ¬ Event.updated src ∈ (if (mget s.rules n0).isSome then [] else [Event.added n0 (e.fresh n0)]) := by split <;> simp
      constructor
      · rintro ((hm | hm) | ⟨ns, elem, hm, h1, h2⟩)
        · split at hm
          · next hw =>
            simp only [List.mem_singleton, Event.updated.injEq] at hm
            exact ⟨n0, el, by simp, hm, hw⟩
          · simp at hm
        · exact absurd hm z
        · have hne : ns ≠ n0 := fun e' => hn0 (e' ▸ List.mem_map.mpr ⟨_, hm, rfl⟩)
          obtain ⟨_, _, c, d⟩ := other ns hne
          rw [c] at h1; rw [d] at h2
          exact ⟨ns, elem, List.mem_cons_of_mem _ hm, h1, h2⟩
      · rintro ⟨ns, elem, hm, h1, h2⟩
        rcases List.mem_cons.mp hm with hm | hm
        · cases hm
          left; left
          rw [if_pos h2, h1]; simp
        · have hne : ns ≠ n0 := fun e' => hn0 (e' ▸ List.mem_map.mpr ⟨_, hm, rfl⟩)
          obtain ⟨_, _, c, d⟩ := other ns hne
          exact Or.inr ⟨ns, elem, hm, by rw [c]; exact h1, by rw [d]; exact h2⟩

/-! ### The second loop -/

/-- The ruleset is deleted, and no longer in the match window. -/
def Gone (e : Env63) (ns : Bytes) (r : RS) : Prop := r.tombstoned = true ∧ r.cutoverNanos ≤ e.now ns - e.past

theorem removeOne_eq (e : Env63) (inc : List (Bytes × Namespace)) (s : NsSt) (ns : Bytes) (src : Nat) :
    (mget inc ns = none ∧ Gone e ns (s.objs src) ∧
      removeOne e inc s ns src = ({ s.put src (s.objs src).unwatch with rules := mdel s.rules ns }, [.removed ns])) ∨
    (¬ (mget inc ns = none ∧ Gone e ns (s.objs src)) ∧ removeOne e inc s ns src = (s, [])) := by
  unfold removeOne Gone
  cases hi : mget inc ns with
  | some _ => right; simp
  | none =>
    simp only [Option.isSome_none, Bool.false_eq_true, if_false, true_and]
    split
    · next h =>
      left
      simp only [Bool.and_eq_true, decide_eq_true_eq] at h
      exact ⟨h, by trivial⟩
    · next h =>
      right
      simp only [Bool.and_eq_true, decide_eq_true_eq] at h
      exact ⟨h, by trivial⟩

theorem nodup_mdel_vals {m : List (Bytes × Nat)} (h : (m.map (·.2)).Nodup) (k : Bytes) : ((mdel m k).map (·.2)).Nodup :=
  List.Nodup.sublist (List.Sublist.map _ List.filter_sublist) h

theorem removeLoop_spec (e : Env63) (inc : List (Bytes × Namespace)) : ∀ (l : List (Bytes × Nat)) (s : NsSt), WF s →
    (l.map (·.1)).Nodup → (∀ x ∈ l, x ∈ s.rules) →
    WF (removeLoop e inc l s).1 ∧
    (∀ ns, ns ∉ l.map (·.1) → mget (removeLoop e inc l s).1.rules ns = mget s.rules ns ∧ (removeLoop e inc l s).1.ruleset ns = s.ruleset ns) ∧
    (∀ ns src, (ns, src) ∈ l → mget inc ns = none → Gone e ns (s.objs src) →
      mget (removeLoop e inc l s).1.rules ns = none ∧ (removeLoop e inc l s).1.objs src = (s.objs src).unwatch) ∧
    (∀ ns src, (ns, src) ∈ l → ¬ (mget inc ns = none ∧ Gone e ns (s.objs src)) →
      mget (removeLoop e inc l s).1.rules ns = mget s.rules ns ∧ (removeLoop e inc l s).1.ruleset ns = s.ruleset ns) ∧
    (∀ src, src ∉ l.map (·.2) → (removeLoop e inc l s).1.objs src = s.objs src) ∧
    (∀ ns, ((∃ src, (ns, src) ∈ l ∧ mget inc ns = none ∧ Gone e ns (s.objs src)) → (removeLoop e inc l s).2.count (.removed ns) = 1) ∧
      (¬ (∃ src, (ns, src) ∈ l ∧ mget inc ns = none ∧ Gone e ns (s.objs src)) → (removeLoop e inc l s).2.count (.removed ns) = 0)) ∧
    (∀ ev ∈ (removeLoop e inc l s).2, ∃ ns, ev = .removed ns) := by
  intro l
  induction l with
  | nil => intro s h _ _; exact ⟨h, fun _ _ => ⟨rfl, rfl⟩, by simp, by simp, by simp [removeLoop], by simp [removeLoop], by simp [removeLoop]⟩
  | cons x rest ih =>
    obtain ⟨n0, s0⟩ := x
    intro s h hnd hsub
    obtain ⟨hn0, hnd'⟩ := List.nodup_cons.mp hnd
    have hx0 : (n0, s0) ∈ s.rules := hsub _ (by simp)
    have hg0 : mget s.rules n0 = some s0 := mget_of_mem h.keys hx0
    have hs0 : s0 ∉ rest.map (·.2) := by
      intro hm
      obtain ⟨⟨k, v⟩, hy, hv⟩ := List.mem_map.mp hm
      simp only at hv
      subst hv
      have := inj_of_nodup_map _ _ h.vals _ _ hx0 (hsub _ (List.mem_cons_of_mem _ hy)) rfl
      cases this
      exact hn0 (List.mem_map.mpr ⟨_, hy, rfl⟩)
    have hun : removeLoop e inc ((n0, s0) :: rest) s =
        ((removeLoop e inc rest (removeOne e inc s n0 s0).1).1,
          (removeOne e inc s n0 s0).2 ++ (removeLoop e inc rest (removeOne e inc s n0 s0).1).2) := rfl
    rcases removeOne_eq e inc s n0 s0 with ⟨hin, hgone, heq⟩ | ⟨hno, heq⟩
    · rw [heq] at hun
      let s1 : NsSt := { s.put s0 (s.objs s0).unwatch with rules := mdel s.rules n0 }
      have hun' : removeLoop e inc ((n0, s0) :: rest) s = ((removeLoop e inc rest s1).1, [.removed n0] ++ (removeLoop e inc rest s1).2) := hun
      have w1 : WF s1 := ⟨nodup_mdel h.keys _, nodup_mdel_vals h.vals _⟩
      have sub1 : ∀ x ∈ rest, x ∈ s1.rules := by
        intro x hx
        show x ∈ mdel s.rules n0
        rw [mem_mdel]
        exact ⟨hsub x (List.mem_cons_of_mem _ hx), fun e' => hn0 (List.mem_map.mpr ⟨x, hx, e'⟩)⟩
      obtain ⟨i1, i2, i3, i4, i5, i6, i7⟩ := ih s1 w1 hnd' sub1
      have g1 : ∀ ns, mget s1.rules ns = if ns = n0 then none else mget s.rules ns := fun ns => mget_mdel _ _ _
      have o1 : ∀ x, x ≠ s0 → s1.objs x = s.objs x := fun x hx => by show (if x = s0 then _ else _) = _; rw [if_neg hx]
      have r1 : ∀ ns, ns ≠ n0 → s1.ruleset ns = s.ruleset ns := by
        intro ns hne
        unfold NsSt.ruleset
        rw [g1, if_neg hne]
        cases hg : mget s.rules ns with
        | none => rfl
        | some v =>
          simp only [Option.map_some]
          rw [o1]
          intro e'
          exact hne (h.inj hg (e' ▸ hg0))
      have mo : ∀ {ns src}, (ns, src) ∈ rest → s1.objs src = s.objs src := by
        intro ns src hm
        exact o1 _ fun e' => hs0 (e' ▸ List.mem_map.mpr ⟨_, hm, rfl⟩)
      rw [hun']
      refine ⟨i1, ?_, ?_, ?_, ?_, ?_, ?_⟩
      · intro ns hns
        simp only [List.map_cons, List.mem_cons, not_or] at hns
        obtain ⟨a, b⟩ := i2 ns hns.2
        rw [g1, if_neg hns.1] at a
        exact ⟨a, b.trans (r1 ns hns.1)⟩
      · intro ns src hm hi hgo
        rcases List.mem_cons.mp hm with hm | hm
        · cases hm
          obtain ⟨a, _⟩ := i2 n0 hn0
          rw [g1, if_pos rfl] at a
          refine ⟨a, ?_⟩
          show (removeLoop e inc rest s1).1.objs s0 = _
          rw [i5 s0 hs0]
          show (if s0 = s0 then _ else _) = _
          rw [if_pos rfl]
        · have := i3 ns src hm hi (by rw [mo hm]; exact hgo)
          rw [mo hm] at this
          exact this
      · intro ns src hm hgo
        rcases List.mem_cons.mp hm with hm | hm
        · cases hm; exact absurd ⟨hin, hgone⟩ hgo
        · have hne : ns ≠ n0 := fun e' => hn0 (e' ▸ List.mem_map.mpr ⟨_, hm, rfl⟩)
          obtain ⟨a, b⟩ := i4 ns src hm (by rw [mo hm]; exact hgo)
          rw [g1, if_neg hne] at a
          exact ⟨a, b.trans (r1 ns hne)⟩
      · intro src hm
        simp only [List.map_cons, List.mem_cons, not_or] at hm
        exact (i5 src hm.2).trans (o1 src hm.1)
      · intro ns
        show (_ → List.count _ ([Event.removed n0] ++ (removeLoop e inc rest s1).2) = 1) ∧ (_ → List.count _ ([Event.removed n0] ++ (removeLoop e inc rest s1).2) = 0)
        rw [List.count_append]
        by_cases hne : ns = n0
        · subst hne
          have z : List.count (Event.removed ns) (removeLoop e inc rest s1).2 = 0 := by
            refine (i6 ns).2 ?_
            rintro ⟨src, hm, _⟩
            exact hn0 (List.mem_map.mpr ⟨_, hm, rfl⟩)
          rw [z]
          refine ⟨fun _ => by simp, fun hc => absurd ⟨s0, by simp, hin, hgone⟩ hc⟩
        · have z : List.count (Event.removed ns) [Event.removed n0] = 0 := by
            rw [List.count_eq_zero]; simp [hne]
          rw [z, Nat.zero_add]
          have iff' : (∃ src, (ns, src) ∈ (n0, s0) :: rest ∧ mget inc ns = none ∧ Gone e ns (s.objs src)) ↔
              (∃ src, (ns, src) ∈ rest ∧ mget inc ns = none ∧ Gone e ns (s1.objs src)) := by
            constructor
            · rintro ⟨src, hm, a, b⟩
              rcases List.mem_cons.mp hm with hm | hm
              · cases hm; exact absurd rfl hne
              · exact ⟨src, hm, a, by rw [mo hm]; exact b⟩
            · rintro ⟨src, hm, a, b⟩
              exact ⟨src, List.mem_cons_of_mem _ hm, a, by rw [mo hm] at b; exact b⟩
          exact ⟨fun hx => (i6 ns).1 (iff'.mp hx), fun hx => (i6 ns).2 fun hy => hx (iff'.mpr hy)⟩
      · intro ev hev
        rcases List.mem_append.mp hev with hev | hev
        · exact ⟨n0, by simpa using hev⟩
        · exact i7 ev hev
    · rw [heq] at hun
      have hun' : removeLoop e inc ((n0, s0) :: rest) s = ((removeLoop e inc rest s).1, (removeLoop e inc rest s).2) := by rw [hun]; rfl
      obtain ⟨i1, i2, i3, i4, i5, i6, i7⟩ := ih s h hnd' fun x hx => hsub x (List.mem_cons_of_mem _ hx)
      rw [hun']
      refine ⟨i1, ?_, ?_, ?_, ?_, ?_, i7⟩
      · intro ns hns
        simp only [List.map_cons, List.mem_cons, not_or] at hns
        exact i2 ns hns.2
      · intro ns src hm hi hgo
        rcases List.mem_cons.mp hm with hm | hm
        · cases hm; exact absurd ⟨hi, hgo⟩ hno
        · exact i3 ns src hm hi hgo
      · intro ns src hm hgo
        rcases List.mem_cons.mp hm with hm | hm
        · cases hm; exact i2 n0 hn0
        · exact i4 ns src hm hgo
      · intro src hm
        simp only [List.map_cons, List.mem_cons, not_or] at hm
        exact i5 src hm.2
      · intro ns
        have iff' : (∃ src, (ns, src) ∈ (n0, s0) :: rest ∧ mget inc ns = none ∧ Gone e ns (s.objs src)) ↔
            (∃ src, (ns, src) ∈ rest ∧ mget inc ns = none ∧ Gone e ns (s.objs src)) := by
          constructor
          · rintro ⟨src, hm, a, b⟩
            rcases List.mem_cons.mp hm with hm | hm
            · cases hm; exact absurd ⟨a, b⟩ hno
            · exact ⟨src, hm, a, b⟩
          · rintro ⟨src, hm, a, b⟩
            exact ⟨src, List.mem_cons_of_mem _ hm, a, b⟩
        exact ⟨fun hx => (i6 ns).1 (iff'.mp hx), fun hx => (i6 ns).2 fun hy => hx (iff'.mpr hy)⟩

/-! ### The map of incoming namespaces -/

theorem incoming_nodup (nss : List Namespace) : ((incoming nss).map (·.1)).Nodup := by
  unfold incoming
  suffices ∀ (l : List Namespace) (m : List (Bytes × Namespace)), (m.map (·.1)).Nodup →
      ((l.foldl (fun m n => mset m n.name n) m).map (·.1)).Nodup from this nss [] (by simp)
  intro l
  induction l with
  | nil => intro m h; exact h
  | cons n r ih => intro m h; exact ih _ (nodup_mset h _ _)

/-- The last entry of a name. -/
def lastNamed (nss : List Namespace) (ns : Bytes) : Option Namespace := (nss.filter fun n => n.name = ns).getLast?

theorem incoming_get (nss : List Namespace) (ns : Bytes) : mget (incoming nss) ns = lastNamed nss ns := by
  unfold incoming lastNamed
  suffices ∀ (l : List Namespace) (m : List (Bytes × Namespace)),
      mget (l.foldl (fun m n => mset m n.name n) m) ns = ((l.filter fun n => n.name = ns).getLast?).or (mget m ns) by
    rw [this nss []]; simp [mget]
  intro l
  induction l with
  | nil => intro m; simp
  | cons n r ih =>
    intro m
    rw [List.foldl_cons, ih, mget_mset]
    by_cases h : n.name = ns
    · rw [if_pos h.symm, List.filter_cons_of_pos (by simpa using h), List.getLast?_cons]
      cases hg : (r.filter fun n => decide (n.name = ns)).getLast? <;> simp
    · rw [if_neg (fun e => h e.symm), List.filter_cons_of_neg (by simpa using h)]

end Verif.Matcher
