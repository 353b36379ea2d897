import Verif.Lemmas.Matcher
/-
C63: what a namespaces update does to the rulesets the matcher watches.
-/
namespace Verif.Matcher
open Verif.Active Verif.Cache Verif.NS

/-- Assumptions on the parameters of an update: the maps are iterated completely, and `newRuleSet` returns new objects. -/
structure EnvOK (e : Env63) (s : NsSt) : Prop where
  order : ∀ l, (e.order l).Perm l
  order2 : ∀ l, (e.order2 l).Perm l
  unused : ∀ ns, mget s.rules ns = none → e.fresh ns ∉ s.rules.map (·.2)
  distinct : ∀ a b, e.fresh a = e.fresh b → a = b

/-- The latest snapshot of the namespace is deleted, for the given version of the ruleset. -/
def Finished (n : Namespace) (version : Int) : Prop :=
  ∃ s, n.snaps.getLast? = some s ∧ s.tombstoned = true ∧ s.forRuleSetVersion = version

theorem shouldWatch_iff (n : Namespace) (r : RS) : shouldWatch n r = false ↔ Finished n r.version := by
  unfold shouldWatch Finished
  cases h : n.snaps.getLast? with
  | none => simp
  | some s => simp [beq_iff_eq]

theorem addOK_of {e : Env63} {s : NsSt} (h : EnvOK e s) (nss : List Namespace) : AddOK e (e.order (incoming nss)) s :=
  ⟨((h.order _).map _).nodup_iff.mpr (incoming_nodup nss), fun ns _ => h.unused ns, fun a _ b _ => h.distinct a b⟩

theorem lastNamed_isSome {nss : List Namespace} {ns : Bytes} : (lastNamed nss ns).isSome ↔ ns ∈ nss.map (·.name) := by
  unfold lastNamed
  rw [List.getLast?_isSome, ne_eq, List.filter_eq_nil_iff, List.mem_map]
  constructor
  · intro h
    refine Classical.byContradiction fun hc => h fun a ha => ?_
    simp only [decide_eq_true_eq]
    exact fun e => hc ⟨a, ha, e⟩
  · rintro ⟨a, ha, e⟩ h
    exact h a ha (by simpa using e)

theorem mem_order_iff {e : Env63} {s : NsSt} (h : EnvOK e s) {nss : List Namespace} {ns : Bytes} {n : Namespace} :
    (ns, n) ∈ e.order (incoming nss) ↔ lastNamed nss ns = some n := by
  rw [(h.order _).mem_iff, ← incoming_get]
  exact ⟨mget_of_mem (incoming_nodup nss), mget_mem⟩

theorem mem_names_iff {e : Env63} {s : NsSt} (h : EnvOK e s) {nss : List Namespace} {ns : Bytes} :
    ns ∈ (e.order (incoming nss)).map (·.1) ↔ ns ∈ nss.map (·.name) := by
  rw [((h.order _).map _).mem_iff, ← mget_isSome_iff, incoming_get, lastNamed_isSome]

/-- The state after the first loop, and the facts about the second one. -/
theorem process_parts (e : Env63) (s : NsSt) (h : WF s) (he : EnvOK e s) (nss : List Namespace) :
    let a := addLoop e (e.order (incoming nss)) s
    WF a.1 ∧ ((e.order2 a.1.rules).map (·.1)).Nodup ∧ (∀ x, x ∈ e.order2 a.1.rules ↔ x ∈ a.1.rules) := by
  intro a
  have w := (addLoop_spec e _ s h (addOK_of he nss)).1
  exact ⟨w, ((he.order2 _).map _).nodup_iff.mpr w.keys, fun x => (he.order2 _).mem_iff⟩

theorem process_wf (e : Env63) (s : NsSt) (h : WF s) (he : EnvOK e s) (nss : List Namespace) : WF (process e s nss).1 := by
  obtain ⟨w, nd, mem⟩ := process_parts e s h he nss
  exact (removeLoop_spec e (incoming nss) _ _ w nd fun x hx => (mem x).mp hx).1

theorem second_keeps (e : Env63) (s : NsSt) (h : WF s) (he : EnvOK e s) (nss : List Namespace) (ns : Bytes)
    (hk : ∀ src, mget (addLoop e (e.order (incoming nss)) s).1.rules ns = some src →
      ¬ (mget (incoming nss) ns = none ∧ Gone e ns ((addLoop e (e.order (incoming nss)) s).1.objs src))) :
    mget (process e s nss).1.rules ns = mget (addLoop e (e.order (incoming nss)) s).1.rules ns ∧
    (process e s nss).1.ruleset ns = (addLoop e (e.order (incoming nss)) s).1.ruleset ns := by
  obtain ⟨w, nd, mem⟩ := process_parts e s h he nss
  obtain ⟨_, r2, _, r4, _⟩ := removeLoop_spec e (incoming nss) _ _ w nd fun x hx => (mem x).mp hx
  cases hg : mget (addLoop e (e.order (incoming nss)) s).1.rules ns with
  | none =>
    have := r2 ns ?_
    · rw [hg] at this; exact this
    · intro hm
      rw [((he.order2 _).map _).mem_iff, ← mget_isSome_iff, hg] at hm
      cases hm
  | some src =>
    have := r4 ns src ((mem _).mpr (mget_mem hg)) (hk src hg)
    rw [hg] at this; exact this

/-- **C63.** A namespace of the update (its last entry, if it is listed more than once) has a ruleset afterwards: the one it
had, or a new one that has received nothing.  If its latest snapshot is deleted and the ruleset has received the version that
snapshot is for, watching ends and the ruleset stays as it is; otherwise it stays watched as it is, or `Watch` is attempted:
if that fails the ruleset stays as it is, and else it is watched, and the value that arrives is in force. -/
theorem C63_in_update (e : Env63) (s : NsSt) (h : WF s) (he : EnvOK e s) (nss : List Namespace) (ns : Bytes) (n : Namespace)
    (hn : lastNamed nss ns = some n) :
    mget (process e s nss).1.rules ns = some ((mget s.rules ns).getD (e.fresh ns)) ∧
    ∃ r, (process e s nss).1.ruleset ns = some r ∧
      let r0 := (s.ruleset ns).getD newRuleSet
      (Finished n r0.version → r = { r0 with watched := false }) ∧
      (¬ Finished n r0.version → r0.watched = true → r = r0) ∧
      (¬ Finished n r0.version → r0.watched = false → match e.watch ns with
        | .failed => r = r0
        | .watching none => r = { r0 with watched := true }
        | .watching (some (v, now)) => r.watched = true ∧ r.version = v.version ∧ r.cutoverNanos = v.cutoverNanos ∧
            r.tombstoned = v.tombstoned ∧ r.matcher = some (v.activeSet (now - e.past))) := by
  obtain ⟨_, _, a3, _⟩ := addLoop_spec e _ s h (addOK_of he nss)
  obtain ⟨b1, b2⟩ := a3 ns n ((mem_order_iff he).mpr hn)
  have hk := second_keeps e s h he nss ns fun src _ hc => by
    have := hc.1
    rw [incoming_get, hn] at this; cases this
  rw [hk.1, hk.2, b1, b2]
  refine ⟨rfl, _, rfl, ?_⟩
  show (Finished n (before s ns).version → _) ∧ (¬ Finished n (before s ns).version → (before s ns).watched = true → _) ∧ _
  unfold watchOrNot
  refine ⟨?_, ?_, ?_⟩
  · intro hf
    rw [(shouldWatch_iff n _).mpr hf]
    rfl
  · intro hf hw
    have : shouldWatch n (before s ns) = true := by
      cases hs : shouldWatch n (before s ns) with
      | true => rfl
      | false => exact absurd ((shouldWatch_iff n _).mp hs) hf
    rw [this]
    simp only [Bool.not_true, Bool.false_eq_true, if_false, RS.watch, hw, if_true]
    rfl
  · intro hf hw
    have hw' : (before s ns).watched = false := hw
    have hf' : ¬ Finished n (before s ns).version := hf
    have : shouldWatch n (before s ns) = true := by
      cases hs : shouldWatch n (before s ns) with
      | true => rfl
      | false => exact absurd ((shouldWatch_iff n _).mp hs) hf'
    rw [this]
    simp only [Bool.not_true, Bool.false_eq_true, if_false, RS.watch, hw']
    cases e.watch ns with
    | failed => rfl
    | watching f =>
      cases f with
      | none => rfl
      | some v => exact ⟨rfl, rfl, rfl, rfl, rfl⟩

/-- **C63.** A namespace seen for the first time: unless its latest snapshot is deleted for version 0, watching its ruleset is
attempted, and as long as no value has arrived the namespace has version 0, is not deleted and nothing matches; a value that arrives with
`Watch` determines the version. -/
theorem C63_new (e : Env63) (s : NsSt) (h : WF s) (he : EnvOK e s) (nss : List Namespace) (ns : Bytes) (n : Namespace)
    (hn : lastNamed nss ns = some n) (hnew : mget s.rules ns = none) (env : Env) (id : Bytes) (frm to : Int) :
    let s' := (process e s nss).1
    (Finished n 0 → s'.version ns = 0 ∧ s'.forwardMatch env ns id frm to = emptyMatchResult ∧
      ∃ r, s'.ruleset ns = some r ∧ r.watched = false ∧ r.tombstoned = false) ∧
    (¬ Finished n 0 → match e.watch ns with
      | .failed => s'.version ns = 0 ∧ s'.forwardMatch env ns id frm to = emptyMatchResult ∧
          ∃ r, s'.ruleset ns = some r ∧ r.watched = false ∧ r.tombstoned = false
      | .watching none => s'.version ns = 0 ∧ s'.forwardMatch env ns id frm to = emptyMatchResult ∧
          ∃ r, s'.ruleset ns = some r ∧ r.watched = true ∧ r.tombstoned = false
      | .watching (some (v, now)) => s'.version ns = v.version ∧
          s'.forwardMatch env ns id frm to = Active.forwardMatch env (v.activeSet (now - e.past)) id frm to ∧
          ∃ r, s'.ruleset ns = some r ∧ r.watched = true) := by
  intro s'
  obtain ⟨h1, r, h2, h3, _, h5⟩ := C63_in_update e s h he nss ns n hn
  have hr : s.ruleset ns = none := by unfold NsSt.ruleset; rw [hnew]; rfl
  rw [hr] at h3 h5
  have hv : s'.version ns = r.version := by
    show NsSt.version (process e s nss).1 ns = _
    unfold NsSt.ruleset at h2
    unfold NsSt.version
    rw [h1] at h2 ⊢
    exact congrArg RS.version (Option.some.inj h2)
  have hm : s'.forwardMatch env ns id frm to = r.forwardMatch env id frm to := by
    show NsSt.forwardMatch env (process e s nss).1 ns id frm to = _
    unfold NsSt.ruleset at h2
    unfold NsSt.forwardMatch
    rw [h1] at h2 ⊢
    exact congrArg (fun q : RS => q.forwardMatch env id frm to) (Option.some.inj h2)
  rw [hv, hm]
  refine ⟨fun hf => ?_, fun hf => ?_⟩
  · rw [h3 hf] at h2 ⊢
    exact ⟨rfl, rfl, _, h2, rfl, rfl⟩
  · have h5 := h5 hf rfl
    revert h5
    cases e.watch ns with
    | failed => intro h5; rw [h5] at h2 ⊢; exact ⟨rfl, rfl, _, h2, rfl, rfl⟩
    | watching f =>
      cases f with
      | none => intro h5; rw [h5] at h2 ⊢; exact ⟨rfl, rfl, _, h2, rfl, rfl⟩
      | some v =>
        obtain ⟨v, now⟩ := v
        rintro ⟨w1, w2, _, _, w5⟩
        refine ⟨w2, ?_, _, h2, w1⟩
        unfold RS.forwardMatch
        rw [w5]

/-- **C63.** A namespace that is not in the update is dropped, and its ruleset no longer watched, exactly when its ruleset
is deleted and took effect before the match window; otherwise nothing changes for it. -/
theorem C63_absent (e : Env63) (s : NsSt) (h : WF s) (he : EnvOK e s) (nss : List Namespace) (ns : Bytes)
    (hn : ns ∉ nss.map (·.name)) :
    (∀ src, mget s.rules ns = some src → (s.objs src).tombstoned = true → (s.objs src).cutoverNanos ≤ e.now ns - e.past →
      mget (process e s nss).1.rules ns = none ∧ ((process e s nss).1.objs src).watched = false) ∧
    ((∀ src, mget s.rules ns = some src → ¬ ((s.objs src).tombstoned = true ∧ (s.objs src).cutoverNanos ≤ e.now ns - e.past)) →
      mget (process e s nss).1.rules ns = mget s.rules ns ∧ (process e s nss).1.ruleset ns = s.ruleset ns) := by
  obtain ⟨_, a2, _⟩ := addLoop_spec e _ s h (addOK_of he nss)
  obtain ⟨b1, b2⟩ := a2 ns fun hm => hn ((mem_names_iff he).mp hm)
  obtain ⟨w, nd, mem⟩ := process_parts e s h he nss
  obtain ⟨_, _, r3, _⟩ := removeLoop_spec e (incoming nss) _ _ w nd fun x hx => (mem x).mp hx
  have hinc : mget (incoming nss) ns = none := by
    rw [incoming_get]
    cases hl : lastNamed nss ns with
    | none => rfl
    | some n => exact absurd (lastNamed_isSome.mp (by rw [hl]; rfl)) hn
  have obj : ∀ src, mget s.rules ns = some src → (addLoop e (e.order (incoming nss)) s).1.objs src = s.objs src := by
    intro src hg
    unfold NsSt.ruleset at b2
    rw [b1, hg] at b2
    simpa using b2
  constructor
  · intro src hg ht hc
    obtain ⟨c1, c2⟩ := r3 ns src ((mem _).mpr (mget_mem (b1.trans hg))) hinc (by rw [obj src hg]; exact ⟨ht, hc⟩)
    refine ⟨c1, ?_⟩
    show ((removeLoop e (incoming nss) _ _).1.objs src).watched = false
    rw [c2]; rfl
  · intro hno
    have hk := second_keeps e s h he nss ns fun src hg hc => by
      rw [b1] at hg
      have := hc.2
      rw [obj src hg] at this
      exact hno src hg this
    exact ⟨hk.1.trans b1, hk.2.trans b2⟩

/-- **C63.** The callbacks: `added` is called once, with its new ruleset, for each namespace of the update that had none, and
for no other; `removed` once for each namespace that is dropped, and for no other. -/
theorem C63_callbacks (e : Env63) (s : NsSt) (h : WF s) (he : EnvOK e s) (nss : List Namespace) (ns : Bytes) :
    (∀ src, (process e s nss).2.count (.added ns src) =
      if ns ∈ nss.map (·.name) ∧ mget s.rules ns = none ∧ src = e.fresh ns then 1 else 0) ∧
    (process e s nss).2.count (.removed ns) =
      if (mget s.rules ns).isSome ∧ mget (process e s nss).1.rules ns = none then 1 else 0 := by
  obtain ⟨_, a2, a3, a4, a5, _⟩ := addLoop_spec e _ s h (addOK_of he nss)
  obtain ⟨w, nd, mem⟩ := process_parts e s h he nss
  obtain ⟨_, r2, r3, r4, _, r6, r7⟩ := removeLoop_spec e (incoming nss) _ _ w nd fun x hx => (mem x).mp hx
  constructor
  · intro src
    show List.count _ ((addLoop e (e.order (incoming nss)) s).2 ++ (removeLoop e (incoming nss) _ _).2) = _
    rw [List.count_append, a4]
    have z : List.count (Event.added ns src) (removeLoop e (incoming nss) (e.order2 (addLoop e (e.order (incoming nss)) s).1.rules)
        (addLoop e (e.order (incoming nss)) s).1).2 = 0 := by
      rw [List.count_eq_zero]
      intro hm
      obtain ⟨_, he'⟩ := r7 _ hm
      cases he'
    rw [z, Nat.add_zero]
    simp only [mem_names_iff he]
  · show List.count _ ((addLoop e (e.order (incoming nss)) s).2 ++ (removeLoop e (incoming nss) _ _).2) = _
    rw [List.count_append, a5, Nat.zero_add]
    by_cases hd : ∃ src, (ns, src) ∈ e.order2 (addLoop e (e.order (incoming nss)) s).1.rules ∧ mget (incoming nss) ns = none ∧
        Gone e ns ((addLoop e (e.order (incoming nss)) s).1.objs src)
    · rw [(r6 ns).1 hd]
      obtain ⟨src, hm, hi, hgo⟩ := hd
      have hg := mget_of_mem w.keys ((mem _).mp hm)
      have hnot : ns ∉ nss.map (·.name) := by
        intro hx
        rw [← lastNamed_isSome, ← incoming_get, hi] at hx
        cases hx
      have b1 := (a2 ns fun hm => hnot ((mem_names_iff he).mp hm)).1
      rw [if_pos]
      refine ⟨by rw [← b1, hg]; rfl, (r3 ns src hm hi hgo).1⟩
    · rw [(r6 ns).2 hd, if_neg]
      rintro ⟨hs, hnone⟩
      have hk := (second_keeps e s h he nss ns fun src hg hc => hd ⟨src, (mem _).mpr (mget_mem hg), hc⟩).1
      rw [hk] at hnone
      by_cases hx : ns ∈ nss.map (·.name)
      · rw [← lastNamed_isSome] at hx
        obtain ⟨n, hn⟩ := Option.isSome_iff_exists.mp hx
        rw [(a3 ns n ((mem_order_iff he).mpr hn)).1] at hnone
        cases hnone
      · rw [(a2 ns fun hm => hx ((mem_names_iff he).mp hm)).1] at hnone
        rw [hnone] at hs; cases hs

/-- **C63.** `onRuleSetUpdatedFn` is called during the update for a ruleset only if `Watch` delivered it a value. -/
theorem C63_updated (e : Env63) (s : NsSt) (h : WF s) (he : EnvOK e s) (nss : List Namespace) (src : Nat) :
    .updated src ∈ (process e s nss).2 ↔ ∃ ns n, lastNamed nss ns = some n ∧ src = (mget s.rules ns).getD (e.fresh ns) ∧
      let r0 := (s.ruleset ns).getD newRuleSet
      ¬ Finished n r0.version ∧ r0.watched = false ∧ ∃ v, e.watch ns = .watching (some v) := by
  obtain ⟨_, _, _, _, _, a6⟩ := addLoop_spec e _ s h (addOK_of he nss)
  obtain ⟨w, nd, mem⟩ := process_parts e s h he nss
  obtain ⟨_, _, _, _, _, _, r7⟩ := removeLoop_spec e (incoming nss) _ _ w nd fun x hx => (mem x).mp hx
  show Event.updated src ∈ (addLoop e (e.order (incoming nss)) s).2 ++ (removeLoop e (incoming nss) _ _).2 ↔ _
  rw [List.mem_append, a6]
  have key : ∀ n ns (r : RS), (watchOrNot e n ns r).2 = true ↔ ¬ Finished n r.version ∧ r.watched = false ∧ ∃ v, e.watch ns = .watching (some v) := by
    intro n ns r
    rw [← shouldWatch_iff]
    unfold watchOrNot RS.watch
    cases shouldWatch n r <;> cases r.watched <;> simp
    cases e.watch ns with
    | failed => simp
    | watching f =>
      cases f with
      | none => simp
      | some v => simp only [true_iff]; exact ⟨v.1, v.2, rfl⟩
  constructor
  · rintro (⟨ns, n, hm, h1, h2⟩ | hm)
    · exact ⟨ns, n, (mem_order_iff he).mp hm, h1, (key n ns _).mp h2⟩
    · obtain ⟨_, he'⟩ := r7 _ hm; cases he'
  · rintro ⟨ns, n, hm, h1, h2⟩
    exact Or.inl ⟨ns, n, (mem_order_iff he).mpr hm, h1, (key n ns _).mpr h2⟩

/-! ### Histories -/

/-- The states reached by any sequence of namespace updates, ruleset updates and `Close`. -/
inductive NReach : NsSt → Prop
  | init (objs : Nat → RS) : NReach ⟨[], objs⟩
  | update {s} (e : Env63) (he : EnvOK e s) (nss : List Namespace) : NReach s → NReach (process e s nss).1
  | ruleset {s} (src : Nat) (past now : Int) (v : RuleSet.RuleSet) : NReach s → NReach (s.put src ((s.objs src).process past v now))
  | close {s} : NReach s → NReach s.close

/-- **C63.** In every history, each namespace has at most one ruleset and no two namespaces share one. -/
theorem C63_history (s : NsSt) (h : NReach s) : WF s := by
  induction h with
  | init => exact ⟨by simp, by simp⟩
  | update e he nss _ ih => exact process_wf e _ ih he nss
  | ruleset src past now v _ ih => exact ⟨ih.keys, ih.vals⟩
  | close _ ih => exact ⟨ih.keys, ih.vals⟩

/-- C63: of a namespace that is not known the version is 0 and nothing matches. -/
theorem C63_unknown (s : NsSt) (ns : Bytes) (h : mget s.rules ns = none) (env : Env) (id : Bytes) (frm to : Int) (mt : Option Agg.Kind) (a : Int)
    (multi : Bool) (o : Agg.Options) :
    s.version ns = 0 ∧ s.forwardMatch env ns id frm to = emptyMatchResult ∧ s.reverseMatch env ns id frm to mt a multi o = emptyMatchResult := by
  unfold NsSt.version NsSt.forwardMatch NsSt.reverseMatch
  rw [h]
  exact ⟨rfl, rfl, rfl⟩

/-! A history: two namespaces appear; one of them is deleted, is no longer watched once its deletion was received, and is
dropped once it is no longer listed and the match window has passed. -/

def exFresh : Bytes → Nat
  | [] => 0
  | b :: l => exFresh l * 257 + (b.toNat + 1)

theorem exFresh_inj : ∀ a b : Bytes, exFresh a = exFresh b → a = b
  | [], [], _ => rfl
  | [], _ :: _, h => by simp only [exFresh] at h; omega
  | _ :: _, [], h => by simp only [exFresh] at h; omega
  | x :: a, y :: b, h => by
    have hx := x.toNat_lt
    have hy := y.toNat_lt
    simp only [exFresh] at h
    have h1 : x.toNat = y.toNat := by omega
    have h2 : exFresh a = exFresh b := by omega
    rw [UInt8.toNat_inj.mp h1, exFresh_inj a b h2]

def exEnv63 (now : Int) : Env63 :=
  { past := 5, now := fun _ => now, watch := fun _ => .watching none, fresh := exFresh
    order := id, order2 := id }

example : WF ⟨[], fun _ => newRuleSet⟩ ∧ EnvOK (exEnv63 0) ⟨[], fun _ => newRuleSet⟩ :=
  ⟨⟨by simp, by simp⟩, ⟨fun _ => .refl _, fun _ => .refl _, fun _ _ => by simp, exFresh_inj⟩⟩

def exNs (name : Bytes) (tomb : Bool) : Namespace := ⟨name, some [⟨4, tomb, 0, []⟩]⟩

def exDeletedRS : RuleSet.RuleSet :=
  { uuid := bs "u", version := 4, namespace_ := bs "n", createdAtNanos := 0, lastUpdatedAtNanos := 10, lastUpdatedBy := []
    tombstoned := true, cutoverNanos := 10, mappingRules := [], rollupRules := [] }

example :
    let s1 := (process (exEnv63 0) ⟨[], fun _ => newRuleSet⟩ [exNs (bs "n") false, exNs (bs "k") false]).1
    let src := (exEnv63 0).fresh (bs "n")
    let s2 := s1.put src ((s1.objs src).process 5 exDeletedRS 12)
    let s3 := (process (exEnv63 12) s2 [exNs (bs "n") true, exNs (bs "k") false]).1
    let s4 := (process (exEnv63 14) s3 [exNs (bs "k") false]).1
    let s5 := process (exEnv63 15) s4 [exNs (bs "k") false]
    (s1.objs src).watched = true ∧ (s3.objs src).watched = false ∧ (mget s4.rules (bs "n")) = some src ∧
    mget s5.1.rules (bs "n") = none ∧ (mget s5.1.rules (bs "k")).isSome ∧ s5.2 = [.removed (bs "n")] := by decide +kernel

end Verif.Matcher
