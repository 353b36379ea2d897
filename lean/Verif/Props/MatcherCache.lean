import Verif.Props.Matcher
import Verif.Props.CacheResults
import Verif.Props.Id
/-
C70: matching through the matcher, its cache, and the rulesets of its namespaces.
-/
namespace Verif.Matcher
open Verif.Active Verif.Cache Verif.NS

set_option synthInstance.maxSize 1000

/-! ### The cache keeps its namespaces -/

theorem isSome_mset {α : Type} {m : List (Bytes × α)} {k ns : Bytes} {v : α} (h : (mget m ns).isSome) : (mget (mset m k v) ns).isSome := by
  rw [mget_mset]; split
  · rfl
  · exact h

theorem isSome_evictLoop (cfg : Config) (ns : Bytes) : ∀ (n : Nat) (s s' : St), evictLoop cfg n s = some s' → (mget s.namespaces ns).isSome →
    (mget s'.namespaces ns).isSome := by
  intro n
  induction n with
  | zero => intro s s' h hr; cases h; exact hr
  | succ n ih =>
    intro s s' h hr
    rw [evictLoop_succ] at h
    split at h
    · split at h
      · cases h
      · refine ih _ _ h ?_
        unfold evictOne
        simp only
        split
        · exact hr
        · exact isSome_mset hr
    · cases h; exact hr

theorem isSome_tryGet (cfg : Config) (fm : Nat → Bytes → Int → Int → MatchResult) (s : St) (t : Tick) (ns1 id : Bytes) (frm to : Int) (b : Bool)
    (ns : Bytes) (hs : (mget s.namespaces ns).isSome) : (mget (s.tryGetWithLock cfg fm t ns1 id frm to b).1.namespaces ns).isSome := by
  have set : ∀ (r1 : Results) (bb : Bool), (mget (s.setWithLock cfg fm t ns1 id frm to r1 bb).1.namespaces ns).isSome := by
    intro r1 bb
    have e : (s.setWithLock cfg fm t ns1 id frm to r1 bb).1.namespaces =
        mset (s.invalidateIf cfg ns1 id r1 bb).1.namespaces ns1
          { (s.invalidateIf cfg ns1 id r1 bb).2 with elems := mset (s.invalidateIf cfg ns1 id r1 bb).2.elems id (s.invalidateIf cfg ns1 id r1 bb).1.nextPtr } := by
      unfold St.setWithLock
      simp only
      split <;> rfl
    rw [e]
    refine isSome_mset ?_
    unfold St.invalidateIf
    split
    · unfold St.invalidateWithLock
      split
      · exact isSome_mset hs
      · exact isSome_mset hs
    · exact hs
  unfold St.tryGetWithLock
  cases hr : mget s.namespaces ns1 with
  | none => exact hs
  | some r1 =>
    simp only
    cases hp : mget r1.elems id with
    | none =>
      simp only
      cases b with
      | false => exact hs
      | true => exact set r1 false
    | some p =>
      simp only
      split
      · split
        · have : (s.promote cfg t p).namespaces = s.namespaces := by unfold St.promote; split <;> rfl
          rw [this]; exact hs
        · exact hs
      · cases b with
        | false => exact hs
        | true => exact set r1 true

/-- A step of the cache keeps the namespaces, except those it unregisters. -/
theorem step_isSome {cfg : Config} {fm : Nat → Bytes → Int → Int → MatchResult} {s s' : St} {act : Act}
    (hs : s.step cfg fm act = some s') {ns : Bytes} (hu : act ≠ .unregister ns) (hr : (mget s.namespaces ns).isSome) :
    (mget s'.namespaces ns).isSome := by
  cases act with
  | get t ns1 id frm to => cases hs; exact isSome_tryGet cfg fm s t ns1 id frm to false ns hr
  | fill t ns1 id frm to => cases hs; exact isSome_tryGet cfg fm s t ns1 id frm to true ns hr
  | register ns1 src =>
    cases hs
    unfold St.register
    split <;> exact isSome_mset hr
  | refresh ns1 src =>
    cases hs
    unfold St.refresh
    split
    · exact hr
    · split
      · exact hr
      · exact isSome_mset hr
  | unregister ns1 =>
    cases hs
    unfold St.unregister
    split
    · exact hr
    · show (mget (mdel s.namespaces ns1) ns).isSome
      rw [mget_mdel, if_neg]
      · exact hr
      · intro e; exact hu (by rw [e])
  | close => cases hs; exact hr
  | notify => cases hs; exact hr
  | evictWake => simp only [St.step] at hs; split at hs <;> cases hs; exact hr
  | evictExit => simp only [St.step] at hs; split at hs <;> cases hs; exact hr
  | evictRun =>
    simp only [St.step] at hs
    split at hs
    · unfold St.doEvict at hs
      cases he : evictLoop cfg s.list.length.toNat s with
      | none => rw [he] at hs; cases hs
      | some s1 => rw [he] at hs; cases hs; exact isSome_evictLoop cfg ns _ _ s1 he hr
    · cases hs
  | deleteWake => simp only [St.step] at hs; split at hs <;> cases hs; exact hr
  | deleteExit => simp only [St.step] at hs; split at hs <;> cases hs; exact hr
  | deleteDone => simp only [St.step] at hs; split at hs <;> cases hs; exact hr
  | deleteTake =>
    simp only [St.step] at hs
    split at hs
    · cases hs
      unfold St.takeDeletions
      split <;> exact hr
    · cases hs
  | deleteOne k =>
    simp only [St.step] at hs
    split at hs
    · split at hs
      · cases hs
      · cases hs; exact hr
    · cases hs

/-- Lookups, closing, and the background work of the cache. -/
def Internal : Act → Prop
  | .register .. | .refresh .. | .unregister .. => False
  | _ => True

/-- The sources of the registered namespaces. -/
def sourceOf (s : St) (ns : Bytes) : Option Nat := (mget s.namespaces ns).map (·.source)

theorem step_sourceOf {cfg : Config} {fm : Nat → Bytes → Int → Int → MatchResult} {s s' : St} {act : Act} (hi : Internal act)
    (hs : s.step cfg fm act = some s') (ns : Bytes) : sourceOf s' ns = sourceOf s ns := by
  unfold sourceOf
  cases h' : mget s'.namespaces ns with
  | some r' =>
    rcases step_sources hs h' with ⟨r, a, b⟩ | e
    · rw [a]; simp [b]
    · rw [e] at hi; exact hi.elim
  | none =>
    cases h : mget s.namespaces ns with
    | none => rfl
    | some r =>
      have := step_isSome hs (ns := ns) (by intro e; rw [e] at hi; exact hi) (by rw [h]; rfl)
      rw [h'] at this; cases this

theorem register_sourceOf (s : St) (ns : Bytes) (src : Nat) (ns' : Bytes) :
    sourceOf (s.register ns src) ns' = if ns' = ns then some src else sourceOf s ns' := by
  unfold sourceOf St.register
  have : ∀ m : List (Bytes × Results), (mget (mset m ns { elems := [], source := src }) ns').map (·.source) =
      if ns' = ns then some src else (mget m ns').map (·.source) := by
    intro m
    rw [mget_mset]
    split <;> rfl
  split <;> exact this _

theorem unregister_sourceOf (s : St) (ns ns' : Bytes) :
    sourceOf (s.unregister ns) ns' = if ns' = ns then none else sourceOf s ns' := by
  unfold sourceOf St.unregister
  split
  · next h =>
    split
    · next e => rw [e, h]; rfl
    · rfl
  · show (mget (mdel s.namespaces ns) ns').map _ = _
    rw [mget_mdel]
    split <;> rfl

theorem refresh_sourceOf (s : St) (ns : Bytes) (src : Nat) (ns' : Bytes) : sourceOf (s.refresh ns src) ns' = sourceOf s ns' := by
  unfold sourceOf St.refresh
  split
  · rfl
  · next r h =>
    split
    · rfl
    · next hc =>
      have hc' : r.source = src := Classical.byContradiction fun h => hc h
      show (mget (mset s.namespaces ns { elems := [], source := src }) ns').map _ = _
      rw [mget_mset]
      split
      · next e => rw [e, h]; simp [hc']
      · rfl

/-! ### The whole matcher -/

/-- Where the processing of a namespaces update stands. -/
inductive Phase where
  | idle
  | adding (inc todo : List (Bytes × Namespace))
  | removing (inc : List (Bytes × Namespace)) (todo : List (Bytes × Nat))

/-- The matcher (matcher/match.go:39-46): its cache, its namespaces and rulesets, the rulesets whose last change was not yet
announced to the cache, the ruleset objects allocated so far, and the update that is being processed. -/
structure Sys where
  cache : St
  ns : NsSt
  pending : List Nat
  used : List Nat
  phase : Phase

/-- The callbacks as wired by `NewMatcher`, matcher/match.go:53-61; `onRuleSetUpdatedFn` is delivered by a later step. -/
def Sys.notify (y : Sys) : Event → Sys
  | .added ns src => { y with cache := y.cache.register ns src }
  | .removed ns => { y with cache := y.cache.unregister ns }
  | .updated src => { y with pending := src :: y.pending }

/-- What the rulesets answer. -/
def answers (env : Env) : Nat → RS → Bytes → Int → Int → MatchResult := fun _ r => r.forwardMatch env

/-- The cache with its sources. -/
def Sys.world (y : Sys) : World RS := ⟨y.cache, y.ns.objs, y.pending⟩

/-- Steps of the matcher, interleaved in any order: lookups and background work of the cache; a namespaces update is taken up,
and its two loops are run through entry by entry (the maps in any order); a ruleset receives a new value; it announces this to
the cache; the matcher is closed.  `nsOf` is the namespace an object is created for. -/
inductive SStep (cfg : Config) (env : Env) (past : Int) (nsOf : Nat → Bytes) : Sys → Sys → Prop
  | cache (y : Sys) (act : Act) (c : St) (hi : Internal act) (hs : y.cache.step cfg (y.world.answers (answers env)) act = some c) :
      SStep cfg env past nsOf y { y with cache := c }
  | update (y : Sys) (nss : List Namespace) (todo : List (Bytes × Namespace)) (hp : y.phase = .idle) (ho : todo.Perm (incoming nss)) :
      SStep cfg env past nsOf y { y with phase := .adding (incoming nss) todo }
  | add (y : Sys) (e : Env63) (inc todo : List (Bytes × Namespace)) (name : Bytes) (elem : Namespace) (he : e.past = past)
      (hp : y.phase = .adding inc ((name, elem) :: todo)) (hf : mget y.ns.rules name = none → e.fresh name ∉ y.used ∧ nsOf (e.fresh name) = name) :
      SStep cfg env past nsOf y
        ((addOne e y.ns name elem).2.foldl Sys.notify
          { y with ns := (addOne e y.ns name elem).1, used := target e y.ns name :: y.used, phase := .adding inc todo })
  | addDone (y : Sys) (inc : List (Bytes × Namespace)) (todo : List (Bytes × Nat)) (hp : y.phase = .adding inc []) (ho : todo.Perm y.ns.rules) :
      SStep cfg env past nsOf y { y with phase := .removing inc todo }
  | remove (y : Sys) (e : Env63) (inc : List (Bytes × Namespace)) (todo : List (Bytes × Nat)) (name : Bytes) (src : Nat) (he : e.past = past)
      (hp : y.phase = .removing inc ((name, src) :: todo)) :
      SStep cfg env past nsOf y
        ((removeOne e inc y.ns name src).2.foldl Sys.notify
          { y with ns := (removeOne e inc y.ns name src).1, phase := .removing inc todo })
  | removeDone (y : Sys) (inc : List (Bytes × Namespace)) (hp : y.phase = .removing inc []) :
      SStep cfg env past nsOf y { y with phase := .idle }
  | ruleset (y : Sys) (src : Nat) (v : RuleSet.RuleSet) (now : Int) (hu : src ∈ y.used) :
      SStep cfg env past nsOf y { y with ns := y.ns.put src ((y.ns.objs src).process past v now), pending := src :: y.pending }
  | deliver (y : Sys) (src : Nat) (hp : src ∈ y.pending) :
      SStep cfg env past nsOf y { y with cache := y.cache.refresh (nsOf src) src, pending := y.pending.erase src }
  | close (y : Sys) : SStep cfg env past nsOf y { y with ns := y.ns.close }

/-- States the matcher can reach. -/
inductive SReach (cfg : Config) (env : Env) (past : Int) (nsOf : Nat → Bytes) : Sys → Prop
  | init (h : Heap) (objs : Nat → RS) : SReach cfg env past nsOf ⟨newCache h, ⟨[], objs⟩, [], [], .idle⟩
  | step {y y'} : SReach cfg env past nsOf y → SStep cfg env past nsOf y y' → SReach cfg env past nsOf y'

structure SInv (env : Env) (past : Int) (nsOf : Nat → Bytes) (y : Sys) : Prop where
  world : WInv (answers env) nsOf y.world
  wf : WF y.ns
  link : ∀ ns, sourceOf y.cache ns = mget y.ns.rules ns
  owner : ∀ ns src, mget y.ns.rules ns = some src → src ∈ y.used ∧ nsOf src = ns
  held : ∀ src ∈ y.used, (y.ns.objs src).matcher = none ∨
    ∃ v now, (y.ns.objs src).matcher = some (RuleSet.RuleSet.activeSet v (now - past)) ∧ (y.ns.objs src).version = v.version ∧
      (y.ns.objs src).cutoverNanos = v.cutoverNanos ∧ (y.ns.objs src).tombstoned = v.tombstoned

/-- The rulesets may change as long as those in the cache answer the same or have yet to announce the change. -/
theorem WInv.regen {G : Type} {matchAt : Nat → G → Bytes → Int → Int → MatchResult} {nsOf : Nat → Bytes} {w : World G} (h : WInv matchAt nsOf w)
    (gen : Nat → G) (pending : List Nat) (hp : ∀ x ∈ w.pending, x ∈ pending)
    (hg : ∀ ns r, mget w.cache.namespaces ns = some r → r.source ∈ pending ∨ matchAt r.source (gen r.source) = matchAt r.source (w.gen r.source)) :
    WInv matchAt nsOf ⟨w.cache, gen, pending⟩ := by
  refine ⟨h.inv, h.ns, ?_⟩
  intro ns src id p hc
  obtain ⟨r, h1, h2, h3⟩ := hc
  subst h2
  rcases h.cur ns r.source id p ⟨r, h1, rfl, h3⟩ with hx | ⟨f, t, hx⟩
  · exact Or.inl (hp _ hx)
  · rcases hg ns r h1 with hy | hy
    · exact Or.inl hy
    · exact Or.inr ⟨f, t, by rw [hx]; exact (congrFun (congrFun (congrFun hy id) f) t).symm⟩

/-- The watch state of a ruleset does not matter for what it answers. -/
theorem watchOrNot_matcher (e : Env63) (elem : Namespace) (ns : Bytes) (r : RS) :
    (watchOrNot e elem ns r).2 = true ∨ ((watchOrNot e elem ns r).1.matcher = r.matcher ∧ (watchOrNot e elem ns r).1.version = r.version ∧
      (watchOrNot e elem ns r).1.cutoverNanos = r.cutoverNanos ∧ (watchOrNot e elem ns r).1.tombstoned = r.tombstoned) := by
  unfold watchOrNot RS.watch RS.unwatch
  split
  · right; exact ⟨rfl, rfl, rfl, rfl⟩
  · split
    · right; exact ⟨rfl, rfl, rfl, rfl⟩
    · cases e.watch ns with
      | failed => right; exact ⟨rfl, rfl, rfl, rfl⟩
      | watching f =>
        cases f with
        | none => right; exact ⟨rfl, rfl, rfl, rfl⟩
        | some v => left; rfl

theorem watchOrNot_held (e : Env63) (elem : Namespace) (ns : Bytes) (r : RS)
    (h : r.matcher = none ∨ ∃ v now, r.matcher = some (RuleSet.RuleSet.activeSet v (now - e.past)) ∧ r.version = v.version ∧
      r.cutoverNanos = v.cutoverNanos ∧ r.tombstoned = v.tombstoned) :
    let r' := (watchOrNot e elem ns r).1
    r'.matcher = none ∨ ∃ v now, r'.matcher = some (RuleSet.RuleSet.activeSet v (now - e.past)) ∧ r'.version = v.version ∧
      r'.cutoverNanos = v.cutoverNanos ∧ r'.tombstoned = v.tombstoned := by
  unfold watchOrNot RS.watch RS.unwatch
  simp only
  split
  · exact h
  · split
    · exact h
    · cases e.watch ns with
      | failed => exact h
      | watching f =>
        cases f with
        | none => exact h
        | some v => exact Or.inr ⟨v.1, v.2, rfl, rfl, rfl, rfl⟩

theorem forwardMatch_of_matcher (env : Env) {r r' : RS} (h : r'.matcher = r.matcher) : r'.forwardMatch env = r.forwardMatch env := by
  funext id f t
  unfold RS.forwardMatch
  rw [h]

theorem WInv.register {G : Type} {cfg : Config} (hcap : 0 ≤ cfg.capacity) {matchAt : Nat → G → Bytes → Int → Int → MatchResult}
    {nsOf : Nat → Bytes} {w : World G} (h : WInv matchAt nsOf w) (ns : Bytes) (src : Nat) (hn : nsOf src = ns) :
    WInv matchAt nsOf { w with cache := w.cache.register ns src } :=
  h.step hcap (.cache (cfg := cfg) w (.register ns src) _ (by rintro a b e; cases e; exact hn) rfl)

theorem WInv.unregister {G : Type} {cfg : Config} (hcap : 0 ≤ cfg.capacity) {matchAt : Nat → G → Bytes → Int → Int → MatchResult}
    {nsOf : Nat → Bytes} {w : World G} (h : WInv matchAt nsOf w) (ns : Bytes) :
    WInv matchAt nsOf { w with cache := w.cache.unregister ns } :=
  h.step hcap (.cache (cfg := cfg) w (.unregister ns) _ (by rintro a b e; cases e) rfl)

theorem SInv.step {cfg : Config} (hcap : 0 ≤ cfg.capacity) {env : Env} {past : Int} {nsOf : Nat → Bytes} {y y' : Sys}
    (h : SInv env past nsOf y) (hs : SStep cfg env past nsOf y y') : SInv env past nsOf y' := by
  -- the source registered for a namespace
  have src_of : ∀ ns r, mget y.cache.namespaces ns = some r → mget y.ns.rules ns = some r.source := by
    intro ns r hr
    rw [← h.link]; unfold sourceOf; rw [hr]; rfl
  cases hs with
  | cache act c hi hs =>
    refine ⟨?_, h.wf, ?_, h.owner, h.held⟩
    · exact WInv.step hcap h.world (.cache y.world act c (by rintro a b e; rw [e] at hi; exact hi.elim) hs)
    · intro ns
      show sourceOf c ns = _
      rw [step_sourceOf hi hs, h.link]
  | update nss todo hp ho => exact ⟨h.world, h.wf, h.link, h.owner, h.held⟩
  | add e inc todo name elem he hp hf =>
    have hf' : mget y.ns.rules name = none → e.fresh name ∉ y.ns.rules.map (·.2) := by
      intro hg hm
      obtain ⟨⟨k, v⟩, hx, hv⟩ := List.mem_map.mp hm
      simp only at hv
      subst hv
      exact (hf hg).1 (h.owner k _ (mget_of_mem h.wf.keys hx)).1
    have hwf := addOne_wf e h.wf name elem hf'
    have hown : ∀ ns src, mget (addOne e y.ns name elem).1.rules ns = some src → src ∈ target e y.ns name :: y.used ∧ nsOf src = ns := by
      intro ns src hg
      rw [addOne_mget] at hg
      split at hg
      · next e' =>
        cases hg
        refine ⟨by simp, ?_⟩
        unfold target
        cases h0 : mget y.ns.rules name with
        | none => rw [e']; exact (hf h0).2
        | some s0 => rw [e']; exact (h.owner name s0 h0).2
      · exact ⟨List.mem_cons_of_mem _ (h.owner ns src hg).1, (h.owner ns src hg).2⟩
    have hheld : ∀ src ∈ target e y.ns name :: y.used, ((addOne e y.ns name elem).1.objs src).matcher = none ∨
        ∃ v now, ((addOne e y.ns name elem).1.objs src).matcher = some (RuleSet.RuleSet.activeSet v (now - past)) ∧
          ((addOne e y.ns name elem).1.objs src).version = v.version ∧
          ((addOne e y.ns name elem).1.objs src).cutoverNanos = v.cutoverNanos ∧ ((addOne e y.ns name elem).1.objs src).tombstoned = v.tombstoned := by
      intro src hm
      rw [addOne_objs]
      split
      · have := watchOrNot_held e elem name (before y.ns name)
        rw [he] at this
        refine this ?_
        unfold before NsSt.ruleset
        cases h0 : mget y.ns.rules name with
        | none => left; rfl
        | some s0 => exact h.held s0 (h.owner name s0 h0).1
      · next hne =>
        rcases List.mem_cons.mp hm with hm | hm
        · exact absurd hm hne
        · exact h.held src hm
    -- the rulesets in the cache
    have hreg : ∀ (pending : List Nat), (∀ x ∈ y.pending, x ∈ pending) →
        ((watchOrNot e elem name (before y.ns name)).2 = true → target e y.ns name ∈ pending) →
        WInv (answers env) nsOf ⟨y.cache, (addOne e y.ns name elem).1.objs, pending⟩ := by
      intro pending hp1 hp2
      refine WInv.regen h.world _ pending hp1 ?_
      intro ns r hr
      have hsrc := src_of ns r hr
      show _ ∨ RS.forwardMatch env ((addOne e y.ns name elem).1.objs r.source) = RS.forwardMatch env (y.ns.objs r.source)
      rw [addOne_objs]
      split
      · next heq =>
        -- it is the ruleset of the namespace
        have h0 : mget y.ns.rules name = some r.source := by
          cases h0 : mget y.ns.rules name with
          | none =>
            exfalso
            unfold target at heq
            rw [h0] at heq
            simp only [Option.getD_none] at heq
            exact (hf h0).1 (heq ▸ (h.owner ns _ hsrc).1)
          | some s0 =>
            unfold target at heq
            rw [h0] at heq
            simp only [Option.getD_some] at heq
            rw [heq]
        rcases watchOrNot_matcher e elem name (before y.ns name) with hw | ⟨hw, _⟩
        · exact Or.inl (heq ▸ hp2 hw)
        · refine Or.inr (forwardMatch_of_matcher env ?_)
          rw [hw]
          unfold before NsSt.ruleset
          rw [h0]; rfl
      · exact Or.inr rfl
    -- the calls
    have mid : ∀ pending : List Nat, WInv (answers env) nsOf ⟨y.cache, (addOne e y.ns name elem).1.objs, pending⟩ →
        SInv env past nsOf ((if (mget y.ns.rules name).isSome then [] else [Event.added name (e.fresh name)]).foldl Sys.notify
          { cache := y.cache, ns := (addOne e y.ns name elem).1, pending := pending, used := target e y.ns name :: y.used, phase := .adding inc todo }) := by
      intro pending hw
      cases h0 : mget y.ns.rules name with
      | some s0 =>
        refine ⟨hw, hwf, ?_, hown, hheld⟩
        intro ns
        show sourceOf y.cache ns = mget (addOne e y.ns name elem).1.rules ns
        rw [addOne_mget, h.link]
        split
        · next e' => rw [e', h0]; unfold target; rw [h0]; rfl
        · rfl
      | none =>
        refine ⟨?_, hwf, ?_, hown, hheld⟩
        · exact WInv.register hcap hw name (e.fresh name) (hf h0).2
        · intro ns
          show sourceOf (y.cache.register name (e.fresh name)) ns = mget (addOne e y.ns name elem).1.rules ns
          rw [register_sourceOf, addOne_mget, h.link]
          unfold target
          rw [h0]; rfl
    rw [addOne_events, List.foldl_append]
    cases hw : (watchOrNot e elem name (before y.ns name)).2 with
    | true =>
      exact mid (target e y.ns name :: y.pending) (hreg _ (fun x hx => List.mem_cons_of_mem _ hx) fun _ => by simp)
    | false =>
      exact mid y.pending (hreg _ (fun x hx => hx) fun hx => by rw [hw] at hx; cases hx)
  | addDone inc todo hp ho => exact ⟨h.world, h.wf, h.link, h.owner, h.held⟩
  | remove e inc todo name src he hp =>
    rcases removeOne_eq e inc y.ns name src with ⟨_, _, heq⟩ | ⟨_, heq⟩
    · rw [heq]
      have hobj : ∀ x, ((y.ns.put src (y.ns.objs src).unwatch).objs x).matcher = (y.ns.objs x).matcher ∧
          ((y.ns.put src (y.ns.objs src).unwatch).objs x).version = (y.ns.objs x).version ∧
          ((y.ns.put src (y.ns.objs src).unwatch).objs x).cutoverNanos = (y.ns.objs x).cutoverNanos ∧
          ((y.ns.put src (y.ns.objs src).unwatch).objs x).tombstoned = (y.ns.objs x).tombstoned := by
        intro x
        by_cases hx : x = src
        · subst hx; simp [NsSt.put, RS.unwatch]
        · simp [NsSt.put, hx]
      have hw : WInv (answers env) nsOf ⟨y.cache, (y.ns.put src (y.ns.objs src).unwatch).objs, y.pending⟩ :=
        WInv.regen h.world _ y.pending (fun x hx => hx) fun ns r hr => Or.inr (forwardMatch_of_matcher env (hobj r.source).1)
      refine ⟨WInv.unregister hcap hw name, ⟨nodup_mdel h.wf.keys _, nodup_mdel_vals h.wf.vals _⟩, ?_, ?_, ?_⟩
      · intro ns
        show sourceOf (y.cache.unregister name) ns = mget (mdel y.ns.rules name) ns
        rw [unregister_sourceOf, mget_mdel, h.link]
      · intro ns s1 hg
        have hg' : mget (mdel y.ns.rules name) ns = some s1 := hg
        rw [mget_mdel] at hg'
        split at hg'
        · cases hg'
        · exact h.owner ns s1 hg'
      · intro s1 hm
        show ((y.ns.put src (y.ns.objs src).unwatch).objs s1).matcher = none ∨ ∃ v now,
          ((y.ns.put src (y.ns.objs src).unwatch).objs s1).matcher = some _ ∧ ((y.ns.put src (y.ns.objs src).unwatch).objs s1).version = _ ∧
          ((y.ns.put src (y.ns.objs src).unwatch).objs s1).cutoverNanos = _ ∧ ((y.ns.put src (y.ns.objs src).unwatch).objs s1).tombstoned = _
        obtain ⟨a, b, c, d⟩ := hobj s1
        rw [a, b, c, d]
        exact h.held s1 hm
    · rw [heq]
      exact ⟨h.world, h.wf, h.link, h.owner, h.held⟩
  | removeDone inc hp => exact ⟨h.world, h.wf, h.link, h.owner, h.held⟩
  | ruleset src v now hu =>
    refine ⟨?_, ⟨h.wf.keys, h.wf.vals⟩, h.link, h.owner, ?_⟩
    · exact WInv.step hcap (cfg := cfg) h.world (.publish y.world src ((y.ns.objs src).process past v now))
    · intro s1 hm
      show ((if s1 = src then _ else _ : RS)).matcher = none ∨ ∃ v now, ((if s1 = src then _ else _ : RS)).matcher = some _ ∧ ((if s1 = src then _ else _ : RS)).version = _ ∧
        ((if s1 = src then _ else _ : RS)).cutoverNanos = _ ∧ ((if s1 = src then _ else _ : RS)).tombstoned = _
      split
      · exact Or.inr ⟨v, now, rfl, rfl, rfl, rfl⟩
      · exact h.held s1 hm
  | deliver src hp =>
    refine ⟨WInv.step hcap (cfg := cfg) h.world (.deliver y.world src hp), h.wf, ?_, h.owner, h.held⟩
    intro ns
    show sourceOf (y.cache.refresh (nsOf src) src) ns = _
    rw [refresh_sourceOf, h.link]
  | close =>
    have hobj : ∀ x, (y.ns.close.objs x).matcher = (y.ns.objs x).matcher ∧ (y.ns.close.objs x).version = (y.ns.objs x).version ∧
        (y.ns.close.objs x).cutoverNanos = (y.ns.objs x).cutoverNanos ∧ (y.ns.close.objs x).tombstoned = (y.ns.objs x).tombstoned := by
      intro x
      unfold NsSt.close RS.unwatch
      simp only
      split <;> exact ⟨rfl, rfl, rfl, rfl⟩
    refine ⟨?_, ⟨h.wf.keys, h.wf.vals⟩, h.link, h.owner, ?_⟩
    · exact WInv.regen h.world _ y.pending (fun x hx => hx) fun ns r hr => Or.inr (forwardMatch_of_matcher env (hobj r.source).1)
    · intro s1 hm
      show (y.ns.close.objs s1).matcher = none ∨ ∃ v now, (y.ns.close.objs s1).matcher = some _ ∧ (y.ns.close.objs s1).version = _ ∧
        (y.ns.close.objs s1).cutoverNanos = _ ∧ (y.ns.close.objs s1).tombstoned = _
      obtain ⟨a, b, c, d⟩ := hobj s1
      rw [a, b, c, d]
      exact h.held s1 hm

theorem SReach.inv {cfg : Config} (hcap : 0 ≤ cfg.capacity) {env : Env} {past : Int} {nsOf : Nat → Bytes} {y : Sys}
    (h : SReach cfg env past nsOf y) : SInv env past nsOf y := by
  induction h with
  | init hp objs =>
    refine ⟨⟨⟨[], Inv.init hp⟩, ?_, ?_⟩, ⟨by simp, by simp⟩, ?_, ?_, by simp⟩
    · intro ns r h; simp [Sys.world, newCache, mget] at h
    · rintro ns src id p ⟨r, h, _⟩; simp [Sys.world, newCache, mget] at h
    · intro ns; simp [sourceOf, newCache, mget]
    · intro ns src h; simp [mget] at h
  | step _ hs ih => exact ih.step hcap hs

/-- The tag lookup of m3 identifiers, metric/id/m3/id.go:117-135 (it never fails, C33). -/
def m3TagValue (id tag : Bytes) : Option Bytes := match Id.tagValue id tag with
  | .ok r => r
  | _ => none

/-- **C70.** In every reachable state, a lookup that answers (a first attempt that finds a result, or a second attempt) for
an identifier answers for the namespace in its namespace tag, or the default namespace: with the default result if that
namespace has no ruleset, or its ruleset has received nothing; otherwise with the result of matching against the rules this
ruleset now has (unless its last change has yet to be announced to the cache), over the range asked for, or a range that is
still valid beyond the end of the one asked for. -/
theorem C70_match (cfg : Config) (hcap : 0 ≤ cfg.capacity) (env : Env) (past : Int) (nsOf : Nat → Bytes) (y : Sys)
    (h : SReach cfg env past nsOf y) (tagValue : Bytes → Bytes → Option Bytes) (tag dflt id : Bytes) (t : Tick) (frm to : Int) (second : Bool)
    (c' : St) (res : MatchResult)
    (hg : y.cache.tryGetWithLock cfg (y.world.answers (answers env)) t (namespaceOf tagValue tag dflt id) id frm to second = (c', res, true)) :
    ∃ ns, (tagValue id tag = some ns ∨ tagValue id tag = none ∧ ns = dflt) ∧
      (mget y.ns.rules ns = none → res = emptyMatchResult) ∧
      (∀ src, mget y.ns.rules ns = some src → src ∉ y.pending →
        ((y.ns.objs src).matcher = none → res = emptyMatchResult) ∧
        (∀ as, (y.ns.objs src).matcher = some as → ∃ f u, res = Active.forwardMatch env as id f u ∧
          ((f = frm ∧ u = to) ∨ to < res.expireAtNanos))) := by
  have hi := h.inv hcap
  refine ⟨namespaceOf tagValue tag dflt id, ?_, ?_⟩
  · unfold namespaceOf
    cases tagValue id tag with
    | none => exact Or.inr ⟨rfl, rfl⟩
    | some v => exact Or.inl rfl
  generalize namespaceOf tagValue tag dflt id = ns at hg ⊢
  obtain ⟨xs, hx⟩ := hi.world.inv
  have hres := tryGet_result hx cfg (y.world.answers (answers env)) t ns id frm to second c' res hg
  have hlink := hi.link ns
  have hcn : y.world.cache.namespaces = y.cache.namespaces := rfl
  rw [hcn] at hres
  unfold sourceOf at hlink
  cases hr : mget y.cache.namespaces ns with
  | none =>
    rw [hr] at hres hlink
    refine ⟨fun _ => hres, fun src hsrc => ?_⟩
    rw [← hlink] at hsrc; cases hsrc
  | some r =>
    rw [hr] at hres hlink
    simp only [Option.map_some] at hlink
    refine ⟨fun hn => (by rw [← hlink] at hn; cases hn), ?_⟩
    intro src hsrc hpend
    rw [← hlink] at hsrc
    simp only [Option.some.injEq] at hsrc
    subst hsrc
    simp only at hres
    have fm : ∃ f u, res = (y.ns.objs r.source).forwardMatch env id f u ∧ ((f = frm ∧ u = to) ∨ to < res.expireAtNanos) := by
      rcases hres with ⟨p, h1, h2, h3⟩ | hres
      · rcases hi.world.cur ns r.source id p ⟨r, hr, rfl, h1⟩ with hpd | ⟨f, u, hfu⟩
        · exact absurd hpd hpend
        · exact ⟨f, u, by rw [h2]; exact hfu, Or.inr h3⟩
      · exact ⟨frm, to, hres, Or.inl ⟨rfl, rfl⟩⟩
    obtain ⟨f, u, h1, h2⟩ := fm
    unfold RS.forwardMatch at h1
    constructor
    · intro hm
      rw [hm] at h1
      exact h1
    · intro as hm
      rw [hm] at h1
      exact ⟨f, u, h1, h2⟩

/-- **C70.** The rules of a ruleset are those of one ruleset value it received, taken from the start of the match window at
that time, and its version, cutover and deletion mark are those of the same value. -/
theorem C70_rules (cfg : Config) (hcap : 0 ≤ cfg.capacity) (env : Env) (past : Int) (nsOf : Nat → Bytes) (y : Sys)
    (h : SReach cfg env past nsOf y) (ns : Bytes) (src : Nat) (hs : mget y.ns.rules ns = some src) (as : ActiveRuleSet)
    (hm : (y.ns.objs src).matcher = some as) :
    ∃ v now, as = RuleSet.RuleSet.activeSet v (now - past) ∧ y.ns.version ns = v.version ∧
      (y.ns.objs src).cutoverNanos = v.cutoverNanos ∧ (y.ns.objs src).tombstoned = v.tombstoned := by
  have hi := h.inv hcap
  rcases hi.held src (hi.owner ns src hs).1 with hn | ⟨v, now, a, b, c, d⟩
  · rw [hn] at hm; cases hm
  · rw [a] at hm
    refine ⟨v, now, (Option.some.inj hm).symm, ?_, c, d⟩
    unfold NsSt.version
    rw [hs]; exact b

/-- **C70.** The result without rules is the default metadata, in force at all times, and it does not expire. -/
theorem C70_default : (∀ t, emptyMatchResult.forExistingIDAt t = Meta.defaultStagedMetadatas) ∧ emptyMatchResult.forNewRollupIDs = [] ∧
    emptyMatchResult.expireAtNanos = 9223372036854775807 := by
  refine ⟨?_, rfl, rfl⟩
  intro t
  unfold MatchResult.forExistingIDAt activeStagedMetadatasAt emptyMatchResult
  simp only [Meta.defaultStagedMetadatas, List.length_cons, List.length_nil, activeStagedLoop, List.getElem?_cons_zero]
  split <;> rfl

/-- **C70.** For m3 identifiers: the tag is the one in the text of the identifier. -/
theorem C70_m3_namespace (name : Bytes) (tags : List (Bytes × Bytes)) (h : Spec.Id.Clean name tags) (tag dflt : Bytes) :
    namespaceOf m3TagValue tag dflt (Spec.Id.idText name tags) = (Spec.Id.lookup tag tags).getD dflt := by
  unfold namespaceOf m3TagValue
  rw [Id.C33_tag_lookup name tags h tag]
  simp only
  cases Spec.Id.lookup tag tags <;> rfl

/-! A history: the namespace `n` appears, its ruleset receives a value and announces it; a lookup for an identifier with that
namespace tag is answered from it, one without the tag by default. -/

def exInit : Sys := ⟨newCache exHeap, ⟨[], fun _ => newRuleSet⟩, [], [], .idle⟩
def exSrc : Nat := exFresh (bs "n")
def exSys1 : Sys := { exInit with phase := .adding [(bs "n", exNs (bs "n") false)] [(bs "n", exNs (bs "n") false)] }
def exSys2 : Sys :=
  (addOne (exEnv63 12) exSys1.ns (bs "n") (exNs (bs "n") false)).2.foldl Sys.notify
    { exSys1 with ns := (addOne (exEnv63 12) exSys1.ns (bs "n") (exNs (bs "n") false)).1
                  used := target (exEnv63 12) exSys1.ns (bs "n") :: exSys1.used
                  phase := .adding [(bs "n", exNs (bs "n") false)] [] }
def exSys3 : Sys := { exSys2 with ns := exSys2.ns.put exSrc ((exSys2.ns.objs exSrc).process 5 exDeletedRS 12), pending := exSrc :: exSys2.pending }
def exSys4 : Sys := { exSys3 with cache := exSys3.cache.refresh (bs "n") exSrc, pending := exSys3.pending.erase exSrc }

def exNsOf : Nat → Bytes := fun _ => bs "n"

def exMEnv : Env :=
  { filterMatches := fun _ _ => false, nameAndTags := fun _ => none, tagPairs := fun _ => [], newRollupID := fun _ _ => [], isRollupID := fun _ _ => false }

theorem exSys4_reach : SReach exCfg exMEnv 5 exNsOf exSys4 := by
  have h0 : SReach exCfg exMEnv 5 exNsOf exInit := .init _ _
  have h1 : SReach exCfg exMEnv 5 exNsOf exSys1 := .step h0 (.update exInit [exNs (bs "n") false] _ rfl (.refl _))
  have h2 : SReach exCfg exMEnv 5 exNsOf exSys2 :=
    .step h1 (.add exSys1 (exEnv63 12) _ [] (bs "n") (exNs (bs "n") false) rfl rfl fun _ => ⟨by simp [exSys1, exInit], rfl⟩)
  have h3 : SReach exCfg exMEnv 5 exNsOf exSys3 := .step h2 (.ruleset exSys2 exSrc exDeletedRS 12 (by decide +kernel))
  exact .step h3 (.deliver exSys3 exSrc (by decide +kernel))

example : exSys4.pending = [] ∧ mget exSys4.ns.rules (bs "n") = some exSrc ∧ (exSys4.ns.objs exSrc).matcher.isSome ∧
    (let r := exSys4.cache.tryGetWithLock exCfg (exSys4.world.answers (answers exMEnv)) exTick
      (namespaceOf m3TagValue (bs "ns") (bs "d") (bs "m3+x+ns=n")) (bs "m3+x+ns=n") 0 10 true
     (r.2.1.version, r.2.2) = (4, true)) ∧
    (let r := exSys4.cache.tryGetWithLock exCfg (exSys4.world.answers (answers exMEnv)) exTick
      (namespaceOf m3TagValue (bs "ns") (bs "d") (bs "m3+x+a=n")) (bs "m3+x+a=n") 0 10 true
     (r.2.1.version, r.2.2) = (0, true)) := by decide +kernel

end Verif.Matcher
