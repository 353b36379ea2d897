import Verif.Props.Cache
import Verif.Props.ForwardRollups
/-
C58: what the cache answers was computed by the current source, from its current rules.
C59: answers from the cache against matching directly.
-/
namespace Verif.Cache
open Verif.Active

set_option synthInstance.maxSize 1000

/-! ### The cache and its sources -/

variable {G : Type}

/-- The cache, the rules of each source (or anything that determines its answers), and the sources whose last changes were
not yet announced to the
cache (`onRuleSetUpdatedFn`, matcher/ruleset.go:213-216, is called after the new rules are in place). -/
structure World (G : Type) where
  cache : St
  gen : Nat → G
  pending : List Nat

/-- What each source answers now. -/
def World.answers (matchAt : Nat → G → Bytes → Int → Int → MatchResult) (w : World G) : Nat → Bytes → Int → Int → MatchResult :=
  fun src => matchAt src (w.gen src)

/-- Steps of the cache and of the sources.  A source belongs to one namespace. -/
inductive WStep (cfg : Config) (matchAt : Nat → G → Bytes → Int → Int → MatchResult) (nsOf : Nat → Bytes) : World G → World G → Prop
  /-- a step of the cache; a source is only registered, or refreshed, for its namespace -/
  | cache (w : World G) (act : Act) (c : St) (hreg : ∀ ns src, act = .register ns src → nsOf src = ns)
      (hstep : w.cache.step cfg (w.answers matchAt) act = some c) : WStep cfg matchAt nsOf w { w with cache := c }
  /-- new rules take effect in a source -/
  | publish (w : World G) (src : Nat) (g : G) :
      WStep cfg matchAt nsOf w { w with gen := fun x => if x = src then g else w.gen x, pending := src :: w.pending }
  /-- a source announces them to the cache -/
  | deliver (w : World G) (src : Nat) (hp : src ∈ w.pending) :
      WStep cfg matchAt nsOf w { w with cache := w.cache.refresh (nsOf src) src, pending := w.pending.erase src }

inductive WReach (cfg : Config) (matchAt : Nat → G → Bytes → Int → Int → MatchResult) (nsOf : Nat → Bytes) : World G → Prop
  | init (h : Heap) (gen : Nat → G) : WReach cfg matchAt nsOf ⟨newCache h, gen, []⟩
  | step {w w'} : WReach cfg matchAt nsOf w → WStep cfg matchAt nsOf w w' → WReach cfg matchAt nsOf w'

/-- The result was computed from the current rules of the source, or the source has yet to announce a change. -/
def World.current (matchAt : Nat → G → Bytes → Int → Int → MatchResult) (w : World G) (src : Nat) (id : Bytes) (res : MatchResult) : Prop :=
  src ∈ w.pending ∨ ∃ f t, res = matchAt src (w.gen src) id f t

structure WInv (matchAt : Nat → G → Bytes → Int → Int → MatchResult) (nsOf : Nat → Bytes) (w : World G) : Prop where
  inv : ∃ xs, Inv w.cache xs
  ns : ∀ ns r, mget w.cache.namespaces ns = some r → nsOf r.source = ns
  cur : ∀ ns src id p, w.cache.cached ns src id p → w.current matchAt src id (w.cache.heap p).result

/-! ### Namespaces of the cache -/

/-- A step keeps the source of each namespace, unless it registers the namespace. -/
theorem step_sources {cfg : Config} {fm : Nat → Bytes → Int → Int → MatchResult} {s s' : St} {act : Act}
    (hs : s.step cfg fm act = some s') {ns : Bytes} {r' : Results} (hr' : mget s'.namespaces ns = some r') :
    (∃ r, mget s.namespaces ns = some r ∧ r.source = r'.source) ∨ act = .register ns r'.source := by
  have key : ∀ (m : List (Bytes × Results)) (ns0 : Bytes) (r0 : Results), mget m ns0 = some r0 → ∀ e : ElemMap,
      mget (mset m ns0 { r0 with elems := e }) ns = some r' → ∃ r, mget m ns = some r ∧ r.source = r'.source := by
    intro m ns0 r0 h0 e h
    rw [mget_mset] at h
    split at h
    · next hc => cases h; subst hc; exact ⟨r0, h0, rfl⟩
    · exact ⟨r', h, rfl⟩
  have evict : ∀ (n : Nat) (s s' : St), evictLoop cfg n s = some s' → mget s'.namespaces ns = some r' →
      ∃ r, mget s.namespaces ns = some r ∧ r.source = r'.source := by
    intro n
    induction n with
    | zero => intro s s' h hr; cases h; exact ⟨r', hr, rfl⟩
    | succ n ih =>
      intro s s' h hr
      rw [evictLoop_succ] at h
      split at h
      · split at h
        · cases h
        · next p _ =>
          obtain ⟨r1, a, b⟩ := ih _ _ h hr
          unfold evictOne at a
          simp only at a
          split at a
          · exact ⟨r1, a, b⟩
          · next r2 h2 =>
            have h2' : mget s.namespaces _ = some r2 := h2
            rw [mget_mset] at a
            split at a
            · next hc => cases a; rw [hc]; exact ⟨r2, h2', b⟩
            · exact ⟨r1, a, b⟩
      · cases h; exact ⟨r', hr, rfl⟩
  have get : ∀ b t ns1 id frm to, mget (s.tryGetWithLock cfg fm t ns1 id frm to b).1.namespaces ns = some r' →
      ∃ r, mget s.namespaces ns = some r ∧ r.source = r'.source := by
    intro b t ns1 id frm to h
    have set : ∀ (r1 : Results) (bb : Bool), mget s.namespaces ns1 = some r1 →
        mget (s.setWithLock cfg fm t ns1 id frm to r1 bb).1.namespaces ns = some r' →
        ∃ r, mget s.namespaces ns = some r ∧ r.source = r'.source := by
      intro r1 bb h1 h
      have e : (s.setWithLock cfg fm t ns1 id frm to r1 bb).1.namespaces =
          mset (s.invalidateIf cfg ns1 id r1 bb).1.namespaces ns1
            { (s.invalidateIf cfg ns1 id r1 bb).2 with elems := mset (s.invalidateIf cfg ns1 id r1 bb).2.elems id (s.invalidateIf cfg ns1 id r1 bb).1.nextPtr } := by
        unfold St.setWithLock
        simp only
        split <;> rfl
      rw [e] at h
      have e2 : (s.invalidateIf cfg ns1 id r1 bb).1.namespaces = s.namespaces ∨
          (s.invalidateIf cfg ns1 id r1 bb).1.namespaces = mset s.namespaces ns1 (s.invalidateIf cfg ns1 id r1 bb).2 := by
        unfold St.invalidateIf
        split
        · right
          unfold St.invalidateWithLock
          split <;> rfl
        · left; rfl
      have e3 : (s.invalidateIf cfg ns1 id r1 bb).2.source = r1.source := by
        unfold St.invalidateIf
        split
        · unfold St.invalidateWithLock
          split <;> rfl
        · rfl
      rw [mget_mset] at h
      split at h
      · next hc => cases h; subst hc; exact ⟨r1, h1, e3.symm⟩
      · next hc =>
        rcases e2 with e2 | e2
        · rw [e2] at h; exact ⟨r', h, rfl⟩
        · rw [e2, mget_mset, if_neg hc] at h; exact ⟨r', h, rfl⟩
    unfold St.tryGetWithLock at h
    cases hr : mget s.namespaces ns1 with
    | none => rw [hr] at h; exact ⟨r', h, rfl⟩
    | some r1 =>
      rw [hr] at h
      simp only at h
      cases hp : mget r1.elems id with
      | none =>
        rw [hp] at h
        simp only at h
        cases b with
        | false => exact ⟨r', h, rfl⟩
        | true => exact set r1 false hr h
      | some p =>
        rw [hp] at h
        simp only at h
        split at h
        · split at h
          · have : (s.promote cfg t p).namespaces = s.namespaces := by unfold St.promote; split <;> rfl
            rw [this] at h
            exact ⟨r', h, rfl⟩
          · exact ⟨r', h, rfl⟩
        · cases b with
          | false => exact ⟨r', h, rfl⟩
          | true => exact set r1 true hr h
  cases act with
  | get t ns1 id frm to => cases hs; exact Or.inl (get false t ns1 id frm to hr')
  | fill t ns1 id frm to => cases hs; exact Or.inl (get true t ns1 id frm to hr')
  | register ns1 src =>
    cases hs
    unfold St.register at hr'
    have fin : mget (mset s.namespaces ns1 { elems := [], source := src }) ns = some r' →
        (∃ r, mget s.namespaces ns = some r ∧ r.source = r'.source) ∨ Act.register ns1 src = .register ns r'.source := by
      intro h
      rw [mget_mset] at h
      split at h
      · next hc => cases h; rw [hc]; exact Or.inr rfl
      · exact Or.inl ⟨r', h, rfl⟩
    split at hr'
    · exact fin hr'
    · exact fin hr'
  | refresh ns1 src =>
    cases hs
    unfold St.refresh at hr'
    split at hr'
    · exact Or.inl ⟨r', hr', rfl⟩
    · next r1 h1 =>
      split at hr'
      · exact Or.inl ⟨r', hr', rfl⟩
      · next hc =>
        have hc' : r1.source = src := Classical.byContradiction fun h => hc h
        have h2 : mget (mset s.namespaces ns1 { r1 with elems := [] }) ns = some r' := by rw [← hc'] at hr'; exact hr'
        exact Or.inl (key _ _ _ h1 _ h2)
  | unregister ns1 =>
    cases hs
    unfold St.unregister at hr'
    split at hr'
    · exact Or.inl ⟨r', hr', rfl⟩
    · have h2 : mget (mdel s.namespaces ns1) ns = some r' := hr'
      rw [mget_mdel] at h2
      split at h2
      · cases h2
      · exact Or.inl ⟨r', h2, rfl⟩
  | close => cases hs; exact Or.inl ⟨r', hr', rfl⟩
  | notify => cases hs; exact Or.inl ⟨r', hr', rfl⟩
  | evictWake =>
    simp only [St.step] at hs
    split at hs
    · cases hs; exact Or.inl ⟨r', hr', rfl⟩
    · cases hs
  | evictExit =>
    simp only [St.step] at hs
    split at hs
    · cases hs; exact Or.inl ⟨r', hr', rfl⟩
    · cases hs
  | evictRun =>
    simp only [St.step] at hs
    split at hs
    · unfold St.doEvict at hs
      cases he : evictLoop cfg s.list.length.toNat s with
      | none => rw [he] at hs; cases hs
      | some s1 => rw [he] at hs; cases hs; exact Or.inl (evict _ _ _ he hr')
    · cases hs
  | deleteWake =>
    simp only [St.step] at hs
    split at hs
    · cases hs; exact Or.inl ⟨r', hr', rfl⟩
    · cases hs
  | deleteExit =>
    simp only [St.step] at hs
    split at hs
    · cases hs; exact Or.inl ⟨r', hr', rfl⟩
    · cases hs
  | deleteDone =>
    simp only [St.step] at hs
    split at hs
    · cases hs; exact Or.inl ⟨r', hr', rfl⟩
    · cases hs
  | deleteTake =>
    simp only [St.step] at hs
    split at hs
    · cases hs
      unfold St.takeDeletions at hr'
      split at hr' <;> exact Or.inl ⟨r', hr', rfl⟩
    · cases hs
  | deleteOne k =>
    simp only [St.step] at hs
    split at hs
    · split at hs
      · cases hs
      · cases hs; exact Or.inl ⟨r', hr', rfl⟩
    · cases hs

/-! ### C58 -/

theorem WInv.step {cfg : Config} (hcap : 0 ≤ cfg.capacity) {matchAt : Nat → G → Bytes → Int → Int → MatchResult} {nsOf : Nat → Bytes}
    {w w' : World G} (h : WInv matchAt nsOf w) (hs : WStep cfg matchAt nsOf w w') : WInv matchAt nsOf w' := by
  obtain ⟨xs, hi⟩ := h.inv
  cases hs with
  | cache act c hreg hstep =>
    obtain ⟨ys, ok⟩ := step_ok cfg hcap (w.answers matchAt) hi act hstep
    refine ⟨⟨ys, ok.inv⟩, ?_, ?_⟩
    · intro ns r hr
      rcases step_sources hstep hr with ⟨r0, a, b⟩ | e
      · rw [← b]; exact h.ns ns r0 a
      · exact hreg ns r.source e
    · intro ns src id p hp
      rcases ok.entries ns src id p hp with hx | ⟨t, frm, to, _, hx⟩
      · have hlt := hi.bound p (hi.cached ns src id p hx).1
        have := (ok.evolves.data p hlt).2.2
        show World.current matchAt _ src id (c.heap p).result
        rw [this]
        exact h.cur ns src id p hx
      · exact Or.inr ⟨frm, to, hx⟩
  | publish src g =>
    refine ⟨⟨xs, hi⟩, h.ns, ?_⟩
    intro ns src' id p hp
    by_cases e : src' = src
    · exact Or.inl (by rw [e]; simp)
    · rcases h.cur ns src' id p hp with hx | ⟨f, t, hx⟩
      · exact Or.inl (List.mem_cons_of_mem _ hx)
      · exact Or.inr ⟨f, t, by simp only [e, if_false]; exact hx⟩
  | deliver src hp =>
    have g := Good.refresh hi (nsOf src) src
    have hheap : (w.cache.refresh (nsOf src) src).heap = w.cache.heap := by
      unfold St.refresh
      split
      · rfl
      · split <;> rfl
    refine ⟨⟨xs, g.inv⟩, ?_, ?_⟩
    · intro ns r hr
      rcases step_sources (cfg := cfg) (fm := w.answers matchAt) (act := .refresh (nsOf src) src) rfl hr with ⟨r0, a, b⟩ | e
      · rw [← b]; exact h.ns ns r0 a
      · cases e
    · intro ns src' id p hx
      show World.current matchAt _ src' id ((w.cache.refresh (nsOf src) src).heap p).result
      rw [hheap]
      have hold : w.cache.cached ns src' id p := (g.entries ns src' id p hx).resolve_right (fun h => h)
      by_cases e : src' = src
      · -- its entries are gone
        exfalso
        subst e
        obtain ⟨r, h1, h2, h3⟩ := hold
        have hns := h.ns ns r h1
        rw [h2] at hns
        obtain ⟨r', k1, k2, k3⟩ := hx
        unfold St.refresh at k1
        rw [hns, h1] at k1
        simp only [h2, ne_eq, not_true_eq_false, if_false] at k1
        have k1' : mget (mset w.cache.namespaces ns { elems := [], source := src' }) ns = some r' := k1
        rw [mget_mset, if_pos rfl] at k1'
        cases k1'
        simp [mget] at k3
      · rcases h.cur ns src' id p hold with hx | hx
        · exact Or.inl ((List.mem_erase_of_ne e).mpr hx)
        · exact Or.inr hx

theorem WReach.inv {cfg : Config} (hcap : 0 ≤ cfg.capacity) {matchAt : Nat → G → Bytes → Int → Int → MatchResult} {nsOf : Nat → Bytes}
    {w : World G} (h : WReach cfg matchAt nsOf w) : WInv matchAt nsOf w := by
  induction h with
  | init hp gen =>
    refine ⟨⟨[], Inv.init hp⟩, ?_, ?_⟩
    · intro ns r h; simp [newCache, mget] at h
    · rintro ns src id p ⟨r, h, _⟩; simp [newCache, mget] at h
  | step _ hs ih => exact ih.step hcap hs

/-- **C58.** Under every interleaving: each result in the cache was computed by the source now registered for the namespace,
from the rules it has now, unless that source has yet to announce a change to the cache. -/
theorem C58_cached_current (cfg : Config) (hcap : 0 ≤ cfg.capacity) (matchAt : Nat → G → Bytes → Int → Int → MatchResult)
    (nsOf : Nat → Bytes) (w : World G) (h : WReach cfg matchAt nsOf w) (ns id : Bytes) (r : Results) (p : Ptr)
    (hr : mget w.cache.namespaces ns = some r) (hp : mget r.elems id = some p) :
    nsOf r.source = ns ∧
    (r.source ∈ w.pending ∨ ∃ f t, (w.cache.heap p).result = matchAt r.source (w.gen r.source) id f t) := by
  have hi := h.inv hcap
  exact ⟨hi.ns ns r hr, hi.cur ns r.source id p ⟨r, hr, rfl, hp⟩⟩

theorem tryGet_result {s : St} {xs : List Ptr} (hi : Inv s xs) (cfg : Config) (fm : Nat → Bytes → Int → Int → MatchResult) (t : Tick)
    (ns id : Bytes) (frm to : Int) (b : Bool) :
    ∀ s' res, s.tryGetWithLock cfg fm t ns id frm to b = (s', res, true) →
      match mget s.namespaces ns with
      | none => res = emptyMatchResult
      | some r => (∃ p, mget r.elems id = some p ∧ res = (s.heap p).result ∧ to < res.expireAtNanos) ∨ res = fm r.source id frm to := by
  intro s' res h
  unfold St.tryGetWithLock at h
  cases hr : mget s.namespaces ns with
  | none => rw [hr] at h; cases h; rfl
  | some r =>
    rw [hr] at h
    simp only at h ⊢
    have set : ∀ bb, bb = (mget r.elems id).isSome → (s.setWithLock cfg fm t ns id frm to r bb).2 = fm r.source id frm to :=
      fun bb hbb => (Good.setWithLock hi cfg fm t frm to hr bb hbb).2
    cases hp : mget r.elems id with
    | none =>
      rw [hp] at h
      simp only at h
      cases b with
      | false => simp at h
      | true =>
        simp only [Bool.not_true, Bool.false_eq_true, if_false, Prod.mk.injEq, and_true] at h
        exact Or.inr (h.2 ▸ set false (by simp [hp]))
    | some p =>
      rw [hp] at h
      simp only at h
      by_cases he : (!(s.heap p).result.hasExpired to) = true
      · simp only [he, if_true] at h
        have hv : to < (s.heap p).result.expireAtNanos := by
          unfold MatchResult.hasExpired at he
          simp only [Bool.not_eq_true', decide_eq_false_iff_not] at he; omega
        split at h
        · cases h; exact Or.inl ⟨p, rfl, rfl, hv⟩
        · cases h; exact Or.inl ⟨p, rfl, rfl, hv⟩
      · simp only [he, Bool.false_eq_true, if_false] at h
        cases b with
        | false => simp at h
        | true =>
          simp only [Bool.not_true, Bool.false_eq_true, if_false, Prod.mk.injEq, and_true] at h
          exact Or.inr (h.2 ▸ set true (by simp [hp]))

/-- **C58.** What a lookup answers (its first attempt if that finds a result, its second one always): the empty result if the
namespace is not registered, and otherwise a result of the current rules of the registered source, unless that source has yet
to announce a change; the result was computed for the range asked for, or is valid beyond its end. -/
theorem C58_lookup (cfg : Config) (hcap : 0 ≤ cfg.capacity) (matchAt : Nat → G → Bytes → Int → Int → MatchResult)
    (nsOf : Nat → Bytes) (w : World G) (h : WReach cfg matchAt nsOf w) (t : Tick) (ns id : Bytes) (frm to : Int) (second : Bool)
    (c' : St) (res : MatchResult) (hg : w.cache.tryGetWithLock cfg (w.answers matchAt) t ns id frm to second = (c', res, true)) :
    (mget w.cache.namespaces ns = none → res = emptyMatchResult) ∧
    (∀ r, mget w.cache.namespaces ns = some r → r.source ∈ w.pending ∨
      ∃ f u, res = matchAt r.source (w.gen r.source) id f u ∧ ((f = frm ∧ u = to) ∨ to < res.expireAtNanos)) := by
  have hi := h.inv hcap
  obtain ⟨xs, hx⟩ := hi.inv
  have key := tryGet_result hx cfg (w.answers matchAt) t ns id frm to second c' res hg
  refine ⟨fun hn => by rw [hn] at key; exact key, fun r hr => ?_⟩
  rw [hr] at key
  rcases key with ⟨p, hp, e, hv⟩ | e
  · rcases hi.cur ns r.source id p ⟨r, hr, rfl, hp⟩ with hc | ⟨f, u, hc⟩
    · exact Or.inl hc
    · exact Or.inr ⟨f, u, e.trans hc, Or.inr hv⟩
  · exact Or.inr ⟨frm, to, e, Or.inl ⟨rfl, rfl⟩⟩

/-- **C58.** The second attempt always answers. -/
theorem C58_answers (cfg : Config) (fm : Nat → Bytes → Int → Int → MatchResult) (s : St) (t : Tick) (ns id : Bytes) (frm to : Int) :
    (s.tryGetWithLock cfg fm t ns id frm to true).2.2 = true := by
  unfold St.tryGetWithLock
  split
  · rfl
  · split
    · simp only
      split
      · split <;> rfl
      · rfl
    · rfl

/-- **C58.** After a change was announced, no result computed before is left: the lookup after it asks the source. -/
theorem C58_refresh_clears (s : St) (ns : Bytes) (r : Results) (hr : mget s.namespaces ns = some r) (id : Bytes) :
    ∃ r', mget (s.refresh ns r.source).namespaces ns = some r' ∧ r'.source = r.source ∧ mget r'.elems id = none := by
  refine ⟨{ elems := [], source := r.source }, ?_, rfl, rfl⟩
  unfold St.refresh
  rw [hr]
  simp only [ne_eq, not_true_eq_false, if_false]
  show mget (mset s.namespaces ns _) ns = _
  rw [mget_mset, if_pos rfl]

/-- A source that answers with its generation as version. -/
def exAt : Nat → Nat → Bytes → Int → Int → MatchResult := fun _ g _ _ _ => { emptyMatchResult with version := g }

/-- A state meeting the hypotheses, with an outdated result: it was cached, the rules changed, and the change is pending. -/
example : ∃ w, WReach exCfg exAt (fun _ => bs "n") w ∧ w.pending = [1] ∧ w.gen 1 = 7 ∧
    ((mget w.cache.namespaces (bs "n")).bind fun r => (mget r.elems (bs "a")).map fun p => (w.cache.heap p).result.version) = some 3 := by
  let w0 : World Nat := ⟨newCache exHeap, fun _ => 3, []⟩
  let c1 := (newCache exHeap).register (bs "n") 1
  let c2 := (c1.tryGetWithLock exCfg (w0.answers exAt) exTick (bs "n") (bs "a") 0 10 true).1
  refine ⟨⟨c2, fun x => if x = 1 then 7 else 3, [1]⟩, ?_, rfl, by simp, by decide +kernel⟩
  refine WReach.step (WReach.step (WReach.step (WReach.init exHeap fun _ => 3) (WStep.cache w0 (.register (bs "n") 1) c1 ?_ rfl))
    (WStep.cache { w0 with cache := c1 } (.fill exTick (bs "n") (bs "a") 0 10) c2 (by simp) rfl))
    (WStep.publish { w0 with cache := c2 } 1 7)
  intro ns src e
  cases e; rfl

/-- The announcement clears it. -/
example : let c1 := (newCache exHeap).register (bs "n") 1
    let c2 := (c1.tryGetWithLock exCfg (fun _ => exAt 1 3) exTick (bs "n") (bs "a") 0 10 true).1
    let c3 := c2.refresh (bs "n") 1
    (c2.tryGetWithLock exCfg (fun _ => exAt 1 7) exTick (bs "n") (bs "a") 0 10 false).2.1.version = 3 ∧
    (c3.tryGetWithLock exCfg (fun _ => exAt 1 7) exTick (bs "n") (bs "a") 0 10 true).2.1.version = 7 := by decide +kernel

/-! ### C59 -/

/-- **C59, partial**, for the existing identifier: an entry computed for [f0, t0) that is still valid at the end of a later
range reports, at every time of the range, the same pipelines as matching the range directly, provided the point match reports
every change of pipelines with the time of that change (this is where range matching itself is right, see C36). -/
theorem C59_existing_partial (env : Env) (as : ActiveRuleSet) (h : Built as) (id : Bytes) (f0 t0 frm to t : Int) (h0 : 0 ≤ f0)
    (hfrm : f0 ≤ frm) (hv : to < (forwardMatch env as id f0 t0).expireAtNanos)
    (hrep : ChangesReported env as id f0 (max t0 to)) (hf : frm ≤ t) (ht : t < to) :
    ∃ m rest m' rest', (forwardMatch env as id f0 t0).forExistingIDAt t = m :: rest ∧
      (forwardMatch env as id frm to).forExistingIDAt t = m' :: rest' ∧
      m.pipelines = m'.pipelines ∧ m.tombstoned = m'.tombstoned ∧ m.cutoverNanos ≤ t ∧ m'.cutoverNanos ≤ t := by
  have e : forwardMatch env as id f0 (max t0 to) = forwardMatch env as id f0 t0 := by
    rcases Int.le_total t0 to with hle | hle
    · rw [Int.max_eq_right hle]; exact C37_same_until_expiry env as h id f0 t0 to hle (Int.le_of_lt hv)
    · rw [Int.max_eq_left hle]
  obtain ⟨m, rest, a1, a2, a3, a4⟩ := C36_range_agrees_partial env as h id f0 (max t0 to) t h0 hrep (by omega) (by omega)
  obtain ⟨m', rest', b1, b2, b3, b4⟩ := C36_range_agrees_partial env as h id frm to t (by omega)
    (fun c hc1 hc2 => hrep c (by omega) (by omega)) hf ht
  rw [e] at a1
  exact ⟨m, rest, m', rest', a1, b1, a2.trans b2.symm, a3.trans b3.symm, a4, b4⟩

theorem rollup_present (env : Env) (as : ActiveRuleSet) (h : Built as) (id : Bytes) (frm to t : Int) (hf : frm ≤ t) (ht : t < to)
    (z : IDWithMetadatas) (hz : z ∈ (forwardMatchAt env as id t).forNewRollupIDs) :
    ∃ y ∈ (forwardMatch env as id frm to).forNewRollupIDs, y.id = z.id := by
  obtain ⟨τ, hτ, hle, hq⟩ := stage_of as h frm to t hf ht
  have e := forwardMatchAt_congr env as id hle hq
  have : z.id ∈ (forwardMatch env as id frm to).forNewRollupIDs.map (·.id) := by
    rw [C39_ids env as h]
    refine ⟨τ, ?_, by rw [e]; exact List.mem_map_of_mem hz⟩
    rcases List.mem_cons.mp hτ with hc | hc
    · exact Or.inl hc
    · exact Or.inr ((mem_stages h).mp hc)
  obtain ⟨y, hy, e⟩ := List.mem_map.mp this
  exact ⟨y, hy, e⟩

/-- **C59, partial**, for rollup identifiers: for each rollup identifier generated at a time of the range, the entry of the
cache and direct matching both report it as active with the same pipelines. -/
theorem C59_rollups_partial (env : Env) (as : ActiveRuleSet) (h : Built as) (id : Bytes) (f0 t0 frm to t : Int) (h0 : 0 ≤ f0)
    (hfrm : f0 ≤ frm) (hv : to < (forwardMatch env as id f0 t0).expireAtNanos)
    (hnd : ∀ τ, ((forwardMatchAt env as id τ).forNewRollupIDs.map (·.id)).Nodup) (hf : frm ≤ t) (ht : t < to)
    (z : IDWithMetadatas) (hz : z ∈ (forwardMatchAt env as id t).forNewRollupIDs) :
    ∃ y ∈ (forwardMatch env as id f0 t0).forNewRollupIDs, ∃ y' ∈ (forwardMatch env as id frm to).forNewRollupIDs,
      y.id = z.id ∧ y'.id = z.id ∧ ∃ m rest m' rest', activeStagedMetadatasAt y.metadatas t = m :: rest ∧
        activeStagedMetadatasAt y'.metadatas t = m' :: rest' ∧ m.pipelines = m'.pipelines ∧ m.tombstoned = false ∧
        m'.tombstoned = false := by
  have e : forwardMatch env as id f0 (max t0 to) = forwardMatch env as id f0 t0 := by
    rcases Int.le_total t0 to with hle | hle
    · rw [Int.max_eq_right hle]; exact C37_same_until_expiry env as h id f0 t0 to hle (Int.le_of_lt hv)
    · rw [Int.max_eq_left hle]
  obtain ⟨y, hy, hyz⟩ := rollup_present env as h id f0 (max t0 to) t (by omega) (by omega) z hz
  obtain ⟨y', hy', hyz'⟩ := rollup_present env as h id frm to t hf ht z hz
  obtain ⟨m, rest, a1, a2, _⟩ := C39_active_partial env as h id f0 (max t0 to) t h0 hnd (by omega) (by omega) y hy
  obtain ⟨m', rest', b1, b2, _⟩ := C39_active_partial env as h id frm to t (by omega) hnd hf ht y' hy'
  obtain ⟨_, a3, a4⟩ := a2 z hz hyz.symm
  obtain ⟨_, b3, b4⟩ := b2 z hz hyz'.symm
  rw [a4] at b4
  rw [e] at hy
  refine ⟨y, hy, y', hy', hyz, hyz', m, rest, m', rest', a1, b1, ?_, a3, b3⟩
  simpa using b4

/-- **C59, partial**: the answer of a lookup in any reachable state of the cache, for a namespace whose source has announced
its last change. -/
theorem C59_lookup_partial (cfg : Config) (hcap : 0 ≤ cfg.capacity) (env : Env) (sets : Nat → Nat → ActiveRuleSet)
    (hb : ∀ src g, Built (sets src g)) (nsOf : Nat → Bytes) (w : World Nat)
    (h : WReach cfg (fun src g => forwardMatch env (sets src g)) nsOf w) (tick : Tick) (ns id : Bytes) (frm to : Int) (second : Bool)
    (c' : St) (res : MatchResult) (r : Results) (hr : mget w.cache.namespaces ns = some r) (hp : r.source ∉ w.pending)
    (hg : w.cache.tryGetWithLock cfg (w.answers fun src g => forwardMatch env (sets src g)) tick ns id frm to second = (c', res, true)) :
    let as := sets r.source (w.gen r.source)
    ∃ f0 t0, res = forwardMatch env as id f0 t0 ∧ (0 ≤ f0 → f0 ≤ frm → ChangesReported env as id f0 (max t0 to) →
      ∀ t, frm ≤ t → t < to → ∃ m rest m' rest', res.forExistingIDAt t = m :: rest ∧
        (forwardMatch env as id frm to).forExistingIDAt t = m' :: rest' ∧ m.pipelines = m'.pipelines ∧
        m.tombstoned = m'.tombstoned) := by
  intro as
  obtain ⟨_, h2⟩ := C58_lookup cfg hcap _ nsOf w h tick ns id frm to second c' res hg
  rcases h2 r hr with hc | ⟨f0, t0, e, hc⟩
  · exact absurd hc hp
  · refine ⟨f0, t0, e, fun h0 hff hrep t hf ht => ?_⟩
    rcases hc with ⟨rfl, rfl⟩ | hv
    · obtain ⟨m, rest, a1, _⟩ := C36_range_agrees_partial env as (hb _ _) id f0 t0 t h0 (fun c x y => hrep c x (by omega)) hf ht
      subst e
      exact ⟨m, rest, m, rest, a1, a1, rfl, rfl⟩
    · subst e
      obtain ⟨m, rest, m', rest', k1, k2, k3, k4, _⟩ :=
        C59_existing_partial env as (hb _ _) id f0 t0 frm to t h0 hff hv hrep hf ht
      exact ⟨m, rest, m', rest', k1, k2, k3, k4⟩

/-- **C59 does not hold in general**: an entry computed for [15, 30) answers the later lookup for [15, 18) with the pipelines
in effect from 20 on; matching directly gives those in effect at 15. -/
theorem C59_violated : ∃ as id, Built as ∧ 18 < (forwardMatch m3Env as id 15 30).expireAtNanos ∧
    (((forwardMatch m3Env as id 15 30).forExistingIDAt 15).head?.map fun m => m.pipelines.length) = some 1 ∧
    (((forwardMatch m3Env as id 15 18).forExistingIDAt 15).head?.map fun m => m.pipelines.length) = some 2 :=
  ⟨newActiveRuleSet 1 exRules [], exID, ⟨1, _, [], rfl⟩, by decide +kernel, by decide +kernel, by decide +kernel⟩

/-- Nor for a start before that of the entry, which the cache does not check: the entry knows nothing of the rules in effect
before its start. -/
theorem C59_earlier_start : ∃ as id, Built as ∧ 12 < (forwardMatch m3Env as id 11 12).expireAtNanos ∧
    (((forwardMatch m3Env as id 11 12).forExistingIDAt 6).head?.map fun m => m.pipelines.length) = some 2 ∧
    (((forwardMatch m3Env as id 6 12).forExistingIDAt 6).head?.map fun m => m.pipelines.length) = some 1 :=
  ⟨newActiveRuleSet 1 exRules [], exID, ⟨1, _, [], rfl⟩, by decide +kernel, by decide +kernel, by decide +kernel⟩

/-- The hypotheses of `C59_existing_partial`, with a rule change inside both ranges. -/
example : let as := newActiveRuleSet 1 [⟨bs "1", [exSnap "city:s*" 10 4]⟩, ⟨bs "2", [exSnap "city:s*" 5 8, exSnap "city:s*" 20 16]⟩] []
    Built as ∧ 19 < (forwardMatch m3Env as exID 6 12).expireAtNanos ∧
    ((forwardMatch m3Env as exID 6 12).forExistingIDAt 9).map (·.pipelines.length) = [1, 2] ∧
    ((forwardMatch m3Env as exID 8 19).forExistingIDAt 9).map (·.pipelines.length) = [1, 2] :=
  ⟨⟨1, _, _, rfl⟩, by decide +kernel, by decide +kernel, by decide +kernel⟩

end Verif.Cache
