import Verif.Lemmas.CacheFine
import Verif.Props.MatcherCache
/-
C109: the calls of the cache, under all interleavings at the level of its locks, are as if each happened at one moment.
-/
namespace Verif.Cache
open Verif.Active
open Verif.Matcher (sourceOf step_sourceOf register_sourceOf refresh_sourceOf unregister_sourceOf)

set_option synthInstance.maxSize 1000

variable {G : Type}

/-! ### Calls that happen at one moment -/

/-- What a change does to the cache and, when it is announced that the rules of a source are new, to what is yet to be announced. -/
def Change.apply (c : Change) (w : World G) : World G := match c with
  | .register ns src => { w with cache := w.cache.register ns src }
  | .refresh ns src => { w with cache := w.cache.refresh ns src, pending := w.pending.erase src }
  | .unregister ns => { w with cache := w.cache.unregister ns }

/-- What happens at one moment: a call, with what it returns, or that a source gets new rules. -/
inductive Entry (G : Type) where
  | done (i : Nat) (op : Op) (res : Option MatchResult)
  | publish (k src : Nat) (g : G)

/-- Executions in which a call happens at one moment, with what the calls return, in the order in which they happen.  In between
sources get new rules, the goroutines work and all results of a namespace may be forgotten.  A lookup that finds a valid result
needs the first part of its code only (`second` is false) or finds it in its second part. -/
inductive Atomic (cfg : Config) (matchAt : Nat → G → Bytes → Int → Int → MatchResult) (nsOf : Nat → Bytes) (gen0 : Nat → G) :
    World G → List (Entry G) → Prop
  | init (h : Heap) : Atomic cfg matchAt nsOf gen0 ⟨newCache h, gen0, []⟩ []
  /-- a lookup -/
  | look {w log} (i : Nat) (q : Query) (t : Tick) (second : Bool) (c : St) (res : MatchResult) : Atomic cfg matchAt nsOf gen0 w log →
      w.cache.tryGetWithLock cfg (w.answers matchAt) t q.ns q.id q.frm q.to second = (c, res, true) →
      Atomic cfg matchAt nsOf gen0 { w with cache := c } (log ++ [.done i (.look q) (some res)])
  /-- a source is registered, refreshed or unregistered -/
  | change {w log} (i : Nat) (c : Change) : Atomic cfg matchAt nsOf gen0 w log →
      (∀ ns src, c = .register ns src ∨ c = .refresh ns src → nsOf src = ns) → Atomic cfg matchAt nsOf gen0 (c.apply w) (log ++ [.done i (.change c) none])
  | publish {w log} (k src : Nat) (g : G) : Atomic cfg matchAt nsOf gen0 w log →
      Atomic cfg matchAt nsOf gen0 { w with gen := fun x => if x = src then g else w.gen x, pending := src :: w.pending } (log ++ [.publish k src g])
  | work {w log} (act : Act) (c : St) : Atomic cfg matchAt nsOf gen0 w log → act.lockFree = true ∨ act.underLock = true ∨ act = .notify →
      w.cache.step cfg (w.answers matchAt) act = some c → Atomic cfg matchAt nsOf gen0 { w with cache := c } log
  | forget {w log} (ns : Bytes) (r : Results) : Atomic cfg matchAt nsOf gen0 w log → mget w.cache.namespaces ns = some r →
      Atomic cfg matchAt nsOf gen0 { w with cache := w.cache.refresh ns r.source } log

variable {cfg : Config} {matchAt : Nat → G → Bytes → Int → Int → MatchResult} {nsOf : Nat → Bytes} {gen0 : Nat → G}

theorem WReach.change {w : World G} (h : WReach cfg matchAt nsOf w) (c : Change)
    (hreg : ∀ ns src, c = .register ns src ∨ c = .refresh ns src → nsOf src = ns) : WReach cfg matchAt nsOf (c.apply w) := by
  cases c with
  | register ns src => exact .step h (.cache w (.register ns src) _ (by intro a b e; cases e; exact hreg _ _ (Or.inl rfl)) rfl)
  | unregister ns => exact .step h (.cache w (.unregister ns) _ (by simp) rfl)
  | refresh ns src =>
    have e := hreg ns src (Or.inr rfl)
    subst e
    by_cases hm : src ∈ w.pending
    · exact .step h (.deliver w src hm)
    · have : Change.apply (.refresh (nsOf src) src) w = { w with cache := w.cache.refresh (nsOf src) src } := by
        simp only [Change.apply, List.erase_of_not_mem hm]
      rw [this]
      exact .step h (.cache w (.refresh (nsOf src) src) _ (by simp) rfl)

theorem Atomic.reach {w : World G} {log : List (Entry G)} (h : Atomic cfg matchAt nsOf gen0 w log) : WReach cfg matchAt nsOf w := by
  induction h with
  | init h => exact .init h gen0
  | @look w log i q t second c res _ hg ih =>
    cases second with
    | false =>
      exact .step ih (.cache w (.get t q.ns q.id q.frm q.to) c (by simp) (by simp [St.step, hg]))
    | true =>
      exact .step ih (.cache w (.fill t q.ns q.id q.frm q.to) c (by simp) (by simp [St.step, hg]))
  | change i c _ hreg ih => exact ih.change c hreg
  | @publish w log k src g _ ih => exact .step ih (.publish w src g)
  | @work w log act c _ ha hst ih =>
    refine .step ih (.cache w act c ?_ hst)
    rintro ns src rfl
    simp [Act.lockFree, Act.underLock] at ha
  | @forget w log ns r _ _ ih => exact .step ih (.cache w (.refresh ns r.source) _ (by simp) rfl)

theorem WReach.reach {w : World G} (h : WReach cfg matchAt nsOf w) : Reach cfg w.cache := by
  induction h with
  | init h gen => exact ⟨h, .refl _⟩
  | step _ hs ih =>
    obtain ⟨hp, hst⟩ := ih
    cases hs with
    | cache act c _ hstep => exact ⟨hp, .tail _ act hst hstep⟩
    | publish => exact ⟨hp, hst⟩
    | deliver src _ => exact ⟨hp, .tail (fun _ _ _ _ => emptyMatchResult) (.refresh (nsOf src) src) hst rfl⟩

/-! ### Sources that get new rules while a lookup is between asking and storing -/

/-- New rules take effect. -/
def World.publish (w : World G) (x : Nat × Nat × G) : World G :=
  { w with gen := fun y => if y = x.2.1 then x.2.2 else w.gen y, pending := x.2.1 :: w.pending }

def World.publishAll (w : World G) (ps : List (Nat × Nat × G)) : World G := ps.foldl World.publish w

theorem publishAll_cache (w : World G) (ps : List (Nat × Nat × G)) : (w.publishAll ps).cache = w.cache := by
  induction ps generalizing w with
  | nil => rfl
  | cons x ps ih => exact ih (w.publish x)

theorem publishAll_with (w : World G) (c : St) (ps : List (Nat × Nat × G)) : ({ w with cache := c } : World G).publishAll ps =
    { w.publishAll ps with cache := c } := by
  induction ps generalizing w with
  | nil => rfl
  | cons x ps ih => exact ih (w.publish x)

/-- The entry of new rules. -/
def pub (x : Nat × Nat × G) : Entry G := .publish x.1 x.2.1 x.2.2

theorem Atomic.publishAll {w : World G} {log : List (Entry G)} (h : Atomic cfg matchAt nsOf gen0 w log) (ps : List (Nat × Nat × G)) :
    Atomic cfg matchAt nsOf gen0 (w.publishAll ps) (log ++ ps.map pub) := by
  induction ps generalizing w log with
  | nil => rw [List.map_nil, List.append_nil]; exact h
  | cons x ps ih =>
    have := ih (.publish x.1 x.2.1 x.2.2 h)
    rw [List.append_assoc] at this
    exact this

/-! ### Histories -/

/-- What an entry is about: a call or new rules. -/
def Entry.key : Entry G → Nat ⊕ Nat
  | .done i _ _ => .inl i
  | .publish k _ _ => .inr k

/-- What begins with the event. -/
def Event.begins : Event G → Option (Nat ⊕ Nat)
  | .call i _ => some (.inl i)
  | .ret _ _ _ => none
  | .publish k _ _ => some (.inr k)

/-- What ends with the event. -/
def Event.ends : Event G → Option (Nat ⊕ Nat)
  | .call _ _ => none
  | .ret i _ _ => some (.inl i)
  | .publish k _ _ => some (.inr k)

/-- One ends before the other begins. -/
def Precedes (hist : List (Event G)) (a b : Nat ⊕ Nat) : Prop :=
  ∃ h1 h2 e e', hist = h1 ++ h2 ∧ e ∈ h1 ∧ e' ∈ h2 ∧ e.ends = some a ∧ e'.begins = some b

/-- The entries: what returned is among them, and what was called only, each once; the new rules are; and they are in an order that
respects that of the events. -/
structure Order (hist : List (Event G)) (log : List (Entry G)) : Prop where
  once : (log.map Entry.key).Nodup
  returned : ∀ i op res, Event.ret i op res ∈ hist → Entry.done i op res ∈ log
  called : ∀ i op res, Entry.done i op res ∈ log → Event.call i op ∈ hist
  published : ∀ k src g, Event.publish k src g ∈ hist ↔ Entry.publish k src g ∈ log
  order : ∀ a b, Precedes hist a b → b ∈ log.map Entry.key → [a, b].Sublist (log.map Entry.key)

theorem precedes_snoc {hist : List (Event G)} {e : Event G} {a b : Nat ⊕ Nat} (h : Precedes (hist ++ [e]) a b) :
    Precedes hist a b ∨ ((∃ e0 ∈ hist, e0.ends = some a) ∧ e.begins = some b) := by
  obtain ⟨h1, h2, e1, e2, he, hr, hc, k1, k2⟩ := h
  rcases List.eq_nil_or_concat h2 with rfl | ⟨h2', e', rfl⟩
  · cases hc
  · have x1 : hist ++ [e] = (h1 ++ h2') ++ [e'] := by rw [he]; simp
    obtain ⟨x2, x3⟩ := List.append_inj' x1 rfl
    simp only [List.cons.injEq, and_true] at x3
    subst x3
    rw [List.concat_eq_append, List.mem_append] at hc
    rcases hc with hc | hc
    · exact Or.inl ⟨h1, h2', e1, e2, x2, hr, hc, k1, k2⟩
    · refine Or.inr ⟨⟨e1, by rw [x2]; exact List.mem_append_left _ hr, k1⟩, ?_⟩
      rw [← List.mem_singleton.mp hc]; exact k2

theorem Order.ended {hist : List (Event G)} {log : List (Entry G)} (h : Order hist log) {e : Event G} {a : Nat ⊕ Nat} (he : e ∈ hist)
    (hk : e.ends = some a) : a ∈ log.map Entry.key := by
  cases e with
  | call => cases hk
  | ret i op res => cases hk; exact List.mem_map.mpr ⟨_, h.returned i op res he, rfl⟩
  | publish k src g => cases hk; exact List.mem_map.mpr ⟨_, (h.published k src g).mp he, rfl⟩

/-! ### The relation -/

/-- The call. -/
def Pc.op : Pc → Option Op
  | .called q | .reading q | .promoting q _ _ _ | .found q _ | .absent q | .missed q | .writing q | .promotingW q _ _ _ | .gaveUp q _ | .told q _
  | .unlinking q _ _ | .computing q _ | .storing q _ _ | .adding q _ _ | .telling q _ | .wrote q _ | .done q _ => some (.look q)
  | .change c | .changing c | .changeGaveUp c _ | .changeTold c _ | .changed c | .changeDone c => some (.change c)
  | .idle => none

/-- The call has returned. -/
def Pc.ended : Pc → Bool
  | .done _ _ | .changeDone _ => true
  | _ => false

structure Rel (cfg : Config) (matchAt : Nat → G → Bytes → Int → Int → MatchResult) (nsOf : Nat → Bytes) (gen0 : Nat → G) (f : Fine G) (w : World G)
    (log : List (Entry G)) (ps : List (Nat × Nat × G)) : Prop where
  atomic : Atomic cfg matchAt nsOf gen0 w log
  excl : ∀ i j, (f.pcs i).writes = true → (f.pcs j).writes = true ∨ (f.pcs j).reads = true → j = i
  free : (∀ i, (f.pcs i).writes = false) → f.cache = w.cache
  writer : ∀ i, (f.pcs i).writes = true → Holds cfg (w.answers matchAt) f.cache w.cache (f.pcs i)
  readers : ∀ i, Reads w.cache (f.pcs i)
  lag : ps ≠ [] → ∃ i, (f.pcs i).lags = true
  gen : f.gen = (w.publishAll ps).gen
  pending : f.pending = (w.publishAll ps).pending
  regs : ∀ i c, (f.pcs i).change? = some c → ∀ ns src, c = .register ns src ∨ c = .refresh ns src → nsOf src = ns
  answers : ∀ i op res, Entry.done i op res ∈ log ↔ (f.pcs i).answer = some (op, res)
  ops : ∀ i op, (f.pcs i).op = some op → Event.call i op ∈ f.hist
  rets : ∀ i op res, Event.ret i op res ∈ f.hist → (f.pcs i).ended = true
  order : Order f.hist (log ++ ps.map pub)
  late : ∀ i, (f.pcs i).lags = true → ∀ x ∈ ps, ¬ Precedes f.hist (.inr x.1) (.inl i)

/-! #### Steps of one call -/

theorem setPc_same (pcs : Nat → Pc) (i : Nat) (pc : Pc) : setPc pcs i pc i = pc := by simp [setPc]

theorem setPc_other (pcs : Nat → Pc) {i j : Nat} (pc : Pc) (h : j ≠ i) : setPc pcs i pc j = pcs j := by simp [setPc, h]

theorem lags_writes {pc : Pc} (h : pc.lags = true) : pc.writes = true := by cases pc <;> simp_all [Pc.lags, Pc.writes]

theorem Rel.lag_nil {f : Fine G} {w : World G} {log ps} (h : Rel cfg matchAt nsOf gen0 f w log ps) (hn : ∀ i, (f.pcs i).lags = false) : ps = [] := by
  refine Classical.byContradiction fun hc => ?_
  obtain ⟨i, hi⟩ := h.lag hc
  rw [hn i] at hi; cases hi

/-- A call gets its answer, before new rules that are not older than the call. -/
theorem Order.insert {hist : List (Event G)} {l m : List (Entry G)} (h : Order hist (l ++ m)) {i : Nat} {op : Op} (res : Option MatchResult)
    (hi : Sum.inl i ∉ (l ++ m).map Entry.key) (hq : Event.call i op ∈ hist) (hm : ∀ b ∈ m.map Entry.key, ¬ Precedes hist b (.inl i)) :
    Order hist (l ++ [.done i op res] ++ m) := by
  have sub : (l ++ m).Sublist (l ++ [Entry.done i op res] ++ m) := (List.sublist_append_left l _).append (List.Sublist.refl m)
  have perm : (l ++ [Entry.done i op res] ++ m).Perm (Entry.done i op res :: (l ++ m)) := by
    rw [List.append_assoc]
    exact List.perm_middle
  have mem : ∀ x : Entry G, x ∈ l ++ [Entry.done i op res] ++ m ↔ x = .done i op res ∨ x ∈ l ++ m := fun x => by
    rw [perm.mem_iff, List.mem_cons]
  refine ⟨?_, ?_, ?_, ?_, ?_⟩
  · rw [(perm.map Entry.key).nodup_iff]
    exact List.nodup_cons.mpr ⟨hi, h.once⟩
  · intro j op' r hr
    exact sub.subset (h.returned j op' r hr)
  · intro j op' r hr
    rcases (mem _).mp hr with hr | hr
    · cases hr; exact hq
    · exact h.called j op' r hr
  · intro k src g
    rw [h.published, mem]
    simp
  · intro a b hp hb
    obtain ⟨x, hx, rfl⟩ := List.mem_map.mp hb
    rcases (mem _).mp hx with rfl | hx
    · have ha : a ∈ (l ++ m).map Entry.key := by
        obtain ⟨h1, h2, e, e', rfl, he, _, hk, _⟩ := hp
        exact h.ended (List.mem_append_left _ he) hk
      rw [List.map_append, List.mem_append] at ha
      rcases ha with ha | ha
      · have := (List.singleton_sublist.mpr ha).append (List.Sublist.refl [Sum.inl i])
        refine this.trans ?_
        rw [List.map_append, List.map_append]
        exact List.sublist_append_left _ _
      · exact absurd hp (hm a ha)
    · exact (h.order a _ hp (List.mem_map.mpr ⟨x, hx, rfl⟩)).trans (sub.map _)

theorem Order.ret {hist : List (Event G)} {log : List (Entry G)} (h : Order hist log) {i : Nat} {op : Op} {res : Option MatchResult}
    (hi : Entry.done i op res ∈ log) : Order (hist ++ [.ret i op res]) log := by
  refine ⟨h.once, ?_, ?_, ?_, ?_⟩
  · intro j q' r hr
    rcases List.mem_append.mp hr with hr | hr
    · exact h.returned j q' r hr
    · simp only [List.mem_singleton, Event.ret.injEq] at hr
      obtain ⟨rfl, rfl, rfl⟩ := hr
      exact hi
  · intro j q' r hr
    exact List.mem_append_left _ (h.called j q' r hr)
  · intro k src g
    rw [← h.published]; simp
  · intro a b hp hb
    rcases precedes_snoc hp with hp | ⟨_, he⟩
    · exact h.order a b hp hb
    · cases he

theorem Order.call {hist : List (Event G)} {log : List (Entry G)} (h : Order hist log) {i : Nat} (op : Op)
    (hi : Sum.inl i ∉ log.map Entry.key) : Order (hist ++ [.call i op]) log := by
  refine ⟨h.once, ?_, ?_, ?_, ?_⟩
  · intro j q' r hr
    rcases List.mem_append.mp hr with hr | hr
    · exact h.returned j q' r hr
    · simp at hr
  · intro j q' r hr
    exact List.mem_append_left _ (h.called j q' r hr)
  · intro k src g
    rw [← h.published]; simp
  · intro a b hp hb
    rcases precedes_snoc hp with hp | ⟨_, he⟩
    · exact h.order a b hp hb
    · cases he
      exact absurd hb hi

theorem Order.publish {hist : List (Event G)} {log : List (Entry G)} (h : Order hist log) {k : Nat} (src : Nat) (g : G)
    (hk : ∀ src' g', Event.publish k src' g' ∉ hist) : Order (hist ++ [.publish k src g]) (log ++ [.publish k src g]) := by
  have fresh : Sum.inr k ∉ log.map Entry.key := by
    intro hc
    obtain ⟨x, hx, e⟩ := List.mem_map.mp hc
    cases x with
    | done => cases e
    | publish k' src' g' => cases e; exact hk _ _ ((h.published k src' g').mpr hx)
  refine ⟨?_, ?_, ?_, ?_, ?_⟩
  · rw [List.map_append]
    exact List.nodup_append.mpr ⟨h.once, by simp, fun a ha b hb => by
      simp only [List.map_cons, List.map_nil, List.mem_singleton] at hb; intro e; rw [e, hb] at ha; exact fresh ha⟩
  · intro j q' r hr
    rcases List.mem_append.mp hr with hr | hr
    · exact List.mem_append_left _ (h.returned j q' r hr)
    · simp at hr
  · intro j q' r hr
    rcases List.mem_append.mp hr with hr | hr
    · exact List.mem_append_left _ (h.called j q' r hr)
    · simp at hr
  · intro k' src' g'
    simp only [List.mem_append, List.mem_singleton, Event.publish.injEq, Entry.publish.injEq, h.published]
  · intro a b hp hb
    rcases precedes_snoc hp with hp | ⟨⟨e0, he0, hk0⟩, he⟩
    · rw [List.map_append, List.mem_append] at hb
      rcases hb with hb | hb
      · refine (h.order a b hp hb).trans ?_
        rw [List.map_append]
        exact List.sublist_append_left _ _
      · simp only [List.map_cons, List.map_nil, List.mem_singleton] at hb
        subst hb
        obtain ⟨h1, h2, e, e', rfl, _, he', _, hk'⟩ := hp
        cases e' with
        | call => cases hk'
        | ret => cases hk'
        | publish k' src' g' => cases hk'; exact absurd (List.mem_append_right _ he') (hk src' g')
    · cases he
      rw [List.map_append]
      exact (List.singleton_sublist.mpr (h.ended he0 hk0)).append (List.Sublist.refl _)

/-- What a step of a call must do for the relation to hold again. -/
structure Moved (cfg : Config) (matchAt : Nat → G → Bytes → Int → Int → MatchResult) (nsOf : Nat → Bytes) (gen0 : Nat → G) (i : Nat) (pc pc' : Pc) (fc' : St)
    (w : World G) (log : List (Entry G)) (ps : List (Nat × Nat × G)) (gen : Nat → G) (pending : List Nat)
    (w' : World G) (log' : List (Entry G)) (ps' : List (Nat × Nat × G)) : Prop where
  atomic : Atomic cfg matchAt nsOf gen0 w' log'
  ok : if pc'.writes = true then Holds cfg (w'.answers matchAt) fc' w'.cache pc' else fc' = w'.cache
  reads : Reads w'.cache pc'
  same : pc.reads = true → w'.cache.namespaces = w.cache.namespaces ∧ Evolves w.cache w'.cache
  lag : ps' ≠ [] → pc'.lags = true
  gen : gen = (w'.publishAll ps').gen
  pending : pending = (w'.publishAll ps').pending
  log : (log' = log ∧ ps' = ps ∧ pc'.answer = pc.answer) ∨
    (∃ op res, log' = log ++ [.done i op res] ++ ps.map pub ∧ ps' = [] ∧ pc.answer = none ∧ pc.op = some op ∧ pc'.answer = some (op, res))

theorem move_locks {fm : Nat → Bytes → Int → Int → MatchResult} {pc pc' : Pc} {s s' : St} (h : Move cfg fm pc s pc' s') :
    pc'.writes = pc.writes ∧ pc'.reads = pc.reads ∧ (pc.writes = true ∨ pc.reads = true) := by
  cases h <;> simp [Pc.writes, Pc.reads]

theorem move_keeps {fm : Nat → Bytes → Int → Int → MatchResult} {pc pc' : Pc} {s s' : St} (h : Move cfg fm pc s pc' s') :
    (∀ c, pc'.change? = some c → pc.change? = some c) ∧ pc'.op = pc.op ∧ pc.ended = false := by
  cases h <;> simp [Pc.change?, Pc.op, Pc.ended]

/-- The steps of a call between its locks. -/
theorem move_sim (hcap : 0 ≤ cfg.capacity) {i : Nat} {pc pc' : Pc} {fc fc' : St} {gen : Nat → G} {pending : List Nat} {w : World G}
    {log : List (Entry G)} {ps : List (Nat × Nat × G)} (ha : Atomic cfg matchAt nsOf gen0 w log)
    (hw : pc.writes = true → Holds cfg (w.answers matchAt) fc w.cache pc) (hr : pc.reads = true → fc = w.cache) (hrd : Reads w.cache pc)
    (hlag : ps ≠ [] → pc.lags = true) (hgen : gen = (w.publishAll ps).gen) (hpend : pending = (w.publishAll ps).pending)
    (hreg : ∀ c, pc.change? = some c → ∀ ns src, c = .register ns src ∨ c = .refresh ns src → nsOf src = ns)
    (hm : Move cfg (fun src => matchAt src (gen src)) pc fc pc' fc') :
    ∃ w' log' ps', Moved cfg matchAt nsOf gen0 i pc pc' fc' w log ps gen
      (match announced pc pc' with | some src => pending.erase src | none => pending) w' log' ps' := by
  obtain ⟨xs, hi⟩ := (ha.reach.inv hcap).inv
  have nolag : pc.lags = false → ps = [] := fun h => by
    refine Classical.byContradiction fun hc => ?_
    have := hlag hc
    rw [h] at this; cases this
  -- a step that the other does not make
  have stay : pc.lags = false → announced pc pc' = none → (if pc'.writes = true then Holds cfg (w.answers matchAt) fc' w.cache pc' else fc' = w.cache) →
      Reads w.cache pc' → pc'.answer = pc.answer → ∃ w' log' ps', Moved cfg matchAt nsOf gen0 i pc pc' fc' w log ps gen
      (match announced pc pc' with | some src => pending.erase src | none => pending) w' log' ps' := by
    intro h1 h2 h3 h4 h5
    have hps := nolag h1
    subst hps
    refine ⟨w, log, [], ha, h3, h4, fun _ => ⟨rfl, Evolves.refl _⟩, by simp, hgen, ?_, Or.inl ⟨rfl, rfl, h5⟩⟩
    rw [h2]; exact hpend
  -- a lookup gets its answer
  have answer : ∀ (q : Query) (t : Tick) (second : Bool) (c : St) (res : MatchResult), pc.lags = false → announced pc pc' = none →
      w.cache.tryGetWithLock cfg (w.answers matchAt) t q.ns q.id q.frm q.to second = (c, res, true) →
      (if pc'.writes = true then Holds cfg (w.answers matchAt) fc' c pc' else fc' = c) → (∀ x : St, Reads x pc') →
      (pc.reads = true → c.namespaces = w.cache.namespaces) → pc.answer = none → pc.op = some (.look q) → pc'.answer = some (.look q, some res) →
      ∃ w' log' ps', Moved cfg matchAt nsOf gen0 i pc pc' fc' w log ps gen
        (match announced pc pc' with | some src => pending.erase src | none => pending) w' log' ps' := by
    intro q t second c res h1 h2 hg h3 h4 h5 h6 h7 h8
    have hps := nolag h1
    subst hps
    refine ⟨{ w with cache := c }, log ++ [.done i (.look q) (some res)], [], .look i q t second c res ha hg, h3, h4 _, fun hx => ⟨h5 hx, ?_⟩, by simp, hgen,
      ?_, Or.inr ⟨.look q, some res, by simp, rfl, h6, h7, h8⟩⟩
    · have hs : w.cache.step cfg (w.answers matchAt) (if second then .fill t q.ns q.id q.frm q.to else .get t q.ns q.id q.frm q.to) = some c := by
        cases second <;> simp [St.step, hg]
      obtain ⟨ys, ok⟩ := step_ok cfg hcap (w.answers matchAt) hi _ hs
      exact ok.evolves
    · rw [h2]; exact hpend
  -- the other makes a step that gives no answer
  have other : ∀ w1 : World G, pc.lags = false → Atomic cfg matchAt nsOf gen0 w1 log → pc.reads = false → w1.gen = w.gen →
      (match announced pc pc' with | some src => pending.erase src | none => pending) = w1.pending →
      (if pc'.writes = true then Holds cfg (w1.answers matchAt) fc' w1.cache pc' else fc' = w1.cache) → Reads w1.cache pc' → pc'.answer = pc.answer →
      ∃ w' log' ps', Moved cfg matchAt nsOf gen0 i pc pc' fc' w log ps gen
        (match announced pc pc' with | some src => pending.erase src | none => pending) w' log' ps' := by
    intro w1 h1 hs h2 h3 h4 h5 h6 h7
    have hps := nolag h1
    subst hps
    exact ⟨w1, log, [], hs, h5, h6, fun hx => (by rw [h2] at hx; cases hx), by simp, hgen.trans h3.symm, h4, Or.inl ⟨rfl, rfl, h7⟩⟩
  -- what is registered changes
  have changes : ∀ c : Change, pc.lags = false → pc.reads = false → pc.change? = some c → pc.answer = none → pc.op = some (.change c) →
      (match announced pc pc' with | some src => pending.erase src | none => pending) = (c.apply { w with pending := pending }).pending →
      (if pc'.writes = true then Holds cfg ((c.apply w).answers matchAt) fc' (c.apply w).cache pc' else fc' = (c.apply w).cache) →
      (∀ x : St, Reads x pc') → pc'.answer = some (.change c, none) →
      ∃ w' log' ps', Moved cfg matchAt nsOf gen0 i pc pc' fc' w log ps gen
        (match announced pc pc' with | some src => pending.erase src | none => pending) w' log' ps' := by
    intro c h1 h2 h3 h4 h5 h6 h7 h8 h9
    have hps := nolag h1
    subst hps
    refine ⟨c.apply w, log ++ [.done i (.change c) none], [], .change i c ha (hreg c h3), h7, h8 _, fun hx => (by rw [h2] at hx; cases hx), by simp, ?_, ?_,
      Or.inr ⟨_, _, by simp, rfl, h4, h5, h9⟩⟩
    · rw [hgen]; cases c <;> rfl
    · rw [h6, hpend]; cases c <;> rfl
  cases hm with
  | @noNamespace q _ h =>
    have e := hr rfl
    subst e
    exact answer q ⟨0, 0⟩ false w.cache emptyMatchResult rfl rfl (by simp [St.tryGetWithLock, h]) rfl (fun _ => trivial) (fun _ => rfl) rfl rfl rfl
  | @hit q _ r p t h hp hv hn =>
    have e := hr rfl
    subst e
    exact answer q t false w.cache _ rfl rfl (by simp [St.tryGetWithLock, h, hp, hv, hn]) rfl (fun _ => trivial) (fun _ => rfl) rfl rfl rfl
  | @stale q _ r p t h hp hv hn =>
    have e := hr rfl
    subst e
    exact stay rfl rfl rfl ⟨r, h, hp, rfl, hv⟩ rfl
  | @promote q _ t p res =>
    have e := hr rfl
    subst e
    obtain ⟨r, h, hp, rfl, hv⟩ := hrd
    have hns : (w.cache.promote cfg t p).namespaces = w.cache.namespaces := by unfold St.promote; split <;> rfl
    refine answer q t false (w.cache.promote cfg t p) _ rfl rfl ?_ rfl (fun _ => trivial) (fun _ => hns) rfl rfl rfl
    simp only [St.tryGetWithLock, h, hp, hv, Bool.not_false, if_true]
    split
    · rfl
    · next hs => simp [St.promote, hs]
  | @expired q _ r p h hp hv =>
    have e := hr rfl
    subst e
    exact stay rfl rfl rfl trivial rfl
  | @notThere q _ r h hp =>
    have e := hr rfl
    subst e
    exact stay rfl rfl rfl trivial rfl
  | @noNamespaceW q _ h =>
    have e : fc = w.cache := hw rfl
    subst e
    exact answer q ⟨0, 0⟩ true w.cache emptyMatchResult rfl rfl (by simp [St.tryGetWithLock, h]) rfl (fun _ => trivial) (fun _ => rfl) rfl rfl rfl
  | @hitW q _ r p t h hp hv hn =>
    have e : fc = w.cache := hw rfl
    subst e
    exact answer q t true w.cache _ rfl rfl (by simp [St.tryGetWithLock, h, hp, hv, hn]) rfl (fun _ => trivial) (fun _ => rfl) rfl rfl rfl
  | @staleW q _ r p t h hp hv hn =>
    have e : fc = w.cache := hw rfl
    subst e
    exact stay rfl rfl ⟨rfl, r, h, hp, rfl, hv⟩ trivial rfl
  | @promoteW q _ t p res =>
    obtain ⟨e, r, h, hp, rfl, hv⟩ : fc = w.cache ∧ Hit w.cache q p res := hw rfl
    subst e
    refine answer q t true (w.cache.promote cfg t p) _ rfl rfl ?_ rfl (fun _ => trivial) (fun hx => by simp [Pc.reads] at hx) rfl rfl rfl
    simp only [St.tryGetWithLock, h, hp, hv, Bool.not_false, if_true]
    split
    · rfl
    · next hs => simp [St.promote, hs]
  | @new q _ r h hp =>
    have e : fc = w.cache := hw rfl
    subst e
    exact stay rfl rfl (Or.inl ⟨rfl, h, hp⟩) trivial rfl
  | @giveUp q _ r p h hp hv hc =>
    have e : fc = w.cache := hw rfl
    subst e
    exact stay rfl rfl ⟨h, rfl⟩ trivial rfl
  | @tell q _ r =>
    obtain ⟨h, rfl⟩ : mget w.cache.namespaces q.ns = some r ∧ fc = { w.cache with toDelete := w.cache.toDelete ++ [r.elems] } := hw rfl
    have hps := nolag rfl
    subst hps
    refine other { w with cache := w.cache.refresh q.ns r.source } rfl (.forget q.ns r ha h) rfl rfl hpend ?_ trivial rfl
    refine ⟨w.cache.namespaces, ?_, ?_⟩
    · show (w.cache.refresh q.ns r.source).namespaces = _
      simp only [St.refresh, h, ne_eq, not_true_eq_false, if_false]; rfl
    · show _ = ({ w.cache.refresh q.ns r.source with namespaces := w.cache.namespaces } : St)
      simp only [St.refresh, h, ne_eq, not_true_eq_false, if_false]; rfl
  | @clear q _ r =>
    obtain ⟨m, h, rfl⟩ : ∃ m, w.cache.namespaces = mset m q.ns { r with elems := [] } ∧ fc = { w.cache with namespaces := m } := hw rfl
    refine stay rfl rfl (Or.inl ⟨?_, ?_, rfl⟩) trivial rfl
    · show ({ w.cache with namespaces := mset m q.ns { r with elems := [] } } : St) = w.cache
      rw [← h]
    · rw [h, mget_mset, if_pos rfl]
  | @drop q _ r p h hp hv hc =>
    have e : fc = w.cache := hw rfl
    subst e
    exact stay rfl rfl ⟨r, p, rfl, hc, ⟨h, hp, hv⟩, rfl, rfl⟩ trivial rfl
  | @unlink q _ r e =>
    obtain ⟨r0, p, rfl, hc, hs, rfl, rfl⟩ : ∃ r0 p, e = some p ∧ cfg.invalidateAll = false ∧ Stale w.cache q r0 p ∧
      r = { r0 with elems := mdel r0.elems q.id } ∧ fc = { w.cache with namespaces := mset w.cache.namespaces q.ns r } := hw rfl
    exact stay rfl rfl (Or.inr ⟨r0, p, hc, hs, rfl, rfl⟩) trivial rfl
  | @compute q _ r =>
    have h : Pre cfg w.cache q fc r := hw rfl
    have hps := nolag rfl
    subst hps
    refine stay rfl rfl ⟨h, ?_⟩ trivial rfl
    rw [hgen]; rfl
  | @store q _ r res t =>
    obtain ⟨h, hres⟩ : Pre cfg w.cache q fc r ∧ res = w.answers matchAt r.source q.id q.frm q.to := hw rfl
    refine ⟨w, log, ps, ha, ⟨fc, r, t, h, hres, rfl, rfl⟩, trivial, fun _ => ⟨rfl, Evolves.refl _⟩, fun _ => rfl, hgen, hpend, Or.inl ⟨rfl, rfl, rfl⟩⟩
  | @addLong q _ p res hl =>
    obtain ⟨s, r, t, h, hres, hfc, rfl⟩ : ∃ s r t, Pre cfg w.cache q s r ∧ res = w.answers matchAt r.source q.id q.frm q.to ∧
      fc = s.store cfg t q r res ∧ p = s.nextPtr := hw rfl
    subst hres
    have hg := h.fill (w.answers matchAt) t fc hfc
    rw [if_pos hl] at hg
    refine ⟨({ w with cache := (fc.add s.nextPtr).notifyEviction } : World G).publishAll ps, log ++ [.done i (.look q) (some _)] ++ ps.map pub, [],
      (Atomic.look i q t true _ _ ha hg).publishAll ps, ⟨fc.evictCh, ?_, ?_⟩, trivial, fun hx => by simp [Pc.reads] at hx, by simp, ?_, ?_,
      Or.inr ⟨.look q, some _, rfl, rfl, rfl, rfl, rfl⟩⟩
    · rw [publishAll_cache]
      show fc.add s.nextPtr = { (fc.add s.nextPtr).notifyEviction with evictCh := fc.evictCh }
      rfl
    · rw [publishAll_cache]; intro _; rfl
    · show gen = (({ w with cache := (fc.add s.nextPtr).notifyEviction } : World G).publishAll ps).gen
      rw [publishAll_with]; exact hgen
    · show pending = (({ w with cache := (fc.add s.nextPtr).notifyEviction } : World G).publishAll ps).pending
      rw [publishAll_with]; exact hpend
  | @add q _ p res hl =>
    obtain ⟨s, r, t, h, hres, hfc, rfl⟩ : ∃ s r t, Pre cfg w.cache q s r ∧ res = w.answers matchAt r.source q.id q.frm q.to ∧
      fc = s.store cfg t q r res ∧ p = s.nextPtr := hw rfl
    subst hres
    have hg := h.fill (w.answers matchAt) t fc hfc
    rw [if_neg hl] at hg
    refine ⟨({ w with cache := fc.add s.nextPtr } : World G).publishAll ps, log ++ [.done i (.look q) (some _)] ++ ps.map pub, [],
      (Atomic.look i q t true _ _ ha hg).publishAll ps, ?_, trivial, fun hx => by simp [Pc.reads] at hx, by simp, ?_, ?_,
      Or.inr ⟨.look q, some _, rfl, rfl, rfl, rfl, rfl⟩⟩
    · show fc.add s.nextPtr = _
      rw [publishAll_cache]
    · show gen = (({ w with cache := fc.add s.nextPtr } : World G).publishAll ps).gen
      rw [publishAll_with]; exact hgen
    · show pending = (({ w with cache := fc.add s.nextPtr } : World G).publishAll ps).pending
      rw [publishAll_with]; exact hpend
  | @tellEvictor q _ res =>
    obtain ⟨b, rfl, hb⟩ : ∃ b, fc = { w.cache with evictCh := b } ∧ (b = true → w.cache.evictCh = true) := hw rfl
    have hps := nolag rfl
    subst hps
    exact other { w with cache := w.cache.notifyEviction } rfl (.work .notify _ ha (by simp) rfl) rfl rfl hpend rfl trivial rfl
  | @registerNew ns src _ h =>
    have e : fc = w.cache := hw rfl
    subst e
    refine changes (.register ns src) rfl rfl rfl rfl rfl rfl ?_ (fun _ => trivial) rfl
    show _ = w.cache.register ns src
    simp only [St.register, h]
  | @registerOld ns src _ r h =>
    have e : fc = w.cache := hw rfl
    subst e
    exact stay rfl rfl ⟨h, rfl⟩ trivial rfl
  | @refreshNone ns src _ h =>
    have e : fc = w.cache := hw rfl
    subst e
    refine changes (.refresh ns src) rfl rfl rfl rfl rfl rfl ?_ (fun _ => trivial) rfl
    show _ = w.cache.refresh ns src
    simp only [St.refresh, h]
  | @refreshOther ns src _ r h hs =>
    have e : fc = w.cache := hw rfl
    subst e
    refine changes (.refresh ns src) rfl rfl rfl rfl rfl rfl ?_ (fun _ => trivial) rfl
    show _ = w.cache.refresh ns src
    simp only [St.refresh, h, ne_eq, hs, not_false_eq_true, if_true]
  | @refresh ns src _ r h hs =>
    have e : fc = w.cache := hw rfl
    subst e
    exact stay rfl rfl ⟨h, hs, rfl⟩ trivial rfl
  | @unregisterNone ns _ h =>
    have e : fc = w.cache := hw rfl
    subst e
    refine changes (.unregister ns) rfl rfl rfl rfl rfl rfl ?_ (fun _ => trivial) rfl
    show _ = w.cache.unregister ns
    simp only [St.unregister, h]
  | @unregister ns _ r h =>
    have e : fc = w.cache := hw rfl
    subst e
    exact stay rfl rfl ⟨h, rfl⟩ trivial rfl
  | @changeTellRegister ns src _ r =>
    obtain ⟨h, rfl⟩ : mget w.cache.namespaces ns = some r ∧ fc = { w.cache with toDelete := w.cache.toDelete ++ [r.elems] } := hw rfl
    refine changes (.register ns src) rfl rfl rfl rfl rfl rfl ?_ (fun _ => trivial) rfl
    refine ⟨w.cache.namespaces, ?_, ?_⟩
    · show (w.cache.register ns src).namespaces = _
      simp only [St.register, h]; rfl
    · show _ = ({ w.cache.register ns src with namespaces := w.cache.namespaces } : St)
      simp only [St.register, h]; rfl
  | @changeTellRefresh ns src _ r =>
    obtain ⟨h, hs, rfl⟩ : mget w.cache.namespaces ns = some r ∧ r.source = src ∧ fc = { w.cache with toDelete := w.cache.toDelete ++ [r.elems] } := hw rfl
    refine changes (.refresh ns src) rfl rfl rfl rfl rfl rfl ?_ (fun _ => trivial) rfl
    refine ⟨w.cache.namespaces, ?_, ?_⟩
    · show (w.cache.refresh ns src).namespaces = _
      simp only [St.refresh, h, ne_eq, hs, not_true_eq_false, if_false]; rfl
    · show _ = ({ w.cache.refresh ns src with namespaces := w.cache.namespaces } : St)
      simp only [St.refresh, h, ne_eq, hs, not_true_eq_false, if_false]; rfl
  | @changeTellUnregister ns _ r =>
    obtain ⟨h, rfl⟩ : mget w.cache.namespaces ns = some r ∧
      fc = { w.cache with namespaces := mdel w.cache.namespaces ns, toDelete := w.cache.toDelete ++ [r.elems] } := hw rfl
    refine changes (.unregister ns) rfl rfl rfl rfl rfl rfl ?_ (fun _ => trivial) rfl
    show _ = w.cache.unregister ns
    simp only [St.unregister, h]
  | @changeSetRegister ns src _ r =>
    obtain ⟨m, h, rfl⟩ : ∃ m, w.cache.namespaces = mset m ns { elems := [], source := src } ∧ fc = { w.cache with namespaces := m } := hw rfl
    refine stay rfl rfl ?_ trivial rfl
    show ({ w.cache with namespaces := mset m ns { elems := [], source := src } } : St) = w.cache
    rw [← h]
  | @changeSetRefresh ns src _ r =>
    obtain ⟨m, h, rfl⟩ : ∃ m, w.cache.namespaces = mset m ns { elems := [], source := src } ∧ fc = { w.cache with namespaces := m } := hw rfl
    refine stay rfl rfl ?_ trivial rfl
    show ({ w.cache with namespaces := mset m ns { elems := [], source := src } } : St) = w.cache
    rw [← h]

/-! #### All steps -/

theorem Reads.evolve {c c' : St} {pc : Pc} {xs : List Ptr} (hi : Inv c xs) (h : Reads c pc) (hn : c'.namespaces = c.namespaces) (he : Evolves c c') :
    Reads c' pc := by
  cases pc with
  | promoting q t p res =>
    obtain ⟨r, h1, h2, h3, h4⟩ := h
    have hlt := hi.bound p (hi.cached q.ns r.source q.id p ⟨r, h1, rfl, h2⟩).1
    exact ⟨r, by rw [hn]; exact h1, h2, by rw [(he.data p hlt).2.2]; exact h3, h4⟩
  | _ => trivial

theorem Reads.of_not {c : St} {pc : Pc} (h : pc.reads = false) : Reads c pc := by
  cases pc with
  | promoting q t p res => simp [Pc.reads] at h
  | _ => trivial

theorem Rel.moved (hcap : 0 ≤ cfg.capacity) {f : Fine G} {w : World G} {log ps} (h : Rel cfg matchAt nsOf gen0 f w log ps) {i : Nat} {pc' : Pc} {s' : St}
    (hm : Move cfg (fun src => matchAt src (f.gen src)) (f.pcs i) f.cache pc' s') :
    ∃ w' log' ps', Rel cfg matchAt nsOf gen0 { f with cache := s', pcs := setPc f.pcs i pc'
                                                      pending := match announced (f.pcs i) pc' with
                                                        | some src => f.pending.erase src
                                                        | none => f.pending } w' log' ps' := by
  obtain ⟨k1, k2, k3⟩ := move_locks hm
  obtain ⟨k4, k5, k6⟩ := move_keeps hm
  obtain ⟨xs, hi⟩ := (h.atomic.reach.inv hcap).inv
  have nowriter : (f.pcs i).reads = true → ∀ j, (f.pcs j).writes = false := by
    intro hr j
    cases hj : (f.pcs j).writes with
    | false => rfl
    | true =>
      have e := h.excl j i hj (Or.inr hr)
      subst e
      cases hpc : f.pcs i <;> rw [hpc] at hj hr <;> simp [Pc.writes, Pc.reads] at hj hr
  have hlag : ps ≠ [] → (f.pcs i).lags = true := by
    intro hps
    obtain ⟨j, hj⟩ := h.lag hps
    have e := h.excl j i (lags_writes hj) k3
    subst e
    exact hj
  obtain ⟨w', log', ps', m⟩ := move_sim (i := i) hcap h.atomic (h.writer i) (fun hr => h.free (nowriter hr)) (h.readers i) hlag h.gen h.pending
    (h.regs i) hm
  refine ⟨w', log', ps', m.atomic, ?_, ?_, ?_, ?_, ?_, m.gen, m.pending, ?_, ?_, ?_, ?_, ?_, ?_⟩
  · intro a b ha hb
    simp only [setPc] at ha hb
    refine h.excl a b ?_ ?_
    · split at ha
      · next e => rw [e, ← k1]; exact ha
      · exact ha
    · split at hb
      · next e => rw [e, ← k1, ← k2]; exact hb
      · exact hb
  · intro hf
    have := hf i
    simp only [setPc_same] at this
    have ok := m.ok
    rw [this] at ok
    simpa using ok
  · intro j hj
    by_cases e : j = i
    · subst e
      simp only [setPc_same] at hj ⊢
      have ok := m.ok
      rw [hj] at ok
      simpa using ok
    · simp only [setPc_other f.pcs pc' e] at hj
      exact absurd (h.excl j i hj k3).symm e
  · intro j
    by_cases e : j = i
    · subst e; simp only [setPc_same]; exact m.reads
    · simp only [setPc_other f.pcs pc' e]
      rcases k3 with hw | hr
      · refine Reads.of_not ?_
        cases hj : (f.pcs j).reads with
        | false => rfl
        | true => exact absurd (h.excl i j hw (Or.inr hj)) e
      · obtain ⟨n1, n2⟩ := m.same hr
        exact (h.readers j).evolve hi n1 n2
  · intro hps
    exact ⟨i, by simp only [setPc_same]; exact m.lag hps⟩
  · intro j c hc
    by_cases e : j = i
    · subst e; simp only [setPc_same] at hc; exact h.regs j c (k4 c hc)
    · simp only [setPc_other f.pcs pc' e] at hc; exact h.regs j c hc
  · intro j q res
    rcases m.log with ⟨rfl, _, ha⟩ | ⟨q0, res0, rfl, _, h0, h1, h2⟩
    · by_cases e : j = i
      · subst e; simp only [setPc_same, ha]; exact h.answers j q res
      · simp only [setPc_other f.pcs pc' e]; exact h.answers j q res
    · have mem : Entry.done j q res ∈ log ++ [.done i q0 res0] ++ ps.map pub ↔ Entry.done j q res ∈ log ∨ (j = i ∧ q = q0 ∧ res = res0) := by
        simp [pub]
      rw [mem, h.answers]
      by_cases e : j = i
      · subst e
        simp only [setPc_same, h2, h0, reduceCtorEq, true_and, false_or, Option.some.injEq, Prod.mk.injEq]
        constructor <;> (rintro ⟨rfl, rfl⟩; exact ⟨rfl, rfl⟩)
      · simp only [setPc_other f.pcs pc' e, e, false_and, or_false]
  · intro j q hq
    by_cases e : j = i
    · subst e; simp only [setPc_same, k5] at hq; exact h.ops j q hq
    · simp only [setPc_other f.pcs pc' e] at hq; exact h.ops j q hq
  · intro j q res hr
    have := h.rets j q res hr
    by_cases e : j = i
    · subst e; rw [k6] at this; cases this
    · simp only [setPc_other f.pcs pc' e]; exact this
  · rcases m.log with ⟨rfl, rfl, _⟩ | ⟨q0, res0, rfl, rfl, h0, h1, h2⟩
    · exact h.order
    · rw [List.map_nil, List.append_nil]
      refine h.order.insert res0 ?_ (h.ops i q0 h1) ?_
      · intro hc
        obtain ⟨x, hx, e⟩ := List.mem_map.mp hc
        cases x with
        | publish => cases e
        | done j op r =>
          cases e
          have hx : Entry.done i op r ∈ log := by simpa [pub] using hx
          have := (h.answers i op r).mp hx
          rw [h0] at this; cases this
      · intro b hb
        obtain ⟨y, hy, rfl⟩ := List.mem_map.mp hb
        obtain ⟨x, hx, rfl⟩ := List.mem_map.mp hy
        exact h.late i (hlag (by rintro rfl; cases hx)) x hx
  · intro j hj x hx
    rcases m.log with ⟨rfl, rfl, _⟩ | ⟨q0, res0, rfl, rfl, h0, h1, h2⟩
    · refine h.late j ?_ x hx
      have hl : (f.pcs i).lags = true := hlag (by rintro rfl; cases hx)
      by_cases e : j = i
      · rw [e]; exact hl
      · simp only [setPc_other f.pcs pc' e] at hj; exact hj
    · cases hx

/-- A call takes or gives back a lock, is made or returns. -/
theorem Rel.put {f : Fine G} {w : World G} {log ps} (h : Rel cfg matchAt nsOf gen0 f w log ps) {i : Nat} {pc' : Pc} {hist : List (Event G)}
    (hw : pc'.writes = true → ∀ j, (f.pcs j).writes = false ∧ (f.pcs j).reads = false)
    (hr : pc'.reads = true → ∀ j, (f.pcs j).writes = false)
    (hok : pc'.writes = true → Holds cfg (w.answers matchAt) f.cache w.cache pc')
    (hback : (f.pcs i).writes = true → f.cache = w.cache) (hrd : Reads w.cache pc') (hlag : (f.pcs i).lags = false)
    (hreg : ∀ c, pc'.change? = some c → ∀ ns src, c = .register ns src ∨ c = .refresh ns src → nsOf src = ns)
    (hans : pc'.answer = (f.pcs i).answer) (hq : ∀ q, pc'.op = some q → Event.call i q ∈ hist) (hold : ∀ e ∈ f.hist, e ∈ hist)
    (hret : ∀ j q res, Event.ret j q res ∈ hist → (setPc f.pcs i pc' j).ended = true) (hord : Order hist (log ++ ps.map pub))
    (hlate : ∀ j, (setPc f.pcs i pc' j).lags = true → ∀ x ∈ ps, ¬ Precedes hist (.inr x.1) (.inl j)) :
    Rel cfg matchAt nsOf gen0 { f with pcs := setPc f.pcs i pc', hist := hist } w log ps := by
  refine ⟨h.atomic, ?_, ?_, ?_, ?_, ?_, h.gen, h.pending, ?_, ?_, ?_, hret, hord, hlate⟩
  · intro a b ha hb
    by_cases ea : a = i
    · subst ea
      simp only [setPc_same] at ha
      by_cases eb : b = a
      · exact eb
      · simp only [setPc_other f.pcs pc' eb] at hb
        obtain ⟨n1, n2⟩ := hw ha b
        rw [n1, n2] at hb; simp at hb
    · simp only [setPc_other f.pcs pc' ea] at ha
      by_cases eb : b = i
      · subst eb
        simp only [setPc_same] at hb
        rcases hb with hb | hb
        · rw [(hw hb a).1] at ha; cases ha
        · rw [hr hb a] at ha; cases ha
      · simp only [setPc_other f.pcs pc' eb] at hb
        exact h.excl a b ha hb
  · intro hf
    cases hi : (f.pcs i).writes with
    | true => exact hback hi
    | false =>
      refine h.free fun j => ?_
      by_cases e : j = i
      · rw [e]; exact hi
      · have := hf j
        simp only [setPc_other f.pcs pc' e] at this
        exact this
  · intro j hj
    by_cases e : j = i
    · subst e; simp only [setPc_same] at hj ⊢; exact hok hj
    · simp only [setPc_other f.pcs pc' e] at hj ⊢; exact h.writer j hj
  · intro j
    by_cases e : j = i
    · subst e; simp only [setPc_same]; exact hrd
    · simp only [setPc_other f.pcs pc' e]; exact h.readers j
  · intro hps
    obtain ⟨j, hj⟩ := h.lag hps
    have e : j ≠ i := by rintro rfl; rw [hlag] at hj; cases hj
    exact ⟨j, by simp only [setPc_other f.pcs pc' e]; exact hj⟩
  · intro j c hc
    by_cases e : j = i
    · subst e; simp only [setPc_same] at hc; exact hreg c hc
    · simp only [setPc_other f.pcs pc' e] at hc; exact h.regs j c hc
  · intro j q res
    by_cases e : j = i
    · subst e; simp only [setPc_same, hans]; exact h.answers j q res
    · simp only [setPc_other f.pcs pc' e]; exact h.answers j q res
  · intro j q hq'
    by_cases e : j = i
    · subst e; simp only [setPc_same] at hq'; exact hq q hq'
    · simp only [setPc_other f.pcs pc' e] at hq'; exact hold _ (h.ops j q hq')

/-- Every step is followed. -/
theorem Rel.step (hcap : 0 ≤ cfg.capacity) {f f' : Fine G} {w : World G} {log ps} (h : Rel cfg matchAt nsOf gen0 f w log ps)
    (hs : FStep cfg matchAt nsOf f f') : ∃ w' log' ps', Rel cfg matchAt nsOf gen0 f' w' log' ps' := by
  obtain ⟨xs, hi⟩ := (h.atomic.reach.inv hcap).inv
  -- histories when a call does not return
  have keepRet : ∀ (i : Nat) (pc' : Pc), (f.pcs i).ended = false → ∀ j q res, Event.ret j q res ∈ f.hist → (setPc f.pcs i pc' j).ended = true := by
    intro i pc' hn j q res hj
    have := h.rets j q res hj
    by_cases e : j = i
    · subst e; rw [hn] at this; cases this
    · rw [setPc_other f.pcs pc' e]; exact this
  -- calls between asking and storing
  have late : ∀ (i : Nat) (pc' : Pc) (hist : List (Event G)), pc'.lags = false →
      (∀ j x, j ≠ i → Precedes hist (.inr x) (.inl j) → Precedes f.hist (.inr x) (.inl j) ∨ False) →
      ∀ j, (setPc f.pcs i pc' j).lags = true → ∀ x ∈ ps, ¬ Precedes hist (.inr x.1) (.inl j) := by
    intro i pc' hist hn hh j hj x hx hp
    by_cases e : j = i
    · subst e; rw [setPc_same, hn] at hj; cases hj
    · rw [setPc_other f.pcs pc' e] at hj
      exact h.late j hj x hx ((hh j x.1 e hp).resolve_right id)
  have lateCall : ∀ {i j : Nat} {op : Op} {x : Nat}, j ≠ i → Precedes (f.hist ++ [.call i op]) (.inr x) (.inl j) →
      Precedes f.hist (.inr x) (.inl j) ∨ False := by
    intro i j op x hj hp
    rcases precedes_snoc hp with hp | ⟨_, he⟩
    · exact Or.inl hp
    · cases he; exact absurd rfl hj
  have lateRet : ∀ {i j : Nat} {op : Op} {res : Option MatchResult} {x : Nat}, Precedes (f.hist ++ [.ret i op res]) (.inr x) (.inl j) →
      Precedes f.hist (.inr x) (.inl j) ∨ False := by
    intro i j op res x hp
    rcases precedes_snoc hp with hp | ⟨_, he⟩
    · exact Or.inl hp
    · cases he
  cases hs with
  | call i q hpc =>
    refine ⟨w, log, ps, h.put (by simp [Pc.writes]) (by simp [Pc.reads]) (by simp [Pc.writes]) (by simp [hpc, Pc.writes]) trivial (by rw [hpc]; rfl)
      (by simp [Pc.change?]) (by rw [hpc]; rfl) ?_ ?_ ?_ ?_ (late i _ _ rfl fun j x hj hp => lateCall hj hp)⟩
    · intro q' hq'; simp only [Pc.op, Option.some.injEq] at hq'; subst hq'; simp
    · intro e he; exact List.mem_append_left _ he
    · intro j q' res hj
      refine keepRet i _ (by rw [hpc]; rfl) j q' res ?_
      rcases List.mem_append.mp hj with hj | hj
      · exact hj
      · simp at hj
    · refine h.order.call _ ?_
      intro hc
      obtain ⟨x, hx, e⟩ := List.mem_map.mp hc
      cases x with
      | publish => cases e
      | done j op r =>
        cases e
        have := (h.answers i op r).mp (by simpa [pub] using hx)
        rw [hpc] at this; cases this
  | rlock i q hpc hfree =>
    refine ⟨w, log, ps, h.put (by simp [Pc.writes]) (fun _ => hfree) (by simp [Pc.writes]) (by simp [hpc, Pc.writes]) trivial (by rw [hpc]; rfl)
      (by simp [Pc.change?]) (by rw [hpc]; rfl) ?_ (fun _ he => he) (keepRet i _ (by rw [hpc]; rfl)) h.order (late i _ f.hist rfl fun j x hj hp => Or.inl hp)⟩
    intro q' hq'; exact h.ops i q' (by rw [hpc]; exact hq')
  | runlockFound i q res hpc =>
    refine ⟨w, log, ps, h.put (by simp [Pc.writes]) (by simp [Pc.reads]) (by simp [Pc.writes]) (by simp [hpc, Pc.writes]) trivial (by rw [hpc]; rfl)
      (by simp [Pc.change?]) (by rw [hpc]; rfl) ?_ (fun _ he => List.mem_append_left _ he) ?_ ?_ (late i _ _ rfl fun j x hj hp => lateRet hp)⟩
    · intro q' hq'; exact List.mem_append_left _ (h.ops i q' (by rw [hpc]; exact hq'))
    · intro j q' res' hj
      rcases List.mem_append.mp hj with hj | hj
      · exact keepRet i _ (by rw [hpc]; rfl) j q' res' hj
      · simp only [List.mem_singleton, Event.ret.injEq] at hj
        obtain ⟨rfl, rfl, rfl⟩ := hj
        rw [setPc_same]; rfl
    · exact h.order.ret (List.mem_append_left _ ((h.answers i _ _).mpr (by rw [hpc]; rfl)))
  | runlockAbsent i q hpc =>
    refine ⟨w, log, ps, h.put (by simp [Pc.writes]) (by simp [Pc.reads]) (by simp [Pc.writes]) (by simp [hpc, Pc.writes]) trivial (by rw [hpc]; rfl)
      (by simp [Pc.change?]) (by rw [hpc]; rfl) ?_ (fun _ he => he) (keepRet i _ (by rw [hpc]; rfl)) h.order (late i _ f.hist rfl fun j x hj hp => Or.inl hp)⟩
    intro q' hq'; exact h.ops i q' (by rw [hpc]; exact hq')
  | lock i q hpc hfree =>
    refine ⟨w, log, ps, h.put (fun _ => hfree) (by simp [Pc.reads]) (fun _ => h.free fun j => (hfree j).1) (by simp [hpc, Pc.writes]) trivial
      (by rw [hpc]; rfl) (by simp [Pc.change?]) (by rw [hpc]; rfl) ?_ (fun _ he => he) (keepRet i _ (by rw [hpc]; rfl)) h.order (late i _ f.hist rfl fun j x hj hp => Or.inl hp)⟩
    intro q' hq'; exact h.ops i q' (by rw [hpc]; exact hq')
  | unlock i q res hpc =>
    refine ⟨w, log, ps, h.put (by simp [Pc.writes]) (by simp [Pc.reads]) (by simp [Pc.writes]) ?_ trivial (by rw [hpc]; rfl)
      (by simp [Pc.change?]) (by rw [hpc]; rfl) ?_ (fun _ he => List.mem_append_left _ he) ?_ ?_ (late i _ _ rfl fun j x hj hp => lateRet hp)⟩
    · intro hx
      have := h.writer i hx
      rw [hpc] at this; exact this
    · intro q' hq'; exact List.mem_append_left _ (h.ops i q' (by rw [hpc]; exact hq'))
    · intro j q' res' hj
      rcases List.mem_append.mp hj with hj | hj
      · exact keepRet i _ (by rw [hpc]; rfl) j q' res' hj
      · simp only [List.mem_singleton, Event.ret.injEq] at hj
        obtain ⟨rfl, rfl, rfl⟩ := hj
        rw [setPc_same]; rfl
    · exact h.order.ret (List.mem_append_left _ ((h.answers i _ _).mpr (by rw [hpc]; rfl)))
  | callChange i c hpc hreg =>
    refine ⟨w, log, ps, h.put (by simp [Pc.writes]) (by simp [Pc.reads]) (by simp [Pc.writes]) (by simp [hpc, Pc.writes]) trivial (by rw [hpc]; rfl)
      ?_ (by rw [hpc]; rfl) ?_ ?_ ?_ ?_ (late i _ _ rfl fun j x hj hp => lateCall hj hp)⟩
    · intro c' hc'; simp only [Pc.change?, Option.some.injEq] at hc'; subst hc'; exact hreg
    · intro q' hq'; simp only [Pc.op, Option.some.injEq] at hq'; subst hq'; simp
    · intro e he; exact List.mem_append_left _ he
    · intro j q' res hj
      refine keepRet i _ (by rw [hpc]; rfl) j q' res ?_
      rcases List.mem_append.mp hj with hj | hj
      · exact hj
      · simp at hj
    · refine h.order.call _ ?_
      intro hc
      obtain ⟨x, hx, e⟩ := List.mem_map.mp hc
      cases x with
      | publish => cases e
      | done j op r =>
        cases e
        have := (h.answers i op r).mp (by simpa [pub] using hx)
        rw [hpc] at this; cases this
  | lockChange i c hpc hfree =>
    refine ⟨w, log, ps, h.put (fun _ => hfree) (by simp [Pc.reads]) (fun _ => h.free fun j => (hfree j).1) (by simp [hpc, Pc.writes]) trivial
      (by rw [hpc]; rfl) ?_ (by rw [hpc]; rfl) ?_ (fun _ he => he) (keepRet i _ (by rw [hpc]; rfl)) h.order (late i _ f.hist rfl fun j x hj hp => Or.inl hp)⟩
    · intro c' hc'; exact h.regs i c' (by rw [hpc]; exact hc')
    · intro q' hq'; exact h.ops i q' (by rw [hpc]; exact hq')
  | unlockChange i c hpc =>
    refine ⟨w, log, ps, h.put (by simp [Pc.writes]) (by simp [Pc.reads]) (by simp [Pc.writes]) ?_ trivial (by rw [hpc]; rfl)
      (by simp [Pc.change?]) (by rw [hpc]; rfl) ?_ (fun _ he => List.mem_append_left _ he) ?_ ?_ (late i _ _ rfl fun j x hj hp => lateRet hp)⟩
    · intro hx
      have := h.writer i hx
      rw [hpc] at this; exact this
    · intro q' hq'; exact List.mem_append_left _ (h.ops i q' (by rw [hpc]; exact hq'))
    · intro j q' res' hj
      rcases List.mem_append.mp hj with hj | hj
      · exact keepRet i _ (by rw [hpc]; rfl) j q' res' hj
      · simp only [List.mem_singleton, Event.ret.injEq] at hj
        obtain ⟨rfl, rfl, rfl⟩ := hj
        rw [setPc_same]; rfl
    · exact h.order.ret (List.mem_append_left _ ((h.answers i _ _).mpr (by rw [hpc]; rfl)))
  | move i pc' s' hm => exact h.moved hcap hm
  | publish k src g hk =>
    have rets : ∀ i op res, Event.ret i op res ∈ f.hist ++ [.publish k src g] → (f.pcs i).ended = true := by
      intro i op res hr
      refine h.rets i op res ?_
      rcases List.mem_append.mp hr with hr | hr
      · exact hr
      · simp at hr
    have ops : ∀ i op, (f.pcs i).op = some op → Event.call i op ∈ f.hist ++ [.publish k src g] :=
      fun i op ho => List.mem_append_left _ (h.ops i op ho)
    by_cases hl : ∃ i, (f.pcs i).lags = true
    · refine ⟨w, log, ps ++ [(k, src, g)], h.atomic, h.excl, h.free, h.writer, h.readers, fun _ => hl, ?_, ?_, h.regs, h.answers, ops, rets, ?_, ?_⟩
      · simp only [World.publishAll, List.foldl_append, List.foldl_cons, List.foldl_nil, World.publish]
        funext x
        rw [h.gen]; rfl
      · simp only [World.publishAll, List.foldl_append, List.foldl_cons, List.foldl_nil, World.publish]
        rw [h.pending]; rfl
      · rw [List.map_append, ← List.append_assoc]
        exact h.order.publish src g hk
      · intro i hi' x hx hp
        rcases precedes_snoc hp with hp | ⟨_, he⟩
        · rcases List.mem_append.mp hx with hx | hx
          · exact h.late i hi' x hx hp
          · rw [List.mem_singleton] at hx
            subst hx
            obtain ⟨h1, h2, e, e', hh, he, _, hk', _⟩ := hp
            cases e with
            | call => cases hk'
            | ret => cases hk'
            | publish k' src' g' =>
              cases hk'
              exact hk src' g' (by rw [hh]; exact List.mem_append_left _ he)
        · cases he
    · have hps : ps = [] := h.lag_nil fun i => by
        cases hx : (f.pcs i).lags with
        | false => rfl
        | true => exact absurd ⟨i, hx⟩ hl
      subst hps
      have hord := h.order
      rw [List.map_nil, List.append_nil] at hord
      have hat : Atomic cfg matchAt nsOf gen0 (w.publish (k, src, g)) (log ++ [.publish k src g]) := Atomic.publish k src g h.atomic
      refine ⟨w.publish (k, src, g), log ++ [.publish k src g], [], hat, h.excl, h.free, ?_, h.readers, by simp, ?_, ?_, h.regs, ?_,
        ops, rets, ?_, by intro i hi' x hx; cases hx⟩
      · intro i hw
        have hx := h.writer i hw
        have hnl : (f.pcs i).lags = false := by
          cases hx : (f.pcs i).lags with
          | false => rfl
          | true => exact absurd ⟨i, hx⟩ hl
        cases hpc : f.pcs i with
        | storing => rw [hpc] at hnl; simp [Pc.lags] at hnl
        | adding => rw [hpc] at hnl; simp [Pc.lags] at hnl
        | changeGaveUp c r => rw [hpc] at hx; cases c <;> exact hx
        | changeTold c r => rw [hpc] at hx; cases c <;> exact hx
        | _ => rw [hpc] at hx; exact hx
      · funext x
        show (if x = src then g else f.gen x) = if x = src then g else w.gen x
        rw [h.gen]; rfl
      · show src :: f.pending = src :: w.pending
        rw [h.pending]; rfl
      · intro i op res
        rw [← h.answers]; simp
      · rw [List.map_nil, List.append_nil]
        exact hord.publish src g hk
  | work act c ha hst =>
    -- what the goroutine does, done by both
    have key : ∃ c', w.cache.step cfg (w.answers matchAt) act = some c' ∧ c'.namespaces = w.cache.namespaces ∧
        ((∀ i, (f.pcs i).writes = false) → c = c') ∧
        (∀ i, (f.pcs i).writes = true → Holds cfg (w.answers matchAt) c c' (f.pcs i)) := by
      by_cases hx : ∃ i, (f.pcs i).writes = true
      · obtain ⟨i, hi'⟩ := hx
        obtain ⟨c', h1, h2, h3⟩ := (h.writer i hi').work hi ha hst (w.answers matchAt)
        refine ⟨c', h1, h3, fun hn => ?_, fun j hj => ?_⟩
        · rw [hn i] at hi'; cases hi'
        · rw [h.excl i j hi' (Or.inl hj)]; exact h2
      · have hn : ∀ i, (f.pcs i).writes = false := fun i => by
          cases hw : (f.pcs i).writes with
          | false => rfl
          | true => exact absurd ⟨i, hw⟩ hx
        have hc := h.free hn
        have hh : Holds cfg (w.answers matchAt) f.cache w.cache .idle := hc
        obtain ⟨c', h1, h2, h3⟩ := hh.work hi ha hst (w.answers matchAt)
        exact ⟨c', h1, h3, fun _ => h2, fun i hw => by rw [hn i] at hw; cases hw⟩
    obtain ⟨c', h1, h2, h3, h4⟩ := key
    obtain ⟨ys, ok⟩ := step_ok cfg hcap (w.answers matchAt) hi act h1
    have hps : (({ w with cache := c' } : World G).publishAll ps) = { w.publishAll ps with cache := c' } := publishAll_with w c' ps
    refine ⟨{ w with cache := c' }, log, ps, .work act c' h.atomic (Or.inl ha) h1, h.excl, h3, h4, fun i => (h.readers i).evolve hi h2 ok.evolves,
      h.lag, ?_, ?_, h.regs, h.answers, h.ops, h.rets, h.order, h.late⟩
    · rw [hps]; exact h.gen
    · rw [hps]; exact h.pending
  | workLocked act c ha hfree hst =>
    have hps : ps = [] := h.lag_nil fun i => by
      cases hx : (f.pcs i).lags with
      | false => rfl
      | true => have := lags_writes hx; rw [(hfree i).1] at this; cases this
    subst hps
    have hc := h.free fun j => (hfree j).1
    have hst' : w.cache.step cfg (w.answers matchAt) act = some c := by
      rw [← hc]
      have hg : w.answers matchAt = fun src => matchAt src (f.gen src) := by
        rw [h.gen]; rfl
      rw [hg]; exact hst
    refine ⟨{ w with cache := c }, log, [], .work act c h.atomic (Or.inr (Or.inl ha)) hst', h.excl, fun _ => rfl, ?_, ?_, by simp, h.gen, h.pending, h.regs,
      h.answers, h.ops, h.rets, h.order, by intro i hi' x hx; cases hx⟩
    · intro i hi'
      have hi' : (f.pcs i).writes = true := hi'
      rw [(hfree i).1] at hi'; cases hi'
    · intro i
      exact Reads.of_not (hfree i).2

theorem FReach.rel (hcap : 0 ≤ cfg.capacity) {f : Fine G} (h : FReach cfg matchAt nsOf gen0 f) : ∃ w log ps, Rel cfg matchAt nsOf gen0 f w log ps := by
  induction h with
  | init hp =>
    refine ⟨⟨newCache hp, gen0, []⟩, [], [], .init hp, ?_, fun _ => rfl, ?_, ?_, by simp, rfl, rfl, ?_, ?_, ?_, ?_, ?_, ?_⟩
    · intro i j hx; simp [Pc.writes] at hx
    · intro i hx; simp [Pc.writes] at hx
    · intro i; trivial
    · intro i c hc; simp [Pc.change?] at hc
    · intro i q res; simp [Pc.answer]
    · intro i q hq; simp [Pc.op] at hq
    · intro i q res hr; cases hr
    · exact ⟨by simp, by simp, by simp, by simp, by simp⟩
    · intro i hi; simp [Pc.lags] at hi
  | step _ hs ih =>
    obtain ⟨w, log, ps, hr⟩ := ih
    exact hr.step hcap hs

/-! ### What the entries say -/

/-- The source that is registered for the namespace after the entries. -/
def registered (log : List (Entry G)) (ns : Bytes) : Option Nat :=
  log.foldl (fun cur e => match e with
    | .done _ (.change (.register n src)) _ => if ns = n then some src else cur
    | .done _ (.change (.unregister n)) _ => if ns = n then none else cur
    | _ => cur) none

/-- The rules of the sources after the entries. -/
def rulesAfter (gen0 : Nat → G) (log : List (Entry G)) (src : Nat) : G :=
  log.foldl (fun cur e => match e with
    | .publish _ s g => if src = s then g else cur
    | _ => cur) (gen0 src)

/-- The sources whose new rules are yet to be announced after the entries. -/
def unannounced (log : List (Entry G)) : List Nat :=
  log.foldl (fun cur e => match e with
    | .publish _ s _ => s :: cur
    | .done _ (.change (.refresh _ src)) _ => cur.erase src
    | _ => cur) []

/-- What a lookup may answer after the entries: nothing, if no source is registered; else what the rules of that source say, for the
range asked for or for one such that the result is still valid, unless new rules are yet to be announced. -/
def Answer (matchAt : Nat → G → Bytes → Int → Int → MatchResult) (gen0 : Nat → G) (log : List (Entry G)) (q : Query) (r : MatchResult) : Prop :=
  match registered log q.ns with
  | none => r = emptyMatchResult
  | some src => src ∈ unannounced log ∨
      ∃ f u, r = matchAt src (rulesAfter gen0 log src) q.id f u ∧ ((f = q.frm ∧ u = q.to) ∨ q.to < r.expireAtNanos)

theorem Atomic.says {w : World G} {log : List (Entry G)} (h : Atomic cfg matchAt nsOf gen0 w log) :
    (∀ ns, sourceOf w.cache ns = registered log ns) ∧ w.gen = rulesAfter gen0 log ∧ w.pending = unannounced log := by
  induction h with
  | init hp => exact ⟨fun ns => by simp [sourceOf, newCache, mget, registered], rfl, rfl⟩
  | @look w log i q t second c res _ hg ih =>
    obtain ⟨i1, i2, i3⟩ := ih
    refine ⟨fun ns => ?_, ?_, ?_⟩
    · have hs : w.cache.step cfg (w.answers matchAt) (if second then .fill t q.ns q.id q.frm q.to else .get t q.ns q.id q.frm q.to) = some c := by
        cases second <;> simp [St.step, hg]
      have := step_sourceOf (by cases second <;> trivial) hs ns
      rw [registered, List.foldl_append]
      exact this.trans (i1 ns)
    · funext src
      rw [rulesAfter, List.foldl_append]
      exact congrFun i2 src
    · rw [unannounced, List.foldl_append]; exact i3
  | @change w log i c _ _ ih =>
    obtain ⟨i1, i2, i3⟩ := ih
    refine ⟨fun ns => ?_, ?_, ?_⟩
    · rw [registered, List.foldl_append]
      have i1 : sourceOf w.cache ns = _ := i1 ns
      rw [registered] at i1
      rw [← i1]
      cases c with
      | register n src => exact register_sourceOf w.cache n src ns
      | refresh n src => exact refresh_sourceOf w.cache n src ns
      | unregister n => exact unregister_sourceOf w.cache n ns
    · funext src
      rw [rulesAfter, List.foldl_append]
      cases c <;> exact congrFun i2 src
    · rw [unannounced, List.foldl_append]
      rw [unannounced] at i3
      rw [← i3]
      cases c <;> rfl
  | @publish w log k src g _ ih =>
    obtain ⟨i1, i2, i3⟩ := ih
    refine ⟨fun ns => ?_, ?_, ?_⟩
    · rw [registered, List.foldl_append]; exact i1 ns
    · funext x
      rw [rulesAfter, List.foldl_append]
      have i2 : w.gen x = _ := congrFun i2 x
      rw [rulesAfter] at i2
      rw [← i2]; rfl
    · rw [unannounced, List.foldl_append]
      rw [unannounced] at i3
      rw [← i3]; rfl
  | @work w log act c _ ha hst ih =>
    obtain ⟨i1, i2, i3⟩ := ih
    refine ⟨fun ns => (step_sourceOf ?_ hst ns).trans (i1 ns), i2, i3⟩
    cases act <;> simp [Act.lockFree, Act.underLock] at ha <;> trivial
  | @forget w log ns r _ _ ih =>
    obtain ⟨i1, i2, i3⟩ := ih
    exact ⟨fun n => (refresh_sourceOf w.cache ns r.source n).trans (i1 n), i2, i3⟩

/-- A lookup among the entries was made after those before it. -/
theorem Atomic.lookup (hcap : 0 ≤ cfg.capacity) {w : World G} {log : List (Entry G)} (h : Atomic cfg matchAt nsOf gen0 w log) :
    ∀ l1 i q res l2, log = l1 ++ .done i (.look q) res :: l2 → ∃ r, res = some r ∧ Answer matchAt gen0 l1 q r := by
  have grow : ∀ {log : List (Entry G)} {x : Entry G} {l1 i q res l2}, log ++ [x] = l1 ++ .done i (.look q) res :: l2 →
      (log = l1 ∧ x = .done i (.look q) res ∧ l2 = []) ∨ ∃ l2', log = l1 ++ .done i (.look q) res :: l2' := by
    intro log x l1 i q res l2 e
    rcases List.eq_nil_or_concat l2 with rfl | ⟨l2', y, rfl⟩
    · obtain ⟨e1, e2⟩ := List.append_inj' e rfl
      exact Or.inl ⟨e1, by simpa using e2, rfl⟩
    · refine Or.inr ⟨l2', ?_⟩
      have : log ++ [x] = (l1 ++ .done i (.look q) res :: l2') ++ [y] := by rw [e]; simp
      exact (List.append_inj' this rfl).1
  induction h with
  | init => intro l1 i q res l2 e; simp at e
  | @look w log i0 q0 t second c res0 ha hg ih =>
    intro l1 i q res l2 e
    rcases grow e with ⟨rfl, e2, _⟩ | ⟨l2', e⟩
    · simp only [Entry.done.injEq, Op.look.injEq] at e2
      obtain ⟨rfl, rfl, rfl⟩ := e2
      refine ⟨res0, rfl, ?_⟩
      obtain ⟨s1, s2, s3⟩ := ha.says
      obtain ⟨c1, c2⟩ := C58_lookup cfg hcap matchAt nsOf w ha.reach t q0.ns q0.id q0.frm q0.to second c res0 hg
      unfold Answer
      rw [← s1, sourceOf, ← s2, ← s3]
      cases hr : mget w.cache.namespaces q0.ns with
      | none => exact c1 hr
      | some r => exact c2 r hr
    · exact ih l1 i q res l2' e
  | @change w log i0 c _ _ ih =>
    intro l1 i q res l2 e
    rcases grow e with ⟨_, e2, _⟩ | ⟨l2', e⟩
    · cases e2
    · exact ih l1 i q res l2' e
  | @publish w log k src g _ ih =>
    intro l1 i q res l2 e
    rcases grow e with ⟨_, e2, _⟩ | ⟨l2', e⟩
    · cases e2
    · exact ih l1 i q res l2' e
  | work _ _ _ _ _ ih => exact ih
  | forget _ _ _ _ ih => exact ih

/-! ### C109 -/

/-- **C109.** Under every interleaving of calls at the level of the locks there is an order of the calls and of the times at which
sources get new rules, each at one moment between its beginning and its end, such that every lookup answers what the entries
before it say: the answer of the rules that the source registered last has by then, unless that source has yet to announce them. -/
theorem C109_linearizable (cfg : Config) (hcap : 0 ≤ cfg.capacity) (matchAt : Nat → G → Bytes → Int → Int → MatchResult) (nsOf : Nat → Bytes)
    (gen0 : Nat → G) (f : Fine G) (h : FReach cfg matchAt nsOf gen0 f) :
    ∃ log, Order f.hist log ∧ (∀ l1 i q res l2, log = l1 ++ .done i (.look q) res :: l2 → ∃ r, res = some r ∧ Answer matchAt gen0 l1 q r) ∧
      f.gen = rulesAfter gen0 log ∧ f.pending = unannounced log ∧ ((∀ i, (f.pcs i).writes = false) → ∀ ns, sourceOf f.cache ns = registered log ns) := by
  obtain ⟨w, log, ps, hr⟩ := h.rel hcap
  have ha := hr.atomic.publishAll ps
  obtain ⟨s1, s2, s3⟩ := ha.says
  refine ⟨log ++ ps.map pub, hr.order, ha.lookup hcap, hr.gen.trans s2, hr.pending.trans s3, fun hw ns => ?_⟩
  rw [← s1, publishAll_cache, hr.free hw]

/-- **C109.** Whenever no call is changing the cache, it is in a state that it can be in when what calls do under the lock is one
step: all that C58, C60, C62 and C97 say holds of it. -/
theorem C109_states (cfg : Config) (hcap : 0 ≤ cfg.capacity) (matchAt : Nat → G → Bytes → Int → Int → MatchResult) (nsOf : Nat → Bytes)
    (gen0 : Nat → G) (f : Fine G) (h : FReach cfg matchAt nsOf gen0 f) (hw : ∀ i, (f.pcs i).writes = false) :
    WReach cfg matchAt nsOf ⟨f.cache, f.gen, f.pending⟩ ∧ Reach cfg f.cache := by
  obtain ⟨w, log, ps, hr⟩ := h.rel hcap
  have hps : ps = [] := hr.lag_nil fun i => by
    cases hx : (f.pcs i).lags with
    | false => rfl
    | true => have := lags_writes hx; rw [hw i] at this; cases this
  subst hps
  have e1 := hr.free hw
  have e2 := hr.gen
  have e3 := hr.pending
  simp only [World.publishAll, List.foldl_nil] at e2 e3
  rw [e1, e2, e3]
  exact ⟨hr.atomic.reach, hr.atomic.reach.reach⟩

/-- The call is under way. -/
def Pc.active (pc : Pc) : Prop := pc ≠ .idle ∧ pc.ended = false

/-- **C109.** The calls never wait for each other forever: while a call is under way, a call that is under way can make a step. -/
theorem C109_never_stuck (cfg : Config) (hcap : 0 ≤ cfg.capacity) (matchAt : Nat → G → Bytes → Int → Int → MatchResult) (nsOf : Nat → Bytes)
    (gen0 : Nat → G) (f : Fine G) (h : FReach cfg matchAt nsOf gen0 f) (i : Nat) (hi : (f.pcs i).active) :
    ∃ j f', (f.pcs j).active ∧ FStep cfg matchAt nsOf f f' ∧ f'.pcs j ≠ f.pcs j := by
  obtain ⟨w, log, ps, hr⟩ := h.rel hcap
  have mv : ∀ j pc' s', Move cfg (fun src => matchAt src (f.gen src)) (f.pcs j) f.cache pc' s' → (f.pcs j).active → pc' ≠ f.pcs j →
      ∃ j f', (f.pcs j).active ∧ FStep cfg matchAt nsOf f f' ∧ f'.pcs j ≠ f.pcs j := by
    intro j pc' s' hm ha hne
    refine ⟨j, _, ha, .move f j pc' s' hm, ?_⟩
    show setPc f.pcs j pc' j ≠ _
    rw [setPc_same]; exact hne
  have st : ∀ j (f' : Fine G) pc', FStep cfg matchAt nsOf f f' → (f.pcs j).active → f'.pcs = setPc f.pcs j pc' → pc' ≠ f.pcs j →
      ∃ j f', (f.pcs j).active ∧ FStep cfg matchAt nsOf f f' ∧ f'.pcs j ≠ f.pcs j := by
    intro j f' pc' hs ha e hne
    refine ⟨j, f', ha, hs, ?_⟩
    rw [e, setPc_same]; exact hne
  by_cases hw : ∃ j, (f.pcs j).writes = true
  · obtain ⟨j, hj⟩ := hw
    have hh := hr.writer j hj
    have act : (f.pcs j).active := by
      constructor
      · intro e; rw [e] at hj; cases hj
      · cases hpc : f.pcs j <;> rw [hpc] at hj <;> first | rfl | cases hj
    cases hpc : f.pcs j with
    | idle => rw [hpc] at hj; cases hj
    | called => rw [hpc] at hj; cases hj
    | reading => rw [hpc] at hj; cases hj
    | promoting => rw [hpc] at hj; cases hj
    | found => rw [hpc] at hj; cases hj
    | absent => rw [hpc] at hj; cases hj
    | missed => rw [hpc] at hj; cases hj
    | done => rw [hpc] at hj; cases hj
    | change => rw [hpc] at hj; cases hj
    | changeDone => rw [hpc] at hj; cases hj
    | writing q =>
      cases hns : mget f.cache.namespaces q.ns with
      | none => exact mv j _ _ (by rw [hpc]; exact .noNamespaceW hns) act (by rw [hpc]; simp)
      | some r =>
        cases hp : mget r.elems q.id with
        | none => exact mv j _ _ (by rw [hpc]; exact .new hns hp) act (by rw [hpc]; simp)
        | some p =>
          cases hv : (f.cache.heap p).result.hasExpired q.to with
          | false =>
            cases hn : (f.cache.heap p).shouldPromote 0 with
            | false => exact mv j _ _ (by rw [hpc]; exact .hitW ⟨0, 0⟩ hns hp hv hn) act (by rw [hpc]; simp)
            | true => exact mv j _ _ (by rw [hpc]; exact .staleW ⟨0, 0⟩ hns hp hv hn) act (by rw [hpc]; simp)
          | true =>
            cases hc : cfg.invalidateAll with
            | true => exact mv j _ _ (by rw [hpc]; exact .giveUp hns hp hv hc) act (by rw [hpc]; simp)
            | false => exact mv j _ _ (by rw [hpc]; exact .drop hns hp hv hc) act (by rw [hpc]; simp)
    | promotingW q t p res => exact mv j _ _ (by rw [hpc]; exact .promoteW) act (by rw [hpc]; simp)
    | gaveUp q r => exact mv j _ _ (by rw [hpc]; exact .tell) act (by rw [hpc]; simp)
    | told q r => exact mv j _ _ (by rw [hpc]; exact .clear) act (by rw [hpc]; simp)
    | unlinking q r e => exact mv j _ _ (by rw [hpc]; exact .unlink) act (by rw [hpc]; simp)
    | computing q r => exact mv j _ _ (by rw [hpc]; exact .compute) act (by rw [hpc]; simp)
    | storing q r res => exact mv j _ _ (by rw [hpc]; exact .store ⟨0, 0⟩) act (by rw [hpc]; simp)
    | adding q p res =>
      by_cases hl : (f.cache.add p).list.length > cfg.capacity + cfg.evictionBatchSize
      · exact mv j _ _ (by rw [hpc]; exact .addLong hl) act (by rw [hpc]; simp)
      · exact mv j _ _ (by rw [hpc]; exact .add hl) act (by rw [hpc]; simp)
    | telling q res => exact mv j _ _ (by rw [hpc]; exact .tellEvictor) act (by rw [hpc]; simp)
    | wrote q res => exact st j _ _ (.unlock f j q res hpc) act rfl (by rw [hpc]; simp)
    | changing c =>
      cases c with
      | register ns src =>
        cases hns : mget f.cache.namespaces ns with
        | none => exact mv j _ _ (by rw [hpc]; exact .registerNew hns) act (by rw [hpc]; simp)
        | some r => exact mv j _ _ (by rw [hpc]; exact .registerOld hns) act (by rw [hpc]; simp)
      | refresh ns src =>
        cases hns : mget f.cache.namespaces ns with
        | none => exact mv j _ _ (by rw [hpc]; exact .refreshNone hns) act (by rw [hpc]; simp)
        | some r =>
          by_cases hs : r.source = src
          · exact mv j _ _ (by rw [hpc]; exact .refresh hns hs) act (by rw [hpc]; simp)
          · exact mv j _ _ (by rw [hpc]; exact .refreshOther hns hs) act (by rw [hpc]; simp)
      | unregister ns =>
        cases hns : mget f.cache.namespaces ns with
        | none => exact mv j _ _ (by rw [hpc]; exact .unregisterNone hns) act (by rw [hpc]; simp)
        | some r => exact mv j _ _ (by rw [hpc]; exact .unregister hns) act (by rw [hpc]; simp)
    | changeGaveUp c r =>
      cases c with
      | register ns src => exact mv j _ _ (by rw [hpc]; exact .changeTellRegister) act (by rw [hpc]; simp)
      | refresh ns src => exact mv j _ _ (by rw [hpc]; exact .changeTellRefresh) act (by rw [hpc]; simp)
      | unregister ns => exact mv j _ _ (by rw [hpc]; exact .changeTellUnregister) act (by rw [hpc]; simp)
    | changeTold c r =>
      cases c with
      | register ns src => exact mv j _ _ (by rw [hpc]; exact .changeSetRegister) act (by rw [hpc]; simp)
      | refresh ns src => exact mv j _ _ (by rw [hpc]; exact .changeSetRefresh) act (by rw [hpc]; simp)
      | unregister ns => rw [hpc] at hh; exact hh.elim
    | changed c => exact st j _ _ (.unlockChange f j c hpc) act rfl (by rw [hpc]; simp)
  · have hw : ∀ j, (f.pcs j).writes = false := fun j => by
      cases hx : (f.pcs j).writes with
      | false => rfl
      | true => exact absurd ⟨j, hx⟩ hw
    by_cases hrd : ∃ j, (f.pcs j).reads = true
    · obtain ⟨j, hj⟩ := hrd
      have act : (f.pcs j).active := by
        constructor
        · intro e; rw [e] at hj; cases hj
        · cases hpc : f.pcs j <;> rw [hpc] at hj <;> first | rfl | cases hj
      cases hpc : f.pcs j with
      | reading q =>
        cases hns : mget f.cache.namespaces q.ns with
        | none => exact mv j _ _ (by rw [hpc]; exact .noNamespace hns) act (by rw [hpc]; simp)
        | some r =>
          cases hp : mget r.elems q.id with
          | none => exact mv j _ _ (by rw [hpc]; exact .notThere hns hp) act (by rw [hpc]; simp)
          | some p =>
            cases hv : (f.cache.heap p).result.hasExpired q.to with
            | false =>
              cases hn : (f.cache.heap p).shouldPromote 0 with
              | false => exact mv j _ _ (by rw [hpc]; exact .hit ⟨0, 0⟩ hns hp hv hn) act (by rw [hpc]; simp)
              | true => exact mv j _ _ (by rw [hpc]; exact .stale ⟨0, 0⟩ hns hp hv hn) act (by rw [hpc]; simp)
            | true => exact mv j _ _ (by rw [hpc]; exact .expired hns hp hv) act (by rw [hpc]; simp)
      | promoting q t p res => exact mv j _ _ (by rw [hpc]; exact .promote) act (by rw [hpc]; simp)
      | found q res => exact st j _ _ (.runlockFound f j q res hpc) act rfl (by rw [hpc]; simp)
      | absent q => exact st j _ _ (.runlockAbsent f j q hpc) act rfl (by rw [hpc]; simp)
      | _ => rw [hpc] at hj; cases hj
    · have hrd : ∀ j, (f.pcs j).writes = false ∧ (f.pcs j).reads = false := fun j => ⟨hw j, by
        cases hx : (f.pcs j).reads with
        | false => rfl
        | true => exact absurd ⟨j, hx⟩ hrd⟩
      have h1 := hw i
      have h2 := (hrd i).2
      cases hpc : f.pcs i with
      | idle => exact absurd hpc hi.1
      | called q => exact st i _ _ (.rlock f i q hpc hw) hi rfl (by rw [hpc]; simp)
      | missed q => exact st i _ _ (.lock f i q hpc hrd) hi rfl (by rw [hpc]; simp)
      | change c => exact st i _ _ (.lockChange f i c hpc hrd) hi rfl (by rw [hpc]; simp)
      | done => have := hi.2; rw [hpc] at this; cases this
      | changeDone => have := hi.2; rw [hpc] at this; cases this
      | _ => rw [hpc] at h1 h2; first | (cases h1; done) | (cases h2; done)

/-- How many steps a call has still to make, at most. -/
def Pc.left : Pc → Nat
  | .idle => 14
  | .called _ => 13
  | .reading _ => 12
  | .promoting _ _ _ _ => 11
  | .absent _ => 11
  | .found _ _ => 1
  | .missed _ => 10
  | .writing _ => 9
  | .promotingW _ _ _ _ => 8
  | .gaveUp _ _ => 8
  | .told _ _ => 7
  | .unlinking _ _ _ => 6
  | .computing _ _ => 5
  | .storing _ _ _ => 4
  | .adding _ _ _ => 3
  | .telling _ _ => 2
  | .wrote _ _ => 1
  | .change _ => 5
  | .changing _ => 4
  | .changeGaveUp _ _ => 3
  | .changeTold _ _ => 2
  | .changed _ => 1
  | .done _ _ | .changeDone _ => 0

theorem move_left {fm : Nat → Bytes → Int → Int → MatchResult} {pc pc' : Pc} {s s' : St} (h : Move cfg fm pc s pc' s') : pc'.left < pc.left := by
  cases h <;> simp [Pc.left]

/-- **C109.** No call makes more than fourteen steps, whatever the others do. -/
theorem C109_steps (cfg : Config) (matchAt : Nat → G → Bytes → Int → Int → MatchResult) (nsOf : Nat → Bytes) (f f' : Fine G)
    (h : FStep cfg matchAt nsOf f f') (j : Nat) : f'.pcs j = f.pcs j ∨ (f'.pcs j).left < (f.pcs j).left := by
  have put : ∀ i pc', pc'.left < (f.pcs i).left → setPc f.pcs i pc' j = f.pcs j ∨ (setPc f.pcs i pc' j).left < (f.pcs j).left := by
    intro i pc' hl
    by_cases e : j = i
    · subst e; rw [setPc_same]; exact Or.inr hl
    · rw [setPc_other f.pcs pc' e]; exact Or.inl rfl
  cases h with
  | call i q hpc => exact put i _ (by rw [hpc]; simp [Pc.left])
  | rlock i q hpc => exact put i _ (by rw [hpc]; simp [Pc.left])
  | runlockFound i q res hpc => exact put i _ (by rw [hpc]; simp [Pc.left])
  | runlockAbsent i q hpc => exact put i _ (by rw [hpc]; simp [Pc.left])
  | lock i q hpc => exact put i _ (by rw [hpc]; simp [Pc.left])
  | unlock i q res hpc => exact put i _ (by rw [hpc]; simp [Pc.left])
  | callChange i c hpc => exact put i _ (by rw [hpc]; simp [Pc.left])
  | lockChange i c hpc => exact put i _ (by rw [hpc]; simp [Pc.left])
  | unlockChange i c hpc => exact put i _ (by rw [hpc]; simp [Pc.left])
  | move i pc' s' hm => exact put i _ (move_left hm)
  | publish => exact Or.inl rfl
  | work => exact Or.inl rfl
  | workLocked => exact Or.inl rfl

/-! ### An execution -/

/-- A lookup in the example. -/
def exQuery : Query := ⟨bs "n", bs "a", 0, 10⟩

/-- Three calls. -/
def three (a b c : Pc) : Nat → Pc := fun j => if j = 0 then a else if j = 1 then b else if j = 2 then c else .idle

theorem three_0 (a b c pc : Pc) : setPc (three a b c) 0 pc = three pc b c := by
  funext j; simp only [setPc, three]; split <;> rfl

theorem three_1 (a b c pc : Pc) : setPc (three a b c) 1 pc = three a pc c := by
  funext j
  simp only [setPc, three]
  by_cases h : j = 1
  · subst h; rfl
  · simp [h]

theorem three_2 (a b c pc : Pc) : setPc (three a b c) 2 pc = three a b pc := by
  funext j
  simp only [setPc, three]
  by_cases h : j = 2
  · subst h; rfl
  · simp [h]

theorem three_all {P : Pc → Prop} {a b c : Pc} (ha : P a) (hb : P b) (hc : P c) (hi : P .idle) (j : Nat) : P (three a b c j) := by
  simp only [three]
  split
  · exact ha
  · split
    · exact hb
    · split
      · exact hc
      · exact hi

theorem FReach.to {f f' : Fine G} {pcs : Nat → Pc} (h : FReach cfg matchAt nsOf gen0 f) (hs : FStep cfg matchAt nsOf f f') (e : f'.pcs = pcs) :
    FReach cfg matchAt nsOf gen0 { f' with pcs := pcs } := by
  subst e; exact .step h hs

/-- **C109.** The goroutines wait for nothing but the lock: what they can do next they can do while no call holds the lock, and
receiving from their channels, taking an element off the list and ending they can do whoever holds it. -/
theorem C109_work (cfg : Config) (matchAt : Nat → G → Bytes → Int → Int → MatchResult) (nsOf : Nat → Bytes) (f : Fine G) (act : Act) (c : St)
    (h : f.cache.step cfg (fun src => matchAt src (f.gen src)) act = some c) :
    (act = .evictRun ∨ act = .deleteTake → (∀ j, (f.pcs j).writes = false ∧ (f.pcs j).reads = false) →
      FStep cfg matchAt nsOf f { f with cache := c }) ∧
    (act = .evictWake ∨ act = .evictExit ∨ act = .deleteWake ∨ (∃ k, act = .deleteOne k) ∨ act = .deleteDone ∨ act = .deleteExit ∨ act = .close →
      FStep cfg matchAt nsOf f { f with cache := c }) := by
  refine ⟨fun ha hfree => .workLocked f act c ?_ hfree h, fun ha => .work f act c ?_ h⟩
  · rcases ha with rfl | rfl <;> rfl
  · rcases ha with rfl | rfl | rfl | ⟨k, rfl⟩ | rfl | rfl | rfl <;> rfl

/-- An execution: a source is registered; two lookups find nothing under the read lock, at the same time; one of them takes the lock
and asks the source, whose rules are then replaced before the lookup returns; the other one finds what the first one stored. -/
example : ∃ f, FReach exCfg exAt (fun _ => bs "n") (fun _ => 3) f ∧ f.pending = [1] ∧ f.gen 1 = 7 ∧ f.hist =
    [.call 0 (.change (.register (bs "n") 1)), .ret 0 (.change (.register (bs "n") 1)) none, .call 1 (.look exQuery), .call 2 (.look exQuery),
      .publish 0 1 7, .ret 1 (.look exQuery) (some { emptyMatchResult with version := 3 }),
      .ret 2 (.look exQuery) (some { emptyMatchResult with version := 3 })] := by
  have h0 : FReach exCfg exAt (fun _ => bs "n") (fun _ => 3) ⟨newCache exHeap, fun _ => 3, [], three .idle .idle .idle, []⟩ := by
    have := FReach.init (cfg := exCfg) (matchAt := exAt) (nsOf := fun _ => bs "n") (gen0 := fun _ => 3) exHeap
    have e : (fun _ => Pc.idle) = three .idle .idle .idle := by
      funext j; simp only [three]; repeat' split
      all_goals rfl
    rwa [e] at this
  -- the source is registered
  have h1 := h0.to (.callChange _ 0 (.register (bs "n") 1) rfl (by rintro _ _ (e | e) <;> cases e; rfl)) (three_0 ..)
  have h2 := h1.to (.lockChange _ 0 _ rfl (three_all (P := fun pc => pc.writes = false ∧ pc.reads = false) ⟨rfl, rfl⟩ ⟨rfl, rfl⟩ ⟨rfl, rfl⟩ ⟨rfl, rfl⟩)) (three_0 ..)
  have h3 := h2.to (.move _ 0 _ _ (.registerNew rfl)) (three_0 ..)
  have h4 := h3.to (.unlockChange _ 0 _ rfl) (three_0 ..)
  -- two lookups find nothing
  have h5 := h4.to (.call _ 1 exQuery rfl) (three_1 ..)
  have h6 := h5.to (.call _ 2 exQuery rfl) (three_2 ..)
  have h7 := h6.to (.rlock _ 1 _ rfl (three_all (P := fun pc => pc.writes = false) rfl rfl rfl rfl)) (three_1 ..)
  have h8 := h7.to (.rlock _ 2 _ rfl (three_all (P := fun pc => pc.writes = false) rfl rfl rfl rfl)) (three_2 ..)
  have h9 := h8.to (.move _ 1 _ _ (.notThere (r := { elems := [], source := 1 }) rfl rfl)) (three_1 ..)
  have h10 := h9.to (.move _ 2 _ _ (.notThere (r := { elems := [], source := 1 }) rfl rfl)) (three_2 ..)
  have h11 := h10.to (.runlockAbsent _ 1 _ rfl) (three_1 ..)
  have h12 := h11.to (.runlockAbsent _ 2 _ rfl) (three_2 ..)
  -- one of them asks the source, whose rules are replaced
  have h13 := h12.to (.lock _ 1 _ rfl (three_all (P := fun pc => pc.writes = false ∧ pc.reads = false) ⟨rfl, rfl⟩ ⟨rfl, rfl⟩ ⟨rfl, rfl⟩ ⟨rfl, rfl⟩)) (three_1 ..)
  have h14 := h13.to (.move _ 1 _ _ (.new (r := { elems := [], source := 1 }) rfl rfl)) (three_1 ..)
  have h15 := h14.to (.move _ 1 _ _ .compute) (three_1 ..)
  have h16 := h15.to (.publish _ 0 1 7 (by simp)) rfl
  have h17 := h16.to (.move _ 1 _ _ (.store exTick)) (three_1 ..)
  have h18 := h17.to (.move _ 1 _ _ (.add (by decide +kernel))) (three_1 ..)
  have h19 := h18.to (.unlock _ 1 _ _ rfl) (three_1 ..)
  -- the other one finds the result
  have h20 := h19.to (.lock _ 2 _ rfl (three_all (P := fun pc => pc.writes = false ∧ pc.reads = false) ⟨rfl, rfl⟩ ⟨rfl, rfl⟩ ⟨rfl, rfl⟩ ⟨rfl, rfl⟩)) (three_2 ..)
  have h21 := h20.to (.move _ 2 _ _ (.staleW (r := { elems := [(bs "a", 0)], source := 1 }) (p := 0) exTick rfl rfl (by decide +kernel) (by decide +kernel)))
    (three_2 ..)
  have h22 := h21.to (.move _ 2 _ _ .promoteW) (three_2 ..)
  have h23 := h22.to (.unlock _ 2 _ _ rfl) (three_2 ..)
  exact ⟨_, h23, rfl, rfl, rfl⟩

end Verif.Cache
