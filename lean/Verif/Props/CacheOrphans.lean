import Verif.Props.CacheRest
/-
C62: which entries an eviction pass orphans, and that this is the only way in which entries are orphaned.
-/
namespace Verif.Cache
open Verif.Active

theorem evictOne_cached {s : St} {xs : List Ptr} (h : Inv s xs) {p : Ptr} (hp : p ∈ xs) (ns : Bytes) (src : Nat) (id : Bytes) (q : Ptr) :
    (evictOne s p).cached ns src id q ↔ s.cached ns src id q ∧ ¬ (ns = (s.heap p).ns ∧ id = (s.heap p).id) := by
  obtain ⟨_, h2, _⟩ := remove_repr h.repr hp
  have e1 : ((s.listRemove (some p)).heap p).ns = (s.heap p).ns := (h2 p).1
  have e2 : ((s.listRemove (some p)).heap p).id = (s.heap p).id := (h2 p).2.1
  unfold Cache.evictOne
  simp only [e1, e2]
  cases hr : mget s.namespaces (s.heap p).ns with
  | none =>
    have hr' : mget (s.listRemove (some p)).namespaces (s.heap p).ns = none := hr
    simp only [hr']
    refine ⟨fun hx => ⟨hx, fun e => ?_⟩, fun hx => hx.1⟩
    obtain ⟨r, g, _⟩ := hx
    have g' : mget s.namespaces ns = some r := g
    rw [e.1, hr] at g'
    cases g'
  | some r =>
    have hr' : mget (s.listRemove (some p)).namespaces (s.heap p).ns = some r := hr
    simp only [hr']
    exact cached_mdel hr ns src id q

theorem evictLoop_cached (cfg : Config) (hcap : 0 ≤ cfg.capacity) : ∀ (n : Nat) (s s' : St) (xs : List Ptr), Inv s xs → xs.length ≤ n →
    evictLoop cfg n s = some s' → ∀ (ns : Bytes) (src : Nat) (id : Bytes) (q : Ptr),
      (s'.cached ns src id q ↔ s.cached ns src id q ∧
        ∀ p ∈ xs.drop cfg.capacity.toNat, ¬ (ns = (s.heap p).ns ∧ id = (s.heap p).id))
  | 0, s, s', xs, _, hn, he, ns, src, id, q => by
    have e : xs = [] := List.eq_nil_of_length_eq_zero (by omega)
    cases he
    simp [e]
  | n + 1, s, s', xs, h, hn, he, ns, src, id, q => by
    rw [evictLoop_succ] at he
    have hl := h.repr.length
    by_cases hc : s.list.length > cfg.capacity
    · rw [if_pos hc] at he
      rcases List.eq_nil_or_concat xs with hx | ⟨ys, p, hx⟩
      · rw [hx, List.length_nil] at hl; omega
      · rw [List.concat_eq_append] at hx
        have ht : s.list.tail = some p := by rw [h.repr.tail, hx]; simp
        have hp : p ∈ xs := by rw [hx]; simp
        have hpy : p ∉ ys := by
          have := h.repr.nodup
          rw [hx, List.nodup_append] at this
          exact fun hc => this.2.2 p hc p (by simp) rfl
        have her : xs.erase p = ys := by
          rw [hx, List.erase_append_right _ hpy]; simp
        simp only [ht] at he
        obtain ⟨⟨i1, i2, _⟩, _, _⟩ := Good.evictOne h hp
        have hly : xs.length = ys.length + 1 := by rw [hx]; simp
        rw [her] at i1
        rw [evictLoop_cached cfg hcap n _ s' ys i1 (by omega) he ns src id q, evictOne_cached h hp]
        have hd : xs.drop cfg.capacity.toNat = ys.drop cfg.capacity.toNat ++ [p] := by
          rw [hx, List.drop_append_of_le_length (by omega)]
        rw [hd]
        have hsame : ∀ a ∈ ys.drop cfg.capacity.toNat, ((evictOne s p).heap a).ns = (s.heap a).ns ∧ ((evictOne s p).heap a).id = (s.heap a).id := by
          intro a ha
          have hb := h.bound a (by rw [hx]; exact List.mem_append_left _ (List.mem_of_mem_drop ha))
          exact ⟨(i2.data a hb).1, (i2.data a hb).2.1⟩
        constructor
        · rintro ⟨⟨a1, a2⟩, a3⟩
          refine ⟨a1, fun a ha => ?_⟩
          rcases List.mem_append.1 ha with ha | ha
          · have := a3 a ha
            rw [(hsame a ha).1, (hsame a ha).2] at this
            exact this
          · rw [List.mem_singleton.1 ha]; exact a2
        · rintro ⟨a1, a2⟩
          refine ⟨⟨a1, a2 p (by simp)⟩, fun a ha => ?_⟩
          rw [(hsame a ha).1, (hsame a ha).2]
          exact a2 a (List.mem_append_left _ ha)
    · rw [if_neg hc] at he
      cases he
      have : xs.drop cfg.capacity.toNat = [] := List.drop_eq_nil_of_le (by omega)
      simp [this]

/-- A lookup of the identifier in the namespace finds the entry. -/
def Found (s : St) (ns id : Bytes) (q : Ptr) : Prop := ∃ r, mget s.namespaces ns = some r ∧ mget r.elems id = some q

theorem found_iff {s : St} {ns id : Bytes} {q : Ptr} : Found s ns id q ↔ ∃ src, s.cached ns src id q :=
  ⟨fun ⟨r, h1, h2⟩ => ⟨r.source, r, h1, rfl, h2⟩, fun ⟨_, r, h1, _, h2⟩ => ⟨r, h1, h2⟩⟩

theorem evictRun_cached {cfg : Config} (hcap : 0 ≤ cfg.capacity) {fm : Nat → Bytes → Int → Int → MatchResult} {s s' : St} {xs : List Ptr}
    (hi : Inv s xs) (hs : s.step cfg fm .evictRun = some s') (ns : Bytes) (src : Nat) (id : Bytes) (q : Ptr) :
    s'.cached ns src id q ↔ s.cached ns src id q ∧
      ∀ p ∈ xs.drop cfg.capacity.toNat, ¬ (ns = (s.heap p).ns ∧ id = (s.heap p).id) := by
  simp only [St.step] at hs
  split at hs
  · unfold St.doEvict at hs
    cases he : evictLoop cfg s.list.length.toNat s with
    | none => rw [he] at hs; cases hs
    | some s1 =>
      rw [he] at hs
      cases hs
      exact evictLoop_cached cfg hcap _ s s1 xs hi (by rw [hi.repr.length]; simp) he ns src id q
  · cases hs

/-- **C62**, what an eviction pass does to lookups, exactly: an identifier is found afterwards as before, unless one of the entries
that the pass removes, those behind the first `capacity`, is of the same namespace and identifier, whether it was the entry found or not. -/
theorem C62_pass (cfg : Config) (hcap : 0 ≤ cfg.capacity) (fm : Nat → Bytes → Int → Int → MatchResult) (s s' : St)
    (h : Reach cfg s) (hs : s.step cfg fm .evictRun = some s') (ns id : Bytes) (q : Ptr) :
    Found s' ns id q ↔ Found s ns id q ∧ ∀ p ∈ s.recency.drop cfg.capacity.toNat, ¬ ((s.heap p).ns = ns ∧ (s.heap p).id = id) := by
  obtain ⟨xs, hi⟩ := h.inv hcap
  rw [hi.recency, found_iff, found_iff]
  constructor
  · rintro ⟨src, hx⟩
    obtain ⟨h1, h2⟩ := (evictRun_cached hcap hi hs ns src id q).1 hx
    exact ⟨⟨src, h1⟩, fun p hp e => h2 p hp ⟨e.1.symm, e.2.symm⟩⟩
  · rintro ⟨⟨src, hx⟩, h2⟩
    exact ⟨src, (evictRun_cached hcap hi hs ns src id q).2 ⟨hx, fun p hp e => h2 p hp ⟨e.1.symm, e.2.symm⟩⟩⟩

/-- The eviction pass orphans an entry: one that is found is kept and one of the same namespace and identifier is removed. -/
def Orphans (cfg : Config) (s : St) (q : Ptr) : Prop :=
  q ∈ s.recency.take cfg.capacity.toNat ∧ Found s (s.heap q).ns (s.heap q).id q ∧
    ∃ p ∈ s.recency.drop cfg.capacity.toNat, (s.heap p).ns = (s.heap q).ns ∧ (s.heap p).id = (s.heap q).id

/-- An entry in the list that no lookup finds and that does not wait to be deleted, either. -/
def Lost (s : St) (q : Ptr) : Prop := Orphan s q ∧ q ∉ s.doomed

/-- Nothing is lost. -/
def NoneLost (s : St) : Prop := ∀ q, ¬ Lost s q

theorem noneLost_iff {s : St} {xs : List Ptr} (hi : Inv s xs) : NoneLost s ↔ Owned s xs := by
  unfold NoneLost Lost Orphan Owned
  rw [hi.recency]
  constructor
  · intro h p hp
    by_cases hd : p ∈ s.doomed
    · exact Or.inr hd
    · by_cases hf : ∃ ns r id, mget s.namespaces ns = some r ∧ mget r.elems id = some p
      · obtain ⟨ns, r, id, h1, h2⟩ := hf
        have hc : s.cached ns r.source id p := ⟨r, h1, rfl, h2⟩
        obtain ⟨_, a, b⟩ := hi.cached _ _ _ _ hc
        exact Or.inl ⟨r.source, by rw [a, b]; exact hc⟩
      · exact absurd ⟨⟨hp, fun ns r id h1 h2 => hf ⟨ns, r, id, h1, h2⟩⟩, hd⟩ (h p)
  · rintro h q ⟨⟨h1, h2⟩, h3⟩
    rcases h q h1 with ⟨src, r, a, _, b⟩ | hd
    · exact h2 _ r _ a b
    · exact h3 hd

theorem evictRun_doomed {cfg : Config} (hcap : 0 ≤ cfg.capacity) {fm : Nat → Bytes → Int → Int → MatchResult} {s s' : St} {xs : List Ptr}
    (hi : Inv s xs) (hs : s.step cfg fm .evictRun = some s') :
    s'.doomed = s.doomed ∧ s.evictor = .awake := by
  simp only [St.step] at hs
  split at hs
  · next ha =>
    obtain ⟨s1, ys, e, _, _, _, _, _, hd, _⟩ :=
      evictLoop_good cfg hcap s.list.length.toNat s xs hi (by rw [hi.repr.length]; simp)
    unfold St.doEvict at hs
    rw [e] at hs
    cases hs
    exact ⟨hd, ha⟩
  · cases hs

/-- **C62**, exactly when entries are lost: while none is, a step loses an entry if and only if it is an eviction pass that keeps an entry
that is found, not waiting to be deleted, and removes one of the same namespace and identifier; and the entries lost are these. -/
theorem C62_lost_iff (cfg : Config) (hcap : 0 ≤ cfg.capacity) (fm : Nat → Bytes → Int → Int → MatchResult) (s s' : St) (act : Act)
    (h : Reach cfg s) (hs : s.step cfg fm act = some s') (hn : NoneLost s) (q : Ptr) :
    Lost s' q ↔ act = .evictRun ∧ Orphans cfg s q := by
  obtain ⟨xs, hi⟩ := h.inv hcap
  obtain ⟨ys, ok⟩ := step_ok cfg hcap fm hi act hs
  by_cases ha : act = .evictRun
  · subst ha
    obtain ⟨hd, haw⟩ := evictRun_doomed hcap hi hs
    obtain ⟨s2, hs2, hrec, _⟩ := C60_evict cfg hcap fm s h haw
    rw [hs] at hs2
    cases hs2
    have ho := (noneLost_iff hi).1 hn
    constructor
    · rintro ⟨⟨h1, h2⟩, h3⟩
      refine ⟨rfl, ?_⟩
      rw [hrec] at h1
      rw [hd] at h3
      have hq : q ∈ xs := by rw [← hi.recency]; exact List.mem_of_mem_take h1
      obtain ⟨src, hc⟩ := (ho q hq).resolve_right h3
      refine ⟨h1, found_iff.2 ⟨src, hc⟩, ?_⟩
      by_cases hp : ∃ p ∈ s.recency.drop cfg.capacity.toNat, (s.heap p).ns = (s.heap q).ns ∧ (s.heap p).id = (s.heap q).id
      · exact hp
      · obtain ⟨r, g1, g2⟩ := (C62_pass cfg hcap fm s s' h hs _ _ q).2
          ⟨found_iff.2 ⟨src, hc⟩, fun p hp1 hp2 => hp ⟨p, hp1, hp2⟩⟩
        exact absurd g2 (h2 _ r _ g1)
    · rintro ⟨_, h1, h2, p, hp, hp2⟩
      obtain ⟨src, hc⟩ := found_iff.1 h2
      refine ⟨⟨by rw [hrec]; exact h1, fun ns r id g1 g2 => ?_⟩, ?_⟩
      · obtain ⟨⟨r', k1, k2⟩, k3⟩ := (C62_pass cfg hcap fm s s' h hs ns id q).1 ⟨r, g1, g2⟩
        obtain ⟨_, a, b⟩ := hi.cached ns r'.source id q ⟨r', k1, rfl, k2⟩
        exact k3 p hp ⟨hp2.1.trans a, hp2.2.trans b⟩
      · rw [hd]
        exact fun hx => (hi.doomed q hx).2 _ _ _ hc
  · have ho := ok.owned (fun e => absurd e ha) ((noneLost_iff hi).1 hn)
    exact ⟨fun hl => absurd hl ((noneLost_iff ok.inv).2 ho q), fun hx => absurd hx.1 ha⟩

/-- Executions in which no eviction pass orphans an entry. -/
inductive CarefulSteps (cfg : Config) : St → St → Prop
  | refl (s) : CarefulSteps cfg s s
  | tail {s s' s''} (fm : Nat → Bytes → Int → Int → MatchResult) (act : Act) :
      CarefulSteps cfg s s' → (act = .evictRun → ∀ q, ¬ Orphans cfg s' q) → s'.step cfg fm act = some s'' → CarefulSteps cfg s s''

theorem CarefulSteps.steps {cfg : Config} {s s' : St} (h : CarefulSteps cfg s s') : Steps cfg s s' := by
  induction h with
  | refl => exact .refl _
  | tail fm act _ _ hs ih => exact .tail fm act ih hs

theorem CarefulSteps.noneLost {cfg : Config} (hcap : 0 ≤ cfg.capacity) {h : Heap} {s : St} (hs : CarefulSteps cfg (newCache h) s) :
    NoneLost s := by
  induction hs with
  | refl => exact (noneLost_iff (Inv.init h)).2 (by simp [Owned])
  | tail fm act hp hq hst ih =>
    intro q hl
    obtain ⟨e, ho⟩ := (C62_lost_iff cfg hcap fm _ _ act ⟨h, hp.steps⟩ hst ih q).1 hl
    exact hq e q ho

/-- **C62** (partial: only for executions in which no eviction pass orphans an entry; by `C62_lost_iff` a pass that does loses it at
once).  After a namespace was unregistered and all deletions are done, no entry of it is in the list.  Eviction passes may run while
entries wait to be deleted. -/
theorem C62_careful_partial (cfg : Config) (hcap : 0 ≤ cfg.capacity) (h : Heap) (s : St) (hs : CarefulSteps cfg (newCache h) s)
    (ns : Bytes) (hns : mget s.namespaces ns = none) (h1 : s.toDelete = []) (h2 : ∀ left, s.deleter = .removing left → left = []) :
    ∀ p ∈ s.recency, (s.heap p).ns ≠ ns := by
  obtain ⟨xs, hi⟩ := Reach.inv hcap ⟨h, hs.steps⟩
  have ho := (noneLost_iff hi).1 (hs.noneLost hcap)
  rw [hi.recency]
  intro p hp e
  rcases ho p hp with ⟨src, r, hr, _⟩ | hx
  · rw [e, hns] at hr; cases hr
  · unfold St.doomed at hx
    rw [h1, List.flatMap_nil, List.nil_append] at hx
    cases hd : s.deleter with
    | removing left => rw [hd, h2 left hd] at hx; cases hx
    | _ => rw [hd] at hx; cases hx

/-- A state in which the pass orphans: entry 1 is found and kept, entry 0, of the same namespace and identifier, waits to be deleted and is
removed; after the pass, entry 1 is in the list and nothing is found. -/
example : (runActs exCfg exFm (newCache exHeap) (exOrphan.take 5)).map (fun s => (s.recency, decide (s.evictor = .awake),
      ((mget s.namespaces (bs "n")).bind fun r => mget r.elems (bs "a")),
      decide ((s.heap 0).ns = (s.heap 1).ns ∧ (s.heap 0).id = (s.heap 1).id), s.toDelete.map (·.map (·.2)))) =
    some ([1, 0], true, some 1, true, [[0]]) := by decide +kernel

example : (runActs exCfg exFm (newCache exHeap) (exOrphan.take 6)).map (fun s => (s.recency,
      ((mget s.namespaces (bs "n")).bind fun r => mget r.elems (bs "a")))) = some ([1], none) := by decide +kernel

/-- A pass that orphans nothing while an entry waits to be deleted: entry 1 is of another identifier. -/
example : (runActs exCfg exFm (newCache exHeap) [.register (bs "n") 1, .fill exTick (bs "n") (bs "a") 0 10, .refresh (bs "n") 1,
      .fill exTick (bs "n") (bs "b") 0 10, .evictWake]).map (fun s => (s.recency, decide (s.evictor = .awake), s.toDelete.map (·.map (·.2)),
      decide ((s.heap 0).id = (s.heap 1).id))) = some ([1, 0], true, [[0]], false) := by decide +kernel

end Verif.Cache
