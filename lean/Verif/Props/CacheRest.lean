import Verif.Props.Cache
/-
C97: the goroutines of the cache come to rest, and closing it ends.
-/
namespace Verif.Cache
open Verif.Active

set_option synthInstance.maxSize 1000

/-! ### What is claimed -/

/-- The steps of the two goroutines that the cache starts. -/
def Act.isWorker : Act → Bool
  | .evictWake | .evictRun | .evictExit | .deleteWake | .deleteTake | .deleteOne _ | .deleteDone | .deleteExit => true
  | _ => false

/-- A number of steps of the goroutines, in any order, while nobody calls the cache. -/
inductive Work (cfg : Config) : Nat → St → St → Prop
  | refl (s) : Work cfg 0 s s
  | tail {n s s' s''} (fm : Nat → Bytes → Int → Int → MatchResult) (act : Act) :
      Work cfg n s s' → act.isWorker = true → s'.step cfg fm act = some s'' → Work cfg (n + 1) s s''

/-- Neither goroutine can do anything until somebody calls the cache. -/
def AtRest (cfg : Config) (s : St) : Prop := ∀ fm act, act.isWorker = true → s.step cfg fm act = none

/-- The number of entries that wait to be removed by the deletion goroutine. -/
def St.waiting (s : St) : Nat := (s.toDelete.map (·.length)).sum + s.deleter.left.length

/-! ### Counting -/

def Evictor.load : Evictor → Nat
  | .waiting => 1
  | .awake => 2
  | .gone => 0

def Deleter.load : Deleter → Nat
  | .waiting => 1
  | .awake => 3
  | .removing left => 2 + left.length
  | .gone => 0

def St.load (s : St) : Nat :=
  s.evictor.load + s.deleter.load + (if s.evictCh then 2 else 0) + (if s.deleteCh then 3 else 0) + (s.toDelete.map (·.length)).sum

theorem load_le (s : St) : s.load ≤ 10 + s.waiting := by
  unfold St.load St.waiting
  have h1 : s.evictor.load ≤ 2 := by cases s.evictor <;> simp [Evictor.load]
  have h2 : s.deleter.load ≤ 3 + s.deleter.left.length := by
    cases s.deleter <;> simp [Deleter.load, Deleter.left]
  have h3 : (if s.evictCh then 2 else 0) ≤ 2 := by split <;> omega
  have h4 : (if s.deleteCh then 3 else 0) ≤ 3 := by split <;> omega
  omega

theorem length_flatMap_id (l : List ElemMap) : ((l.flatMap id).map (·.2)).length = (l.map (·.length)).sum := by
  induction l with
  | nil => rfl
  | cons a l ih => simp_all

/-- Each step of a goroutine leaves less to do. -/
theorem load_step {cfg : Config} (hcap : 0 ≤ cfg.capacity) {fm : Nat → Bytes → Int → Int → MatchResult} {s s' : St} {xs : List Ptr}
    (hi : Inv s xs) {act : Act} (hw : act.isWorker = true) (hs : s.step cfg fm act = some s') : s'.load + 1 ≤ s.load := by
  cases act with
  | get | fill | register | refresh | unregister | close | notify => simp [Act.isWorker] at hw
  | evictWake =>
    simp only [St.step] at hs
    split at hs
    · next hc => cases hs; simp [St.load, hc.1, hc.2, Evictor.load]; omega
    · cases hs
  | evictExit =>
    simp only [St.step] at hs
    split at hs
    · next hc => cases hs; simp [St.load, hc.1, Evictor.load]; omega
    · cases hs
  | evictRun =>
    simp only [St.step] at hs
    split at hs
    · next hc =>
      obtain ⟨s1, xs', e, i, ev, hle, ce, ow, dm, td, dl, dc, cl, ec, _⟩ :=
        evictLoop_good cfg hcap s.list.length.toNat s xs hi (by rw [hi.repr.length]; simp)
      unfold St.doEvict at hs
      rw [e] at hs
      cases hs
      simp [St.load, hc, Evictor.load, td, dl, dc, ec]; omega
    · cases hs
  | deleteWake =>
    simp only [St.step] at hs
    split at hs
    · next hc => cases hs; simp [St.load, hc.1, hc.2, Deleter.load]; omega
    · cases hs
  | deleteExit =>
    simp only [St.step] at hs
    split at hs
    · next hc => cases hs; simp [St.load, hc.1, Deleter.load]; omega
    · cases hs
  | deleteDone =>
    simp only [St.step] at hs
    split at hs
    · next hc => cases hs; simp [St.load, hc, Deleter.load]; omega
    · cases hs
  | deleteTake =>
    simp only [St.step] at hs
    split at hs
    · next hc =>
      cases hs
      unfold St.takeDeletions
      split
      · simp [St.load, hc, Deleter.load]; omega
      · have := length_flatMap_id s.toDelete
        simp only [St.load, hc, Deleter.load, this, List.map_nil, List.sum_nil]; omega
    · cases hs
  | deleteOne k =>
    simp only [St.step] at hs
    cases hd : s.deleter with
    | waiting => rw [hd] at hs; cases hs
    | awake => rw [hd] at hs; cases hs
    | gone => rw [hd] at hs; cases hs
    | removing left =>
      rw [hd] at hs
      simp only at hs
      cases hk : left[k]? with
      | none => rw [hk] at hs; cases hs
      | some p =>
        rw [hk] at hs
        cases hs
        have hl : k < left.length := (List.getElem?_eq_some_iff.mp hk).1
        have := List.length_eraseIdx_of_lt hl
        simp only [St.load, hd, Deleter.load, St.listRemove, this]; omega

theorem Work.steps {cfg : Config} {n : Nat} {s s' : St} (h : Work cfg n s s') : Steps cfg s s' := by
  induction h with
  | refl => exact .refl _
  | tail fm act _ _ hs ih => exact .tail fm act ih hs

theorem Work.reach {cfg : Config} {n : Nat} {s s' : St} (h : Work cfg n s s') (hr : Reach cfg s) : Reach cfg s' := by
  obtain ⟨hp, hs⟩ := hr
  exact ⟨hp, hs.trans h.steps⟩

theorem Work.load {cfg : Config} (hcap : 0 ≤ cfg.capacity) {n : Nat} {s s' : St} (h : Work cfg n s s') (hr : Reach cfg s) :
    n + s'.load ≤ s.load := by
  induction h with
  | refl => simp
  | tail fm act h1 hw hs ih =>
    obtain ⟨xs, hi⟩ := (h1.reach hr).inv hcap
    have := load_step hcap hi hw hs
    have := ih hr
    omega

theorem Work.trans {cfg : Config} {n m : Nat} {a b c : St} (h1 : Work cfg n a b) (h2 : Work cfg m b c) : Work cfg (n + m) a c := by
  induction h2 with
  | refl => exact h1
  | tail fm act _ hw hs ih => exact .tail fm act (ih h1) hw hs

theorem Work.closed {cfg : Config} (hcap : 0 ≤ cfg.capacity) {n : Nat} {s s' : St} (h : Work cfg n s s') (hr : Reach cfg s) :
    s'.closed = s.closed := by
  induction h with
  | refl => rfl
  | @tail n s s' s'' fm act h1 hw hs ih =>
    refine Eq.trans ?_ (ih hr)
    cases act with
    | get | fill | register | refresh | unregister | close | notify => simp [Act.isWorker] at hw
    | evictWake | evictExit | deleteWake | deleteExit | deleteDone =>
      simp only [St.step] at hs
      split at hs
      · cases hs; rfl
      · cases hs
    | evictRun =>
      simp only [St.step] at hs
      split at hs
      · obtain ⟨xs, hi⟩ := (h1.reach hr).inv hcap
        obtain ⟨s1, xs', e, i, ev, hle, ce, ow, dm, td, dl, dc, cl, ec, _⟩ :=
          evictLoop_good cfg hcap s'.list.length.toNat s' xs hi (by rw [hi.repr.length]; simp)
        unfold St.doEvict at hs
        rw [e] at hs
        cases hs
        exact cl
      · cases hs
    | deleteTake =>
      simp only [St.step] at hs
      split at hs
      · cases hs
        unfold St.takeDeletions
        split <;> rfl
      · cases hs
    | deleteOne k =>
      simp only [St.step] at hs
      split at hs
      · split at hs
        · cases hs
        · cases hs; rfl
      · cases hs

/-- What a state at rest looks like. -/
theorem AtRest.shape {cfg : Config} (hcap : 0 ≤ cfg.capacity) {s : St} (hr : Reach cfg s) (h : AtRest cfg s) :
    (s.evictor = .gone ∨ (s.evictor = .waiting ∧ s.evictCh = false ∧ s.closed = false)) ∧
    (s.deleter = .gone ∨ (s.deleter = .waiting ∧ s.deleteCh = false ∧ s.closed = false)) := by
  let fm : Nat → Bytes → Int → Int → MatchResult := fun _ _ _ _ => emptyMatchResult
  refine ⟨?_, ?_⟩
  · cases he : s.evictor with
    | gone => exact Or.inl rfl
    | awake =>
      obtain ⟨s', hs, _⟩ := C60_evict cfg hcap fm s hr he
      rw [h fm .evictRun rfl] at hs; cases hs
    | waiting =>
      have h1 := h fm .evictWake rfl
      have h2 := h fm .evictExit rfl
      simp only [St.step, he, true_and] at h1 h2
      refine Or.inr ⟨rfl, ?_, ?_⟩
      · cases hc : s.evictCh <;> simp_all
      · cases hc : s.closed <;> simp_all
  · cases hd : s.deleter with
    | gone => exact Or.inl rfl
    | awake =>
      have h1 := h fm .deleteTake rfl
      simp [St.step, hd] at h1
    | removing left =>
      cases left with
      | nil =>
        have h1 := h fm .deleteDone rfl
        simp [St.step, hd] at h1
      | cons p left =>
        have h1 := h fm (.deleteOne 0) rfl
        simp [St.step, hd] at h1
    | waiting =>
      have h1 := h fm .deleteWake rfl
      have h2 := h fm .deleteExit rfl
      simp only [St.step, hd, true_and] at h1 h2
      refine Or.inr ⟨rfl, ?_, ?_⟩
      · cases hc : s.deleteCh <;> simp_all
      · cases hc : s.closed <;> simp_all

/-! ### The theorems -/

/-- **C97.** The goroutines cannot run for ever on their own: from every state, with whatever order of their steps, the
number of steps before they wait for the next call is at most ten and the number of entries to be removed. -/
theorem C97_ends (cfg : Config) (hcap : 0 ≤ cfg.capacity) (s s' : St) (h : Reach cfg s) (n : Nat) (hw : Work cfg n s s') :
    n ≤ 10 + s.waiting := by
  have h1 := hw.load hcap h
  have h2 := load_le s
  omega

/-- **C97.** They do not stop before their work is done: when neither can do anything, an open cache has at most as many
entries as the capacity and one batch and nothing waits to be removed; if the cache is closed, both have ended. -/
theorem C97_done (cfg : Config) (hcap : 0 ≤ cfg.capacity) (hbatch : 0 ≤ cfg.evictionBatchSize) (s : St) (h : Reach cfg s)
    (hr : AtRest cfg s) :
    (s.closed = false → s.recency.length ≤ cfg.capacity + cfg.evictionBatchSize ∧ s.toDelete = [] ∧ s.waiting = 0 ∧
      s.evictor = .waiting ∧ s.deleter = .waiting) ∧
    (s.closed = true → s.evictor = .gone ∧ s.deleter = .gone) := by
  obtain ⟨h1, h2⟩ := hr.shape hcap h
  have hw := h.wake hcap hbatch
  refine ⟨fun hc => ?_, fun hc => ?_⟩
  · have e1 : s.evictor = .waiting ∧ s.evictCh = false := by
      rcases h1 with h1 | h1
      · rw [hw.evictorGone h1] at hc; cases hc
      · exact ⟨h1.1, h1.2.1⟩
    have e2 : s.deleter = .waiting ∧ s.deleteCh = false := by
      rcases h2 with h2 | h2
      · rw [hw.deleterGone h2] at hc; cases hc
      · exact ⟨h2.1, h2.2.1⟩
    obtain ⟨b1, b2⟩ := C60_bounded cfg hcap hbatch s h hc
    have ht : s.toDelete = [] := by
      refine Classical.byContradiction fun hn => ?_
      rcases b2 hn with hx | hx
      · rw [e2.2] at hx; cases hx
      · rw [e2.1] at hx; cases hx
    refine ⟨?_, ht, by simp [St.waiting, ht, e2.1, Deleter.left], e1.1, e2.1⟩
    refine Int.not_lt.mp fun hn => ?_
    rcases b1 hn with hx | hx
    · rw [e1.2] at hx; cases hx
    · rw [e1.1] at hx; cases hx
  · refine ⟨?_, ?_⟩
    · rcases h1 with h1 | h1
      · exact h1
      · rw [h1.2.2] at hc; cases hc
    · rcases h2 with h2 | h2
      · exact h2
      · rw [h2.2.2] at hc; cases hc

/-- **C97.** And they get there: from every state steps of the goroutines lead to a state at rest, open or closed as
before. -/
theorem C97_rests (cfg : Config) (hcap : 0 ≤ cfg.capacity) (s : St) (h : Reach cfg s) :
    ∃ n s', Work cfg n s s' ∧ AtRest cfg s' ∧ s'.closed = s.closed := by
  have key : ∀ k (s : St), s.load ≤ k → Reach cfg s → ∃ n s', Work cfg n s s' ∧ AtRest cfg s' := by
    intro k
    induction k with
    | zero =>
      intro s hk hr
      refine ⟨0, s, .refl s, fun fm act hw => ?_⟩
      cases hs : s.step cfg fm act with
      | none => rfl
      | some s' =>
        obtain ⟨xs, hi⟩ := hr.inv hcap
        have := load_step hcap hi hw hs
        omega
    | succ k ih =>
      intro s hk hr
      by_cases ha : AtRest cfg s
      · exact ⟨0, s, .refl s, ha⟩
      · simp only [AtRest, Classical.not_forall] at ha
        obtain ⟨fm, act, hw, hs⟩ := ha
        cases e : s.step cfg fm act with
        | none => exact absurd e hs
        | some s1 =>
          obtain ⟨xs, hi⟩ := hr.inv hcap
          have hl := load_step hcap hi hw e
          have h1 : Work cfg 1 s s1 := .tail fm act (.refl s) hw e
          obtain ⟨n, s', h2, h3⟩ := ih s1 (by omega) (h1.reach hr)
          exact ⟨1 + n, s', h1.trans h2, h3⟩
  obtain ⟨n, s', h1, h2⟩ := key s.load s (Nat.le_refl _) h
  exact ⟨n, s', h1, h2, h1.closed hcap h⟩

/-- **C97.** `Close` (matcher/cache/cache.go:245-257) waits for both goroutines.  It never waits for ever: once the cache is
closed, at every moment each goroutine that has not ended has a step of its own to take, whatever happened before. -/
theorem C97_close (cfg : Config) (hcap : 0 ≤ cfg.capacity) (fm : Nat → Bytes → Int → Int → MatchResult) (s : St) (h : Reach cfg s)
    (hc : s.closed = true) :
    (s.evictor = .gone ∨ (∃ s', s.step cfg fm .evictExit = some s' ∧ s'.evictor = .gone) ∨
      ∃ s', s.step cfg fm .evictRun = some s' ∧ s'.evictor = .waiting) ∧
    (s.deleter = .gone ∨ (∃ s', s.step cfg fm .deleteExit = some s' ∧ s'.deleter = .gone) ∨
      (∃ s', s.step cfg fm .deleteTake = some s' ∧ s'.deleter ≠ .awake) ∨
      (∃ k s', s.step cfg fm (.deleteOne k) = some s' ∧ s'.deleter.left.length + 1 = s.deleter.left.length) ∨
      ∃ s', s.step cfg fm .deleteDone = some s' ∧ s'.deleter = .waiting) := by
  refine ⟨?_, ?_⟩
  · cases he : s.evictor with
    | gone => exact Or.inl rfl
    | awake =>
      obtain ⟨s', hs, _, _, h4⟩ := C60_evict cfg hcap fm s h he
      exact Or.inr (Or.inr ⟨s', hs, h4⟩)
    | waiting => exact Or.inr (Or.inl ⟨_, by simp only [St.step, he, hc]; rfl, rfl⟩)
  · cases hd : s.deleter with
    | gone => exact Or.inl rfl
    | awake =>
      refine Or.inr (Or.inr (Or.inl ⟨_, by simp only [St.step, hd]; rfl, ?_⟩))
      unfold St.takeDeletions
      split <;> simp
    | removing left =>
      cases left with
      | nil => exact Or.inr (Or.inr (Or.inr (Or.inr ⟨_, by simp only [St.step, hd]; rfl, rfl⟩)))
      | cons p left =>
        refine Or.inr (Or.inr (Or.inr (Or.inl ⟨0, _, by simp only [St.step, hd]; rfl, ?_⟩)))
        simp [Deleter.left]
    | waiting => exact Or.inr (Or.inl ⟨_, by simp only [St.step, hd, hc]; rfl, rfl⟩)

/-- A lookup that finds nothing adds an entry, also when the cache is closed. -/
theorem fill_adds (cfg : Config) (fm : Nat → Bytes → Int → Int → MatchResult) (s : St) (t : Tick) (ns id : Bytes) (frm to : Int)
    (r : Results) (hr : mget s.namespaces ns = some r) (he : mget r.elems id = none) :
    ∃ s' r', s.step cfg fm (.fill t ns id frm to) = some s' ∧ s'.list.length = s.list.length + 1 ∧
      s'.closed = s.closed ∧ s'.evictor = s.evictor ∧ s'.deleter = s.deleter ∧ mget s'.namespaces ns = some r' ∧
      ∀ id', id' ≠ id → mget r'.elems id' = mget r.elems id' := by
  refine ⟨_, { r with elems := mset r.elems id s.nextPtr }, rfl, ?_⟩
  unfold St.tryGetWithLock
  simp only [hr, he, Bool.not_true, Bool.false_eq_true, if_false]
  unfold St.setWithLock St.invalidateIf
  have hlen : ∀ (h : Heap) (l : LinkedList) (p : Ptr), (pushFrontElem h l p).2.length = l.length + 1 := by
    intro h l p; unfold pushFrontElem; cases l.head <;> rfl
  have hdel : ((s.heap.upd s.nextPtr fun _ => { newElement ns id (fm r.source id frm to) with expiryNanos := newPromotionExpiry cfg t }) s.nextPtr).deleted = false := by
    simp [Heap.upd, newElement]
  simp only [Bool.false_eq_true, if_false, St.add, pushFront, St.notifyEviction, hdel]
  refine ⟨?_, ?_, ?_, ?_, ?_, ?_⟩
  · split <;> exact hlen _ _ _
  · split <;> rfl
  · split <;> rfl
  · split <;> rfl
  · split <;> simp [mget_mset]
  · intro id' hn; simp [mget_mset, hn]

/-- **C97, outside.**  After `Close` nothing bounds the cache: lookups still add entries (matcher/cache/cache.go:178-191 does
not look at `closed`), and nothing removes them. -/
theorem C97_after_close (cfg : Config) (n : Nat) (hcap : 0 ≤ cfg.capacity) :
    ∃ s, Reach cfg s ∧ s.closed = true ∧ s.evictor = .gone ∧ s.deleter = .gone ∧ s.recency.length = n := by
  have key : ∃ s, Reach cfg s ∧ s.closed = true ∧ s.evictor = .gone ∧ s.deleter = .gone ∧ s.list.length = n ∧
      ∃ r, mget s.namespaces (bs "n") = some r ∧ ∀ j, n ≤ j → mget r.elems (List.replicate j 0) = none := by
    induction n with
    | zero =>
      let s0 : St := { newCache exHeap with namespaces := [(bs "n", ⟨[], 1⟩)], closed := true, evictor := .gone, deleter := .gone }
      refine ⟨s0, ⟨exHeap, ?_⟩, rfl, rfl, rfl, rfl, ⟨[], 1⟩, rfl, fun _ _ => rfl⟩
      exact .tail exFm .deleteExit (.tail exFm .evictExit (.tail exFm .close (.tail exFm (.register (bs "n") 1) (.refl _) rfl) rfl) rfl) rfl
    | succ n ih =>
      obtain ⟨s, ⟨hp, hs⟩, h1, h2, h3, h4, r, h5, h6⟩ := ih
      obtain ⟨s', r', g0, g1, g2, g3, g4, g5, g6⟩ := fill_adds cfg exFm s exTick (bs "n") (List.replicate n 0) 0 10 r h5
        (h6 n (Nat.le_refl n))
      refine ⟨s', ⟨hp, .tail exFm _ hs g0⟩, g2.trans h1, g3.trans h2, g4.trans h3, by rw [g1, h4]; simp, r', g5, fun j hj => ?_⟩
      rw [g6 _ (fun e => ?_)]
      · exact h6 j (by omega)
      · have := congrArg List.length e
        simp only [List.length_replicate] at this
        omega
  obtain ⟨s, hr, h1, h2, h3, h4, _⟩ := key
  refine ⟨s, hr, h1, h2, h3, ?_⟩
  have := (C60_consistent cfg hcap s hr).2.1
  rw [h4] at this
  exact_mod_cast this.symm

/-- The hypotheses: a state with an eviction pass under way and entries to be removed; the goroutines have four and more
steps to take, and end at rest with one entry; when the cache is closed meanwhile, they end. -/
example : (runActs exCfg exFm (newCache exHeap) exBusy).map (fun s => (s.waiting, s.recency.length,
    decide (s.evictor = .awake), s.deleteCh)) = some (1, 3, true, true) := by decide +kernel

example : (runActs exCfg exFm (newCache exHeap) (exBusy ++ [.deleteWake, .deleteTake, .evictRun, .deleteOne 0, .deleteDone])).map
    (fun s => (s.waiting, s.recency.length, decide (s.evictor = .waiting), s.evictCh || s.deleteCh)) = some (0, 1, true, false) := by
  decide +kernel

example : (runActs exCfg exFm (newCache exHeap) (exBusy ++ [.close, .deleteWake, .deleteTake, .evictRun, .evictExit, .deleteOne 0,
    .deleteDone, .deleteExit])).map (fun s => (decide (s.evictor = .gone), decide (s.deleter = .gone))) = some (true, true) := by
  decide +kernel

/-! ### Entries that no map holds (C62) -/

/-- An entry in the list that no lookup can find. -/
def Orphan (s : St) (p : Ptr) : Prop :=
  p ∈ s.recency ∧ ∀ ns r id, mget s.namespaces ns = some r → mget r.elems id ≠ some p

/-- What is in the list behind an entry: the entries that an eviction pass removes before it. -/
def behind (p : Ptr) : List Ptr → List Ptr
  | [] => []
  | q :: l => if q = p then l else behind p l

theorem behind_append {p : Ptr} {a : List Ptr} (ha : p ∉ a) (b : List Ptr) : behind p (a ++ b) = behind p b := by
  induction a with
  | nil => rfl
  | cons x a ih =>
    simp only [List.mem_cons, not_or] at ha
    simp [behind, Ne.symm ha.1, ih ha.2]

theorem behind_sublist {p : Ptr} {a b : List Ptr} (h : a.Sublist b) (hb : b.Nodup) (hp : p ∈ a) : (behind p a).Sublist (behind p b) := by
  induction h with
  | slnil => cases hp
  | cons x h ih =>
    rw [List.nodup_cons] at hb
    have hx : x ≠ p := fun e => hb.1 (e ▸ h.subset hp)
    simp only [behind, hx, if_false]
    exact ih hb.2 hp
  | cons_cons x h ih =>
    rw [List.nodup_cons] at hb
    by_cases hx : x = p
    · simp only [behind, hx, if_true]; exact h
    · simp only [behind, hx, if_false]
      exact ih hb.2 ((List.mem_cons.mp hp).resolve_left (Ne.symm hx))

theorem Steps.aged {cfg : Config} (hcap : 0 ≤ cfg.capacity) {s s' : St} (h : Steps cfg s s') :
    ∀ {xs}, Inv s xs → ∃ xs', Inv s' xs' ∧ s.nextPtr ≤ s'.nextPtr ∧ Aged s xs s' xs' := by
  induction h with
  | refl => exact fun hi => ⟨_, hi, Nat.le_refl _, .of_sublist (fun _ _ _ _ h => h) (List.Sublist.refl _)⟩
  | tail fm act _ hs ih =>
    intro xs hi
    obtain ⟨ys, hi', hn, ha⟩ := ih hi
    obtain ⟨zs, ok⟩ := step_ok cfg hcap fm hi' act hs
    exact ⟨zs, ok.inv, Nat.le_trans hn ok.evolves.next, ha.trans hn ok.aged⟩

/-- **C62, partial.**  What holds in all executions instead: an entry that no lookup finds is never found again, and is never
moved ahead; whatever happens, what is behind it in the list only gets less, until it is removed. -/
theorem C62_orphans_partial (cfg : Config) (hcap : 0 ≤ cfg.capacity) (s s' : St) (h : Reach cfg s) (hs : Steps cfg s s') (p : Ptr)
    (hp : Orphan s p) : p ∉ s'.recency ∨ (Orphan s' p ∧ (behind p s'.recency).Sublist (behind p s.recency)) := by
  obtain ⟨xs, hi⟩ := h.inv hcap
  obtain ⟨ys, hi', _, ha, front, rest, e, hsub, hf⟩ := hs.aged hcap hi
  obtain ⟨hp1, hp2⟩ := hp
  unfold Orphan
  rw [hi.recency] at hp1 ⊢
  rw [hi'.recency]
  by_cases hy : p ∈ ys
  · refine Or.inr ⟨⟨hy, ?_⟩, ?_⟩
    · intro ns r id hr hx
      refine ha p (hi.bound p hp1) ?_ ns r.source id ⟨r, hr, rfl, hx⟩
      rintro ns src id ⟨r, hr, _, hx⟩
      exact hp2 ns r id hr hx
    · have hnf : p ∉ front := by
        intro hpf
        rcases hf p hpf with hx | ⟨ns, src, id, r, hr, _, hx⟩
        · exact absurd (hi.bound p hp1) (Nat.not_lt_of_le hx)
        · exact hp2 ns r id hr hx
      rw [e] at hy ⊢
      rw [behind_append hnf]
      exact behind_sublist hsub hi.repr.nodup ((List.mem_append.mp hy).resolve_left hnf)
  · exact Or.inl hy

/-- **C62, partial.**  And it does not outlive the others: an eviction pass that finds at least as many entries in front of it
as the capacity removes it. -/
theorem C62_evicted_partial (cfg : Config) (hcap : 0 ≤ cfg.capacity) (fm : Nat → Bytes → Int → Int → MatchResult) (s : St)
    (h : Reach cfg s) (ha : s.evictor = .awake) (p : Ptr) (front rest : List Ptr) (he : s.recency = front ++ p :: rest)
    (hl : cfg.capacity ≤ front.length) :
    ∃ s', s.step cfg fm .evictRun = some s' ∧ p ∉ s'.recency ∧ s'.recency = front.take cfg.capacity.toNat := by
  obtain ⟨s', hs, hr, _⟩ := C60_evict cfg hcap fm s h ha
  have hk : s'.recency = front.take cfg.capacity.toNat := by
    rw [hr, he, List.take_append_of_le_length (by omega)]
  refine ⟨s', hs, fun hx => ?_, hk⟩
  have hn := (C60_consistent cfg hcap s h).1
  rw [he, List.nodup_append] at hn
  rw [hk] at hx
  exact hn.2.2 p (List.mem_of_mem_take hx) p (by simp) rfl

/-- The entry of the run above that stays in the list: it is an orphan with nothing in front; the next entry and a pass
remove it. -/
example : (runActs exCfg exFm (newCache exHeap) (exOrphan ++ [.register (bs "m") 2, .fill exTick (bs "m") (bs "x") 0 10,
    .evictWake])).map (fun s => (s.recency, decide (s.evictor = .awake), (mget s.namespaces (bs "n")).isNone)) =
    some ([2, 1], true, true) := by decide +kernel

example : (runActs exCfg exFm (newCache exHeap) (exOrphan ++ [.register (bs "m") 2, .fill exTick (bs "m") (bs "x") 0 10,
    .evictWake, .evictRun])).map (·.recency) = some [2] := by decide +kernel

end Verif.Cache
