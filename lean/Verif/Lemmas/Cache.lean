import Verif.Model.Cache
import Verif.Props.CacheList
/-
Invariants of the cache.
-/
namespace Verif.Cache
open Verif.Active

/-! ### Maps -/

section Maps
variable {α : Type}

theorem mget_mem {m : List (Bytes × α)} {k : Bytes} {v : α} (h : mget m k = some v) : (k, v) ∈ m := by
  unfold mget at h
  cases hf : m.find? fun e => e.1 = k with
  | none => simp [hf] at h
  | some e =>
    simp only [hf, Option.map_some, Option.some.injEq] at h
    have h1 := List.mem_of_find?_eq_some hf
    have h2 := List.find?_some hf
    simp only [decide_eq_true_eq] at h2
    rw [← h2, ← h]; exact h1

theorem mget_of_mem {m : List (Bytes × α)} (hn : (m.map (·.1)).Nodup) {k : Bytes} {v : α} (h : (k, v) ∈ m) : mget m k = some v := by
  induction m with
  | nil => simp at h
  | cons e m ih =>
    simp only [List.map_cons, List.nodup_cons] at hn
    unfold mget
    rw [List.find?_cons]
    by_cases he : e.1 = k
    · simp only [he, decide_true, Option.map_some]
      rcases List.mem_cons.mp h with rfl | h
      · rfl
      · exact absurd (by rw [he]; exact List.mem_map_of_mem h) hn.1
    · simp only [he, decide_false]
      rcases List.mem_cons.mp h with rfl | h
      · exact absurd rfl he
      · exact ih hn.2 h

theorem mget_mdel (m : List (Bytes × α)) (k k' : Bytes) : mget (mdel m k) k' = if k' = k then none else mget m k' := by
  unfold mget mdel
  induction m with
  | nil => simp
  | cons e m ih =>
    simp only [List.filter_cons]
    by_cases he : e.1 = k
    · simp only [he, ne_eq, not_true_eq_false, decide_false, Bool.false_eq_true, if_false, ih, List.find?_cons]
      by_cases hk : k' = k
      · simp [hk]
      · have : ¬ k = k' := fun h => hk h.symm
        simp [hk, this]
    · simp only [he, ne_eq, not_false_eq_true, decide_true, if_true, List.find?_cons]
      by_cases hek : e.1 = k'
      · have : ¬ k' = k := fun h => he (hek.trans h)
        simp [hek, this]
      · simp only [hek, decide_false]
        exact ih

theorem mget_mset (m : List (Bytes × α)) (k k' : Bytes) (v : α) : mget (mset m k v) k' = if k' = k then some v else mget m k' := by
  have h := mget_mdel m k k'
  unfold mset mget at *
  rw [List.find?_append]
  by_cases hk : k' = k
  · subst hk
    simp only [if_true, Option.map_eq_none_iff] at h
    simp [h]
  · simp only [hk, if_false] at h ⊢
    have : ¬ k = k' := fun e => hk e.symm
    simp only [List.find?_cons, this, decide_false, List.find?_nil, Option.or_none]
    exact h

theorem nodup_mdel {m : List (Bytes × α)} (h : (m.map (·.1)).Nodup) (k : Bytes) : ((mdel m k).map (·.1)).Nodup :=
  h.sublist (List.filter_sublist.map _)

theorem nodup_mset {m : List (Bytes × α)} (h : (m.map (·.1)).Nodup) (k : Bytes) (v : α) : ((mset m k v).map (·.1)).Nodup := by
  unfold mset
  rw [List.map_append, List.nodup_append]
  refine ⟨nodup_mdel h k, by simp, ?_⟩
  intro a ha b hb e
  simp only [List.map_cons, List.map_nil, List.mem_singleton] at hb
  obtain ⟨x, hx, rfl⟩ := List.mem_map.mp ha
  simp only [mdel, List.mem_filter, decide_eq_true_eq] at hx
  exact hx.2 (e.trans hb)

end Maps

/-! ### The invariant -/

/-- The elements the deletion goroutine still has to remove. -/
def Deleter.left : Deleter → List Ptr
  | .removing left => left
  | _ => []

/-- The elements of maps that were given up. -/
def St.doomed (s : St) : List Ptr := (s.toDelete.flatMap fun m => m.map (·.2)) ++ s.deleter.left

/-- The map entry of the namespace for the identifier is the element. -/
def St.cached (s : St) (ns : Bytes) (src : Nat) (id : Bytes) (p : Ptr) : Prop :=
  ∃ r, mget s.namespaces ns = some r ∧ r.source = src ∧ mget r.elems id = some p

structure Inv (s : St) (xs : List Ptr) : Prop where
  repr : Repr s.heap s.list xs
  bound : ∀ p ∈ xs, p < s.nextPtr
  all : ∀ p, p < s.nextPtr → p ∈ xs ∨ (s.heap p).deleted = true
  nsNodup : (s.namespaces.map (·.1)).Nodup
  elNodup : ∀ ns r, mget s.namespaces ns = some r → (r.elems.map (·.1)).Nodup
  cached : ∀ ns src id p, s.cached ns src id p → p ∈ xs ∧ (s.heap p).ns = ns ∧ (s.heap p).id = id
  doomed : ∀ p ∈ s.doomed, p < s.nextPtr ∧ ∀ ns src id, ¬ s.cached ns src id p

theorem Inv.init (h : Heap) : Inv (newCache h) [] := by
  refine ⟨Repr.empty h, by simp, ?_, by simp [newCache], ?_, ?_, ?_⟩
  · intro p hp; simp [newCache] at hp
  · intro ns r h; simp [newCache, mget] at h
  · rintro ns src id p ⟨r, h, _⟩; simp [newCache, mget] at h
  · intro p hp; simp [newCache, St.doomed, Deleter.left] at hp

/-- Giving up entries of maps. -/
theorem Inv.shrink {s s' : St} {xs : List Ptr} (h : Inv s xs) (hheap : s'.heap = s.heap) (hlist : s'.list = s.list)
    (hnext : s'.nextPtr = s.nextPtr) (hns : (s'.namespaces.map (·.1)).Nodup)
    (hel : ∀ ns r, mget s'.namespaces ns = some r → (r.elems.map (·.1)).Nodup)
    (hc : ∀ ns src id p, s'.cached ns src id p → ∃ src', s.cached ns src' id p)
    (hd : ∀ p ∈ s'.doomed, p < s.nextPtr ∧ ∀ ns src id, ¬ s'.cached ns src id p) : Inv s' xs := by
  refine ⟨by rw [hheap, hlist]; exact h.repr, by rw [hnext]; exact h.bound, by rw [hnext, hheap]; exact h.all, hns, hel, ?_,
    by rw [hnext]; exact hd⟩
  intro ns src id p hp
  obtain ⟨src', hp'⟩ := hc ns src id p hp
  rw [hheap]
  exact h.cached ns src' id p hp'

/-- The elements of one map belong to one namespace only. -/
theorem Inv.unique {s : St} {xs : List Ptr} (h : Inv s xs) {ns ns' src src' id id' p} (h1 : s.cached ns src id p)
    (h2 : s.cached ns' src' id' p) : ns = ns' ∧ id = id' := by
  obtain ⟨_, a, b⟩ := h.cached _ _ _ _ h1
  obtain ⟨_, c, d⟩ := h.cached _ _ _ _ h2
  exact ⟨a.symm.trans c, b.symm.trans d⟩

theorem Inv.mem_elems {s : St} {xs : List Ptr} (h : Inv s xs) {ns : Bytes} {r : Results} (hr : mget s.namespaces ns = some r)
    {p : Ptr} (hp : p ∈ r.elems.map (·.2)) : ∃ id, s.cached ns r.source id p := by
  obtain ⟨e, he, rfl⟩ := List.mem_map.mp hp
  exact ⟨e.1, r, hr, rfl, mget_of_mem (h.elNodup ns r hr) he⟩

/-- An element that is not in a map is removed from the list. -/
theorem Inv.listRemove {s : St} {xs : List Ptr} (h : Inv s xs) {p : Ptr} (hp : p < s.nextPtr)
    (hnc : ∀ ns src id, ¬ s.cached ns src id p) :
    Inv (s.listRemove (some p)) (xs.erase p) ∧ SameData s.heap (s.listRemove (some p)).heap ∧
    (∀ q, ((s.listRemove (some p)).heap q).deleted = true ↔ q = p ∨ (s.heap q).deleted = true) := by
  rcases h.all p hp with hx | hd
  · obtain ⟨h1, h2, h3, _⟩ := remove_repr h.repr hx
    have hne : ∀ ns src id q, s.cached ns src id q → q ≠ p := fun ns src id q hq e => hnc ns src id (e ▸ hq)
    refine ⟨⟨h1, fun q hq => h.bound q (List.mem_of_mem_erase hq), ?_, h.nsNodup, h.elNodup, ?_, h.doomed⟩, h2, ?_⟩
    · intro q hq
      show _ ∨ ((remove s.heap s.list (some p)).1 q).deleted = true
      rw [(h3 q).1]
      by_cases e : q = p
      · simp [e]
      · rcases h.all q hq with hq | hq
        · exact Or.inl (by rw [h.repr.nodup.mem_erase_iff]; exact ⟨e, hq⟩)
        · exact Or.inr (by simp [e, hq])
    · intro ns src id q hq
      have hq' : s.cached ns src id q := hq
      obtain ⟨a, b, c⟩ := h.cached ns src id q hq'
      obtain ⟨d1, d2, _⟩ := h2 q
      exact ⟨by rw [h.repr.nodup.mem_erase_iff]; exact ⟨hne ns src id q hq', a⟩, d1.trans b, d2.trans c⟩
    · intro q
      show ((remove s.heap s.list (some p)).1 q).deleted = true ↔ _
      rw [(h3 q).1]
      by_cases e : q = p <;> simp [e]
  · have e : s.listRemove (some p) = s := by
      unfold St.listRemove
      rw [(removed_noop (l := s.list) hd).2.2.1]
    have hx : p ∉ xs := fun hc => by rw [h.repr.alive p hc] at hd; cases hd
    rw [e, List.erase_of_not_mem hx]
    refine ⟨h, SameData.refl _, fun q => ⟨Or.inr, ?_⟩⟩
    rintro (rfl | hq)
    · exact hd
    · exact hq

/-- A cached element is promoted. -/
theorem Inv.promote {s : St} {xs : List Ptr} (h : Inv s xs) (cfg : Config) (t : Tick) {p : Ptr} (hp : p ∈ xs) :
    (∃ xs', Inv (s.promote cfg t p) xs' ∧ xs'.Perm xs ∧ (xs' = xs ∨ xs' = p :: xs.erase p)) ∧ SameData s.heap (s.promote cfg t p).heap ∧
    (∀ q, ((s.promote cfg t p).heap q).deleted = (s.heap q).deleted) ∧
    (s.promote cfg t p).namespaces = s.namespaces ∧ (s.promote cfg t p).nextPtr = s.nextPtr ∧
    (s.promote cfg t p).toDelete = s.toDelete ∧ (s.promote cfg t p).deleter = s.deleter ∧
    (s.promote cfg t p).evictor = s.evictor ∧ (s.promote cfg t p).evictCh = s.evictCh ∧
    (s.promote cfg t p).deleteCh = s.deleteCh ∧ (s.promote cfg t p).closed = s.closed := by
  unfold St.promote
  by_cases hs : (s.heap p).shouldPromote t.now
  · simp only [hs, Bool.not_true, Bool.false_eq_true, if_false]
    have hh : Repr (s.heap.upd p fun e => { e with expiryNanos := newPromotionExpiry cfg t }) s.list xs :=
      h.repr.congr fun q _ => by unfold Heap.upd; split <;> exact ⟨rfl, rfl, rfl⟩
    have hsd : SameData s.heap (s.heap.upd p fun e => { e with expiryNanos := newPromotionExpiry cfg t }) :=
      SameData.upd _ _ _ (by simp)
    have hdel : ∀ q, ((s.heap.upd p fun e => { e with expiryNanos := newPromotionExpiry cfg t }) q).deleted = (s.heap q).deleted := by
      intro q; unfold Heap.upd; split <;> rfl
    obtain ⟨h1, h2, h3, _⟩ := moveToFront_repr hh hp
    have hperm : (p :: xs.erase p).Perm xs := (List.perm_cons_erase hp).symm
    refine ⟨⟨p :: xs.erase p, ⟨h1, ?_, ?_, h.nsNodup, h.elNodup, ?_, h.doomed⟩, hperm, Or.inr rfl⟩, hsd.trans h2, ?_, by trivial, by trivial, by trivial, by trivial,
      by trivial, by trivial, by trivial, by trivial⟩
    · intro q hq; exact h.bound q (hperm.mem_iff.mp hq)
    · intro q hq
      rcases h.all q hq with hc | hc
      · exact Or.inl (hperm.mem_iff.mpr hc)
      · refine Or.inr ?_
        show ((moveToFront _ _ _).1 q).deleted = true
        rw [(h3 q).1, hdel q]; exact hc
    · intro ns src id q hq
      obtain ⟨a, b, c⟩ := h.cached ns src id q hq
      obtain ⟨d1, d2, _⟩ := (hsd.trans h2) q
      exact ⟨hperm.mem_iff.mpr a, d1.trans b, d2.trans c⟩
    · intro q; rw [(h3 q).1, hdel q]
  · simp only [hs, Bool.not_false, if_true]
    exact ⟨⟨xs, h, List.Perm.refl _, Or.inl rfl⟩, SameData.refl _, by simp⟩

/-! ### What a step does -/

/-- Elements are never reused, keep what they hold, and stay removed. -/
structure Evolves (s s' : St) : Prop where
  next : s.nextPtr ≤ s'.nextPtr
  data : ∀ p, p < s.nextPtr → (s'.heap p).ns = (s.heap p).ns ∧ (s'.heap p).id = (s.heap p).id ∧ (s'.heap p).result = (s.heap p).result
  deleted : ∀ p, p < s.nextPtr → (s.heap p).deleted = true → (s'.heap p).deleted = true

theorem Evolves.refl (s : St) : Evolves s s := ⟨Nat.le_refl _, fun _ _ => ⟨rfl, rfl, rfl⟩, fun _ _ h => h⟩

theorem Evolves.trans {a b c : St} (h1 : Evolves a b) (h2 : Evolves b c) : Evolves a c := by
  refine ⟨Nat.le_trans h1.next h2.next, ?_, ?_⟩
  · intro p hp
    have hp' := Nat.lt_of_lt_of_le hp h1.next
    obtain ⟨x1, x2, x3⟩ := h1.data p hp
    obtain ⟨y1, y2, y3⟩ := h2.data p hp'
    exact ⟨y1.trans x1, y2.trans x2, y3.trans x3⟩
  · intro p hp hd
    exact h2.deleted p (Nat.lt_of_lt_of_le hp h1.next) (h1.deleted p hp hd)

theorem Evolves.of_same {s s' : St} (hn : s'.nextPtr = s.nextPtr) (hd : SameData s.heap s'.heap)
    (hdel : ∀ p, (s.heap p).deleted = true → (s'.heap p).deleted = true) : Evolves s s' :=
  ⟨by omega, fun p _ => hd p, fun p _ => hdel p⟩

theorem Evolves.of_heap {s s' : St} (hn : s'.nextPtr = s.nextPtr) (hh : s'.heap = s.heap) : Evolves s s' :=
  Evolves.of_same hn (by rw [hh]; exact SameData.refl _) (by rw [hh]; exact fun _ h => h)

/-- Every element of the list is in the map of its namespace or waits to be removed. -/
def Owned (s : St) (xs : List Ptr) : Prop :=
  ∀ p ∈ xs, (∃ src, s.cached (s.heap p).ns src (s.heap p).id p) ∨ p ∈ s.doomed

/-- What a step does to elements that are in no map: they are in no map afterwards, and keep their places behind those that
the step moves or adds. -/
def Aged (s : St) (xs : List Ptr) (s' : St) (xs' : List Ptr) : Prop :=
  (∀ p, p < s.nextPtr → (∀ ns src id, ¬ s.cached ns src id p) → ∀ ns src id, ¬ s'.cached ns src id p) ∧
  ∃ front rest, xs' = front ++ rest ∧ rest.Sublist xs ∧ ∀ q ∈ front, s.nextPtr ≤ q ∨ ∃ ns src id, s.cached ns src id q

theorem Aged.of_sublist {s s' : St} {xs xs' : List Ptr} (h : ∀ ns src id p, s'.cached ns src id p → s.cached ns src id p)
    (hs : xs'.Sublist xs) : Aged s xs s' xs' :=
  ⟨fun _ _ hn ns src id hx => hn ns src id (h ns src id _ hx), [], xs', rfl, hs, fun _ hq => by cases hq⟩

theorem Aged.trans {s s1 s2 : St} {xs xs1 xs2 : List Ptr} (hn : s.nextPtr ≤ s1.nextPtr) (h1 : Aged s xs s1 xs1)
    (h2 : Aged s1 xs1 s2 xs2) : Aged s xs s2 xs2 := by
  obtain ⟨a1, f1, r1, e1, l1, c1⟩ := h1
  obtain ⟨a2, f2, r2, e2, l2, c2⟩ := h2
  refine ⟨fun p hp hc => a2 p (Nat.lt_of_lt_of_le hp hn) (a1 p hp hc), ?_⟩
  rw [e1] at l2
  obtain ⟨x, y, e, lx, ly⟩ := List.sublist_append_iff.mp l2
  refine ⟨f2 ++ x, y, by rw [e2, e, List.append_assoc], ly.trans l1, fun q hq => ?_⟩
  rcases List.mem_append.mp hq with hq | hq
  · rcases c2 q hq with hx | ⟨ns, src, id, hx⟩
    · exact Or.inl (Nat.le_trans hn hx)
    · by_cases hl : s.nextPtr ≤ q
      · exact Or.inl hl
      · refine Or.inr (Classical.byContradiction fun hno => ?_)
        exact a1 q (Nat.lt_of_not_le hl) (fun ns src id hc => hno ⟨ns, src, id, hc⟩) ns src id hx
  · exact c1 q (lx.subset hq)

/-- What a step does to the invariant; `new` says which results may have been added to the maps. -/
structure Good (s : St) (xs : List Ptr) (s' : St) (xs' : List Ptr) (new : Bytes → Nat → Bytes → MatchResult → Prop) : Prop where
  inv : Inv s' xs'
  evolves : Evolves s s'
  entries : ∀ ns src id p, s'.cached ns src id p → s.cached ns src id p ∨ new ns src id (s'.heap p).result
  owned : Owned s xs → Owned s' xs'
  aged : Aged s xs s' xs'

/-- Nothing is added. -/
def noNew : Bytes → Nat → Bytes → MatchResult → Prop := fun _ _ _ _ => False

theorem Good.weaken {s xs s' xs' new new'} (h : Good s xs s' xs' new) (hw : ∀ a b c d, new a b c d → new' a b c d) :
    Good s xs s' xs' new' :=
  ⟨h.inv, h.evolves, fun a b c d e => (h.entries a b c d e).imp_right (hw _ _ _ _), h.owned, h.aged⟩

theorem Good.trans {s xs s1 xs1 s2 xs2 new} (h1 : Good s xs s1 xs1 noNew) (h2 : Good s1 xs1 s2 xs2 new) :
    Good s xs s2 xs2 new := by
  refine ⟨h2.inv, h1.evolves.trans h2.evolves, ?_, fun h => h2.owned (h1.owned h), h1.aged.trans h1.evolves.next h2.aged⟩
  intro ns src id p hp
  rcases h2.entries ns src id p hp with h | h
  · rcases h1.entries ns src id p h with h | h
    · exact Or.inl h
    · exact h.elim
  · exact Or.inr h

/-- Only flags change. -/
theorem Good.flags {s s' : St} {xs : List Ptr} (h : Inv s xs) (hh : s'.heap = s.heap) (hl : s'.list = s.list)
    (hn : s'.nextPtr = s.nextPtr) (hns : s'.namespaces = s.namespaces) (hd : ∀ p, p ∈ s'.doomed ↔ p ∈ s.doomed) :
    Good s xs s' xs noNew := by
  have hc : ∀ ns src id p, s'.cached ns src id p ↔ s.cached ns src id p := fun ns src id p => by unfold St.cached; rw [hns]
  refine ⟨h.shrink hh hl hn (by rw [hns]; exact h.nsNodup) (by rw [hns]; exact h.elNodup)
    (fun ns src id p hp => ⟨src, (hc _ _ _ _).mp hp⟩) ?_, Evolves.of_heap hn hh,
    fun ns src id p hp => Or.inl ((hc _ _ _ _).mp hp), ?_,
    .of_sublist (fun ns src id p hp => (hc _ _ _ _).mp hp) (List.Sublist.refl _)⟩
  · intro p hp
    obtain ⟨h1, h2⟩ := h.doomed p ((hd p).mp hp)
    exact ⟨h1, fun ns src id hx => h2 ns src id ((hc _ _ _ _).mp hx)⟩
  · intro ho p hp
    rw [hh, hd]
    rcases ho p hp with ⟨src, h⟩ | h
    · exact Or.inl ⟨src, (hc _ _ _ _).mpr h⟩
    · exact Or.inr h

theorem Good.same {s : St} {xs : List Ptr} (h : Inv s xs) : Good s xs s xs noNew :=
  Good.flags h rfl rfl rfl rfl (fun _ => Iff.rfl)

/-- The map of a namespace is given up. -/
theorem Good.dropNs {s s' : St} {xs : List Ptr} (h : Inv s xs) (ns : Bytes) (hheap : s'.heap = s.heap) (hlist : s'.list = s.list)
    (hnext : s'.nextPtr = s.nextPtr) (hdel : s'.deleter = s.deleter) (hnd : (s'.namespaces.map (·.1)).Nodup)
    (hoth : ∀ ns', ns' ≠ ns → mget s'.namespaces ns' = mget s.namespaces ns')
    (hns : ∀ r, mget s'.namespaces ns = some r → r.elems = [])
    (htd : (mget s.namespaces ns = none ∧ s'.toDelete = s.toDelete) ∨
      ∃ r, mget s.namespaces ns = some r ∧ s'.toDelete = s.toDelete ++ [r.elems]) : Good s xs s' xs noNew := by
  have hc : ∀ ns' src id p, s'.cached ns' src id p ↔ ns' ≠ ns ∧ s.cached ns' src id p := by
    intro ns' src id p
    constructor
    · rintro ⟨r, h1, h2, h3⟩
      have hne : ns' ≠ ns := by
        rintro rfl
        rw [hns r h1] at h3
        simp [mget] at h3
      exact ⟨hne, r, by rw [← hoth ns' hne]; exact h1, h2, h3⟩
    · rintro ⟨hne, r, h1, h2, h3⟩
      exact ⟨r, by rw [hoth ns' hne]; exact h1, h2, h3⟩
  have hdm : ∀ p, p ∈ s'.doomed ↔ p ∈ s.doomed ∨ ∃ r, mget s.namespaces ns = some r ∧ p ∈ r.elems.map (·.2) := by
    intro p
    rcases htd with ⟨hn, ht⟩ | ⟨r, hr, ht⟩
    · simp [St.doomed, ht, hdel, hn]
    · simp only [St.doomed, ht, hdel, hr, List.flatMap_append, List.mem_append, List.flatMap_cons, List.flatMap_nil,
        List.append_nil, Option.some.injEq, exists_eq_left']
      constructor
      · rintro ((h | h) | h)
        · exact Or.inl (Or.inl h)
        · exact Or.inr h
        · exact Or.inl (Or.inr h)
      · rintro ((h | h) | h)
        · exact Or.inl (Or.inl h)
        · exact Or.inr h
        · exact Or.inl (Or.inr h)
  refine ⟨h.shrink hheap hlist hnext hnd ?_ (fun ns' src id p hp => ⟨src, ((hc _ _ _ _).mp hp).2⟩) ?_,
    Evolves.of_heap hnext hheap, fun ns' src id p hp => Or.inl ((hc _ _ _ _).mp hp).2, ?_,
    .of_sublist (fun ns src id p hp => ((hc _ _ _ _).mp hp).2) (List.Sublist.refl _)⟩
  · intro ns' r hr
    by_cases hne : ns' = ns
    · subst hne; rw [hns r hr]; simp
    · rw [hoth ns' hne] at hr; exact h.elNodup ns' r hr
  · intro p hp
    rcases (hdm p).mp hp with hp | ⟨r, hr, hp⟩
    · obtain ⟨h1, h2⟩ := h.doomed p hp
      exact ⟨h1, fun ns' src id hx => h2 ns' src id ((hc _ _ _ _).mp hx).2⟩
    · obtain ⟨id, hcd⟩ := h.mem_elems hr hp
      refine ⟨h.bound p (h.cached _ _ _ _ hcd).1, fun ns' src id' hx => ?_⟩
      obtain ⟨hne, hx⟩ := (hc _ _ _ _).mp hx
      exact hne (h.unique hx hcd).1
  · intro ho p hp
    rw [hheap, hdm]
    rcases ho p hp with ⟨src, hx⟩ | hx
    · by_cases hne : (s.heap p).ns = ns
      · obtain ⟨r, h1, h2, h3⟩ := hx
        rw [hne] at h1
        exact Or.inr (Or.inr ⟨r, h1, List.mem_map.mpr ⟨_, mget_mem h3, rfl⟩⟩)
      · exact Or.inl ⟨src, (hc _ _ _ _).mpr ⟨hne, hx⟩⟩
    · exact Or.inr (Or.inl hx)

theorem Good.refreshWithLock {s : St} {xs : List Ptr} (h : Inv s xs) {ns : Bytes} {r : Results} (src : Nat)
    (hr : mget s.namespaces ns = some r) : Good s xs (s.refreshWithLock ns src r) xs noNew := by
  refine Good.dropNs h ns rfl rfl rfl rfl (nodup_mset h.nsNodup _ _) ?_ ?_ (Or.inr ⟨r, hr, rfl⟩)
  · intro ns' hne
    show mget (mset s.namespaces ns _) ns' = _
    rw [mget_mset, if_neg hne]
  · intro r' hr'
    have : mget (mset s.namespaces ns { elems := [], source := src }) ns = some r' := hr'
    rw [mget_mset, if_pos rfl] at this
    cases this; rfl

theorem Good.register {s : St} {xs : List Ptr} (h : Inv s xs) (ns : Bytes) (src : Nat) :
    Good s xs (s.register ns src) xs noNew := by
  unfold St.register
  cases hr : mget s.namespaces ns with
  | some r => exact Good.refreshWithLock h src hr
  | none =>
    refine Good.dropNs h ns rfl rfl rfl rfl (nodup_mset h.nsNodup _ _) ?_ ?_ (Or.inl ⟨hr, rfl⟩)
    · intro ns' hne
      show mget (mset s.namespaces ns _) ns' = _
      rw [mget_mset, if_neg hne]
    · intro r' hr'
      have : mget (mset s.namespaces ns { elems := [], source := src }) ns = some r' := hr'
      rw [mget_mset, if_pos rfl] at this
      cases this; rfl

theorem Good.refresh {s : St} {xs : List Ptr} (h : Inv s xs) (ns : Bytes) (src : Nat) :
    Good s xs (s.refresh ns src) xs noNew := by
  unfold St.refresh
  cases hr : mget s.namespaces ns with
  | none => exact Good.same h
  | some r =>
    by_cases hs : r.source ≠ src
    · simp only [hs, ne_eq, not_false_eq_true, if_true]; exact Good.same h
    · simp only [hs, ne_eq, if_false]; exact Good.refreshWithLock h src hr

theorem Good.unregister {s : St} {xs : List Ptr} (h : Inv s xs) (ns : Bytes) : Good s xs (s.unregister ns) xs noNew := by
  unfold St.unregister
  cases hr : mget s.namespaces ns with
  | none => exact Good.same h
  | some r =>
    refine Good.dropNs h ns rfl rfl rfl rfl (nodup_mdel h.nsNodup _) ?_ ?_ (Or.inr ⟨r, hr, rfl⟩)
    · intro ns' hne
      show mget (mdel s.namespaces ns) ns' = _
      rw [mget_mdel, if_neg hne]
    · intro r' hr'
      have : mget (mdel s.namespaces ns) ns = some r' := hr'
      rw [mget_mdel, if_pos rfl] at this
      cases this

/-- An element that is in no map is removed from the list. -/
theorem Good.listRemove {s : St} {xs : List Ptr} (h : Inv s xs) {p : Ptr} (hp : p < s.nextPtr)
    (hnc : ∀ ns src id, ¬ s.cached ns src id p) : Good s xs (s.listRemove (some p)) (xs.erase p) noNew := by
  obtain ⟨h1, h2, h3⟩ := h.listRemove hp hnc
  refine ⟨h1, Evolves.of_same rfl h2 (fun q hq => (h3 q).mpr (Or.inr hq)), fun ns src id q hq => Or.inl hq, ?_,
    .of_sublist (fun _ _ _ _ hq => hq) List.erase_sublist⟩
  intro ho q hq
  have hq' := List.mem_of_mem_erase hq
  obtain ⟨d1, d2, _⟩ := h2 q
  rw [d1, d2]
  exact ho q hq'

/-- The entry of one identifier is deleted from the map of a namespace. -/
theorem cached_mdel {s : St} {ns id : Bytes} {r : Results} (hr : mget s.namespaces ns = some r) (ns' : Bytes) (src : Nat)
    (id' : Bytes) (q : Ptr) :
    St.cached { s with namespaces := mset s.namespaces ns { r with elems := mdel r.elems id } } ns' src id' q ↔
      s.cached ns' src id' q ∧ ¬ (ns' = ns ∧ id' = id) := by
  unfold St.cached
  simp only [mget_mset]
  by_cases hne : ns' = ns
  · subst hne
    simp only [if_true, Option.some.injEq, exists_eq_left', hr, mget_mdel]
    by_cases hid : id' = id
    · simp [hid]
    · simp [hid]
  · simp [hne]

/-- Eviction of an element, with the entry of its identifier. -/
theorem Inv.evictEntry {s : St} {xs : List Ptr} (h : Inv s xs) {ns id : Bytes} {r : Results}
    (hr : mget s.namespaces ns = some r) :
    Inv { s with namespaces := mset s.namespaces ns { r with elems := mdel r.elems id } } xs := by
  refine h.shrink rfl rfl rfl (nodup_mset h.nsNodup _ _) ?_
    (fun ns' src id' q hq => ⟨src, ((cached_mdel hr _ _ _ _).mp hq).1⟩) ?_
  · intro ns' r' hr'
    have : mget (mset s.namespaces ns { r with elems := mdel r.elems id }) ns' = some r' := hr'
    rw [mget_mset] at this
    by_cases hne : ns' = ns
    · simp only [hne, if_true, Option.some.injEq] at this
      rw [← this]; exact nodup_mdel (h.elNodup ns r hr) _
    · simp only [hne, if_false] at this
      exact h.elNodup ns' r' this
  · intro q hq
    obtain ⟨h1, h2⟩ := h.doomed q hq
    exact ⟨h1, fun ns' src id' hx => h2 ns' src id' ((cached_mdel hr _ _ _ _).mp hx).1⟩

theorem Good.evictCached {s : St} {xs : List Ptr} (h : Inv s xs) {ns id : Bytes} {r : Results} {p : Ptr} (hp : p ∈ xs)
    (hr : mget s.namespaces ns = some r) (hpns : (s.heap p).ns = ns) (hpid : (s.heap p).id = id)
    (hd : mget r.elems id = some p ∨ s.doomed = []) :
    Good s xs (St.listRemove { s with namespaces := mset s.namespaces ns { r with elems := mdel r.elems id } } (some p))
      (xs.erase p) noNew := by
  have h1 := h.evictEntry (id := id) hr
  have hnc : ∀ ns' src id', ¬ St.cached { s with namespaces := mset s.namespaces ns { r with elems := mdel r.elems id } } ns' src id' p := by
    intro ns' src id' hx
    obtain ⟨hx, hn⟩ := (cached_mdel hr _ _ _ _).mp hx
    obtain ⟨_, e1, e2⟩ := h.cached _ _ _ _ hx
    exact hn ⟨e1.symm.trans hpns, e2.symm.trans hpid⟩
  have h2 := Good.listRemove h1 (h.bound p hp) hnc
  refine ⟨h2.inv, ⟨h2.evolves.next, h2.evolves.data, h2.evolves.deleted⟩, ?_, ?_,
    .of_sublist (fun ns' src id' q hq => ((cached_mdel hr _ _ _ _).mp ((h2.entries ns' src id' q hq).resolve_right (fun x => x))).1) List.erase_sublist⟩
  · intro ns' src id' q hq
    rcases h2.entries ns' src id' q hq with hx | hx
    · exact Or.inl ((cached_mdel hr _ _ _ _).mp hx).1
    · exact hx.elim
  · intro ho q hq
    have hq1 := List.mem_of_mem_erase hq
    have hqp : q ≠ p := fun e => by
      rw [e, h.repr.nodup.mem_erase_iff] at hq
      exact hq.1 rfl
    obtain ⟨d1, d2, _⟩ := h2.evolves.data q (h.bound q hq1)
    rw [d1, d2]
    rcases ho q hq1 with ⟨src, hx⟩ | hx
    · refine Or.inl ⟨src, (cached_mdel (s := s) hr _ _ _ _).mpr ⟨hx, ?_⟩⟩
      rintro ⟨e1, e2⟩
      have e1' : (s.heap q).ns = ns := e1
      have e2' : (s.heap q).id = id := e2
      rcases hd with hd | hd
      · obtain ⟨r', g1, g2, g3⟩ := hx
        rw [e1', hr] at g1
        cases g1
        rw [e2', hd] at g3
        cases g3
        exact hqp rfl
      · -- both elements are cached, under the same identifier
        rcases ho p hp with ⟨src', hy⟩ | hy
        · obtain ⟨r', g1, g2, g3⟩ := hx
          obtain ⟨r'', k1, k2, k3⟩ := hy
          rw [e1', hr] at g1
          rw [hpns, hr] at k1
          cases g1; cases k1
          rw [e2'] at g3
          rw [hpid] at k3
          rw [k3] at g3
          cases g3
          exact hqp rfl
        · rw [hd] at hy; cases hy
    · exact Or.inr hx

/-- `invalidateWithLock`. -/
theorem Good.invalidate {s : St} {xs : List Ptr} (h : Inv s xs) (cfg : Config) {ns id : Bytes} {r : Results} {p : Ptr}
    (hr : mget s.namespaces ns = some r) (hp : mget r.elems id = some p) :
    ∃ xs', Good s xs (s.invalidateWithLock cfg ns id r).1 xs' noNew ∧
      mget (s.invalidateWithLock cfg ns id r).1.namespaces ns = some (s.invalidateWithLock cfg ns id r).2 ∧
      (s.invalidateWithLock cfg ns id r).2.source = r.source ∧ mget (s.invalidateWithLock cfg ns id r).2.elems id = none := by
  unfold St.invalidateWithLock
  by_cases hm : cfg.invalidateAll = true
  · simp only [hm, if_true]
    refine ⟨xs, Good.dropNs h ns rfl rfl rfl rfl (nodup_mset h.nsNodup _ _) ?_ ?_ (Or.inr ⟨r, hr, rfl⟩), ?_, by trivial, rfl⟩
    · intro ns' hne
      show mget (mset s.namespaces ns _) ns' = _
      rw [mget_mset, if_neg hne]
    · intro r' hr'
      have : mget (mset s.namespaces ns { r with elems := [] }) ns = some r' := hr'
      rw [mget_mset, if_pos rfl] at this
      cases this; rfl
    · show mget (mset s.namespaces ns _) ns = _
      rw [mget_mset, if_pos rfl]
  · simp only [hm, Bool.false_eq_true, if_false, hp]
    have hc : s.cached ns r.source id p := ⟨r, hr, rfl, hp⟩
    obtain ⟨hx, e1, e2⟩ := h.cached _ _ _ _ hc
    refine ⟨_, Good.evictCached h hx hr e1 e2 (Or.inl hp), ?_, by trivial, ?_⟩
    · show mget (mset s.namespaces ns _) ns = _
      rw [mget_mset, if_pos rfl]
    · show mget (mdel r.elems id) id = none
      rw [mget_mdel, if_pos rfl]

/-- A new element is cached. -/
theorem Good.insert {s : St} {xs : List Ptr} (h : Inv s xs) {ns id : Bytes} {r : Results} (hr : mget s.namespaces ns = some r)
    (hp : mget r.elems id = none) (res : MatchResult) (exp : Int) :
    Good s xs
      (St.add { s with nextPtr := s.nextPtr + 1
                       heap := s.heap.upd s.nextPtr fun _ => { newElement ns id res with expiryNanos := exp }
                       namespaces := mset s.namespaces ns { r with elems := mset r.elems id s.nextPtr } } s.nextPtr)
      (s.nextPtr :: xs) (fun a b c d => a = ns ∧ b = r.source ∧ c = id ∧ d = res) := by
  have hfresh : s.nextPtr ∉ xs := fun hc => Nat.lt_irrefl _ (h.bound _ hc)
  have hold : ∀ q, q ≠ s.nextPtr → (s.heap.upd s.nextPtr fun _ => { newElement ns id res with expiryNanos := exp }) q = s.heap q := by
    intro q hq; unfold Heap.upd; rw [if_neg hq]
  have hnew : (s.heap.upd s.nextPtr fun _ => { newElement ns id res with expiryNanos := exp }) s.nextPtr =
      { newElement ns id res with expiryNanos := exp } := by unfold Heap.upd; rw [if_pos rfl]
  have hrep : Repr (s.heap.upd s.nextPtr fun _ => { newElement ns id res with expiryNanos := exp }) s.list xs :=
    h.repr.congr fun q hq => by
      rw [hold q (fun e => hfresh (e ▸ hq))]; exact ⟨rfl, rfl, rfl⟩
  have hdel : ((s.heap.upd s.nextPtr fun _ => { newElement ns id res with expiryNanos := exp }) s.nextPtr).deleted = false := by
    rw [hnew]; rfl
  obtain ⟨k1, k2, k3, _⟩ := pushFrontElem_repr hrep hfresh hdel
  unfold St.add
  simp only [pushFront, hdel, Bool.false_eq_true, if_false]
  generalize hg : (s.heap.upd s.nextPtr fun _ => { newElement ns id res with expiryNanos := exp }) = g at *
  have hc : ∀ (s' : St), s'.namespaces = mset s.namespaces ns { r with elems := mset r.elems id s.nextPtr } →
      ∀ ns' src id' q, s'.cached ns' src id' q ↔
        (ns' = ns ∧ src = r.source ∧ id' = id ∧ q = s.nextPtr) ∨ (s.cached ns' src id' q ∧ ¬ (ns' = ns ∧ id' = id)) := by
    intro s' hs' ns' src id' q
    unfold St.cached
    rw [hs']
    simp only [mget_mset]
    by_cases hne : ns' = ns
    · subst hne
      simp only [if_true, Option.some.injEq, exists_eq_left', hr, mget_mset]
      by_cases hid : id' = id
      · simp only [hid, if_true, Option.some.injEq, hp]
        constructor
        · rintro ⟨a, b⟩; exact Or.inl ⟨trivial, a.symm, trivial, b.symm⟩
        · rintro (⟨_, a, _, b⟩ | ⟨_, a⟩)
          · exact ⟨a.symm, b.symm⟩
          · exact absurd ⟨trivial, trivial⟩ a
      · simp [hid]
    · simp [hne]
  have hres : ∀ q, q ≠ s.nextPtr → (((pushFrontElem g s.list s.nextPtr).1 q).ns = (s.heap q).ns ∧
      ((pushFrontElem g s.list s.nextPtr).1 q).id = (s.heap q).id ∧
      ((pushFrontElem g s.list s.nextPtr).1 q).result = (s.heap q).result) := by
    intro q hq
    have := k2 q
    rw [hold q hq] at this
    exact this
  have hres' : ((pushFrontElem g s.list s.nextPtr).1 s.nextPtr).ns = ns ∧
      ((pushFrontElem g s.list s.nextPtr).1 s.nextPtr).id = id ∧
      ((pushFrontElem g s.list s.nextPtr).1 s.nextPtr).result = res := by
    have := k2 s.nextPtr
    rw [hnew] at this
    exact this
  have hnecached : ∀ ns' src id' q, s.cached ns' src id' q → q ≠ s.nextPtr := by
    rintro ns' src id' q hq rfl
    exact hfresh (h.cached _ _ _ _ hq).1
  have hnedoomed : ∀ q, q ∈ s.doomed → q ≠ s.nextPtr := by
    rintro q hq rfl
    exact Nat.lt_irrefl _ (h.doomed _ hq).1
  refine ⟨⟨k1, ?_, ?_, nodup_mset h.nsNodup _ _, ?_, ?_, ?_⟩, ⟨Nat.le_succ _, ?_, ?_⟩, ?_, ?_, ?_⟩
  · intro q hq
    show q < s.nextPtr + 1
    rcases List.mem_cons.mp hq with rfl | hq
    · omega
    · have := h.bound q hq; omega
  · intro q hq
    have hq' : q < s.nextPtr + 1 := hq
    by_cases e : q = s.nextPtr
    · exact Or.inl (by rw [e]; simp)
    · rcases h.all q (by omega) with hx | hx
      · exact Or.inl (List.mem_cons_of_mem _ hx)
      · refine Or.inr ?_
        show ((pushFrontElem g s.list s.nextPtr).1 q).deleted = true
        rw [(k3 q).1, hold q e]; exact hx
  · intro ns' r' hr'
    have hr2 : mget (mset s.namespaces ns { r with elems := mset r.elems id s.nextPtr }) ns' = some r' := hr'
    rw [mget_mset] at hr2
    by_cases hne : ns' = ns
    · simp only [hne, if_true, Option.some.injEq] at hr2
      rw [← hr2]; exact nodup_mset (h.elNodup ns r hr) _ _
    · simp only [hne, if_false] at hr2
      exact h.elNodup ns' r' hr2
  · intro ns' src id' q hq
    rcases (hc _ rfl ns' src id' q).mp hq with ⟨rfl, rfl, rfl, rfl⟩ | ⟨hq, _⟩
    · exact ⟨by simp, hres'.1, hres'.2.1⟩
    · obtain ⟨a, b, c⟩ := h.cached _ _ _ _ hq
      obtain ⟨d1, d2, _⟩ := hres q (hnecached _ _ _ _ hq)
      exact ⟨List.mem_cons_of_mem _ a, d1.trans b, d2.trans c⟩
  · intro q hq
    obtain ⟨a, b⟩ := h.doomed q hq
    refine ⟨Nat.lt_succ_of_lt a, fun ns' src id' hx => ?_⟩
    rcases (hc _ rfl ns' src id' q).mp hx with ⟨_, _, _, e⟩ | ⟨hx, _⟩
    · exact hnedoomed q hq e
    · exact b _ _ _ hx
  · intro q hq
    exact hres q (Nat.ne_of_lt hq)
  · intro q hq hd
    show ((pushFrontElem g s.list s.nextPtr).1 q).deleted = true
    rw [(k3 q).1, hold q (Nat.ne_of_lt hq)]; exact hd
  · intro ns' src id' q hq
    rcases (hc _ rfl ns' src id' q).mp hq with ⟨rfl, rfl, rfl, rfl⟩ | ⟨hq, _⟩
    · exact Or.inr ⟨rfl, rfl, rfl, hres'.2.2⟩
    · exact Or.inl hq
  · intro ho q hq
    by_cases e : q = s.nextPtr
    · subst e
      refine Or.inl ⟨r.source, (hc _ rfl _ _ _ _).mpr (Or.inl ⟨hres'.1, rfl, hres'.2.1, rfl⟩)⟩
    · have hq' : q ∈ xs := by
        rcases List.mem_cons.mp hq with hq | hq
        · exact absurd hq e
        · exact hq
      obtain ⟨d1, d2, _⟩ := hres q e
      rcases ho q hq' with ⟨src, hx⟩ | hx
      · refine Or.inl ⟨src, (hc _ rfl _ _ _ _).mpr (Or.inr ⟨by rw [d1, d2]; exact hx, ?_⟩)⟩
        rintro ⟨e1, e2⟩
        rw [d1] at e1
        rw [d2] at e2
        obtain ⟨r', g1, _, g3⟩ := hx
        rw [e1, hr] at g1
        cases g1
        rw [e2, hp] at g3
        cases g3
      · exact Or.inr hx
  · refine ⟨fun q hq hno ns' src id' hx => ?_, [s.nextPtr], xs, rfl, List.Sublist.refl _, fun q hq => ?_⟩
    · rcases (hc _ rfl ns' src id' q).mp hx with ⟨_, _, _, e⟩ | ⟨hx, _⟩
      · exact absurd e (Nat.ne_of_lt hq)
      · exact hno ns' src id' hx
    · rw [List.mem_singleton.mp hq]; exact Or.inl (Nat.le_refl _)

/-- What a lookup may add to the maps. -/
def added (fm : Nat → Bytes → Int → Int → MatchResult) (b : Bool) (ns id : Bytes) (frm to : Int) :
    Bytes → Nat → Bytes → MatchResult → Prop :=
  fun ns' src id' res => b = true ∧ ns' = ns ∧ id' = id ∧ res = fm src id frm to

theorem Good.setWithLock {s : St} {xs : List Ptr} (h : Inv s xs) (cfg : Config) (fm : Nat → Bytes → Int → Int → MatchResult)
    (t : Tick) {ns id : Bytes} (frm to : Int) {r : Results} (hr : mget s.namespaces ns = some r) (b : Bool)
    (hb : b = (mget r.elems id).isSome) :
    (∃ xs', Good s xs (s.setWithLock cfg fm t ns id frm to r b).1 xs' (added fm true ns id frm to)) ∧
    (s.setWithLock cfg fm t ns id frm to r b).2 = fm r.source id frm to := by
  have hinv : ∃ xs', Good s xs (s.invalidateIf cfg ns id r b).1 xs' noNew ∧
      mget (s.invalidateIf cfg ns id r b).1.namespaces ns = some (s.invalidateIf cfg ns id r b).2 ∧
      (s.invalidateIf cfg ns id r b).2.source = r.source ∧ mget (s.invalidateIf cfg ns id r b).2.elems id = none := by
    unfold St.invalidateIf
    cases hp : mget r.elems id with
    | none =>
      rw [hp] at hb
      simp only [Option.isSome_none] at hb
      simp only [hb, Bool.false_eq_true, if_false]
      exact ⟨xs, Good.same h, hr, by trivial, hp⟩
    | some p =>
      rw [hp] at hb
      simp only [Option.isSome_some] at hb
      simp only [hb, if_true]
      exact Good.invalidate h cfg hr hp
  obtain ⟨xs1, g1, g2, g3, g4⟩ := hinv
  unfold St.setWithLock
  generalize s.invalidateIf cfg ns id r b = x at *
  obtain ⟨s1, r1⟩ := x
  simp only at g1 g2 g3 g4 ⊢
  refine ⟨?_, by rw [g3]⟩
  have hi := Good.insert g1.inv g2 g4 (fm r1.source id frm to) (newPromotionExpiry cfg t)
  have hi' := (g1.trans hi).weaken (new' := added fm true ns id frm to) (by
    rintro a b c d ⟨rfl, rfl, rfl, rfl⟩
    exact ⟨rfl, rfl, rfl, rfl⟩)
  refine ⟨s1.nextPtr :: xs1, ?_⟩
  · split
    · exact ⟨⟨hi'.inv.repr, hi'.inv.bound, hi'.inv.all, hi'.inv.nsNodup, hi'.inv.elNodup, hi'.inv.cached, hi'.inv.doomed⟩,
        ⟨hi'.evolves.next, hi'.evolves.data, hi'.evolves.deleted⟩, hi'.entries, hi'.owned, hi'.aged⟩
    · exact hi'

theorem Good.promote {s : St} {xs : List Ptr} (h : Inv s xs) (cfg : Config) (t : Tick) {p : Ptr} (hp : p ∈ xs)
    (hcd : ∃ ns src id, s.cached ns src id p) :
    ∃ xs', Good s xs (s.promote cfg t p) xs' noNew := by
  obtain ⟨⟨xs', h1, hperm, hxs⟩, h2, h3, h4, h5, h6, h7, _⟩ := h.promote cfg t hp
  refine ⟨xs', h1, Evolves.of_same h5 h2 (fun q hq => by rw [h3]; exact hq), ?_, ?_, ?_⟩
  · intro ns src id q hq
    unfold St.cached at hq ⊢
    rw [h4] at hq
    exact Or.inl hq
  · intro ho q hq
    obtain ⟨d1, d2, _⟩ := h2 q
    have hd : (s.promote cfg t p).doomed = s.doomed := by unfold St.doomed; rw [h6, h7]
    rw [d1, d2, hd]
    unfold St.cached
    rw [h4]
    exact ho q (hperm.mem_iff.mp hq)
  · have hcc : ∀ ns src id q, (s.promote cfg t p).cached ns src id q → s.cached ns src id q := by
      intro ns src id q hq
      unfold St.cached at hq ⊢
      rw [h4] at hq
      exact hq
    rcases hxs with rfl | rfl
    · exact .of_sublist hcc (List.Sublist.refl _)
    · refine ⟨fun _ _ hn ns src id hx => hn ns src id (hcc ns src id _ hx), [p], xs.erase p, rfl, List.erase_sublist, fun q hq => ?_⟩
      rw [List.mem_singleton.mp hq]
      exact Or.inr hcd

theorem Good.tryGet {s : St} {xs : List Ptr} (h : Inv s xs) (cfg : Config) (fm : Nat → Bytes → Int → Int → MatchResult)
    (t : Tick) (ns id : Bytes) (frm to : Int) (b : Bool) :
    ∃ xs', Good s xs (s.tryGetWithLock cfg fm t ns id frm to b).1 xs' (added fm b ns id frm to) := by
  have hw : ∀ {s' xs'}, Good s xs s' xs' noNew → Good s xs s' xs' (added fm b ns id frm to) :=
    fun g => g.weaken (fun _ _ _ _ hx => hx.elim)
  unfold St.tryGetWithLock
  cases hr : mget s.namespaces ns with
  | none => exact ⟨xs, hw (Good.same h)⟩
  | some r =>
    simp only
    cases hp : mget r.elems id with
    | none =>
      simp only
      cases b with
      | false => exact ⟨xs, hw (Good.same h)⟩
      | true => exact (Good.setWithLock h cfg fm t frm to hr false (by simp [hp])).1
    | some p =>
      simp only
      by_cases he : (!(s.heap p).result.hasExpired to) = true
      · simp only [he, if_true]
        by_cases hs : (s.heap p).shouldPromote t.now = true
        · simp only [hs, if_true]
          obtain ⟨xs', g⟩ := Good.promote h cfg t (h.cached ns r.source id p ⟨r, hr, rfl, hp⟩).1 ⟨ns, r.source, id, r, hr, rfl, hp⟩
          exact ⟨xs', hw g⟩
        · simp only [hs, Bool.false_eq_true, if_false]; exact ⟨xs, hw (Good.same h)⟩
      · simp only [he, Bool.false_eq_true, if_false]
        cases b with
        | false => exact ⟨xs, hw (Good.same h)⟩
        | true => exact (Good.setWithLock h cfg fm t frm to hr true (by simp [hp])).1

/-! ### Eviction -/

/-- One round of `doEvict`. -/
def evictOne (s : St) (p : Ptr) : St :=
  let s := s.listRemove (some p)
  match mget s.namespaces (s.heap p).ns with
  | none => s
  | some r => { s with namespaces := mset s.namespaces (s.heap p).ns { r with elems := mdel r.elems (s.heap p).id } }

theorem evictLoop_succ (cfg : Config) (n : Nat) (s : St) : evictLoop cfg (n + 1) s =
    if s.list.length > cfg.capacity then match s.list.tail with
      | none => none
      | some p => evictLoop cfg n (evictOne s p)
    else some s := by
  rw [evictLoop]
  unfold evictOne
  cases s.list.tail with
  | none => rfl
  | some p =>
    simp only
    cases mget (s.listRemove (some p)).namespaces ((s.listRemove (some p)).heap p).ns <;> rfl

theorem Good.evictOne {s : St} {xs : List Ptr} (h : Inv s xs) {p : Ptr} (hp : p ∈ xs) :
    (Inv (evictOne s p) (xs.erase p) ∧ Evolves s (evictOne s p) ∧
      (∀ ns src id q, (evictOne s p).cached ns src id q → s.cached ns src id q)) ∧
    (s.doomed = [] → Owned s xs → Owned (evictOne s p) (xs.erase p)) ∧ (evictOne s p).doomed = s.doomed := by
  obtain ⟨_, h2, _⟩ := remove_repr h.repr hp
  have e1 : ((s.listRemove (some p)).heap p).ns = (s.heap p).ns := (h2 p).1
  have e2 : ((s.listRemove (some p)).heap p).id = (s.heap p).id := (h2 p).2.1
  unfold Cache.evictOne
  simp only [e1, e2]
  cases hr : mget s.namespaces (s.heap p).ns with
  | none =>
    have hr' : mget (s.listRemove (some p)).namespaces (s.heap p).ns = none := hr
    simp only [hr']
    have hnc : ∀ ns src id, ¬ s.cached ns src id p := by
      intro ns src id hx
      obtain ⟨_, a, _⟩ := h.cached _ _ _ _ hx
      obtain ⟨r, g, _⟩ := hx
      rw [← a, hr] at g; cases g
    have g := Good.listRemove h (h.bound p hp) hnc
    refine ⟨⟨g.inv, g.evolves, fun ns src id q hq => ?_⟩, fun _ => g.owned, rfl⟩
    exact hq
  | some r =>
    have hr' : mget (s.listRemove (some p)).namespaces (s.heap p).ns = some r := hr
    simp only [hr']
    have hi := h.evictEntry (id := (s.heap p).id) hr
    have hnc : ∀ ns' src id', ¬ St.cached { s with namespaces := mset s.namespaces (s.heap p).ns { r with elems := mdel r.elems (s.heap p).id } } ns' src id' p := by
      intro ns' src id' hx
      obtain ⟨hx, hn⟩ := (cached_mdel hr _ _ _ _).mp hx
      obtain ⟨_, a, b⟩ := h.cached _ _ _ _ hx
      exact hn ⟨a.symm, b.symm⟩
    have g := Good.listRemove hi (h.bound p hp) hnc
    refine ⟨⟨g.inv, ⟨g.evolves.next, g.evolves.data, g.evolves.deleted⟩, fun ns src id q hq => ?_⟩, fun hd ho => ?_, rfl⟩
    · exact ((cached_mdel hr _ _ _ _).mp (show St.cached { s with namespaces := mset s.namespaces (s.heap p).ns { r with elems := mdel r.elems (s.heap p).id } } ns src id q from hq)).1
    · exact (Good.evictCached h hp hr rfl rfl (Or.inr hd)).owned ho

theorem length_erase_mem {xs : List Ptr} {p : Ptr} (h : p ∈ xs) : (xs.erase p).length + 1 = xs.length := by
  have := List.length_erase_of_mem h
  have := List.length_pos_of_mem h
  omega

theorem evictLoop_good (cfg : Config) (hcap : 0 ≤ cfg.capacity) : ∀ (n : Nat) (s : St) (xs : List Ptr), Inv s xs → xs.length ≤ n →
    ∃ s' xs', evictLoop cfg n s = some s' ∧ Inv s' xs' ∧ Evolves s s' ∧ (s'.list.length ≤ cfg.capacity) ∧
      (∀ ns src id q, s'.cached ns src id q → s.cached ns src id q) ∧ (s.doomed = [] → Owned s xs → Owned s' xs') ∧
      s'.doomed = s.doomed ∧ s'.toDelete = s.toDelete ∧ s'.deleter = s.deleter ∧ s'.deleteCh = s.deleteCh ∧
      s'.closed = s.closed ∧ s'.evictCh = s.evictCh ∧ (∃ ys, xs = xs' ++ ys) ∧
      (cfg.capacity < s.list.length → s'.list.length = cfg.capacity) ∧ (s.list.length ≤ cfg.capacity → s' = s)
  | 0, s, xs, h, hn => by
    have e : xs = [] := List.eq_nil_of_length_eq_zero (by omega)
    have hl := h.repr.length
    rw [e] at hl
    simp only [List.length_nil] at hl
    refine ⟨s, xs, rfl, h, Evolves.refl s, by omega, fun _ _ _ _ hq => hq, fun _ ho => ho, rfl, rfl, rfl, rfl, rfl, rfl,
      ⟨[], by simp⟩, fun hc => by omega, fun _ => rfl⟩
  | n + 1, s, xs, h, hn => by
    rw [evictLoop_succ]
    by_cases hc : s.list.length > cfg.capacity
    · rw [if_pos hc]
      have hne : xs ≠ [] := by
        rintro rfl
        have := h.repr.length
        simp only [List.length_nil] at this
        omega
      rcases List.eq_nil_or_concat xs with hx | ⟨ys, p, hx⟩
      · exact absurd hx hne
      · rw [List.concat_eq_append] at hx
        have ht : s.list.tail = some p := by rw [h.repr.tail, hx]; simp
        have hp : p ∈ xs := by rw [hx]; simp
        have hpy : p ∉ ys := by
          have := h.repr.nodup
          rw [hx, List.nodup_append] at this
          exact fun hc => this.2.2 p hc p (by simp) rfl
        have her : xs.erase p = ys := by
          rw [hx, List.erase_append_right _ hpy]; simp
        simp only [ht]
        obtain ⟨⟨i1, i2, i3⟩, i4, i5⟩ := Good.evictOne h hp
        obtain ⟨s', xs', j1, j2, j3, j4, j5, j6, j7, j8, j9, j10, j11, j12, ⟨zs, j13⟩, j14, j15⟩ :=
          evictLoop_good cfg hcap n _ _ i1 (by have := length_erase_mem hp; omega)
        have f1 : (evictOne s p).toDelete = s.toDelete := by unfold Cache.evictOne; simp only; split <;> rfl
        have f2 : (evictOne s p).deleter = s.deleter := by unfold Cache.evictOne; simp only; split <;> rfl
        have f3 : (evictOne s p).deleteCh = s.deleteCh := by unfold Cache.evictOne; simp only; split <;> rfl
        have f4 : (evictOne s p).closed = s.closed := by unfold Cache.evictOne; simp only; split <;> rfl
        have f5 : (evictOne s p).evictCh = s.evictCh := by unfold Cache.evictOne; simp only; split <;> rfl
        have hlen : (evictOne s p).list.length + 1 = s.list.length := by
          rw [i1.repr.length, h.repr.length]
          have := length_erase_mem hp
          omega
        refine ⟨s', xs', j1, j2, i2.trans j3, j4, fun a b c d hq => i3 a b c d (j5 a b c d hq), ?_, j7.trans i5, j8.trans f1,
          j9.trans f2, j10.trans f3, j11.trans f4, j12.trans f5, ⟨zs ++ [p], ?_⟩, ?_, ?_⟩
        · intro hd ho
          exact j6 (i5.trans hd) (i4 hd ho)
        · rw [hx, ← List.append_assoc, ← j13, her]
        · intro _
          by_cases hcc : cfg.capacity < (evictOne s p).list.length
          · exact j14 hcc
          · rw [j15 (by omega)]; omega
        · intro hle; omega
    · rw [if_neg hc]
      exact ⟨s, xs, rfl, h, Evolves.refl s, by omega, fun _ _ _ _ hq => hq, fun _ ho => ho, rfl, rfl, rfl, rfl, rfl, rfl,
        ⟨[], by simp⟩, fun hcc => absurd hcc hc, fun _ => rfl⟩

/-! ### Steps -/

theorem mem_eraseIdx_or {l : List Ptr} {k : Nat} {p q : Ptr} (hk : l[k]? = some p) (hq : q ∈ l) : q = p ∨ q ∈ l.eraseIdx k := by
  induction l generalizing k with
  | nil => simp at hq
  | cons a l ih =>
    cases k with
    | zero =>
      simp only [List.getElem?_cons_zero, Option.some.injEq] at hk
      subst hk
      rcases List.mem_cons.mp hq with h | h
      · exact Or.inl h
      · exact Or.inr (by simpa using h)
    | succ k =>
      simp only [List.getElem?_cons_succ] at hk
      rcases List.mem_cons.mp hq with h | h
      · exact Or.inr (by simp [h])
      · rcases ih hk h with h | h
        · exact Or.inl h
        · exact Or.inr (by simp [h])

/-- What every step preserves. -/
structure StepOK (fm : Nat → Bytes → Int → Int → MatchResult) (act : Act) (s : St) (xs : List Ptr) (s' : St)
    (xs' : List Ptr) : Prop where
  inv : Inv s' xs'
  evolves : Evolves s s'
  entries : ∀ ns src id p, s'.cached ns src id p → s.cached ns src id p ∨
    ∃ t frm to, act = .fill t ns id frm to ∧ (s'.heap p).result = fm src id frm to
  owned : (act = .evictRun → s.doomed = []) → Owned s xs → Owned s' xs'
  aged : Aged s xs s' xs'

theorem StepOK.of_good {fm act s xs s' xs'} (g : Good s xs s' xs' noNew) : StepOK fm act s xs s' xs' :=
  ⟨g.inv, g.evolves, fun a b c d h => (g.entries a b c d h).imp_right (·.elim), fun _ => g.owned, g.aged⟩

theorem step_ok (cfg : Config) (hcap : 0 ≤ cfg.capacity) (fm : Nat → Bytes → Int → Int → MatchResult) {s s' : St} {xs : List Ptr}
    (h : Inv s xs) (act : Act) (hs : s.step cfg fm act = some s') : ∃ xs', StepOK fm act s xs s' xs' := by
  have get : ∀ b t ns id frm to, (b = true → act = .fill t ns id frm to) →
      some (s.tryGetWithLock cfg fm t ns id frm to b).1 = some s' → ∃ xs', StepOK fm act s xs s' xs' := by
    intro b t ns id frm to hb e
    cases e
    obtain ⟨xs', g⟩ := Good.tryGet h cfg fm t ns id frm to b
    refine ⟨xs', g.inv, g.evolves, ?_, fun _ => g.owned, g.aged⟩
    intro ns' src id' p hp
    rcases g.entries ns' src id' p hp with hx | ⟨hx, rfl, rfl, hr⟩
    · exact Or.inl hx
    · exact Or.inr ⟨t, frm, to, hb hx, hr⟩
  have same : ∀ s'' : St, s' = s'' → s''.heap = s.heap → s''.list = s.list → s''.nextPtr = s.nextPtr → s''.namespaces = s.namespaces →
      (∀ p, p ∈ s''.doomed ↔ p ∈ s.doomed) → ∃ xs', StepOK fm act s xs s' xs' := by
    rintro s'' rfl a b c d e
    exact ⟨xs, StepOK.of_good (Good.flags h a b c d e)⟩
  cases act with
  | get t ns id frm to => exact get false t ns id frm to (by simp) hs
  | fill t ns id frm to => exact get true t ns id frm to (by simp) hs
  | register ns src => cases hs; exact ⟨xs, StepOK.of_good (Good.register h ns src)⟩
  | refresh ns src => cases hs; exact ⟨xs, StepOK.of_good (Good.refresh h ns src)⟩
  | unregister ns => cases hs; exact ⟨xs, StepOK.of_good (Good.unregister h ns)⟩
  | close => cases hs; exact same _ rfl rfl rfl rfl rfl (fun _ => Iff.rfl)
  | notify => cases hs; exact same _ rfl rfl rfl rfl rfl (fun _ => Iff.rfl)
  | evictWake =>
    simp only [St.step] at hs
    split at hs
    · cases hs; exact same _ rfl rfl rfl rfl rfl (fun _ => Iff.rfl)
    · cases hs
  | evictExit =>
    simp only [St.step] at hs
    split at hs
    · cases hs; exact same _ rfl rfl rfl rfl rfl (fun _ => Iff.rfl)
    · cases hs
  | evictRun =>
    simp only [St.step] at hs
    split at hs
    · have hl : xs.length ≤ s.list.length.toNat := by rw [h.repr.length]; simp
      obtain ⟨s1, xs', e, i, ev, _, ce, ow, dm, _, dl, _, _, _, ⟨ys, hys⟩, _⟩ := evictLoop_good cfg hcap _ s xs h hl
      unfold St.doEvict at hs
      rw [e] at hs
      cases hs
      refine ⟨xs', ⟨i.repr, i.bound, i.all, i.nsNodup, i.elNodup, i.cached, i.doomed⟩, ⟨ev.next, ev.data, ev.deleted⟩, ?_, ?_,
        .of_sublist (fun ns src id p hp => ce ns src id p hp) (by rw [hys]; exact List.sublist_append_left _ _)⟩
      · intro ns src id p hp; exact Or.inl (ce ns src id p hp)
      · intro hd ho; exact ow (hd rfl) ho
    · cases hs
  | deleteWake =>
    simp only [St.step] at hs
    split at hs
    · next hc =>
      cases hs
      refine same _ rfl rfl rfl rfl rfl (fun p => ?_)
      simp [St.doomed, Deleter.left, hc.1]
    · cases hs
  | deleteExit =>
    simp only [St.step] at hs
    split at hs
    · next hc =>
      cases hs
      refine same _ rfl rfl rfl rfl rfl (fun p => ?_)
      simp [St.doomed, Deleter.left, hc.1]
    · cases hs
  | deleteDone =>
    simp only [St.step] at hs
    split at hs
    · next hc =>
      cases hs
      refine same _ rfl rfl rfl rfl rfl (fun p => ?_)
      simp [St.doomed, Deleter.left, hc]
    · cases hs
  | deleteTake =>
    simp only [St.step] at hs
    split at hs
    · next hc =>
      cases hs
      unfold St.takeDeletions
      split
      · next hz =>
        refine ⟨xs, StepOK.of_good (Good.flags h rfl rfl rfl rfl (fun p => ?_))⟩
        simp [St.doomed, Deleter.left, hc]
      · next hz =>
        refine ⟨xs, StepOK.of_good (Good.flags h rfl rfl rfl rfl (fun p => ?_))⟩
        simp only [St.doomed, Deleter.left, hc, List.flatMap_nil, List.nil_append, List.append_nil, List.mem_map, List.mem_flatMap, id]
        constructor
        · rintro ⟨e, ⟨m, hm, he⟩, rfl⟩; exact ⟨m, hm, e, he, rfl⟩
        · rintro ⟨m, hm, e, he, rfl⟩; exact ⟨e, ⟨m, hm, he⟩, rfl⟩
    · cases hs
  | deleteOne k =>
    simp only [St.step] at hs
    cases hd : s.deleter with
    | waiting => rw [hd] at hs; cases hs
    | awake => rw [hd] at hs; cases hs
    | gone => rw [hd] at hs; cases hs
    | removing left =>
      rw [hd] at hs
      simp only at hs
      cases hk : left[k]? with
      | none => rw [hk] at hs; cases hs
      | some p =>
        rw [hk] at hs
        simp only [Option.some.injEq] at hs
        have hm : p ∈ s.doomed := by
          unfold St.doomed
          rw [hd]
          exact List.mem_append_right _ (List.mem_of_getElem? hk)
        obtain ⟨b1, b2⟩ := h.doomed p hm
        have g := Good.listRemove h b1 b2
        subst hs
        refine ⟨xs.erase p, ⟨g.inv.repr, g.inv.bound, g.inv.all, g.inv.nsNodup, g.inv.elNodup, g.inv.cached, ?_⟩,
          ⟨g.evolves.next, g.evolves.data, g.evolves.deleted⟩, fun _ _ _ _ hx => Or.inl hx, ?_,
          .of_sublist (fun _ _ _ _ hx => hx) List.erase_sublist⟩
        · intro q hq
          refine g.inv.doomed q ?_
          have hq2 : q ∈ (s.toDelete.flatMap fun m => m.map (·.2)) ++ left.eraseIdx k := hq
          show q ∈ (s.toDelete.flatMap fun m => m.map (·.2)) ++ s.deleter.left
          rw [hd]
          rcases List.mem_append.mp hq2 with hx | hx
          · exact List.mem_append_left _ hx
          · exact List.mem_append_right _ (List.mem_of_mem_eraseIdx hx)
        · intro _ ho q hq
          rcases g.owned ho q hq with hx | hx
          · exact Or.inl hx
          · refine Or.inr ?_
            have hx2 : q ∈ (s.toDelete.flatMap fun m => m.map (·.2)) ++ s.deleter.left := hx
            show q ∈ (s.toDelete.flatMap fun m => m.map (·.2)) ++ left.eraseIdx k
            rw [hd] at hx2
            rcases List.mem_append.mp hx2 with hx | hx
            · exact List.mem_append_left _ hx
            · refine List.mem_append_right _ ((mem_eraseIdx_or hk hx).resolve_left ?_)
              rintro rfl
              rw [h.repr.nodup.mem_erase_iff] at hq
              exact hq.1 rfl

end Verif.Cache
