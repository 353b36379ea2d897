import Verif.Lemmas.Cache
/-
Removing two elements from the list of the cache in either order gives the same heap and the same list; and so does removing
an element before or after a new one is filled in.
-/
namespace Verif.Cache
open Verif.Active

set_option linter.unusedSimpArgs false

/-- Another way to write what `Remove` does. -/
def without (h : Heap) (p : Ptr) : Heap := fun q =>
  if q = p then { h q with prev := none, next := none, deleted := true }
  else { h q with next := if (h p).prev = some q then (h p).next else (h q).next
                  prev := if (h p).next = some q then (h p).prev else (h q).prev }

def listWithout (h : Heap) (l : LinkedList) (p : Ptr) : LinkedList :=
  { head := if (h p).prev = none then (h p).next else l.head
    tail := if (h p).next = none then (h p).prev else l.tail
    length := l.length - 1 }

theorem remove_eq {h : Heap} {l : LinkedList} {p : Ptr} (hd : (h p).deleted = false) (hp : (h p).prev ≠ some p) (hn : (h p).next ≠ some p) :
    remove h l (some p) = (without h p, listWithout h l p) := by
  simp only [remove, hd, Bool.false_eq_true, if_false, removeElem]
  cases e1 : (h p).prev with
  | none =>
    cases e2 : (h p).next with
    | none =>
      simp only [unlinkPrev, unlinkNext, Prod.mk.injEq]
      refine ⟨?_, by simp [listWithout, e1, e2]⟩
      funext q
      by_cases hq : q = p
      · subst hq; simp [without, Heap.upd]
      · simp [without, Heap.upd, hq, e1, e2]
    | some b =>
      simp only [unlinkPrev, unlinkNext, Prod.mk.injEq]
      refine ⟨?_, by simp [listWithout, e1, e2]⟩
      have hb : b ≠ p := fun e => hn (by rw [e2, e])
      funext q
      by_cases hq : q = p
      · subst hq; simp [without, Heap.upd, Ne.symm hb]
      · by_cases hq2 : q = b
        · subst hq2; simp [without, Heap.upd, hq, e1, e2]
        · simp [without, Heap.upd, hq, hq2, e1, e2, Ne.symm hq2]
  | some a =>
    have ha : a ≠ p := fun e => hp (by rw [e1, e])
    cases e2 : (h p).next with
    | none =>
      simp only [unlinkPrev, unlinkNext, Prod.mk.injEq]
      refine ⟨?_, by simp [listWithout, e1, e2]⟩
      funext q
      by_cases hq : q = p
      · subst hq; simp [without, Heap.upd, Ne.symm ha]
      · by_cases hq2 : q = a
        · subst hq2; simp [without, Heap.upd, hq, e1, e2]
        · simp [without, Heap.upd, hq, hq2, e1, e2, Ne.symm hq2]
    | some b =>
      simp only [unlinkPrev, unlinkNext, Prod.mk.injEq]
      refine ⟨?_, by simp [listWithout, e1, e2]⟩
      have hb : b ≠ p := fun e => hn (by rw [e2, e])
      funext q
      by_cases hq : q = p
      · subst hq; simp [without, Heap.upd, Ne.symm ha, Ne.symm hb]
      · by_cases hq2 : q = a
        · subst hq2
          by_cases hq3 : q = b
          · subst hq3; simp [without, Heap.upd, hq, e1, e2]
          · simp [without, Heap.upd, hq, hq3, e1, e2, Ne.symm hq3]
        · by_cases hq3 : q = b
          · subst hq3; simp [without, Heap.upd, hq, hq2, e1, e2, Ne.symm hq2]
          · simp [without, Heap.upd, hq, hq2, hq3, e1, e2, Ne.symm hq2, Ne.symm hq3]

/-! ### Neighbours -/

section Neighbours
variable {h : Heap} {l : LinkedList} {xs : List Ptr}

theorem Repr.prev_next (hr : Repr h l xs) {a b : Ptr} (ha : a ∈ xs) (e : (h a).next = some b) :
    b ∈ xs ∧ (h b).prev = some a ∧ a ≠ b ∧ (h b).next ≠ some a := by
  obtain ⟨pre, post, hx⟩ := List.append_of_mem ha
  have := (hr.links pre a post hx).2
  rw [e] at this
  cases post with
  | nil => simp at this
  | cons c post =>
    simp only [List.head?_cons, Option.some.injEq] at this
    subst this
    have hx2 : xs = (pre ++ [a]) ++ b :: post := by rw [hx]; simp
    have h2 := hr.links _ _ _ hx2
    have hnd := hr.nodup
    rw [hx] at hnd
    simp only [List.nodup_append, List.nodup_cons, List.mem_cons, not_or] at hnd
    refine ⟨by rw [hx]; simp, by rw [h2.1]; simp, hnd.2.1.1.1, ?_⟩
    rw [h2.2]
    intro hc
    exact hnd.2.1.1.2 (List.mem_of_mem_head? (by rw [hc]; rfl))

theorem Repr.next_prev (hr : Repr h l xs) {a b : Ptr} (ha : a ∈ xs) (e : (h a).prev = some b) : b ∈ xs ∧ (h b).next = some a := by
  obtain ⟨pre, post, hx⟩ := List.append_of_mem ha
  have := (hr.links pre a post hx).1
  rw [e] at this
  obtain ⟨pre', rfl⟩ := List.getLast?_eq_some_iff.mp this.symm
  have hx2 : xs = pre' ++ b :: (a :: post) := by rw [hx]; simp
  have h2 := hr.links _ _ _ hx2
  exact ⟨by rw [hx2]; simp, by rw [h2.2]; rfl⟩

theorem Repr.next_inj (hr : Repr h l xs) {a b : Ptr} (ha : a ∈ xs) (hb : b ∈ xs) (e : (h a).next = (h b).next) : a = b := by
  cases hn : (h a).next with
  | some c =>
    have h1 := (hr.prev_next ha hn).2.1
    have h2 := (hr.prev_next hb (e ▸ hn)).2.1
    rw [h1] at h2; exact Option.some.inj h2
  | none =>
    obtain ⟨pre, post, hx⟩ := List.append_of_mem ha
    obtain ⟨pre', post', hx'⟩ := List.append_of_mem hb
    have h1 := (hr.links pre a post hx).2
    have h2 := (hr.links pre' b post' hx').2
    rw [hn] at h1
    rw [← e, hn] at h2
    cases post with
    | cons _ _ => simp at h1
    | nil =>
      cases post' with
      | cons _ _ => simp at h2
      | nil =>
        rw [hx] at hx'
        have := congrArg List.getLast? hx'
        simpa using this

theorem Repr.prev_inj (hr : Repr h l xs) {a b : Ptr} (ha : a ∈ xs) (hb : b ∈ xs) (e : (h a).prev = (h b).prev) : a = b := by
  cases hn : (h a).prev with
  | some c =>
    have h1 := (hr.next_prev ha hn).2
    have h2 := (hr.next_prev hb (e ▸ hn)).2
    rw [h1] at h2; exact Option.some.inj h2
  | none =>
    obtain ⟨pre, post, hx⟩ := List.append_of_mem ha
    obtain ⟨pre', post', hx'⟩ := List.append_of_mem hb
    have h1 := (hr.links pre a post hx).1
    have h2 := (hr.links pre' b post' hx').1
    rw [hn] at h1
    rw [← e, hn] at h2
    have e1 : pre = [] := List.getLast?_eq_none_iff.mp h1.symm
    have e2 : pre' = [] := List.getLast?_eq_none_iff.mp h2.symm
    subst e1; subst e2
    rw [hx] at hx'
    simp only [List.nil_append, List.cons.injEq] at hx'
    exact hx'.1

theorem Repr.remove_eq (hr : Repr h l xs) {p : Ptr} (hp : p ∈ xs) : remove h l (some p) = (without h p, listWithout h l p) := by
  refine Cache.remove_eq (hr.alive p hp) ?_ ?_
  · intro e
    have := (hr.next_prev hp e).2
    exact (hr.prev_next hp this).2.2.1 rfl
  · intro e
    exact (hr.prev_next hp e).2.2.1 rfl

/-- Two elements of the list are removed. -/
theorem Repr.without_comm (hr : Repr h l xs) {a b : Ptr} (ha : a ∈ xs) (hb : b ∈ xs) (hab : a ≠ b) :
    without (without h a) b = without (without h b) a ∧
    listWithout (without h a) (listWithout h l a) b = listWithout (without h b) (listWithout h l b) a := by
  have hba := Ne.symm hab
  have naa : (h a).next ≠ some a := fun e => (hr.prev_next ha e).2.2.1 rfl
  have nbb : (h b).next ≠ some b := fun e => (hr.prev_next hb e).2.2.1 rfl
  have paa : (h a).prev ≠ some a := fun e => naa (hr.next_prev ha e).2
  have pbb : (h b).prev ≠ some b := fun e => nbb (hr.next_prev hb e).2
  have pi : (h a).prev ≠ (h b).prev := fun e => hab (hr.prev_inj ha hb e)
  have ni : (h a).next ≠ (h b).next := fun e => hab (hr.next_inj ha hb e)
  by_cases c1 : (h a).next = some b
  · have c2 := (hr.prev_next ha c1).2.1
    have c3 : (h b).next ≠ some a := (hr.prev_next ha c1).2.2.2
    have c4 : (h a).prev ≠ some b := fun e => c3 (hr.next_prev ha e).2
    constructor
    · funext q
      by_cases q1 : q = a
      · subst q1; simp [without, hab, hba, c1, c2, c3, c4, naa, nbb, paa, pbb]
      · by_cases q2 : q = b
        · subst q2; simp [without, hab, hba, c1, c2, c3, c4, naa, nbb, paa, pbb]
        · have q1' := Ne.symm q1
          have q2' := Ne.symm q2
          simp only [without, q1, q2, hab, hba, c1, c2, c3, c4, if_false, if_true, Option.some.injEq, q1', q2']
          by_cases d1 : (h a).prev = some q <;> by_cases d2 : (h b).next = some q <;> simp [d1, d2]
    · simp only [listWithout, without, hab, hba, c1, c2, c3, c4, if_false, if_true, LinkedList.mk.injEq]
      refine ⟨?_, ?_, trivial⟩
      · by_cases d1 : (h a).prev = none <;> simp [d1]
      · by_cases d1 : (h b).next = none <;> simp [d1]
  · by_cases c2 : (h b).next = some a
    · have c3 := (hr.prev_next hb c2).2.1
      have c4 : (h b).prev ≠ some a := fun e => c1 (hr.next_prev hb e).2
      constructor
      · funext q
        by_cases q1 : q = a
        · subst q1; simp [without, hab, hba, c1, c2, c3, c4, naa, nbb, paa, pbb]
        · by_cases q2 : q = b
          · subst q2; simp [without, hab, hba, c1, c2, c3, c4, naa, nbb, paa, pbb]
          · have q1' := Ne.symm q1
            have q2' := Ne.symm q2
            simp only [without, q1, q2, hab, hba, c1, c2, c3, c4, if_false, if_true, Option.some.injEq, q1', q2']
            by_cases d1 : (h b).prev = some q <;> by_cases d2 : (h a).next = some q <;> simp [d1, d2]
      · simp only [listWithout, without, hab, hba, c1, c2, c3, c4, if_false, if_true, LinkedList.mk.injEq]
        refine ⟨?_, ?_, trivial⟩
        · by_cases d1 : (h b).prev = none <;> simp [d1]
        · by_cases d1 : (h a).next = none <;> simp [d1]
    · have c3 : (h b).prev ≠ some a := fun e => c1 (hr.next_prev hb e).2
      have c4 : (h a).prev ≠ some b := fun e => c2 (hr.next_prev ha e).2
      constructor
      · funext q
        by_cases q1 : q = a
        · subst q1; simp [without, hab, hba, c1, c2, c3, c4, naa, nbb, paa, pbb]
        · by_cases q2 : q = b
          · subst q2; simp [without, hab, hba, c1, c2, c3, c4, naa, nbb, paa, pbb]
          · simp only [without, q1, q2, hab, hba, c1, c2, c3, c4, if_false]
            by_cases d1 : (h a).prev = some q
            · have d2 : (h b).prev ≠ some q := fun e => pi (d1.trans e.symm)
              by_cases d3 : (h a).next = some q
              · have d4 : (h b).next ≠ some q := fun e => ni (d3.trans e.symm)
                simp [d1, d2, d3, d4]
              · simp [d1, d2, d3]
            · by_cases d3 : (h a).next = some q
              · have d4 : (h b).next ≠ some q := fun e => ni (d3.trans e.symm)
                simp [d1, d3, d4]
              · simp [d1, d3]
      · simp only [listWithout, without, hab, hba, c1, c2, c3, c4, if_false, LinkedList.mk.injEq]
        refine ⟨?_, ?_, trivial⟩
        · by_cases d1 : (h a).prev = none
          · have d2 : (h b).prev ≠ none := fun e => pi (d1.trans e.symm)
            simp [d1, d2]
          · simp [d1]
        · by_cases d1 : (h a).next = none
          · have d2 : (h b).next ≠ none := fun e => ni (d1.trans e.symm)
            simp [d1, d2]
          · simp [d1]

/-- Two elements are removed, in either order. -/
theorem remove_comm (hr : Repr h l xs) {a b : Ptr} (ha : a ∈ xs) (hb : b ∈ xs ∨ (h b).deleted = true) (hab : a ≠ b) :
    remove (remove h l (some a)).1 (remove h l (some a)).2 (some b) = remove (remove h l (some b)).1 (remove h l (some b)).2 (some a) := by
  rcases hb with hb | hb
  · have ra := remove_repr hr ha
    have rb := remove_repr hr hb
    rw [ra.1.remove_eq ((hr.nodup.mem_erase_iff).mpr ⟨Ne.symm hab, hb⟩), rb.1.remove_eq ((hr.nodup.mem_erase_iff).mpr ⟨hab, ha⟩),
      hr.remove_eq ha, hr.remove_eq hb]
    obtain ⟨h1, h2⟩ := hr.without_comm ha hb hab
    simp only [h1, h2]
  · have e : remove h l (some b) = (h, l) := (removed_noop hb).2.2.1
    have hb2 : ((remove h l (some a)).1 b).deleted = true := by
      rw [((remove_repr hr ha).2.2.1 b).1, if_neg (Ne.symm hab)]; exact hb
    rw [e, (removed_noop hb2).2.2.1]

/-- An element is removed before or after another one, that is not in the list, is filled in. -/
theorem remove_upd (hr : Repr h l xs) {b p : Ptr} (hb : b ∈ xs ∨ (h b).deleted = true) (hp : p ∉ xs) (hbp : b ≠ p) (e : Element) :
    remove (h.upd p fun _ => e) l (some b) = ((remove h l (some b)).1.upd p fun _ => e, (remove h l (some b)).2) := by
  have hub : (h.upd p fun _ => e) b = h b := by simp [Heap.upd, hbp]
  rcases hb with hb | hb
  · have hr' : Repr (h.upd p fun _ => e) l xs := hr.congr fun q hq => by
      have : q ≠ p := fun e => hp (e ▸ hq)
      simp [Heap.upd, this]
    rw [hr'.remove_eq hb, hr.remove_eq hb]
    have n1 : (h b).prev ≠ some p := fun e => hp (hr.next_prev hb e).1
    have n2 : (h b).next ≠ some p := fun e => hp (hr.prev_next hb e).1
    refine Prod.ext ?_ ?_
    · funext q
      by_cases q1 : q = p
      · subst q1; simp [without, hub, Ne.symm hbp, n1, n2]; simp [Heap.upd]
      · by_cases q2 : q = b
        · subst q2; simp [without, Heap.upd, q1]
        · simp [without, Heap.upd, q1, q2, hbp]
    · simp [listWithout, hub]
  · have hb' : ((h.upd p fun _ => e) b).deleted = true := by rw [hub]; exact hb
    rw [(removed_noop hb').2.2.1, (removed_noop hb).2.2.1]

end Neighbours

end Verif.Cache
