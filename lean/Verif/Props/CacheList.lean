import Verif.Model.CacheList
/-
C61: the recency list is a correct doubly linked list.
-/
namespace Verif.Cache
open Verif.Active

/-! ### Specification -/

/-- The elements found from `p` on by following `step`, at most `fuel` of them. -/
def walk (step : Ptr → Option Ptr) : Nat → Option Ptr → List Ptr
  | 0, _ => []
  | _, none => []
  | fuel + 1, some p => p :: walk step fuel (step p)

/-- The list read forwards; reading stops at nil or after `fuel` elements. -/
def readForwards (h : Heap) (l : LinkedList) (fuel : Nat) : List Ptr := walk (fun p => (h p).next) fuel l.head

/-- The list read backwards. -/
def readBackwards (h : Heap) (l : LinkedList) (fuel : Nat) : List Ptr := walk (fun p => (h p).prev) fuel l.tail

/-- Operations on the list. -/
inductive ListOp where
  | pushFront (p : Ptr)
  | pushBack (p : Ptr)
  | remove (p : Ptr)
  | moveToFront (p : Ptr)
  | nothing

/-- What the list should be: the elements in order, and those removed so far. -/
structure Abs where
  linked : List Ptr
  removed : List Ptr
  deriving DecidableEq

/-- What an operation should do. -/
def Abs.op (a : Abs) : ListOp → Abs
  | .pushFront p => if p ∈ a.removed then a else { a with linked := p :: a.linked }
  | .pushBack p => if p ∈ a.removed then a else { a with linked := a.linked ++ [p] }
  | .remove p => if p ∈ a.removed then a else { linked := a.linked.erase p, removed := p :: a.removed }
  | .moveToFront p => if p ∈ a.removed then a else { a with linked := p :: a.linked.erase p }
  | .nothing => a

/-- How an operation may be used: an element that is in the list is not pushed again, and only elements that were pushed
are removed or moved. -/
def Abs.allowed (a : Abs) : ListOp → Prop
  | .pushFront p => p ∉ a.linked
  | .pushBack p => p ∉ a.linked
  | .remove p => p ∈ a.linked ∨ p ∈ a.removed
  | .moveToFront p => p ∈ a.linked ∨ p ∈ a.removed
  | .nothing => True

/-- The code. -/
def runOp (s : Heap × LinkedList) : ListOp → Heap × LinkedList
  | .pushFront p => pushFront s.1 s.2 (some p)
  | .pushBack p => pushBack s.1 s.2 (some p)
  | .remove p => remove s.1 s.2 (some p)
  | .moveToFront p => moveToFront s.1 s.2 (some p)
  | .nothing => moveToFront s.1 s.2 none

/-- A sequence of allowed operations. -/
inductive Allowed : Abs → List ListOp → Prop
  | nil (a) : Allowed a []
  | cons (a o os) : a.allowed o → Allowed (a.op o) os → Allowed a (o :: os)

/-- The empty list, matcher/cache/list.go:68 (zero value). -/
def emptyList : LinkedList := ⟨none, none, 0⟩

/-! ### Representation -/

/-- Only the links, the deletion marks and expiry times of elements may differ. -/
def SameData (h h' : Heap) : Prop := ∀ p, (h' p).ns = (h p).ns ∧ (h' p).id = (h p).id ∧ (h' p).result = (h p).result

theorem SameData.refl (h : Heap) : SameData h h := fun _ => ⟨rfl, rfl, rfl⟩

theorem SameData.trans {a b c : Heap} (h1 : SameData a b) (h2 : SameData b c) : SameData a c := fun p =>
  ⟨(h2 p).1.trans (h1 p).1, (h2 p).2.1.trans (h1 p).2.1, (h2 p).2.2.trans (h1 p).2.2⟩

theorem SameData.upd (h : Heap) (p : Ptr) (f : Element → Element)
    (hf : ∀ e, (f e).ns = e.ns ∧ (f e).id = e.id ∧ (f e).result = e.result) : SameData h (h.upd p f) := by
  intro q
  unfold Heap.upd
  split
  · exact hf _
  · exact ⟨rfl, rfl, rfl⟩

/-- The linked structure stands for the list of elements `xs`. -/
structure Repr (h : Heap) (l : LinkedList) (xs : List Ptr) : Prop where
  nodup : xs.Nodup
  head : l.head = xs.head?
  tail : l.tail = xs.getLast?
  length : l.length = xs.length
  links : ∀ pre p post, xs = pre ++ p :: post → (h p).prev = pre.getLast? ∧ (h p).next = post.head?
  alive : ∀ p ∈ xs, (h p).deleted = false

theorem Repr.empty (h : Heap) : Repr h emptyList [] := by
  refine ⟨by simp, rfl, rfl, rfl, ?_, by simp⟩
  intro pre p post e
  simp at e

/-- Elements elsewhere do not matter. -/
theorem Repr.congr {h h' : Heap} {l : LinkedList} {xs : List Ptr} (hr : Repr h l xs)
    (he : ∀ p ∈ xs, (h' p).prev = (h p).prev ∧ (h' p).next = (h p).next ∧ (h' p).deleted = (h p).deleted) : Repr h' l xs := by
  refine ⟨hr.nodup, hr.head, hr.tail, hr.length, ?_, ?_⟩
  · intro pre p post e
    have hp : p ∈ xs := by rw [e]; simp
    obtain ⟨h1, h2, _⟩ := he p hp
    rw [h1, h2]
    exact hr.links pre p post e
  · intro p hp
    rw [(he p hp).2.2]
    exact hr.alive p hp

theorem nodup_split {p : Ptr} {pre post pre' post' : List Ptr} (hn : (pre ++ p :: post).Nodup)
    (e : pre ++ p :: post = pre' ++ p :: post') : pre = pre' ∧ post = post' := by
  induction pre generalizing pre' with
  | nil =>
    cases pre' with
    | nil => simpa using e
    | cons q pre' =>
      simp only [List.nil_append, List.cons_append, List.cons.injEq] at e
      exfalso
      rw [e.2] at hn
      simp [e.1] at hn
  | cons a pre ih =>
    cases pre' with
    | nil =>
      simp only [List.nil_append, List.cons_append, List.cons.injEq] at e
      exfalso
      rw [e.1] at hn
      simp at hn
    | cons q pre' =>
      simp only [List.cons_append, List.cons.injEq] at e
      simp only [List.cons_append, List.nodup_cons] at hn
      obtain ⟨h1, h2⟩ := ih hn.2 e.2
      exact ⟨by rw [e.1, h1], h2⟩

/-- Pushing an element that is not in the list. -/
theorem pushFrontElem_repr {h : Heap} {l : LinkedList} {xs : List Ptr} (hr : Repr h l xs) {p : Ptr} (hp : p ∉ xs)
    (hd : (h p).deleted = false) :
    Repr (pushFrontElem h l p).1 (pushFrontElem h l p).2 (p :: xs) ∧ SameData h (pushFrontElem h l p).1 ∧
    (∀ q, ((pushFrontElem h l p).1 q).deleted = (h q).deleted ∧ ((pushFrontElem h l p).1 q).expiryNanos = (h q).expiryNanos) ∧
    (∀ q, q ≠ p → q ∉ xs → (pushFrontElem h l p).1 q = h q) := by
  unfold pushFrontElem
  cases xs with
  | nil =>
    have hh : l.head = none := hr.head
    simp only [hh]
    refine ⟨⟨by simp, rfl, rfl, by simp [hr.length], ?_, ?_⟩, ?_, ?_, ?_⟩
    · intro pre q post e
      cases pre with
      | nil =>
        simp only [List.nil_append, List.cons.injEq] at e
        obtain ⟨rfl, rfl⟩ := e
        simp [Heap.upd]
      | cons a pre => simp at e
    · intro q hq
      simp only [List.mem_singleton] at hq
      subst hq
      simpa [Heap.upd] using hd
    · exact (SameData.upd h p _ (by simp)).trans (SameData.upd _ p _ (by simp))
    · intro q; simp only [Heap.upd]; split <;> simp
    · intro q hq _; simp [Heap.upd, hq]
  | cons x xs =>
    have hh : l.head = some x := hr.head
    have hpx : p ≠ x := fun e => hp (by simp [e])
    simp only [hh]
    refine ⟨⟨List.nodup_cons.mpr ⟨hp, hr.nodup⟩, rfl, ?_, ?_, ?_, ?_⟩, ?_, ?_, ?_⟩
    · show l.tail = _; rw [hr.tail]; simp
    · show l.length + 1 = _; rw [hr.length]; simp
    · intro pre q post e
      cases pre with
      | nil =>
        simp only [List.nil_append, List.cons.injEq] at e
        obtain ⟨rfl, rfl⟩ := e
        simp [Heap.upd, hpx]
      | cons a pre =>
        simp only [List.cons_append, List.cons.injEq] at e
        obtain ⟨rfl, e⟩ := e
        have hq : q ≠ p := fun h' => hp (by rw [e, ← h']; simp)
        obtain ⟨h1, h2⟩ := hr.links pre q post e
        by_cases hqx : q = x
        · subst hqx
          have : pre = [] := by
            have hn := hr.nodup
            rw [e] at hn
            exact (nodup_split (pre := []) (post := xs) (by simpa using hr.nodup) (by simpa using e)).1.symm
          subst this
          simp only [Heap.upd, hq, if_false, if_true]
          simpa using h2
        · have hpre : pre ≠ [] := by
            rintro rfl
            simp only [List.nil_append, List.cons.injEq] at e
            exact hqx e.1.symm
          simp only [Heap.upd, hq, hqx, if_false]
          rw [h1, h2]
          refine ⟨?_, rfl⟩
          cases pre with
          | nil => exact absurd rfl hpre
          | cons b pre => simp
    · intro q hq
      have hdel : (h q).deleted = false := by
        rcases List.mem_cons.mp hq with rfl | hq
        · exact hd
        · exact hr.alive q hq
      simp only [Heap.upd]
      split <;> split <;> simp_all
    · exact ((SameData.upd h p _ (by simp)).trans (SameData.upd _ p _ (by simp))).trans (SameData.upd _ x _ (by simp))
    · intro q; simp only [Heap.upd]; split <;> split <;> simp_all
    · intro q hq hqs
      have : q ≠ x := fun e => hqs (by simp [e])
      simp [Heap.upd, hq, this]

/-- Unlinking an element of the list. -/
theorem removeElem_repr {h : Heap} {l : LinkedList} {xs : List Ptr} (hr : Repr h l xs) {p : Ptr} (hp : p ∈ xs) (b : Bool) :
    Repr (removeElem h l p b).1 (removeElem h l p b).2 (xs.erase p) ∧ SameData h (removeElem h l p b).1 ∧
    (∀ q, ((removeElem h l p b).1 q).deleted = (if q = p then b else (h q).deleted) ∧
      ((removeElem h l p b).1 q).expiryNanos = (h q).expiryNanos) ∧
    ((removeElem h l p b).1 p).prev = none ∧ ((removeElem h l p b).1 p).next = none ∧
    (∀ q, q ∉ xs → (removeElem h l p b).1 q = h q) := by
  obtain ⟨pre, post, e⟩ := List.append_of_mem hp
  have hn := hr.nodup
  rw [e] at hn
  obtain ⟨hprev, hnext⟩ := hr.links pre p post e
  have hpre : p ∉ pre := by
    have := (List.nodup_append.mp hn).2.2
    intro hc; exact this p hc p (by simp) rfl
  have hpost : p ∉ post := by
    have := (List.nodup_append.mp hn).2.1
    simp only [List.nodup_cons] at this; exact this.1
  have hdisj : ∀ q, q ∈ pre → q ∉ post := fun q h1 h2 => (List.nodup_append.mp hn).2.2 q h1 q (by simp [h2]) rfl
  have herase : xs.erase p = pre ++ post := by
    rw [e, List.erase_append_right _ hpre, List.erase_cons_head]
  -- the heap afterwards
  have key : ∀ q, (removeElem h l p b).1 q =
      { h q with
        prev := if q = p then none else if some q = post.head? then pre.getLast? else (h q).prev
        next := if q = p then none else if some q = pre.getLast? then post.head? else (h q).next
        deleted := if q = p then b else (h q).deleted } := by
    intro q
    unfold removeElem
    simp only [hprev, hnext]
    cases h1 : pre.getLast? with
    | none =>
      cases h2 : post.head? with
      | none =>
        simp only [unlinkPrev, unlinkNext, Heap.upd]
        by_cases hq : q = p <;> simp [hq]
      | some y =>
        simp only [unlinkPrev, unlinkNext, Heap.upd]
        have hyp : y ≠ p := fun h' => hpost (h' ▸ List.mem_of_mem_head? h2)
        by_cases hq : q = p
        · subst hq; simp [Ne.symm hyp]
        · by_cases hqy : q = y
          · subst hqy; simp [hq]
          · simp [hq, hqy]
    | some a =>
      have hap : a ≠ p := fun h' => hpre (h' ▸ List.mem_of_mem_getLast? h1)
      cases h2 : post.head? with
      | none =>
        simp only [unlinkPrev, unlinkNext, Heap.upd]
        by_cases hq : q = p
        · subst hq; simp [Ne.symm hap]
        · by_cases hqa : q = a
          · subst hqa; simp [hq]
          · simp [hq, hqa]
      | some y =>
        simp only [unlinkPrev, unlinkNext, Heap.upd]
        have hyp : y ≠ p := fun h' => hpost (h' ▸ List.mem_of_mem_head? h2)
        have hay : a ≠ y := fun h' => hdisj a (List.mem_of_mem_getLast? h1) (h' ▸ List.mem_of_mem_head? h2)
        by_cases hq : q = p
        · subst hq; simp [Ne.symm hap, Ne.symm hyp]
        · by_cases hqa : q = a
          · subst hqa; simp [hq, hay]
          · by_cases hqy : q = y
            · subst hqy; simp [hq, Ne.symm hay]
            · simp [hq, hqa, hqy]
  have hlist : (removeElem h l p b).2 = ⟨(pre ++ post).head?, (pre ++ post).getLast?, (pre ++ post).length⟩ := by
    unfold removeElem
    simp only [hprev, hnext]
    have hlen : l.length - 1 = ((pre ++ post).length : Int) := by
      rw [hr.length, e]; simp; omega
    have hhd : pre ≠ [] → l.head = (pre ++ post).head? := by
      intro hne; rw [hr.head, e]
      cases pre with
      | nil => exact absurd rfl hne
      | cons a pre => simp
    have htl : post ≠ [] → l.tail = (pre ++ post).getLast? := by
      intro hne; rw [hr.tail, e, List.getLast?_append, List.getLast?_append]
      cases post with
      | nil => exact absurd rfl hne
      | cons a post => simp [List.getLast?_cons_cons]
    cases h1 : pre.getLast? with
    | none =>
      have : pre = [] := by simpa using h1
      subst this
      cases h2 : post.head? with
      | none =>
        have : post = [] := by simpa using h2
        subst this
        simp only [unlinkPrev, unlinkNext]
        simpa using hlen
      | some y =>
        have hne : post ≠ [] := by rintro rfl; simp at h2
        simp only [unlinkPrev, unlinkNext]
        rw [htl hne, hlen]; simp [h2]
    | some a =>
      have hne1 : pre ≠ [] := by rintro rfl; simp at h1
      cases h2 : post.head? with
      | none =>
        have : post = [] := by simpa using h2
        subst this
        simp only [unlinkPrev, unlinkNext]
        rw [hhd hne1, hlen]; simp [h1]
      | some y =>
        have hne : post ≠ [] := by rintro rfl; simp at h2
        simp only [unlinkPrev, unlinkNext]
        rw [hhd hne1, htl hne, hlen]
  rw [herase]
  refine ⟨⟨?_, ?_, ?_, ?_, ?_, ?_⟩, ?_, ?_, ?_, ?_, ?_⟩
  · rw [← herase]; exact hr.nodup.erase p
  · rw [hlist]
  · rw [hlist]
  · rw [hlist]
  · intro pre' q post' e'
    have hqm : q ∈ pre ++ post := by rw [e']; simp
    have hqp : q ≠ p := by
      rintro rfl
      rcases List.mem_append.mp hqm with hc | hc
      · exact hpre hc
      · exact hpost hc
    rw [key q]
    simp only [hqp, if_false]
    -- where `q` is
    rcases List.append_eq_append_iff.mp e' with ⟨mid, h1, h2⟩ | ⟨mid, h1, h2⟩
    · -- pre' = pre ++ mid, post = mid ++ q :: post'
      have e2 : xs = (pre ++ p :: mid) ++ q :: post' := by rw [e, h2]; simp
      obtain ⟨h3, h4⟩ := hr.links _ _ _ e2
      have hqpre : q ∉ pre := fun hc => hdisj q hc (by rw [h2]; simp)
      have hq1 : some q ≠ pre.getLast? := fun hc => hqpre (List.mem_of_mem_getLast? hc.symm)
      rw [if_neg hq1, h4]
      refine ⟨?_, rfl⟩
      cases mid with
      | nil =>
        rw [h2, h1]; simp
      | cons m mid =>
        have : some q ≠ post.head? := by
          rw [h2]; simp only [List.cons_append, List.head?_cons, ne_eq, Option.some.injEq]
          rintro rfl
          have := (List.nodup_append.mp hn).2.1
          rw [h2] at this; simp at this
        rw [if_neg this, h3, h1]
        simp [List.getLast?_append, List.getLast?_cons_cons]
    · cases mid with
      | nil =>
        simp only [List.append_nil, List.nil_append] at h1 h2
        subst h1
        have e2 : xs = (pre ++ [p]) ++ q :: post' := by rw [e, ← h2]; simp
        obtain ⟨h3, h4⟩ := hr.links _ _ _ e2
        have hqpre : q ∉ pre := fun hc => hdisj q hc (by rw [← h2]; simp)
        have hq1 : some q ≠ pre.getLast? := fun hc => hqpre (List.mem_of_mem_getLast? hc.symm)
        rw [if_neg hq1, h4, ← h2]; simp
      | cons m mid =>
        -- pre = pre' ++ q :: mid, post' = mid ++ post
        simp only [List.cons_append, List.cons.injEq] at h2
        obtain ⟨rfl, h2⟩ := h2
        have e2 : xs = pre' ++ q :: (mid ++ p :: post) := by rw [e, h1]; simp
        obtain ⟨h3, h4⟩ := hr.links _ _ _ e2
        have hqpost : q ∉ post := fun hc => hdisj q (by rw [h1]; simp) hc
        have hq1 : some q ≠ post.head? := fun hc => hqpost (List.mem_of_mem_head? hc.symm)
        rw [if_neg hq1, h3]
        refine ⟨rfl, ?_⟩
        cases mid with
        | nil =>
          rw [h1, h2]; simp
        | cons m' mid =>
          have : some q ≠ pre.getLast? := by
            rw [h1]
            intro hc
            have hnp := (List.nodup_append.mp hn).1
            rw [h1] at hnp
            have hmem : q ∈ m' :: mid := by
              rw [List.getLast?_append] at hc
              simp only [List.getLast?_cons_cons] at hc
              have : (m' :: mid).getLast? = some q := by
                cases hl : (m' :: mid).getLast? with
                | none => simp at hl
                | some z => rw [hl] at hc; simpa using hc.symm
              exact List.mem_of_mem_getLast? this
            have := (List.nodup_append.mp hnp).2.1
            exact (List.nodup_cons.mp this).1 hmem
          rw [if_neg this, h4, h2]; simp
  · intro q hq
    have hqx : q ∈ xs := by
      rw [e]; rcases List.mem_append.mp hq with hc | hc <;> simp [hc]
    have hqp : q ≠ p := by
      rintro rfl
      rcases List.mem_append.mp hq with hc | hc
      · exact hpre hc
      · exact hpost hc
    rw [key q]; simp [hqp, hr.alive q hqx]
  · intro q; rw [key q]; exact ⟨rfl, rfl, rfl⟩
  · intro q; rw [key q]; exact ⟨rfl, rfl⟩
  · rw [key p]; simp
  · rw [key p]; simp
  · intro q hq
    have h0 : q ≠ p := fun h' => hq (h' ▸ hp)
    have h1 : some q ≠ post.head? := fun hc => hq (by rw [e]; simp [List.mem_of_mem_head? hc.symm])
    have h2 : some q ≠ pre.getLast? := fun hc => hq (by rw [e]; simp [List.mem_of_mem_getLast? hc.symm])
    rw [key q]; simp [h0, h1, h2]

/-- Pushing an element at the back. -/
theorem pushBack_repr {h : Heap} {l : LinkedList} {xs : List Ptr} (hr : Repr h l xs) {p : Ptr} (hp : p ∉ xs)
    (hd : (h p).deleted = false) :
    Repr (pushBack h l (some p)).1 (pushBack h l (some p)).2 (xs ++ [p]) ∧ SameData h (pushBack h l (some p)).1 ∧
    (∀ q, ((pushBack h l (some p)).1 q).deleted = (h q).deleted) := by
  unfold pushBack
  simp only [hd, Bool.false_eq_true, if_false]
  rcases List.eq_nil_or_concat xs with rfl | ⟨xs, x, rfl⟩
  · have hh : l.tail = none := hr.tail
    simp only [hh]
    refine ⟨⟨by simp, rfl, rfl, by simp [hr.length], ?_, ?_⟩, ?_, ?_⟩
    · intro pre q post e
      cases pre with
      | nil =>
        simp only [List.nil_append, List.cons.injEq] at e
        obtain ⟨rfl, rfl⟩ := e
        simp [Heap.upd]
      | cons a pre => simp at e
    · intro q hq
      simp only [List.nil_append, List.mem_singleton] at hq
      subst hq
      simpa [Heap.upd] using hd
    · exact (SameData.upd h p _ (by simp)).trans (SameData.upd _ p _ (by simp))
    · intro q; simp only [Heap.upd]; split <;> simp
  · simp only [List.concat_eq_append] at hr hp ⊢
    have hh : l.tail = some x := by rw [hr.tail]; simp
    have hpx : p ≠ x := fun e => hp (by simp [e])
    simp only [hh]
    refine ⟨⟨?_, ?_, by simp, ?_, ?_, ?_⟩, ?_, ?_⟩
    · rw [List.nodup_append]
      refine ⟨hr.nodup, by simp, ?_⟩
      intro a ha b hb e
      simp only [List.mem_singleton] at hb
      exact hp (by rw [← hb, ← e]; exact ha)
    · show l.head = _; rw [hr.head]; simp
    · show l.length + 1 = _; rw [hr.length]; simp; omega
    · intro pre q post e
      rcases List.eq_nil_or_concat post with rfl | ⟨post, z, rfl⟩
      · have : xs ++ [x] = pre ∧ p = q := by
          have := List.append_inj' e (by simp)
          simpa using this
        obtain ⟨rfl, rfl⟩ := this
        simp [Heap.upd, hpx]
      · have e' : xs ++ [x] ++ [p] = (pre ++ q :: post) ++ [z] := by rw [e]; simp
        have := List.append_inj' e' (by simp)
        simp only [List.cons.injEq, and_true] at this
        obtain ⟨e2, rfl⟩ := this
        have hq : q ≠ p := fun h' => hp (by rw [e2, ← h']; simp)
        obtain ⟨h1, h2⟩ := hr.links pre q post e2
        by_cases hqx : q = x
        · subst hqx
          have : post = [] := by
            have := (nodup_split (pre := xs) (post := []) (by simpa using hr.nodup) e2).2
            exact this.symm
          subst this
          simp only [Heap.upd, hq, if_false, if_true]
          simpa using h1
        · have hpost : post ≠ [] := by
            rintro rfl
            have := List.append_inj' e2 (by simp)
            simp only [List.cons.injEq, and_true] at this
            exact hqx this.2.symm
          simp only [Heap.upd, hq, hqx, if_false]
          rw [h1, h2]
          refine ⟨rfl, ?_⟩
          cases post with
          | nil => exact absurd rfl hpost
          | cons b post => simp
    · intro q hq
      have hdel : (h q).deleted = false := by
        rcases List.mem_append.mp hq with hq | hq
        · exact hr.alive q hq
        · simp only [List.mem_singleton] at hq; subst hq; exact hd
      simp only [Heap.upd]
      split <;> split <;> simp_all
    · exact ((SameData.upd h p _ (by simp)).trans (SameData.upd _ p _ (by simp))).trans (SameData.upd _ x _ (by simp))
    · intro q; simp only [Heap.upd]; split <;> split <;> simp_all

/-- Moving an element of the list to the front. -/
theorem moveToFront_repr {h : Heap} {l : LinkedList} {xs : List Ptr} (hr : Repr h l xs) {p : Ptr} (hp : p ∈ xs) :
    Repr (moveToFront h l (some p)).1 (moveToFront h l (some p)).2 (p :: xs.erase p) ∧ SameData h (moveToFront h l (some p)).1 ∧
    (∀ q, ((moveToFront h l (some p)).1 q).deleted = (h q).deleted ∧
      ((moveToFront h l (some p)).1 q).expiryNanos = (h q).expiryNanos) ∧
    (∀ q, q ∉ xs → (moveToFront h l (some p)).1 q = h q) := by
  have hd := hr.alive p hp
  obtain ⟨h1, h2, h3, _, _, h6⟩ := removeElem_repr hr hp false
  have hdel : ((removeElem h l p false).1 p).deleted = false := by rw [(h3 p).1]; simp
  have hnot : p ∉ xs.erase p := fun hc => by
    have := (hr.nodup.mem_erase_iff).mp hc
    exact this.1 rfl
  obtain ⟨k1, k2, k3, k4⟩ := pushFrontElem_repr h1 hnot hdel
  have e : moveToFront h l (some p) = pushFrontElem (removeElem h l p false).1 (removeElem h l p false).2 p := by
    simp [moveToFront, hd, pushFront, hdel]
  rw [e]
  refine ⟨k1, h2.trans k2, fun q => ⟨?_, ?_⟩, ?_⟩
  · rw [(k3 q).1, (h3 q).1]
    split
    · next hq => subst hq; rw [hd]
    · rfl
  · rw [(k3 q).2, (h3 q).2]
  · intro q hq
    have hqp : q ≠ p := fun h' => hq (h' ▸ hp)
    rw [k4 q hqp (fun hc => hq (List.mem_of_mem_erase hc)), h6 q hq]

/-- Removing an element of the list. -/
theorem remove_repr {h : Heap} {l : LinkedList} {xs : List Ptr} (hr : Repr h l xs) {p : Ptr} (hp : p ∈ xs) :
    Repr (remove h l (some p)).1 (remove h l (some p)).2 (xs.erase p) ∧ SameData h (remove h l (some p)).1 ∧
    (∀ q, ((remove h l (some p)).1 q).deleted = (if q = p then true else (h q).deleted) ∧
      ((remove h l (some p)).1 q).expiryNanos = (h q).expiryNanos) ∧
    (∀ q, q ∉ xs → (remove h l (some p)).1 q = h q) := by
  have hd := hr.alive p hp
  obtain ⟨h1, h2, h3, _, _, h6⟩ := removeElem_repr hr hp true
  simp only [remove, hd, Bool.false_eq_true, if_false]
  exact ⟨h1, h2, h3, h6⟩

/-- A removed element is left alone by all operations. -/
theorem removed_noop {h : Heap} {l : LinkedList} {p : Ptr} (hd : (h p).deleted = true) :
    pushFront h l (some p) = (h, l) ∧ pushBack h l (some p) = (h, l) ∧ remove h l (some p) = (h, l) ∧
    moveToFront h l (some p) = (h, l) := by
  simp [pushFront, pushBack, remove, moveToFront, hd]

/-! ### Reading -/

theorem walk_none (step : Ptr → Option Ptr) (n : Nat) : walk step n none = [] := by cases n <;> rfl

theorem walk_forwards {h : Heap} {l : LinkedList} {xs : List Ptr} (hr : Repr h l xs) :
    ∀ (post pre : List Ptr) (n : Nat), xs = pre ++ post → post.length ≤ n →
      walk (fun p => (h p).next) n post.head? = post
  | [], _, n, _, _ => walk_none _ n
  | p :: post, pre, n, e, hn => by
    cases n with
    | zero => simp at hn
    | succ n =>
      have hl := (hr.links pre p post e).2
      simp only [List.head?_cons, walk, hl]
      rw [walk_forwards hr post (pre ++ [p]) n (by rw [e]; simp) (by simpa using hn)]

theorem walk_backwards {h : Heap} {l : LinkedList} {xs : List Ptr} (hr : Repr h l xs) :
    ∀ (n : Nat) (pre post : List Ptr), xs = pre ++ post → pre.length ≤ n →
      walk (fun p => (h p).prev) n pre.getLast? = pre.reverse
  | n, pre, post, e, hn => by
    rcases List.eq_nil_or_concat pre with rfl | ⟨pre, p, rfl⟩
    · simp [walk_none]
    · simp only [List.concat_eq_append] at e hn ⊢
      cases n with
      | zero => simp at hn
      | succ n =>
        have hl := (hr.links pre p post (by rw [e]; simp)).1
        simp only [List.getLast?_append, List.getLast?_singleton, Option.some_or, walk, hl, List.reverse_append,
          List.reverse_cons, List.reverse_nil, List.nil_append, List.cons_append]
        rw [walk_backwards hr n pre (p :: post) (by rw [e]; simp) (by simpa using hn)]

/-! ### The property -/

/-- The linked structure and the removal marks stand for the abstract state. -/
def Stands (s : Heap × LinkedList) (a : Abs) : Prop :=
  Repr s.1 s.2 a.linked ∧ (∀ p, (s.1 p).deleted = true ↔ p ∈ a.removed) ∧ ∀ p ∈ a.removed, p ∉ a.linked

theorem runOp_stands {s : Heap × LinkedList} {a : Abs} (h : Stands s a) (o : ListOp) (ho : a.allowed o) :
    Stands (runOp s o) (a.op o) ∧ SameData s.1 (runOp s o).1 := by
  obtain ⟨hr, hdel, hdis⟩ := h
  have hfalse : ∀ {p}, p ∉ a.removed → (s.1 p).deleted = false := by
    intro p hp
    cases hc : (s.1 p).deleted with
    | false => rfl
    | true => exact absurd ((hdel p).mp hc) hp
  cases o with
  | pushFront p =>
    by_cases hp : p ∈ a.removed
    · have := (removed_noop (l := s.2) ((hdel p).mpr hp)).1
      simp only [runOp, Abs.op, this, if_pos hp]
      exact ⟨⟨hr, hdel, hdis⟩, SameData.refl _⟩
    · simp only [runOp, Abs.op, if_neg hp, pushFront, hfalse hp, Bool.false_eq_true, if_false]
      obtain ⟨h1, h2, h3, _⟩ := pushFrontElem_repr hr ho (hfalse hp)
      refine ⟨⟨h1, fun q => ?_, ?_⟩, h2⟩
      · rw [(h3 q).1]; exact hdel q
      · intro q hq hc
        rcases List.mem_cons.mp hc with rfl | hc
        · exact hp hq
        · exact hdis q hq hc
  | pushBack p =>
    by_cases hp : p ∈ a.removed
    · have := (removed_noop (l := s.2) ((hdel p).mpr hp)).2.1
      simp only [runOp, Abs.op, this, if_pos hp]
      exact ⟨⟨hr, hdel, hdis⟩, SameData.refl _⟩
    · simp only [runOp, Abs.op, if_neg hp]
      obtain ⟨h1, h2, h3⟩ := pushBack_repr hr ho (hfalse hp)
      refine ⟨⟨h1, fun q => ?_, ?_⟩, h2⟩
      · rw [h3 q]; exact hdel q
      · intro q hq hc
        rcases List.mem_append.mp hc with hc | hc
        · exact hdis q hq hc
        · simp only [List.mem_singleton] at hc; subst hc; exact hp hq
  | remove p =>
    by_cases hp : p ∈ a.removed
    · have := (removed_noop (l := s.2) ((hdel p).mpr hp)).2.2.1
      simp only [runOp, Abs.op, this, if_pos hp]
      exact ⟨⟨hr, hdel, hdis⟩, SameData.refl _⟩
    · simp only [runOp, Abs.op, if_neg hp]
      have hl : p ∈ a.linked := ho.resolve_right hp
      obtain ⟨h1, h2, h3, _⟩ := remove_repr hr hl
      refine ⟨⟨h1, fun q => ?_, ?_⟩, h2⟩
      · rw [(h3 q).1, List.mem_cons]
        by_cases hq : q = p
        · simp [hq]
        · simp [hq, hdel q]
      · intro q hq hc
        rcases List.mem_cons.mp hq with rfl | hq
        · exact (hr.nodup.mem_erase_iff.mp hc).1 rfl
        · exact hdis q hq (List.mem_of_mem_erase hc)
  | moveToFront p =>
    by_cases hp : p ∈ a.removed
    · have := (removed_noop (l := s.2) ((hdel p).mpr hp)).2.2.2
      simp only [runOp, Abs.op, this, if_pos hp]
      exact ⟨⟨hr, hdel, hdis⟩, SameData.refl _⟩
    · simp only [runOp, Abs.op, if_neg hp]
      have hl : p ∈ a.linked := ho.resolve_right hp
      obtain ⟨h1, h2, h3, _⟩ := moveToFront_repr hr hl
      refine ⟨⟨h1, fun q => ?_, ?_⟩, h2⟩
      · rw [(h3 q).1]; exact hdel q
      · intro q hq hc
        rcases List.mem_cons.mp hc with rfl | hc
        · exact hp hq
        · exact hdis q hq (List.mem_of_mem_erase hc)
  | nothing => exact ⟨⟨hr, hdel, hdis⟩, SameData.refl _⟩

theorem run_stands : ∀ (os : List ListOp) (s : Heap × LinkedList) (a : Abs), Stands s a → Allowed a os →
    Stands (os.foldl runOp s) (os.foldl Abs.op a) ∧ SameData s.1 (os.foldl runOp s).1
  | [], s, a, h, _ => ⟨h, SameData.refl _⟩
  | o :: os, s, a, h, ha => by
    cases ha with
    | cons _ _ _ h1 h2 =>
      obtain ⟨k1, k2⟩ := runOp_stands h o h1
      obtain ⟨m1, m2⟩ := run_stands os _ _ k1 h2
      exact ⟨m1, k2.trans m2⟩

/-- C61: after any sequence of allowed operations on the empty list, the structure read forwards is the abstract list, read
backwards its reverse, the first and last elements and the length are right, exactly the removed elements are marked, and
the data of the elements are untouched. -/
theorem C61_refines (h : Heap) (hfresh : ∀ p, (h p).deleted = false) (os : List ListOp) (ha : Allowed ⟨[], []⟩ os) :
    let s := os.foldl runOp (h, emptyList)
    let a := os.foldl Abs.op ⟨[], []⟩
    (∀ n, a.linked.length ≤ n → readForwards s.1 s.2 n = a.linked ∧ readBackwards s.1 s.2 n = a.linked.reverse) ∧
    s.2.head = a.linked.head? ∧ s.2.tail = a.linked.getLast? ∧ s.2.length = a.linked.length ∧
    (∀ p, (s.1 p).deleted = true ↔ p ∈ a.removed) ∧ SameData h s.1 := by
  intro s a
  have h0 : Stands (h, emptyList) ⟨[], []⟩ := ⟨Repr.empty h, fun p => by simp [hfresh p], by simp⟩
  obtain ⟨⟨hr, hd, _⟩, hs⟩ := run_stands os _ _ h0 ha
  refine ⟨fun n hn => ⟨?_, ?_⟩, hr.head, hr.tail, hr.length, hd, hs⟩
  · unfold readForwards
    rw [hr.head]
    exact walk_forwards hr _ [] n rfl hn
  · unfold readBackwards
    rw [hr.tail]
    exact walk_backwards hr n _ [] (by simp) hn

/-- C61: after a removal no operation on that element has any effect, whatever the state. -/
theorem C61_removed (h : Heap) (l : LinkedList) (p : Ptr) (os : List ListOp)
    (hos : ∀ o ∈ os, o = .pushFront p ∨ o = .pushBack p ∨ o = .remove p ∨ o = .moveToFront p)
    (hd : (h p).deleted = true) : os.foldl runOp (h, l) = (h, l) := by
  induction os with
  | nil => rfl
  | cons o os ih =>
    obtain ⟨h1, h2, h3, h4⟩ := removed_noop (l := l) hd
    have : runOp (h, l) o = (h, l) := by
      rcases hos o (by simp) with rfl | rfl | rfl | rfl <;> simpa [runOp]
    rw [List.foldl_cons, this]
    exact ih fun o ho => hos o (by simp [ho])

/-- Elements for the examples. -/
def exHeap : Heap := fun _ => newElement [] [] emptyMatchResult

def exOps : List ListOp := [.pushFront 1, .pushFront 2, .pushBack 3, .moveToFront 1, .remove 2, .moveToFront 2, .pushFront 2, .nothing, .pushBack 4]

/-- A concrete sequence of allowed operations. -/
example : Allowed ⟨[], []⟩ exOps ∧ (exOps.foldl Abs.op ⟨[], []⟩) = ⟨[1, 3, 4], [2]⟩ := by
  refine ⟨?_, by decide⟩
  repeat (first | exact Allowed.nil _ | refine Allowed.cons _ _ _ (by simp [Abs.allowed, Abs.op]) ?_)

/-- The conditions on the use of the operations are needed: pushing an element twice makes the list a cycle that never ends,
and removing an element that was never pushed empties a list with an element in it and makes its length wrong. -/
theorem C61_misuse :
    (let s := [ListOp.pushFront 1, .pushFront 1].foldl runOp (exHeap, emptyList)
     ∀ n, (readForwards s.1 s.2 n).length = n) ∧
    (let s := [ListOp.pushFront 1, .remove 2].foldl runOp (exHeap, emptyList)
     s.2 = ⟨none, none, 0⟩ ∧ (s.1 1).deleted = false) := by
  refine ⟨?_, by decide +kernel⟩
  intro s n
  have hstep : (s.1 1).next = some 1 := by decide +kernel
  have hhead : s.2.head = some 1 := by decide +kernel
  unfold readForwards
  rw [hhead]
  induction n with
  | zero => rfl
  | succ n ih => simp only [walk, hstep, List.length_cons, ih]

end Verif.Cache
