import Verif.Lemmas.ProtoStream
/-
Lemmas on the buffers of encoders and iterators: how many owners an array has, and which arrays a step writes.
-/
namespace Verif.PBuf
open Verif.Policy Verif.Meta Verif.Wire Verif.Msg Verif.PIter

/-! ### Counting owners -/

def own (i : Nat) (o : Option Nat) : Nat := if o = some i then 1 else 0

/-- How often an array occurs in a list of owners. -/
def cnt (f : α → Option Nat) (l : List α) (i : Nat) : Nat := (l.filterMap f).count i

theorem cnt_cons (f : α → Option Nat) (e : α) (l : List α) (i : Nat) : cnt f (e :: l) i = own i (f e) + cnt f l i := by
  unfold cnt own
  rw [List.filterMap_cons]
  cases h : f e with
  | none => simp
  | some j =>
    simp only [List.count_cons, Option.some.injEq]
    by_cases hj : j = i <;> simp [hj] <;> omega

theorem cnt_append (f : α → Option Nat) (l : List α) (e : α) (i : Nat) : cnt f (l ++ [e]) i = cnt f l i + own i (f e) := by
  induction l with
  | nil =>
    rw [List.nil_append, cnt_cons]; simp [cnt]
  | cons a l ih => rw [List.cons_append, cnt_cons, cnt_cons, ih]; omega

theorem cnt_set (f : α → Option Nat) (i : Nat) (e e' : α) : ∀ (l : List α) (k : Nat), l[k]? = some e →
    cnt f (l.set k e') i + own i (f e) = cnt f l i + own i (f e')
  | [], k, h => by simp at h
  | a :: l, 0, h => by
    simp at h; subst h
    rw [List.set_cons_zero, cnt_cons, cnt_cons]; omega
  | a :: l, k + 1, h => by
    rw [List.set_cons_succ, cnt_cons, cnt_cons]
    have := cnt_set f i e e' l k (by simpa using h)
    omega

theorem cnt_ge (f : α → Option Nat) (i : Nat) (e : α) : ∀ (l : List α) (k : Nat), l[k]? = some e → own i (f e) ≤ cnt f l i
  | [], k, h => by simp at h
  | a :: l, 0, h => by
    simp at h; subst h
    rw [cnt_cons]; omega
  | a :: l, k + 1, h => by
    rw [cnt_cons]
    have := cnt_ge f i e l k (by simpa using h)
    omega

theorem cnt_two (f : α → Option Nat) (i : Nat) (e e' : α) : ∀ (l : List α) (a b : Nat), a ≠ b → l[a]? = some e → l[b]? = some e' →
    own i (f e) + own i (f e') ≤ cnt f l i
  | [], a, b, _, h, _ => by simp at h
  | c :: l, 0, 0, hab, _, _ => absurd rfl hab
  | c :: l, 0, b + 1, _, h1, h2 => by
    simp at h1; subst h1
    rw [cnt_cons]
    have := cnt_ge f i e' l b (by simpa using h2)
    omega
  | c :: l, a + 1, 0, _, h1, h2 => by
    simp at h2; subst h2
    rw [cnt_cons]
    have := cnt_ge f i e l a (by simpa using h1)
    omega
  | c :: l, a + 1, b + 1, hab, h1, h2 => by
    rw [cnt_cons]
    have := cnt_two f i e e' l a b (by omega) (by simpa using h1) (by simpa using h2)
    omega

theorem own_self (i : Nat) : own i (some i) = 1 := by simp [own]
theorem own_none (i : Nat) : own i none = 0 := by simp [own]
theorem own_of_ne {i : Nat} {o : Option Nat} (h : o ≠ some i) : own i o = 0 := by simp [own, h]

/-- How many owners an array has. -/
def owners (s : St) (i : Nat) : Nat :=
  s.pool.count i + cnt Enc.buf s.encs i + cnt Buffer.buf s.bufs i + cnt ItBuf.buf s.its i + s.others.count i

/-- No array has two owners, and arrays that do not exist have none. -/
structure Inv (s : St) : Prop where
  one : ∀ i, owners s i ≤ 1
  new : ∀ i, s.next ≤ i → owners s i = 0

/-- Nothing gets an owner but new arrays. -/
def Grow (s s' : St) : Prop :=
  s.next ≤ s'.next ∧ ∀ i, owners s' i ≤ owners s i + if s.next ≤ i ∧ i < s'.next then 1 else 0

theorem Inv.grow {s s' : St} (h : Inv s) (g : Grow s s') : Inv s' := by
  refine ⟨fun i => ?_, fun i hi => ?_⟩
  · have h1 := h.one i
    have h2 := h.new i
    have h3 := g.2 i
    split at h3 <;> omega
  · have h2 := h.new i
    have h3 := g.2 i
    have h4 := g.1
    rw [if_neg (by omega)] at h3
    omega

/-! ### Allocation -/

/-- The same owners apart from the pool. -/
structure SameOwners (s s' : St) : Prop where
  encs : s'.encs = s.encs
  bufs : s'.bufs = s.bufs
  its : s'.its = s.its
  others : s'.others = s.others

theorem SameOwners.trans {a b c : St} (h : SameOwners a b) (g : SameOwners b c) : SameOwners a c :=
  ⟨g.encs.trans h.encs, g.bufs.trans h.bufs, g.its.trans h.its, g.others.trans h.others⟩

/-- Where an allocated array comes from. -/
def Taken (s s' : St) (j : Nat) : Prop :=
  (s'.next = s.next ∧ j ∈ s.pool ∧ ∀ i, s'.pool.count i + own i (some j) = s.pool.count i) ∨
  (s'.next = s.next + 1 ∧ j = s.next ∧ s'.pool = s.pool)

theorem allocate_spec {s s' : St} {pooled : Bool} {n j : Nat} {c : Choice} (h : allocate s pooled n c = some (j, s')) :
    SameOwners s s' ∧ n ≤ (s'.heap j).length ∧ Taken s s' j ∧ (∀ i, i < s.next → s'.heap i = s.heap i) := by
  unfold allocate at h
  have fresh : ∀ d : Bytes, n ≤ d.length → s.newArray d = (j, s') →
      SameOwners s s' ∧ n ≤ (s'.heap j).length ∧ Taken s s' j ∧ (∀ i, i < s.next → s'.heap i = s.heap i) := by
    intro d hd h
    simp only [St.newArray, St.write, Prod.mk.injEq] at h
    obtain ⟨rfl, rfl⟩ := h
    refine ⟨⟨rfl, rfl, rfl, rfl⟩, by simpa using hd, .inr ⟨rfl, rfl, rfl⟩, fun i hi => ?_⟩
    simp only
    rw [if_neg (by omega)]
  split at h
  · cases c with
    | held i =>
      simp only at h
      split at h
      · next hc =>
        simp only [Option.some.injEq, Prod.mk.injEq] at h
        obtain ⟨rfl, rfl⟩ := h
        refine ⟨⟨rfl, rfl, rfl, rfl⟩, hc.2, .inl ⟨rfl, hc.1, fun k => ?_⟩, fun _ _ => rfl⟩
        simp only [List.count_erase, own, Option.some.injEq]
        have := List.count_pos_iff.mpr hc.1
        by_cases hk : i = k
        · subst hk; simp; omega
        · simp [hk]
      · cases h
    | fresh d =>
      simp only at h
      split at h
      · next hd => exact fresh d hd (Option.some.inj h)
      · cases h
  · exact fresh _ (by simp) (Option.some.inj h)

theorem put_spec (s : St) (pooled : Bool) (o : Option Nat) :
    SameOwners s (put s pooled o) ∧ (put s pooled o).next = s.next ∧ (put s pooled o).heap = s.heap ∧
    ((∀ i, (put s pooled o).pool.count i = s.pool.count i) ∨ ∀ i, (put s pooled o).pool.count i = s.pool.count i + own i o) := by
  unfold put
  cases o with
  | none => exact ⟨⟨rfl, rfl, rfl, rfl⟩, rfl, rfl, .inl fun _ => rfl⟩
  | some j =>
    simp only
    split
    · refine ⟨⟨rfl, rfl, rfl, rfl⟩, rfl, rfl, .inr fun i => ?_⟩
      simp only [List.count_cons, own, Option.some.injEq]
      by_cases h : j = i <;> simp [h]
    · exact ⟨⟨rfl, rfl, rfl, rfl⟩, rfl, rfl, .inl fun _ => rfl⟩

/-- What growing a buffer does: nothing, or a new buffer of the size asked for takes its place and the old one may go back. -/
theorem ensure_spec {s s' : St} {buf o : Option Nat} {pooled copyData : Bool} {t : Int} {c : Choice}
    (h : ensureBufferSize s buf pooled t copyData c = some (o, s')) :
    (o = buf ∧ s' = s ∧ t ≤ bufLen s buf) ∨
    ∃ j, o = some j ∧ SameOwners s s' ∧ t ≤ (s'.heap j).length ∧ bufLen s buf ≤ (s'.heap j).length ∧
      ((s'.next = s.next ∧ j ∈ s.pool) ∨ (s'.next = s.next + 1 ∧ j = s.next)) ∧
      (∀ i, s'.pool.count i + own i (some j) ≤ s.pool.count i + own i buf + if s.next ≤ i ∧ i < s'.next then 1 else 0) ∧
      (∀ i, i < s.next → i ≠ j → s'.heap i = s.heap i) ∧
      (copyData = true → (∀ b, buf = some b → b < s.next ∧ b ≠ j) → (s'.heap j).take (bufLen s buf) = bufBytes s buf) := by
  unfold ensureBufferSize at h
  split at h
  · next hle =>
    simp only [Option.some.injEq, Prod.mk.injEq] at h
    exact .inl ⟨h.1.symm, h.2.symm, hle⟩
  · cases ha : allocate s pooled (max t.toNat (bufLen s buf * 2)) c with
    | none => simp [ha] at h
    | some y =>
      obtain ⟨j, s1⟩ := y
      simp only [ha, Option.some.injEq, Prod.mk.injEq] at h
      obtain ⟨rfl, h⟩ := h
      obtain ⟨a1, a2, a3, a4⟩ := allocate_spec ha
      refine .inr ⟨j, rfl, ?_⟩
      -- the state after copying
      have hcopy : ∃ s2 : St, put s2 pooled buf = s' ∧ SameOwners s1 s2 ∧ s2.next = s1.next ∧ s2.pool = s1.pool ∧
          (∀ i, i ≠ j → s2.heap i = s1.heap i) ∧ (s1.heap j).length ≤ (s2.heap j).length ∧
          (copyData = true → s2.heap j = bufBytes s1 buf ++ (s1.heap j).drop (bufBytes s1 buf).length) := by
        refine ⟨_, h, ?_⟩
        cases copyData
        · exact ⟨⟨rfl, rfl, rfl, rfl⟩, rfl, rfl, fun _ _ => rfl, Nat.le_refl _, by simp⟩
        · refine ⟨⟨rfl, rfl, rfl, rfl⟩, rfl, rfl, fun i hi => ?_, ?_, ?_⟩
          · simp [St.write, hi]
          · simp [St.write]; omega
          · simp [St.write]
      obtain ⟨s2, hs2, c1, c2, c3, c4, c5, c6⟩ := hcopy
      obtain ⟨p1, p2, p3, p4⟩ := put_spec s2 pooled buf
      rw [hs2] at p1 p2 p3 p4
      refine ⟨(a1.trans c1).trans p1, ?_, ?_, ?_, ?_, ?_, ?_⟩
      · rw [p3]; omega
      · rw [p3]; omega
      · rw [p2, c2]
        rcases a3 with ⟨h1, h2, _⟩ | ⟨h1, h2, _⟩
        · exact .inl ⟨h1, h2⟩
        · exact .inr ⟨h1, h2⟩
      · intro i
        rw [p2, c2]
        have hp : s'.pool.count i ≤ s1.pool.count i + own i buf := by
          rcases p4 with p4 | p4 <;> rw [p4 i, c3] <;> omega
        rcases a3 with ⟨h1, _, h3⟩ | ⟨h1, h2, h3⟩
        · have := h3 i
          omega
        · rw [h3] at hp
          rw [h1, h2]
          by_cases hi : i = s.next
          · subst hi
            rw [own_self, if_pos (by omega)]; omega
          · rw [own_of_ne (o := some s.next) (by simp; omega)]; omega
      · intro i hi hij
        rw [p3, c4 i hij, a4 i hi]
      · intro hcd hb
        rw [p3, c6 hcd]
        have e : bufBytes s1 buf = bufBytes s buf := by
          cases buf with
          | none => rfl
          | some b => exact a4 b (hb b rfl).1
        have el : (bufBytes s buf).length = bufLen s buf := by cases buf <;> rfl
        rw [e, ← el, List.take_left]

/-! ### Owners in every step -/

theorem owners_eq {s s' : St} (h : SameOwners s s') (i : Nat) :
    owners s' i = s'.pool.count i + cnt Enc.buf s.encs i + cnt Buffer.buf s.bufs i + cnt ItBuf.buf s.its i + s.others.count i := by
  unfold owners
  rw [h.encs, h.bufs, h.its, h.others]

theorem reset_grow {s s' : St} {k : Nat} {e : Enc} {d : Bytes} {c : Choice} (he : s.encs[k]? = some e)
    (h : reset s k e d c = some s') : Grow s s' := by
  unfold reset at h
  obtain ⟨p1, p2, p3, p4⟩ := put_spec s e.pooled e.buf
  simp only at h
  cases ha : allocate (put s e.pooled e.buf) e.pooled (max e.initBufSize d.length) c with
  | none => simp [ha] at h
  | some y =>
    obtain ⟨j, s1⟩ := y
    simp only [ha, Option.some.injEq] at h
    obtain ⟨a1, a2, a3, a4⟩ := allocate_spec ha
    have hs := p1.trans a1
    subst h
    refine ⟨?_, fun i => ?_⟩
    · simp only [St.setEnc, St.write]
      rcases a3 with ⟨h1, _⟩ | ⟨h1, _⟩ <;> omega
    · simp only [owners, St.setEnc, St.write, hs.encs, hs.bufs, hs.its, hs.others]
      have hset := cnt_set Enc.buf i e { e with buf := some j, used := d.length } s.encs k he
      have hp : (put s e.pooled e.buf).pool.count i ≤ s.pool.count i + own i e.buf := by
        rcases p4 with p4 | p4 <;> rw [p4 i] <;> omega
      simp only at hset
      rcases a3 with ⟨h1, _, h3⟩ | ⟨h1, h2, h3⟩
      · have := h3 i
        omega
      · rw [h3, h1]
        rw [p2] at h2 ⊢
        subst h2
        by_cases hi : i = s.next
        · subst hi
          rw [own_self] at hset
          rw [if_pos (by omega)]; omega
        · rw [own_of_ne (o := some s.next) (by simp; omega)] at hset
          omega

theorem grow_refl (s : St) : Grow s s := ⟨Nat.le_refl _, fun _ => by omega⟩

theorem cnt_none_append (f : α → Option Nat) (l : List α) (e : α) (i : Nat) (h : f e = none) : cnt f (l ++ [e]) i = cnt f l i := by
  rw [cnt_append, h, own_none]; omega

theorem encodePB_grow {s s' : St} {k : Nat} {e : Enc} {pb : PBMetric} {c : Choice} {r : Res} (he : s.encs[k]? = some e)
    (h : encodePB s k e pb c = some (r, s')) (hr : r ≠ .panic) : Grow s s' := by
  unfold encodePB at h
  simp only at h
  split at h
  · cases h; exact grow_refl _
  · split at h
    · cases h
    · cases h; exact absurd rfl hr
    · next i s1 hen =>
      split at h
      · cases h; exact absurd rfl hr
      · split at h
        · cases h; exact absurd rfl hr
        · simp only [Option.some.injEq, Prod.mk.injEq] at h
          obtain ⟨_, rfl⟩ := h
          rcases ensure_spec hen with ⟨h1, h2, _⟩ | ⟨j, h1, hs, _, _, hn, hp, _⟩
          · subst h2
            refine ⟨Nat.le_refl _, fun q => ?_⟩
            simp only [owners, St.setEnc, St.write]
            have hset := cnt_set Enc.buf q e { e with buf := some i, used := e.used + (putVarint (metricWithMetadatas.size pb)).length +
              (metricWithMetadatas.marshal pb).length } s1.encs k he
            simp only [h1] at hset ⊢
            omega
          · cases h1
            refine ⟨?_, fun q => ?_⟩
            · simp only [St.setEnc, St.write]
              rcases hn with ⟨hn, _⟩ | ⟨hn, _⟩ <;> omega
            · simp only [owners, St.setEnc, St.write, hs.encs, hs.bufs, hs.its, hs.others]
              have hset := cnt_set Enc.buf q e { e with buf := some i, used := e.used + (putVarint (metricWithMetadatas.size pb)).length +
                (metricWithMetadatas.marshal pb).length } s.encs k he
              have := hp q
              simp only at hset
              omega

theorem step_grow {x : XTime} {s s' : St} {op : Op} {r : Res} (h : step x s op = some (r, s')) (hr : r ≠ .panic) : Grow s s' := by
  cases op with
  | newEncoder pooled n m c =>
    simp only [step, Option.map_eq_some_iff, Prod.mk.injEq] at h
    obtain ⟨s1, h, rfl, rfl⟩ := h
    have := reset_grow (s := { s with encs := s.encs ++ [{ pooled, initBufSize := n, maxMessageSize := m }] }) (by simp) h
    refine ⟨this.1, fun i => ?_⟩
    have h2 := this.2 i
    simp only [owners] at h2 ⊢
    rw [cnt_none_append _ _ _ _ rfl] at h2
    exact h2
  | reset k d c =>
    simp only [step] at h
    cases he : s.encs[k]? with
    | none => simp [he] at h
    | some e =>
      simp only [he, Option.map_eq_some_iff, Prod.mk.injEq] at h
      obtain ⟨s1, h, rfl, rfl⟩ := h
      exact reset_grow he h
  | truncate k n =>
    simp only [step] at h
    cases he : s.encs[k]? with
    | none => simp [he] at h
    | some e =>
      simp only [he, Option.some.injEq, truncate] at h
      split at h
      · cases h; exact grow_refl _
      · cases h
        refine ⟨Nat.le_refl _, fun i => ?_⟩
        have := cnt_set Enc.buf i e { e with used := n.toNat } s.encs k he
        simp only [owners, St.setEnc] at this ⊢
        omega
  | relinquish k =>
    simp only [step] at h
    cases he : s.encs[k]? with
    | none => simp [he] at h
    | some e =>
      simp only [he, Option.some.injEq, Prod.mk.injEq] at h
      obtain ⟨_, rfl⟩ := h
      refine ⟨Nat.le_refl _, fun i => ?_⟩
      have := cnt_set Enc.buf i e { e with buf := none, used := 0 } s.encs k he
      simp only [owners, relinquish, St.setEnc, cnt_append, own_none] at this ⊢
      omega
  | encode k p m c =>
    simp only [step] at h
    cases he : s.encs[k]? with
    | none => simp [he] at h
    | some e =>
      simp only [he, encode] at h
      split at h
      · cases h; exact grow_refl _
      · exact encodePB_grow he h hr
  | bufTruncate k n =>
    simp only [step] at h
    cases he : s.bufs[k]? with
    | none => simp [he] at h
    | some b =>
      simp only [he, Option.some.injEq, bufTruncate] at h
      split at h
      · cases h
        refine ⟨Nat.le_refl _, fun i => ?_⟩
        have := cnt_set Buffer.buf i b { b with len := n } s.bufs k he
        simp only [owners] at this ⊢
        omega
      · cases h; exact grow_refl _
  | bufWrite k d =>
    simp only [step] at h
    cases he : s.bufs[k]? with
    | none => simp [he] at h
    | some b =>
      simp only [he] at h
      split at h
      · cases h
      · split at h
        · cases h; exact ⟨Nat.le_refl _, fun i => by simp only [owners, St.write]; omega⟩
        · cases h
  | bufClose k =>
    simp only [step] at h
    cases he : s.bufs[k]? with
    | none => simp [he] at h
    | some b =>
      simp only [he, Option.some.injEq, Prod.mk.injEq] at h
      obtain ⟨_, rfl⟩ := h
      unfold bufClose
      split
      · exact grow_refl _
      · obtain ⟨p1, p2, p3, p4⟩ := put_spec s b.pooled b.buf
        refine ⟨by simp only; omega, fun i => ?_⟩
        have := cnt_set Buffer.buf i b { buf := none, len := 0, pooled := false, closed := true } s.bufs k he
        simp only [owners, p1.encs, p1.bufs, p1.its, p1.others, own_none] at this ⊢
        have hp : (put s b.pooled b.buf).pool.count i ≤ s.pool.count i + own i b.buf := by
          rcases p4 with p4 | p4 <;> rw [p4 i] <;> omega
        omega
  | newIter pooled n c =>
    simp only [step, newIter, Option.map_eq_some_iff, Prod.mk.injEq] at h
    obtain ⟨s1, h, rfl, rfl⟩ := h
    cases ha : allocate s pooled n c with
    | none => simp [ha] at h
    | some y =>
      obtain ⟨j, s1⟩ := y
      simp only [ha, Option.some.injEq] at h
      subst h
      obtain ⟨a1, a2, a3, a4⟩ := allocate_spec ha
      refine ⟨?_, fun i => ?_⟩
      · simp only
        rcases a3 with ⟨h1, _⟩ | ⟨h1, _⟩ <;> omega
      · simp only [owners, a1.encs, a1.bufs, a1.its, a1.others, cnt_append]
        rcases a3 with ⟨h1, _, h3⟩ | ⟨h1, h2, h3⟩
        · have := h3 i
          omega
        · rw [h3, h1, h2]
          by_cases hi : i = s.next
          · subst hi
            rw [own_self, if_pos (by omega)]; omega
          · rw [own_of_ne (o := some s.next) (by simp; omega)]
            omega
  | itRead k d c =>
    simp only [step] at h
    cases he : s.its[k]? with
    | none => simp [he] at h
    | some t =>
      simp only [he, Option.map_eq_some_iff, Prod.mk.injEq, itRead] at h
      obtain ⟨s1, h, rfl, rfl⟩ := h
      split at h
      · cases h; exact grow_refl _
      · split at h
        · cases h
        · next hen =>
          cases h
          rcases ensure_spec hen with ⟨h1, rfl, _⟩ | ⟨j, h1, _⟩
          · exact grow_refl _
          · cases h1
        · next i s2 hen =>
          cases h
          rcases ensure_spec hen with ⟨h1, h2, _⟩ | ⟨j, h1, hs, _, _, hn, hp, _⟩
          · subst h2
            refine ⟨Nat.le_refl _, fun q => ?_⟩
            have hset := cnt_set ItBuf.buf q t { t with buf := some i } s2.its k he
            simp only [owners, St.write, h1] at hset ⊢
            omega
          · cases h1
            refine ⟨?_, fun q => ?_⟩
            · simp only [St.write]
              rcases hn with ⟨hn, _⟩ | ⟨hn, _⟩ <;> omega
            · have hset := cnt_set ItBuf.buf q t { t with buf := some i } s.its k he
              simp only [owners, St.write, hs.encs, hs.bufs, hs.its, hs.others] at hset ⊢
              have := hp q
              omega
  | itClose k =>
    simp only [step] at h
    cases he : s.its[k]? with
    | none => simp [he] at h
    | some t =>
      simp only [he, Option.some.injEq, Prod.mk.injEq] at h
      obtain ⟨_, rfl⟩ := h
      unfold itClose
      split
      · exact grow_refl _
      · obtain ⟨p1, p2, p3, p4⟩ := put_spec s t.pooled t.buf
        refine ⟨by simp only; omega, fun i => ?_⟩
        have := cnt_set ItBuf.buf i t { buf := none, pooled := false, closed := true } s.its k he
        simp only [owners, p1.encs, p1.bufs, p1.its, p1.others, own_none] at this ⊢
        have hp : (put s t.pooled t.buf).pool.count i ≤ s.pool.count i + own i t.buf := by
          rcases p4 with p4 | p4 <;> rw [p4 i] <;> omega
        omega
  | otherNew d =>
    simp only [step, Option.some.injEq, Prod.mk.injEq] at h
    obtain ⟨_, rfl⟩ := h
    refine ⟨by simp [St.newArray, St.write], fun i => ?_⟩
    by_cases hi : s.next = i
    · subst hi
      simp [owners, St.newArray, St.write]; omega
    · simp [owners, St.newArray, St.write, List.count_cons, hi]
  | otherGet j =>
    simp only [step] at h
    split at h
    · next hj =>
      cases h
      refine ⟨Nat.le_refl _, fun i => ?_⟩
      simp only [owners, List.count_erase, List.count_cons]
      have := List.count_pos_iff.mpr hj
      by_cases hi : j = i
      · subst hi; simp; omega
      · simp [hi]
    · cases h
  | otherWrite j d =>
    simp only [step] at h
    split at h
    · cases h; exact ⟨Nat.le_refl _, fun i => by simp only [owners, St.write]; omega⟩
    · cases h
  | otherPut j =>
    simp only [step] at h
    split at h
    · next hj =>
      cases h
      refine ⟨Nat.le_refl _, fun i => ?_⟩
      simp only [owners, List.count_erase, List.count_cons]
      have := List.count_pos_iff.mpr hj
      by_cases hi : j = i
      · subst hi; simp; omega
      · simp [hi]
    · cases h

theorem inv_reach {x : XTime} {s : St} (h : Reach x s) : Inv s := by
  induction h with
  | init => exact ⟨by simp [owners, cnt], by simp [owners, cnt]⟩
  | step _ h hr ih => exact ih.grow (step_grow h hr)

/-! ### What a step writes -/

/-- The array of the one who acts. -/
def actor (s : St) : Op → Option Nat
  | .reset k _ _ => s.encs[k]?.bind Enc.buf
  | .encode k _ _ _ => s.encs[k]?.bind Enc.buf
  | .bufWrite k _ => s.bufs[k]?.bind Buffer.buf
  | .itRead k _ _ => s.its[k]?.bind ItBuf.buf
  | .otherWrite i _ => some i
  | _ => none

theorem reset_spec {s s' : St} {k : Nat} {e : Enc} {d : Bytes} {c : Choice} (h : reset s k e d c = some s') :
    ∃ j, s'.encs = s.encs.set k { e with buf := some j, used := d.length } ∧ s'.bufs = s.bufs ∧ s'.its = s.its ∧ s'.others = s.others ∧
      d.length ≤ (s'.heap j).length ∧ (s'.heap j).take d.length = d ∧
      ∀ i, i < s.next → i ∉ s.pool → e.buf ≠ some i → s'.heap i = s.heap i := by
  unfold reset at h
  obtain ⟨p1, p2, p3, p4⟩ := put_spec s e.pooled e.buf
  simp only at h
  cases ha : allocate (put s e.pooled e.buf) e.pooled (max e.initBufSize d.length) c with
  | none => simp [ha] at h
  | some y =>
    obtain ⟨j, s1⟩ := y
    simp only [ha, Option.some.injEq] at h
    obtain ⟨a1, a2, a3, a4⟩ := allocate_spec ha
    have hs := p1.trans a1
    subst h
    refine ⟨j, by simp [St.setEnc, St.write, hs.encs], hs.bufs, hs.its, hs.others, ?_, ?_, ?_⟩
    · simp [St.setEnc, St.write]
    · simp [St.setEnc, St.write]
    · intro i h1 h2 h3
      have hij : i ≠ j := by
        rintro rfl
        rcases a3 with ⟨_, hm, _⟩ | ⟨_, hm, _⟩
        · have hc := List.count_pos_iff.mpr hm
          have h0 := List.count_eq_zero.mpr h2
          rcases p4 with p4 | p4 <;> rw [p4 i] at hc
          · omega
          · rw [own_of_ne h3] at hc; omega
        · omega
      simp only [St.setEnc, St.write, hij, if_false]
      rw [a4 i (by omega), p3]

theorem writeAt_spec {a a' d : Bytes} {off : Nat} (h : writeAt a off d = some a') :
    a'.length = a.length ∧ a'.take (off + d.length) = a.take off ++ d ∧ off + d.length ≤ a.length := by
  unfold writeAt at h
  split at h
  · next hl =>
    cases h
    refine ⟨by simp; omega, ?_, hl⟩
    rw [List.append_assoc, ← List.append_assoc, List.take_left' (by simp; omega)]
  · cases h

theorem encLoop_len : ∀ (k f v : Nat), v < 128 ^ k → 0 < k → (encLoop f v).length ≤ k
  | 0, _, _, _, h => absurd h (by omega)
  | k + 1, 0, _, _, _ => by simp [encLoop]
  | k + 1, f + 1, v, hv, _ => by
    unfold encLoop
    split
    · next h =>
      have hk : 0 < k := by
        refine Nat.pos_of_ne_zero fun hk => ?_
        subst hk
        simp at hv; omega
      have := encLoop_len k f (v / 128) (by rw [Nat.div_lt_iff_lt_mul (by omega)]; rw [Nat.pow_succ] at hv; exact hv) hk
      simp; omega
    · simp

/-- Five bytes are enough for the sizes that are allowed. -/
theorem putVarint_len (n : Nat) (h : n < 17179869184) : (putVarint n).length ≤ 5 := by
  unfold putVarint encodeVarint
  refine encLoop_len 5 10 _ ?_ (by omega)
  unfold zigzag
  rw [if_neg (by omega)]
  omega

/-- `encodePB` on an encoder whose contents lie in its buffer. -/
theorem encodePB_spec {s s' : St} {k : Nat} {e : Enc} {pb : PBMetric} {c : Choice} {r : Res}
    (hb : ∀ b, e.buf = some b → b < s.next ∧ b ∉ s.pool) (hu : e.used ≤ bufLen s e.buf) (hm : e.maxMessageSize < 17179869184)
    (h : encodePB s k e pb c = some (r, s')) :
    (r = .err ∧ s' = s ∧ e.maxMessageSize < metricWithMetadatas.size pb) ∨
    (r = .ok ∧ metricWithMetadatas.size pb ≤ e.maxMessageSize ∧
      ∃ j u, s'.encs = s.encs.set k { e with buf := some j, used := u } ∧ s'.bufs = s.bufs ∧ s'.its = s.its ∧ s'.others = s.others ∧
        u ≤ (s'.heap j).length ∧ (s'.heap j).take u = (bufBytes s e.buf).take e.used ++ frame pb ∧
        ∀ i, i < s.next → i ∉ s.pool → e.buf ≠ some i → s'.heap i = s.heap i) := by
  unfold encodePB at h
  simp only at h
  split at h
  · next hgt =>
    cases h
    exact .inl ⟨rfl, rfl, by omega⟩
  · next hle =>
    refine .inr ?_
    have hsz := size_eq pb
    have hlen := putVarint_len (metricWithMetadatas.size pb) (by omega)
    split at h
    · cases h
    · next hen =>
      rcases ensure_spec hen with ⟨h1, rfl, h3⟩ | ⟨j, h1, _⟩
      · rw [← h1] at h3
        simp [bufLen] at h3
        omega
      · cases h1
    · next i s1 hen =>
      -- the buffer to write to
      have hbuf : SameOwners s s1 ∧ e.used + (5 + metricWithMetadatas.size pb) ≤ (s1.heap i).length ∧
          (s1.heap i).take e.used = (bufBytes s e.buf).take e.used ∧ e.used ≤ (s1.heap i).length ∧
          (∀ q, q < s.next → q ∉ s.pool → e.buf ≠ some q → q ≠ i ∧ s1.heap q = s.heap q) := by
        rcases ensure_spec hen with ⟨h1, h2, h3⟩ | ⟨j, h1, hs, h4, h5, hn, hp, hh, hcp⟩
        · subst h2
          rw [← h1] at hu h3 ⊢
          simp only [bufLen, bufBytes] at hu h3 ⊢
          refine ⟨⟨rfl, rfl, rfl, rfl⟩, by omega, by trivial, hu, ?_⟩
          intro q _ _ hq
          exact ⟨fun he => hq (by rw [he]), by trivial⟩
        · cases h1
          refine ⟨hs, by omega, ?_, by omega, ?_⟩
          · have := hcp rfl (by
              intro b he
              obtain ⟨g1, g2⟩ := hb b he
              refine ⟨g1, ?_⟩
              rintro rfl
              rcases hn with ⟨_, hn⟩ | ⟨_, hn⟩
              · exact g2 hn
              · omega)
            rw [← this, List.take_take, Nat.min_eq_left hu]
          · intro q h1 h2 _
            have hqi : q ≠ i := by
              rintro rfl
              rcases hn with ⟨_, hn⟩ | ⟨_, hn⟩
              · exact h2 hn
              · omega
            exact ⟨hqi, hh q h1 hqi⟩
      obtain ⟨hs, hl, ht, hul, hh⟩ := hbuf
      cases hw : writeAt (s1.heap i) e.used (putVarint (metricWithMetadatas.size pb)) with
      | none =>
        unfold writeAt at hw
        rw [if_pos (by omega)] at hw
        cases hw
      | some a =>
        obtain ⟨w1, w2, w3⟩ := writeAt_spec hw
        simp only [hw, St.write, if_true] at h
        cases hw2 : writeAt a (e.used + (putVarint (metricWithMetadatas.size pb)).length) (metricWithMetadatas.marshal pb) with
        | none =>
          unfold writeAt at hw2
          rw [if_pos (by omega)] at hw2
          cases hw2
        | some a2 =>
          obtain ⟨v1, v2, v3⟩ := writeAt_spec hw2
          simp only [hw2, Option.some.injEq, Prod.mk.injEq] at h
          obtain ⟨rfl, rfl⟩ := h
          refine ⟨rfl, by omega, i, _, by simp only [St.setEnc, hs.encs]; rfl, hs.bufs, hs.its, hs.others, ?_, ?_, ?_⟩
          · simp only [St.setEnc, if_true]; omega
          · simp only [St.setEnc, if_true]
            rw [v2, w2, ht, List.append_assoc]
            rfl
          · intro q h1 h2 h3
            obtain ⟨g1, g2⟩ := hh q h1 h2 h3
            simp only [St.setEnc, g1, if_false]
            exact g2

/-- The contents of an encoder lie in its buffer, and so does what a buffer shows. -/
structure Wf (s : St) : Prop where
  encs : ∀ (k : Nat) (e : Enc), s.encs[k]? = some e → e.used ≤ bufLen s e.buf
  bufs : ∀ (k : Nat) (b : Buffer), s.bufs[k]? = some b → b.len ≤ bufLen s b.buf

/-- Allowed maximum sizes, so that a size fits into the five bytes reserved for it. -/
def Small (s : St) : Prop := ∀ (k : Nat) (e : Enc), s.encs[k]? = some e → e.maxMessageSize < 17179869184

theorem Inv.enc {s : St} (hi : Inv s) {k : Nat} {e : Enc} (he : s.encs[k]? = some e) {b : Nat} (hb : e.buf = some b) :
    b < s.next ∧ b ∉ s.pool := by
  have h1 := cnt_ge Enc.buf b e s.encs k he
  rw [hb, own_self] at h1
  have h2 := hi.one b
  have h3 := hi.new b
  unfold owners at h2 h3
  refine ⟨?_, fun hm => ?_⟩
  · refine Classical.byContradiction fun hc => ?_
    have := h3 (by omega)
    omega
  · have := List.count_pos_iff.mpr hm
    omega

theorem Inv.buf {s : St} (hi : Inv s) {k : Nat} {e : Buffer} (he : s.bufs[k]? = some e) {b : Nat} (hb : e.buf = some b) :
    b < s.next ∧ b ∉ s.pool := by
  have h1 := cnt_ge Buffer.buf b e s.bufs k he
  rw [hb, own_self] at h1
  have h2 := hi.one b
  have h3 := hi.new b
  unfold owners at h2 h3
  refine ⟨?_, fun hm => ?_⟩
  · refine Classical.byContradiction fun hc => ?_
    have := h3 (by omega)
    omega
  · have := List.count_pos_iff.mpr hm
    omega

/-- A step writes the array of the one who acts, and arrays that were in the pool or did not exist; nothing else. -/
theorem step_heap {x : XTime} {s s' : St} {op : Op} {r : Res} (hi : Inv s) (hw : Wf s) (hsm : Small s)
    (h : step x s op = some (r, s')) {i : Nat} (h1 : i < s.next) (h2 : i ∉ s.pool) (h3 : actor s op ≠ some i) :
    s'.heap i = s.heap i := by
  cases op with
  | newEncoder pooled n m c =>
    simp only [step, newEncoder, Option.map_eq_some_iff, Prod.mk.injEq] at h
    obtain ⟨s1, h, rfl, rfl⟩ := h
    obtain ⟨j, _, _, _, _, _, _, hh⟩ := reset_spec h
    exact hh i h1 h2 (by simp)
  | reset k d c =>
    simp only [step] at h
    cases he : s.encs[k]? with
    | none => simp [he] at h
    | some e =>
      simp only [he, Option.map_eq_some_iff, Prod.mk.injEq] at h
      obtain ⟨s1, h, rfl, rfl⟩ := h
      obtain ⟨j, _, _, _, _, _, _, hh⟩ := reset_spec h
      exact hh i h1 h2 (by simpa [actor, he] using h3)
  | truncate k n =>
    simp only [step] at h
    split at h
    · cases h
    · simp only [truncate] at h
      split at h <;> cases h <;> rfl
  | relinquish k =>
    simp only [step] at h
    split at h
    · cases h
    · cases h; rfl
  | encode k p m c =>
    simp only [step] at h
    cases he : s.encs[k]? with
    | none => simp [he] at h
    | some e =>
      simp only [he, encode] at h
      split at h
      · cases h; rfl
      · rcases encodePB_spec (fun b hb => hi.enc he hb) (hw.encs k e he) (hsm k e he) h with ⟨_, rfl, _⟩ | ⟨_, _, j, u, _, _, _, _, _, _, hh⟩
        · rfl
        · exact hh i h1 h2 (by simpa [actor, he] using h3)
  | bufTruncate k n =>
    simp only [step] at h
    split at h
    · cases h
    · simp only [bufTruncate] at h
      split at h <;> cases h <;> rfl
  | bufWrite k d =>
    simp only [step] at h
    cases he : s.bufs[k]? with
    | none => simp [he] at h
    | some b =>
      simp only [he] at h
      split at h
      · cases h
      · next j hj =>
        split at h
        · cases h
          have : i ≠ j := by
            rintro rfl
            simp [actor, he, hj] at h3
          simp [St.write, this]
        · cases h
  | bufClose k =>
    simp only [step] at h
    split at h
    · cases h
    · cases h
      unfold bufClose
      split
      · rfl
      · simp only [(put_spec s _ _).2.2.1]
  | newIter pooled n c =>
    simp only [step, newIter, Option.map_eq_some_iff, Prod.mk.injEq] at h
    obtain ⟨s1, h, rfl, rfl⟩ := h
    split at h
    · cases h
    · next ha =>
      cases h
      exact (allocate_spec ha).2.2.2 i h1
  | itRead k d c =>
    simp only [step] at h
    cases he : s.its[k]? with
    | none => simp [he] at h
    | some t =>
      simp only [he, Option.map_eq_some_iff, Prod.mk.injEq, itRead] at h
      obtain ⟨s1, h, rfl, rfl⟩ := h
      split at h
      · cases h; rfl
      · split at h
        · cases h
        · next hen =>
          cases h
          rcases ensure_spec hen with ⟨_, rfl, _⟩ | ⟨j, g, _⟩
          · rfl
          · cases g
        · next j s2 hen =>
          cases h
          rcases ensure_spec hen with ⟨g, rfl, _⟩ | ⟨j', g, _, _, _, hn, _, hh, _⟩
          · have : i ≠ j := by
              rintro rfl
              simp [actor, he, ← g] at h3
            simp [St.write, this]
          · cases g
            have : i ≠ j := by
              rintro rfl
              rcases hn with ⟨_, hn⟩ | ⟨_, hn⟩
              · exact h2 hn
              · omega
            simp [St.write, this, hh i h1 this]
  | itClose k =>
    simp only [step] at h
    split at h
    · cases h
    · cases h
      unfold itClose
      split
      · rfl
      · simp only [(put_spec s _ _).2.2.1]
  | otherNew d =>
    cases h
    simp [St.newArray, St.write, show i ≠ s.next by omega]
  | otherGet j =>
    simp only [step] at h
    split at h <;> cases h; rfl
  | otherWrite j d =>
    simp only [step] at h
    split at h
    · cases h
      have : i ≠ j := by
        rintro rfl
        simp [actor] at h3
      simp [St.write, this]
    · cases h
  | otherPut j =>
    simp only [step] at h
    split at h <;> cases h; rfl

end Verif.PBuf
