import Verif.Props.ProtoBuffer
/-
C20: when encoders and iterators have a pool, no array that came from it is lost; and what an iterator read stays in its buffer until the
iterator goes on.
-/
namespace Verif.PBuf
open Verif.Policy Verif.Meta Verif.Wire Verif.Msg Verif.PIter Verif.Spec.Msg Verif.Spec.ByteLog

/-- Everyone uses the pool who is not done with it. -/
structure AllPooled (s : St) : Prop where
  encs : ∀ (k : Nat) (e : Enc), s.encs[k]? = some e → e.pooled = true
  bufs : ∀ (k : Nat) (b : Buffer), s.bufs[k]? = some b → b.closed = false → b.pooled = true
  its : ∀ (k : Nat) (t : ItBuf), s.its[k]? = some t → t.closed = false → t.pooled = true

/-- Encoders and iterators are made with the pool. -/
def withPool : Op → Prop
  | .newEncoder pooled _ _ _ => pooled = true
  | .newIter pooled _ _ => pooled = true
  | _ => True

/-- No array loses its owner, and new arrays have one. -/
def Keep (s s' : St) : Prop := ∀ i, (owners s i + if s.next ≤ i ∧ i < s'.next then 1 else 0) ≤ owners s' i

theorem keep_refl (s : St) : Keep s s := fun i => by rw [if_neg (by omega)]; omega

theorem keep_of_same {s s' : St} (hn : s'.next = s.next) (h : ∀ i, owners s i ≤ owners s' i) : Keep s s' := fun i => by
  rw [if_neg (by omega)]; exact h i

theorem put_true (s : St) {pooled : Bool} (hp : pooled = true) (o : Option Nat) (i : Nat) :
    (put s pooled o).pool.count i = s.pool.count i + own i o := by
  subst hp
  unfold put
  cases o with
  | none => simp [own]
  | some j =>
    simp only [if_true, List.count_cons, own, Option.some.injEq]
    by_cases h : j = i <;> simp [h]

theorem taken_keep {s s' : St} {j : Nat} (h : Taken s s' j) (i : Nat) :
    (s.pool.count i + if s.next ≤ i ∧ i < s'.next then 1 else 0) = s'.pool.count i + own i (some j) := by
  rcases h with ⟨h1, _, h3⟩ | ⟨h1, h2, h3⟩
  · have := h3 i
    rw [if_neg (by omega)]; omega
  · rw [h3, h1, h2]
    by_cases hi : i = s.next
    · subst hi
      rw [own_self, if_pos (by omega)]
    · rw [own_of_ne (by simp; omega), if_neg (by omega)]

theorem ensure_keep {s s' : St} {buf o : Option Nat} {pooled copyData : Bool} {t : Int} {c : Choice} (hp : pooled = true)
    (h : ensureBufferSize s buf pooled t copyData c = some (o, s')) :
    (o = buf ∧ s' = s) ∨ ∃ j, o = some j ∧ SameOwners s s' ∧
      ∀ i, (s.pool.count i + own i buf + if s.next ≤ i ∧ i < s'.next then 1 else 0) = s'.pool.count i + own i (some j) := by
  unfold ensureBufferSize at h
  split at h
  · simp only [Option.some.injEq, Prod.mk.injEq] at h
    exact .inl ⟨h.1.symm, h.2.symm⟩
  · cases ha : allocate s pooled (max t.toNat (bufLen s buf * 2)) c with
    | none => simp [ha] at h
    | some y =>
      obtain ⟨j, s1⟩ := y
      simp only [ha, Option.some.injEq, Prod.mk.injEq] at h
      obtain ⟨rfl, h⟩ := h
      obtain ⟨a1, _, a3, _⟩ := allocate_spec ha
      refine .inr ⟨j, rfl, ?_⟩
      have hcopy : ∃ s2 : St, put s2 pooled buf = s' ∧ SameOwners s1 s2 ∧ s2.next = s1.next ∧ s2.pool = s1.pool := by
        refine ⟨_, h, ?_⟩
        cases copyData <;> exact ⟨⟨rfl, rfl, rfl, rfl⟩, rfl, rfl⟩
      obtain ⟨s2, rfl, c1, c2, c3⟩ := hcopy
      obtain ⟨p1, p2, _, _⟩ := put_spec s2 pooled buf
      refine ⟨(a1.trans c1).trans p1, fun i => ?_⟩
      rw [put_true _ hp, p2, c2, c3]
      have := taken_keep a3 i
      omega

theorem reset_keep {s s' : St} {k : Nat} {e : Enc} {d : Bytes} {c : Choice} (he : s.encs[k]? = some e) (hp : e.pooled = true)
    (h : reset s k e d c = some s') : Keep s s' := by
  unfold reset at h
  obtain ⟨p1, p2, p3, _⟩ := put_spec s e.pooled e.buf
  simp only at h
  cases ha : allocate (put s e.pooled e.buf) e.pooled (max e.initBufSize d.length) c with
  | none => simp [ha] at h
  | some y =>
    obtain ⟨j, s1⟩ := y
    simp only [ha, Option.some.injEq] at h
    obtain ⟨a1, a2, a3, a4⟩ := allocate_spec ha
    have hs := p1.trans a1
    subst h
    intro i
    simp only [owners, St.setEnc, St.write, hs.encs, hs.bufs, hs.its, hs.others]
    have hset := cnt_set Enc.buf i e { e with buf := some j, used := d.length } s.encs k he
    have ht := taken_keep a3 i
    rw [put_true _ hp, p2] at ht
    simp only at hset
    omega

theorem encodePB_keep {s s' : St} {k : Nat} {e : Enc} {pb : PBMetric} {c : Choice} {r : Res} (he : s.encs[k]? = some e)
    (hp : e.pooled = true) (h : encodePB s k e pb c = some (r, s')) (hr : r ≠ .panic) : Keep s s' := by
  unfold encodePB at h
  simp only at h
  split at h
  · cases h; exact keep_refl _
  · split at h
    · cases h
    · cases h; exact absurd rfl hr
    · next i s1 hen =>
      split at h
      · cases h; exact absurd rfl hr
      · split at h
        · cases h; exact absurd rfl hr
        · simp only [Option.some.injEq, Prod.mk.injEq] at h
          obtain ⟨_, rfl⟩ := h
          rcases ensure_keep hp hen with ⟨h1, h2⟩ | ⟨j, h1, hs, hq⟩
          · subst h2
            refine keep_of_same rfl fun q => ?_
            simp only [owners, St.setEnc, St.write]
            have hset := cnt_set Enc.buf q e { e with buf := some i, used := e.used + (putVarint (metricWithMetadatas.size pb)).length +
              (metricWithMetadatas.marshal pb).length } s1.encs k he
            simp only [h1] at hset ⊢
            omega
          · cases h1
            intro q
            simp only [owners, St.setEnc, St.write, hs.encs, hs.bufs, hs.its, hs.others]
            have hset := cnt_set Enc.buf q e { e with buf := some i, used := e.used + (putVarint (metricWithMetadatas.size pb)).length +
              (metricWithMetadatas.marshal pb).length } s.encs k he
            have := hq q
            simp only at hset
            omega

theorem step_keep {x : XTime} {s s' : St} {op : Op} {r : Res} (hg : AllPooled s) (hop : withPool op) (h : step x s op = some (r, s'))
    (hr : r ≠ .panic) : Keep s s' := by
  cases op with
  | newEncoder pooled n m c =>
    simp only [step, Option.map_eq_some_iff, Prod.mk.injEq] at h
    obtain ⟨s1, h, rfl, rfl⟩ := h
    have := reset_keep (s := { s with encs := s.encs ++ [{ pooled, initBufSize := n, maxMessageSize := m }] }) (e := { pooled, initBufSize := n, maxMessageSize := m }) (by simp) hop h
    intro i
    have h2 := this i
    simp only [owners] at h2 ⊢
    rw [cnt_none_append _ _ _ _ rfl] at h2
    exact h2
  | reset k d c =>
    simp only [step] at h
    cases he : s.encs[k]? with
    | none => simp [he] at h
    | some e =>
      simp only [he, Option.map_eq_some_iff, Prod.mk.injEq] at h
      obtain ⟨s1, h, rfl, rfl⟩ := h
      exact reset_keep he (hg.encs k e he) h
  | truncate k n =>
    simp only [step] at h
    cases he : s.encs[k]? with
    | none => simp [he] at h
    | some e =>
      simp only [he, Option.some.injEq, truncate] at h
      split at h
      · cases h; exact keep_refl _
      · cases h
        refine keep_of_same rfl fun i => ?_
        have := cnt_set Enc.buf i e { e with used := n.toNat } s.encs k he
        simp only [owners, St.setEnc] at this ⊢
        omega
  | relinquish k =>
    simp only [step] at h
    cases he : s.encs[k]? with
    | none => simp [he] at h
    | some e =>
      simp only [he, Option.some.injEq, Prod.mk.injEq] at h
      obtain ⟨_, rfl⟩ := h
      refine keep_of_same rfl fun i => ?_
      have := cnt_set Enc.buf i e { e with buf := none, used := 0 } s.encs k he
      simp only [owners, relinquish, St.setEnc, cnt_append, own_none] at this ⊢
      omega
  | encode k p m c =>
    simp only [step] at h
    cases he : s.encs[k]? with
    | none => simp [he] at h
    | some e =>
      simp only [he, encode] at h
      split at h
      · cases h; exact keep_refl _
      · exact encodePB_keep he (hg.encs k e he) h hr
  | bufTruncate k n =>
    simp only [step] at h
    cases he : s.bufs[k]? with
    | none => simp [he] at h
    | some b =>
      simp only [he, Option.some.injEq, bufTruncate] at h
      split at h
      · cases h
        refine keep_of_same rfl fun i => ?_
        have := cnt_set Buffer.buf i b { b with len := n } s.bufs k he
        simp only [owners] at this ⊢
        omega
      · cases h; exact keep_refl _
  | bufWrite k d =>
    simp only [step] at h
    cases he : s.bufs[k]? with
    | none => simp [he] at h
    | some b =>
      simp only [he] at h
      split at h
      · cases h
      · split at h
        · cases h; exact keep_of_same rfl fun i => by simp only [owners, St.write]; omega
        · cases h
  | bufClose k =>
    simp only [step] at h
    cases he : s.bufs[k]? with
    | none => simp [he] at h
    | some b =>
      simp only [he, Option.some.injEq, Prod.mk.injEq] at h
      obtain ⟨_, rfl⟩ := h
      unfold bufClose
      split
      · exact keep_refl _
      · next hc =>
        have hb := hg.bufs k b he (by simpa using hc)
        obtain ⟨p1, p2, p3, _⟩ := put_spec s b.pooled b.buf
        refine keep_of_same p2 fun i => ?_
        have := cnt_set Buffer.buf i b { buf := none, len := 0, pooled := false, closed := true } s.bufs k he
        have hp := put_true s hb b.buf i
        simp only [owners, p1.encs, p1.bufs, p1.its, p1.others, own_none] at this ⊢
        omega
  | newIter pooled n c =>
    simp only [step, newIter, Option.map_eq_some_iff, Prod.mk.injEq] at h
    obtain ⟨s1, h, rfl, rfl⟩ := h
    cases ha : allocate s pooled n c with
    | none => simp [ha] at h
    | some y =>
      obtain ⟨j, s1⟩ := y
      simp only [ha, Option.some.injEq] at h
      subst h
      obtain ⟨a1, a2, a3, a4⟩ := allocate_spec ha
      intro i
      simp only [owners, a1.encs, a1.bufs, a1.its, a1.others, cnt_append]
      have := taken_keep a3 i
      omega
  | itRead k d c =>
    simp only [step] at h
    cases he : s.its[k]? with
    | none => simp [he] at h
    | some t =>
      simp only [he, Option.map_eq_some_iff, Prod.mk.injEq, itRead] at h
      obtain ⟨s1, h, rfl, rfl⟩ := h
      split at h
      · cases h; exact keep_refl _
      · next hc =>
        have hp := hg.its k t he (by simpa using hc)
        split at h
        · cases h
        · next hen =>
          cases h
          rcases ensure_keep hp hen with ⟨h1, rfl⟩ | ⟨j, h1, _⟩
          · exact keep_refl _
          · cases h1
        · next i s2 hen =>
          cases h
          rcases ensure_keep hp hen with ⟨h1, h2⟩ | ⟨j, h1, hs, hq⟩
          · subst h2
            refine keep_of_same rfl fun q => ?_
            have hset := cnt_set ItBuf.buf q t { t with buf := some i } s2.its k he
            simp only [owners, St.write, h1] at hset ⊢
            have : ItBuf.buf t = t.buf := rfl
            simp only [← h1] at hset ⊢
            omega
          · cases h1
            intro q
            have hset := cnt_set ItBuf.buf q t { t with buf := some i } s.its k he
            simp only [owners, St.write, hs.encs, hs.bufs, hs.its, hs.others] at hset ⊢
            have := hq q
            omega
  | itClose k =>
    simp only [step] at h
    cases he : s.its[k]? with
    | none => simp [he] at h
    | some t =>
      simp only [he, Option.some.injEq, Prod.mk.injEq] at h
      obtain ⟨_, rfl⟩ := h
      unfold itClose
      split
      · exact keep_refl _
      · next hc =>
        have hb := hg.its k t he (by simpa using hc)
        obtain ⟨p1, p2, p3, _⟩ := put_spec s t.pooled t.buf
        refine keep_of_same p2 fun i => ?_
        have := cnt_set ItBuf.buf i t { buf := none, pooled := false, closed := true } s.its k he
        have hp := put_true s hb t.buf i
        simp only [owners, p1.encs, p1.bufs, p1.its, p1.others, own_none] at this ⊢
        omega
  | otherNew d =>
    simp only [step, Option.some.injEq, Prod.mk.injEq] at h
    obtain ⟨_, rfl⟩ := h
    intro i
    by_cases hi : s.next = i
    · subst hi
      simp [owners, St.newArray, St.write]; omega
    · have : ¬ (s.next ≤ i ∧ i < s.next + 1) := by omega
      simp [owners, St.newArray, St.write, List.count_cons, this]
  | otherGet j =>
    simp only [step] at h
    split at h
    · next hj =>
      cases h
      refine keep_of_same rfl fun i => ?_
      simp only [owners, List.count_erase, List.count_cons]
      have := List.count_pos_iff.mpr hj
      by_cases hi : j = i
      · subst hi; simp; omega
      · simp [hi]
    · cases h
  | otherWrite j d =>
    simp only [step] at h
    split at h
    · cases h; exact keep_of_same rfl fun i => by simp only [owners, St.write]; omega
    · cases h
  | otherPut j =>
    simp only [step] at h
    split at h
    · next hj =>
      cases h
      refine keep_of_same rfl fun i => ?_
      simp only [owners, List.count_erase, List.count_cons]
      have := List.count_pos_iff.mpr hj
      by_cases hi : j = i
      · subst hi; simp; omega
      · simp [hi]
    · cases h

/-! ### Everyone goes on using the pool -/

/-- What a step does to the iterators. -/
theorem step_its {x : XTime} {s s' : St} {op : Op} {r : Res} (hi : Inv s) (hw : Wf s) (hsm : Small s) (h : step x s op = some (r, s')) :
    s'.its = s.its ∨ (∃ p n c i, op = .newIter p n c ∧ s'.its = s.its ++ [{ buf := some i, pooled := p }]) ∨
    (∃ k d c t o, op = .itRead k d c ∧ s.its[k]? = some t ∧ t.closed = false ∧ s'.its = s.its.set k { t with buf := o } ∧
      (bufBytes s' o).take d.length = d) ∨
    (∃ k, op = .itClose k ∧ s'.its = s.its.set k { buf := none, pooled := false, closed := true }) := by
  cases op with
  | newEncoder pooled n m c =>
    simp only [step, newEncoder, Option.map_eq_some_iff, Prod.mk.injEq] at h
    obtain ⟨s1, h, rfl, rfl⟩ := h
    obtain ⟨j, _, _, h1, _⟩ := reset_spec h
    exact .inl h1
  | reset k d c =>
    simp only [step] at h
    split at h
    · cases h
    · simp only [Option.map_eq_some_iff, Prod.mk.injEq] at h
      obtain ⟨s1, h, rfl, rfl⟩ := h
      obtain ⟨j, _, _, h1, _⟩ := reset_spec h
      exact .inl h1
  | truncate k n =>
    refine .inl ?_
    simp only [step] at h
    split at h
    · cases h
    · simp only [truncate] at h
      split at h <;> cases h <;> rfl
  | relinquish k =>
    refine .inl ?_
    simp only [step] at h
    split at h <;> cases h
    rfl
  | encode k p m c =>
    refine .inl ?_
    simp only [step] at h
    cases he : s.encs[k]? with
    | none => simp [he] at h
    | some e =>
      simp only [he, encode] at h
      split at h
      · cases h; rfl
      · rcases encodePB_spec (fun b hb => hi.enc he hb) (hw.encs k e he) (hsm k e he) h with ⟨_, rfl, _⟩ | ⟨_, _, j, u, _, _, h2, _⟩
        · rfl
        · exact h2
  | bufTruncate k n =>
    refine .inl ?_
    simp only [step] at h
    split at h
    · cases h
    · simp only [bufTruncate] at h
      split at h <;> cases h <;> rfl
  | bufWrite k d =>
    refine .inl ?_
    simp only [step] at h
    split at h
    · cases h
    · split at h
      · cases h
      · split at h <;> cases h; rfl
  | bufClose k =>
    refine .inl ?_
    simp only [step] at h
    split at h
    · cases h
    · cases h
      unfold bufClose
      split
      · rfl
      · simp only [(put_spec s _ _).1.its]
  | newIter pooled n c =>
    simp only [step, newIter, Option.map_eq_some_iff, Prod.mk.injEq] at h
    obtain ⟨s1, h, rfl, rfl⟩ := h
    split at h
    · cases h
    · next j _ ha =>
      cases h
      exact .inr (.inl ⟨pooled, n, c, j, rfl, by simp only [(allocate_spec ha).1.its]⟩)
  | itRead k d c =>
    simp only [step] at h
    cases he : s.its[k]? with
    | none => simp [he] at h
    | some t =>
      simp only [he, Option.map_eq_some_iff, Prod.mk.injEq, itRead] at h
      obtain ⟨s1, h, rfl, rfl⟩ := h
      split at h
      · cases h; exact .inl rfl
      · next hc =>
        split at h
        · cases h
        · next hen =>
          cases h
          rcases ensure_spec hen with ⟨g, rfl, hd⟩ | ⟨j, g, _⟩
          · rw [← g] at hd
            have hd : d = [] := List.eq_nil_of_length_eq_zero (by simp only [bufLen] at hd; omega)
            refine .inr (.inr (.inl ⟨k, d, c, t, none, rfl, he, by simpa using hc, ?_, by rw [hd]; rfl⟩))
            rw [g]
            exact (set_self he).symm
          · cases g
        · next j s2 hen =>
          cases h
          refine .inr (.inr (.inl ⟨k, d, c, t, some j, rfl, he, by simpa using hc, ?_, by simp [bufBytes, St.write]⟩))
          rcases ensure_spec hen with ⟨g, rfl, _⟩ | ⟨j', g, hs, _⟩
          · rfl
          · simp only [St.write, hs.its]
  | itClose k =>
    simp only [step] at h
    split at h
    · cases h
    · cases h
      unfold itClose
      split
      · exact .inl rfl
      · exact .inr (.inr (.inr ⟨k, rfl, by simp only [(put_spec s _ _).1.its]⟩))
  | otherNew d => cases h; exact .inl rfl
  | otherGet j =>
    simp only [step] at h
    split at h <;> cases h; exact .inl rfl
  | otherWrite j d =>
    simp only [step] at h
    split at h <;> cases h; exact .inl rfl
  | otherPut j =>
    simp only [step] at h
    split at h <;> cases h; exact .inl rfl

theorem pooled_encs {x : XTime} {s s' : St} {op : Op} {r : Res} (hg : Good s) (hop : withPool op) (h : step x s op = some (r, s'))
    (hp : ∀ (k : Nat) (e : Enc), s.encs[k]? = some e → e.pooled = true) :
    ∀ (k : Nat) (e : Enc), s'.encs[k]? = some e → e.pooled = true := by
  have set : ∀ (k : Nat) (e e' : Enc), s.encs[k]? = some e → s'.encs = s.encs.set k e' → e'.pooled = e.pooled →
      ∀ (q : Nat) (e : Enc), s'.encs[q]? = some e → e.pooled = true := by
    intro k e e' he hs hpe q f hf
    rw [hs, List.getElem?_set] at hf
    split at hf
    · split at hf
      · cases hf; rw [hpe]; exact hp k e he
      · cases hf
    · exact hp q f hf
  rcases step_enc hg.inv hg.wf hg.small h with ⟨_, _, h0⟩ | ⟨a, b, m, d, e', rfl, _, h1, _⟩ | ⟨k, e, _, hk, he, _⟩
  · rw [h0]; exact hp
  · simp only [step, newEncoder, Option.map_eq_some_iff, Prod.mk.injEq] at h
    obtain ⟨s1, h, rfl, rfl⟩ := h
    obtain ⟨j, h2, _⟩ := reset_spec h
    intro q f hf
    rw [h2, List.set_append_right _ _ (Nat.le_refl _), Nat.sub_self, List.set_cons_zero] at hf
    by_cases hl : q < s.encs.length
    · rw [List.getElem?_append_left hl] at hf
      exact hp q f hf
    · rw [List.getElem?_append_right (by omega)] at hf
      cases hs : q - s.encs.length with
      | zero => rw [hs] at hf; cases hf; exact hop
      | succ n => rw [hs] at hf; simp at hf
  · cases op <;> simp only [onEncoder, Option.some.injEq, reduceCtorEq] at hk
    all_goals subst hk
    all_goals simp only [step, he] at h
    case reset d c =>
      simp only [Option.map_eq_some_iff, Prod.mk.injEq] at h
      obtain ⟨s1, h, rfl, rfl⟩ := h
      obtain ⟨j, h1, _⟩ := reset_spec h
      exact set _ e _ he h1 rfl
    case truncate n =>
      simp only [truncate] at h
      split at h
      · cases h; exact hp
      · cases h; exact set _ e _ he rfl rfl
    case relinquish => cases h; exact set _ e _ he rfl rfl
    case encode p m c =>
      simp only [encode] at h
      split at h
      · cases h; exact hp
      · rcases encodePB_spec (fun b hb => hg.inv.enc he hb) (hg.wf.encs _ e he) (hg.small _ e he) h with ⟨_, rfl, _⟩ | ⟨_, _, j, u, h2, _⟩
        · exact hp
        · exact set _ e _ he h2 rfl

theorem pooled_step {x : XTime} {s s' : St} {op : Op} {r : Res} (hg : Good s) (hp : AllPooled s) (hop : withPool op)
    (h : step x s op = some (r, s')) : AllPooled s' := by
  refine ⟨pooled_encs hg hop h hp.encs, ?_, ?_⟩
  · have set : ∀ (k : Nat) (b b' : Buffer), s.bufs[k]? = some b → s'.bufs = s.bufs.set k b' →
        (b'.closed = false → b'.pooled = b.pooled ∧ b'.closed = b.closed) →
        ∀ (q : Nat) (b : Buffer), s'.bufs[q]? = some b → b.closed = false → b.pooled = true := by
      intro k b b' hb hs hpe q f hf hc
      rw [hs, List.getElem?_set] at hf
      split at hf
      · split at hf
        · cases hf
          obtain ⟨h1, h2⟩ := hpe hc
          rw [h1]
          exact hp.bufs k b hb (h2 ▸ hc)
        · cases hf
      · exact hp.bufs q f hf hc
    rcases step_buf hg.inv hg.wf hg.small h with ⟨_, _, h0⟩ | ⟨k, e, b', rfl, he, _⟩ | ⟨k, b, b', hk, hb, _⟩
    · rw [h0]; exact hp.bufs
    · simp only [step, he, relinquish, Option.some.injEq, Prod.mk.injEq] at h
      obtain ⟨rfl, rfl⟩ := h
      intro q f hf hc
      simp only at hf
      by_cases hl : q < s.bufs.length
      · rw [List.getElem?_append_left hl] at hf
        exact hp.bufs q f hf hc
      · rw [List.getElem?_append_right (by omega)] at hf
        cases hs : q - s.bufs.length with
        | zero => rw [hs] at hf; cases hf; exact hp.encs k e he
        | succ n => rw [hs] at hf; simp at hf
    · cases op <;> simp only [onBuffer, Option.some.injEq, reduceCtorEq] at hk
      all_goals subst hk
      all_goals simp only [step, hb] at h
      case bufTruncate n =>
        simp only [bufTruncate] at h
        split at h
        · cases h; exact set _ b _ hb rfl fun _ => ⟨rfl, rfl⟩
        · cases h; exact hp.bufs
      case bufWrite d =>
        split at h
        · cases h
        · split at h
          · cases h; exact hp.bufs
          · cases h
      case bufClose =>
        simp only [bufClose] at h
        split at h
        · cases h; exact hp.bufs
        · cases h
          exact set _ b _ hb (by simp only [(put_spec s _ _).1.bufs]; rfl) fun hc => by cases hc
  · rcases step_its hg.inv hg.wf hg.small h with h0 | ⟨p, n, c, i, rfl, h0⟩ | ⟨k, d, c, t, i, rfl, ht, hc, h0, _⟩ | ⟨k, rfl, h0⟩
    · rw [h0]; exact hp.its
    · intro q f hf hc
      rw [h0] at hf
      by_cases hl : q < s.its.length
      · rw [List.getElem?_append_left hl] at hf
        exact hp.its q f hf hc
      · rw [List.getElem?_append_right (by omega)] at hf
        cases hs : q - s.its.length with
        | zero => rw [hs] at hf; cases hf; exact hop
        | succ n => rw [hs] at hf; simp at hf
    · intro q f hf hcf
      rw [h0, List.getElem?_set] at hf
      split at hf
      · split at hf
        · cases hf; exact hp.its k t ht hc
        · cases hf
      · exact hp.its q f hf hcf
    · intro q f hf hcf
      rw [h0, List.getElem?_set] at hf
      split at hf
      · split at hf
        · cases hf; cases hcf
        · cases hf
      · exact hp.its q f hf hcf

theorem none_lost {x : XTime} : ∀ {ops : List Op} {s s' : St} {rs : List Res}, Reachable x s → AllPooled s →
    (∀ i, i < s.next → i ∈ s.pool ++ s.encs.filterMap Enc.buf ++ s.bufs.filterMap Buffer.buf ++ s.its.filterMap ItBuf.buf ++ s.others) →
    (∀ op ∈ ops, small op ∧ withPool op) → run x s ops = some (rs, s') →
    ∀ i, i < s'.next →
      (s'.pool ++ s'.encs.filterMap Enc.buf ++ s'.bufs.filterMap Buffer.buf ++ s'.its.filterMap ItBuf.buf ++ s'.others).count i = 1 := by
  have eq : ∀ (s : St) (i : Nat),
      (s.pool ++ s.encs.filterMap Enc.buf ++ s.bufs.filterMap Buffer.buf ++ s.its.filterMap ItBuf.buf ++ s.others).count i = owners s i := by
    intro s i
    simp only [owners, cnt, List.count_append]
  simp only [eq]
  have mem : ∀ (s : St) (i : Nat),
      i ∈ s.pool ++ s.encs.filterMap Enc.buf ++ s.bufs.filterMap Buffer.buf ++ s.its.filterMap ItBuf.buf ++ s.others ↔ 1 ≤ owners s i := by
    intro s i
    rw [← eq, ← List.count_pos_iff]
    omega
  simp only [mem]
  intro ops
  induction ops with
  | nil =>
    intro s s' rs hr _ ha _ h i hi
    cases h
    have := (good_reach hr).inv.one i
    have := ha i hi
    omega
  | cons op ops ih =>
    intro s s' rs hr hp ha hop h
    simp only [run] at h
    split at h
    · cases h
    · next r s1 hs =>
      simp only [Option.map_eq_some_iff, Prod.mk.injEq] at h
      obtain ⟨y, h, _, rfl⟩ := h
      have hg := good_reach hr
      obtain ⟨ho1, ho2⟩ := hop op (by simp)
      refine ih (reach_step hr ho1 hs) (pooled_step hg hp ho2 hs) (fun i hi => ?_) (fun o ho => hop o (by simp [ho])) h
      by_cases hpn : r = .panic
      · subst hpn
        rw [(step_panic hg hs).1] at hi ⊢
        exact ha i hi
      · have hk := step_keep hp ho2 hs hpn i
        by_cases hlt : i < s.next
        · have := ha i hlt
          omega
        · rw [if_pos ⟨by omega, hi⟩] at hk
          omega

/-- C20: if encoders and iterators are made with the pool, then whatever happens, every array there is has exactly one owner, among
the pool, the encoders, the buffers that were given away, the iterators and the other users of the pool: none is lost. -/
theorem C20_none_lost {x : XTime} {ops : List Op} {s : St} {rs : List Res} (ho : ∀ op ∈ ops, small op ∧ withPool op)
    (h : run x {} ops = some (rs, s)) {i : Nat} (hi : i < s.next) :
    (s.pool ++ s.encs.filterMap Enc.buf ++ s.bufs.filterMap Buffer.buf ++ s.its.filterMap ItBuf.buf ++ s.others).count i = 1 :=
  none_lost ⟨[], [], by simp, rfl⟩ ⟨by simp, by simp, by simp⟩ (fun i hi => absurd hi (by simp)) ho h i hi

/-- C20: when encoders were relinquished, and buffers and iterators closed, all arrays are in the pool, each once. -/
theorem C20_all_back {x : XTime} {ops : List Op} {s : St} {rs : List Res} (ho : ∀ op ∈ ops, small op ∧ withPool op)
    (h : run x {} ops = some (rs, s)) (he : ∀ e ∈ s.encs, e.buf = none) (hb : ∀ b ∈ s.bufs, b.buf = none)
    (ht : ∀ t ∈ s.its, t.buf = none) (hn : s.others = []) (i : Nat) : s.pool.count i = if i < s.next then 1 else 0 := by
  have none : ∀ {α : Type} (f : α → Option Nat) (l : List α), (∀ a ∈ l, f a = none) → l.filterMap f = [] := by
    intro α f l hl
    exact List.filterMap_eq_nil_iff.mpr hl
  have hg := good_reach ⟨ops, rs, fun op h => (ho op h).1, h⟩
  split
  · next hi =>
    have := C20_none_lost ho h hi
    rw [none _ _ he, none _ _ hb, none _ _ ht, hn] at this
    simpa using this
  · next hi =>
    have := hg.inv.new i (by omega)
    unfold owners at this
    omega

/-- Encoders, a buffer and an iterator, with the pool, and all given back. -/
def exPooled : List Op :=
  [.newEncoder true 4 100 (.fresh [0, 0, 0, 0]), .newIter true 2 (.fresh [0, 0]), .itRead 0 [1, 2, 3] (.fresh [0, 0, 0, 0]),
    .relinquish 0, .bufClose 0, .itClose 0]

example : (∀ op ∈ exPooled, small op ∧ withPool op) ∧
    (run unitX {} exPooled).map (fun y => (y.2.next, y.2.pool, y.2.encs.map Enc.buf, y.2.bufs.map Buffer.buf, y.2.its.map ItBuf.buf)) =
      some (3, [2, 0, 1], [none], [none], [none]) := by
  refine ⟨?_, rfl⟩
  intro op h
  simp only [exPooled, List.mem_cons, List.not_mem_nil, or_false] at h
  rcases h with rfl | rfl | rfl | rfl | rfl | rfl
  all_goals exact ⟨by simp [small], by simp [withPool]⟩

/-! ### What an iterator has read -/

theorem inv_it {s : St} (hi : Inv s) {k : Nat} {t : ItBuf} (he : s.its[k]? = some t) {b : Nat} (hb : t.buf = some b) :
    b < s.next ∧ b ∉ s.pool := by
  have h1 := cnt_ge ItBuf.buf b t s.its k he
  rw [hb, own_self] at h1
  have h2 := hi.one b
  have h3 := hi.new b
  unfold owners at h2 h3
  refine ⟨?_, fun hm => ?_⟩
  · refine Classical.byContradiction fun hc => ?_
    have := h3 (by omega)
    omega
  · have := List.count_pos_iff.mpr hm
    omega

/-- The iterator a step acts on. -/
def onIter : Op → Option Nat
  | .itRead k _ _ => some k
  | .itClose k => some k
  | _ => none

theorem keep_it {x : XTime} {s s' : St} {op : Op} {r : Res} (hg : Good s) (h : step x s op = some (r, s')) {q : Nat} {t : ItBuf}
    (ht : s.its[q]? = some t) (hq : onIter op ≠ some q) : s'.its[q]? = some t ∧ bufBytes s' t.buf = bufBytes s t.buf := by
  constructor
  · have hl : q < s.its.length := (List.getElem?_eq_some_iff.mp ht).1
    rcases step_its hg.inv hg.wf hg.small h with h0 | ⟨_, _, _, _, _, h0⟩ | ⟨k, _, _, _, _, rfl, _, _, h0, _⟩ | ⟨k, rfl, h0⟩
    · rw [h0, ht]
    · rw [h0, List.getElem?_append_left hl, ht]
    · rw [h0, List.getElem?_set_ne (by rintro rfl; exact hq rfl), ht]
    · rw [h0, List.getElem?_set_ne (by rintro rfl; exact hq rfl), ht]
  · cases hb : t.buf with
    | none => rfl
    | some j =>
      obtain ⟨g1, g2⟩ := inv_it hg.inv ht hb
      refine step_heap hg.inv hg.wf hg.small h g1 g2 fun ha => ?_
      have hone := hg.inv.one j
      unfold owners at hone
      have h1 := cnt_ge ItBuf.buf j t s.its q ht
      rw [hb, own_self] at h1
      rcases actor_owner h ha with ⟨k, e2, hk, h2, h3⟩ | ⟨k, b, hk, h2, h3⟩ | ⟨k, t', ⟨_, _, _, rfl⟩, _, h2, h3⟩ | ⟨_, _, h2⟩
      · have := cnt_ge Enc.buf j e2 s.encs k h2
        rw [h3, own_self] at this
        omega
      · have := cnt_ge Buffer.buf j b s.bufs k h2
        rw [h3, own_self] at this
        omega
      · have := cnt_two ItBuf.buf j t t' s.its q k (by rintro rfl; exact hq rfl) ht h2
        rw [hb, h3, own_self] at this
        omega
      · have := List.count_pos_iff.mpr h2
        omega

/-- C20: what an iterator reads stands in its buffer, and stays there until the iterator reads on or is closed: neither encoders, nor
other iterators, nor the owners of buffers that were given away, nor other users of the pool change it. -/
theorem C20_read {x : XTime} {s s1 s' : St} {k : Nat} {d : Bytes} {c : Choice} {r : Res} {t : ItBuf} {ops : List Op} {rs : List Res}
    (hr : Reachable x s) (ht : s.its[k]? = some t) (hc : t.closed = false) (h : step x s (.itRead k d c) = some (r, s1))
    (ho : ∀ op ∈ ops, small op ∧ onIter op ≠ some k) (hs : run x s1 ops = some (rs, s')) :
    ∃ t', s'.its[k]? = some t' ∧ t'.closed = false ∧ (bufBytes s' t'.buf).take d.length = d := by
  have hg := good_reach hr
  have hl : k < s.its.length := (List.getElem?_eq_some_iff.mp ht).1
  have first : ∃ t', s1.its[k]? = some t' ∧ t'.closed = false ∧ (bufBytes s1 t'.buf).take d.length = d := by
    simp only [step, ht, Option.map_eq_some_iff, Prod.mk.injEq, itRead, hc, Bool.false_eq_true, if_false] at h
    obtain ⟨s2, h, _, rfl⟩ := h
    split at h
    · cases h
    · next hen =>
      cases h
      rcases ensure_spec hen with ⟨g, rfl, hd⟩ | ⟨j, g, _⟩
      · rw [← g] at hd
        have hd : d = [] := List.eq_nil_of_length_eq_zero (by simp only [bufLen] at hd; omega)
        exact ⟨t, ht, hc, by rw [hd]; rfl⟩
      · cases g
    · next j s3 hen =>
      cases h
      refine ⟨{ buf := some j, pooled := t.pooled }, ?_, rfl, by simp [bufBytes, St.write]⟩
      rcases ensure_spec hen with ⟨g, rfl, _⟩ | ⟨j', g, hs, _⟩
      · exact List.getElem?_set_self hl
      · simp only [St.write, hs.its]
        exact List.getElem?_set_self hl
  have later : ∀ (ops : List Op) (s1 s' : St) (rs : List Res), Good s1 → (∀ op ∈ ops, small op ∧ onIter op ≠ some k) →
      run x s1 ops = some (rs, s') → ∀ t', s1.its[k]? = some t' → s'.its[k]? = some t' ∧ bufBytes s' t'.buf = bufBytes s1 t'.buf := by
    intro ops
    induction ops with
    | nil => intro s1 s' rs _ _ h t' ht'; cases h; exact ⟨ht', rfl⟩
    | cons op ops ih =>
      intro s1 s' rs hg ho h t' ht'
      simp only [run] at h
      split at h
      · cases h
      · next hs =>
        simp only [Option.map_eq_some_iff, Prod.mk.injEq] at h
        obtain ⟨y, h, _, rfl⟩ := h
        obtain ⟨o1, o2⟩ := ho op (by simp)
        obtain ⟨k1, k2⟩ := keep_it hg hs ht' o2
        obtain ⟨k3, k4⟩ := ih _ _ _ (good_step hg o1 hs) (fun o h => ho o (by simp [h])) h t' k1
        exact ⟨k3, k4.trans k2⟩
  obtain ⟨t', h1, h2, h3⟩ := first
  obtain ⟨h4, h5⟩ := later ops s1 s' rs (good_step (op := .itRead k d c) hg trivial h) ho hs t' h1
  exact ⟨t', h4, h2, by rw [h5]; exact h3⟩

/-- The hypotheses of `C20_read`: an encoder is reset and other users of the pool write between two reads. -/
example : ∃ s s1 s' rs, run unitX {} (exPooled.take 2) = some (rs, s) ∧ s.its.map (·.closed) = [false] ∧
    step unitX s (.itRead 0 [1, 2, 3] (.fresh [0, 0, 0, 0])) = some (.ok, s1) ∧
    (run unitX s1 [.otherGet 1, .otherWrite 1 [7, 7], .reset 0 [5] (.fresh [0, 0, 0, 0]), .otherPut 1]).map (·.2) = some s' ∧
    s'.its.map (fun t => bufBytes s' t.buf) = [[1, 2, 3, 0]] := by
  refine ⟨_, _, _, _, rfl, ?_, rfl, rfl, ?_⟩ <;> decide +kernel

end Verif.PBuf
