import Verif.Lemmas.ProtoBuffer
import Verif.Spec.ByteLog
import Verif.Props.Messages
/-
Lemmas for C19 and C20: one step of encoders and buffers.
-/
namespace Verif.PBuf
open Verif.Policy Verif.Meta Verif.Wire Verif.Msg Verif.PIter Verif.Spec.ByteLog

/-- What an encoder contains. -/
def contents (s : St) (e : Enc) : Bytes := (bufBytes s e.buf).take e.used

/-- `Bytes` of a buffer that was given away, encoding/protobuf/buffer.go:42. -/
def visible (s : St) (b : Buffer) : Bytes := (bufBytes s b.buf).take b.len

theorem toPB_history (x : XTime) (p p' : Protos) (m : Union) : toPB x p m = toPB x p' m := by
  obtain ⟨h1, _, h2, _, h3, _, h4, _, h5, _⟩ := C65_no_history x
  unfold toPB
  rw [h1 p.cm p'.cm, h2 p.bm p'.bm, h3 p.gm p'.gm, h4 p.fm p'.fm, h5 p.tm p'.tm]

theorem set_self {l : List α} {k : Nat} {e : α} (h : l[k]? = some e) : l.set k e = l := by
  apply List.ext_getElem?
  intro i
  rw [List.getElem?_set]
  split
  · next hki =>
    subst hki
    split
    · exact h.symm
    · next hl => rw [List.getElem?_eq_none (by omega)] at h; cases h
  · rfl

theorem bufBytes_length (s : St) (o : Option Nat) : (bufBytes s o).length = bufLen s o := by cases o <;> rfl

/-- What a step does to the encoders. -/
theorem step_enc {x : XTime} {s s' : St} {op : Op} {r : Res} (hi : Inv s) (hw : Wf s) (hsm : Small s)
    (h : step x s op = some (r, s')) :
    (onEncoder op = none ∧ (∀ a b c d, op ≠ .newEncoder a b c d) ∧ s'.encs = s.encs) ∨
    (∃ a b m d e', op = .newEncoder a b m d ∧ r = .ok ∧ s'.encs = s.encs ++ [e'] ∧ e'.maxMessageSize = m ∧
      e'.used ≤ bufLen s' e'.buf ∧ contents s' e' = []) ∨
    (∃ k e e', onEncoder op = some k ∧ s.encs[k]? = some e ∧ s'.encs = s.encs.set k e' ∧ e'.used ≤ bufLen s' e'.buf ∧
      (r, Log.mk e'.maxMessageSize (contents s' e')) = Log.call x ⟨e.maxMessageSize, contents s e⟩ op) := by
  cases op with
  | newEncoder pooled n m c =>
    simp only [step, newEncoder, Option.map_eq_some_iff, Prod.mk.injEq] at h
    obtain ⟨s1, h, rfl, rfl⟩ := h
    obtain ⟨j, h1, _, _, _, h2, h3, _⟩ := reset_spec h
    refine .inr (.inl ⟨_, _, _, _, _, rfl, rfl, by rw [h1, List.set_append_right _ _ (Nat.le_refl _), Nat.sub_self, List.set_cons_zero], rfl, ?_, ?_⟩)
    · simp
    · simp [contents]
  | reset k d c =>
    simp only [step] at h
    cases he : s.encs[k]? with
    | none => simp [he] at h
    | some e =>
      simp only [he, Option.map_eq_some_iff, Prod.mk.injEq] at h
      obtain ⟨s1, h, rfl, rfl⟩ := h
      obtain ⟨j, h1, _, _, _, h2, h3, _⟩ := reset_spec h
      exact .inr (.inr ⟨k, e, _, rfl, he, h1, h2, by simp [Log.call, contents, bufBytes, h3]⟩)
  | truncate k n =>
    simp only [step] at h
    cases he : s.encs[k]? with
    | none => simp [he] at h
    | some e =>
      have hu := hw.encs k e he
      simp only [he, truncate, Option.some.injEq] at h
      have hcl : (contents s e).length = e.used := by
        unfold contents; rw [List.length_take, bufBytes_length]; omega
      split at h
      · next hb =>
        cases h
        refine .inr (.inr ⟨k, e, e, rfl, he, (set_self he).symm, hu, ?_⟩)
        simp only [Log.call, hcl]
        rw [if_neg (by omega)]
      · next hb =>
        cases h
        refine .inr (.inr ⟨k, e, _, rfl, he, rfl, ?_, ?_⟩)
        · simp only [St.setEnc, bufLen] at hu ⊢; omega
        · simp only [Log.call, hcl]
          rw [if_pos (by omega)]
          simp only [contents, List.take_take]
          rw [Nat.min_eq_left (by omega)]
          rfl
  | relinquish k =>
    simp only [step] at h
    cases he : s.encs[k]? with
    | none => simp [he] at h
    | some e =>
      simp only [he, relinquish, Option.some.injEq, Prod.mk.injEq] at h
      obtain ⟨rfl, rfl⟩ := h
      exact .inr (.inr ⟨k, e, _, rfl, he, rfl, by simp, by simp [Log.call, contents]⟩)
  | encode k p m c =>
    simp only [step] at h
    cases he : s.encs[k]? with
    | none => simp [he] at h
    | some e =>
      have hu := hw.encs k e he
      simp only [he, encode] at h
      split at h
      · next hp =>
        cases h
        refine .inr (.inr ⟨k, e, e, rfl, he, (set_self he).symm, hu, ?_⟩)
        rw [toPB_history x p blank] at hp
        simp [Log.call, message, hp]
      · next pb hp =>
        rw [toPB_history x p blank] at hp
        have hsz := size_eq pb
        rcases encodePB_spec (fun b hb => hi.enc he hb) hu (hsm k e he) h with ⟨rfl, rfl, h1⟩ | ⟨rfl, h1, j, u, h2, _, _, _, h3, h4, _⟩
        · refine .inr (.inr ⟨k, e, e, rfl, he, (set_self he).symm, hu, ?_⟩)
          simp only [Log.call, message, hp]
          rw [if_neg (by omega)]
        · refine .inr (.inr ⟨k, e, _, rfl, he, h2, h3, ?_⟩)
          simp only [Log.call, message, hp]
          rw [if_pos (by omega)]
          simp only [contents, bufBytes]
          rw [h4]
          rfl
  | bufTruncate k n =>
    refine .inl ⟨rfl, by simp, ?_⟩
    simp only [step] at h
    split at h
    · cases h
    · simp only [bufTruncate] at h
      split at h <;> cases h <;> rfl
  | bufWrite k d =>
    refine .inl ⟨rfl, by simp, ?_⟩
    simp only [step] at h
    split at h
    · cases h
    · split at h
      · cases h
      · split at h <;> cases h; rfl
  | bufClose k =>
    refine .inl ⟨rfl, by simp, ?_⟩
    simp only [step] at h
    split at h
    · cases h
    · cases h
      unfold bufClose
      split
      · rfl
      · simp only [(put_spec s _ _).1.encs]
  | newIter pooled n c =>
    refine .inl ⟨rfl, by simp, ?_⟩
    simp only [step, newIter, Option.map_eq_some_iff, Prod.mk.injEq] at h
    obtain ⟨s1, h, rfl, rfl⟩ := h
    split at h
    · cases h
    · next ha =>
      cases h
      exact (allocate_spec ha).1.encs
  | itRead k d c =>
    refine .inl ⟨rfl, by simp, ?_⟩
    simp only [step] at h
    split at h
    · cases h
    · simp only [Option.map_eq_some_iff, Prod.mk.injEq, itRead] at h
      obtain ⟨s1, h, rfl, rfl⟩ := h
      split at h
      · cases h; rfl
      · split at h
        · cases h
        · next hen =>
          cases h
          rcases ensure_spec hen with ⟨_, rfl, _⟩ | ⟨j, g, _⟩
          · rfl
          · cases g
        · next j s2 hen =>
          cases h
          rcases ensure_spec hen with ⟨g, rfl, _⟩ | ⟨j', g, hs, _⟩
          · rfl
          · exact hs.encs
  | itClose k =>
    refine .inl ⟨rfl, by simp, ?_⟩
    simp only [step] at h
    split at h
    · cases h
    · cases h
      unfold itClose
      split
      · rfl
      · simp only [(put_spec s _ _).1.encs]
  | otherNew d =>
    refine .inl ⟨rfl, by simp, ?_⟩
    cases h; rfl
  | otherGet j =>
    refine .inl ⟨rfl, by simp, ?_⟩
    simp only [step] at h
    split at h <;> cases h; rfl
  | otherWrite j d =>
    refine .inl ⟨rfl, by simp, ?_⟩
    simp only [step] at h
    split at h <;> cases h; rfl
  | otherPut j =>
    refine .inl ⟨rfl, by simp, ?_⟩
    simp only [step] at h
    split at h <;> cases h; rfl

/-- What a step does to the buffers that were given away. -/
theorem step_buf {x : XTime} {s s' : St} {op : Op} {r : Res} (hi : Inv s) (hw : Wf s) (hsm : Small s)
    (h : step x s op = some (r, s')) :
    (onBuffer op = none ∧ (∀ k, op ≠ .relinquish k) ∧ s'.bufs = s.bufs) ∨
    (∃ k e b', op = .relinquish k ∧ s.encs[k]? = some e ∧ s'.bufs = s.bufs ++ [b'] ∧ b'.buf = e.buf ∧ b'.closed = false ∧
      b'.len ≤ bufLen s' b'.buf ∧ visible s' b' = contents s e) ∨
    (∃ k b b', onBuffer op = some k ∧ s.bufs[k]? = some b ∧ s'.bufs = s.bufs.set k b' ∧ b'.len ≤ bufLen s' b'.buf) := by
  cases op with
  | newEncoder pooled n m c =>
    simp only [step, newEncoder, Option.map_eq_some_iff, Prod.mk.injEq] at h
    obtain ⟨s1, h, rfl, rfl⟩ := h
    obtain ⟨j, _, h1, _⟩ := reset_spec h
    exact .inl ⟨rfl, by simp, h1⟩
  | reset k d c =>
    simp only [step] at h
    split at h
    · cases h
    · simp only [Option.map_eq_some_iff, Prod.mk.injEq] at h
      obtain ⟨s1, h, rfl, rfl⟩ := h
      obtain ⟨j, _, h1, _⟩ := reset_spec h
      exact .inl ⟨rfl, by simp, h1⟩
  | truncate k n =>
    refine .inl ⟨rfl, by simp, ?_⟩
    simp only [step] at h
    split at h
    · cases h
    · simp only [truncate] at h
      split at h <;> cases h <;> rfl
  | relinquish k =>
    simp only [step] at h
    cases he : s.encs[k]? with
    | none => simp [he] at h
    | some e =>
      simp only [he, relinquish, Option.some.injEq, Prod.mk.injEq] at h
      obtain ⟨rfl, rfl⟩ := h
      exact .inr (.inl ⟨k, e, _, rfl, he, rfl, rfl, rfl, hw.encs k e he, rfl⟩)
  | encode k p m c =>
    refine .inl ⟨rfl, by simp, ?_⟩
    simp only [step] at h
    cases he : s.encs[k]? with
    | none => simp [he] at h
    | some e =>
      simp only [he, encode] at h
      split at h
      · cases h; rfl
      · rcases encodePB_spec (fun b hb => hi.enc he hb) (hw.encs k e he) (hsm k e he) h with ⟨_, rfl, _⟩ | ⟨_, _, j, u, _, h2, _⟩
        · rfl
        · exact h2
  | bufTruncate k n =>
    simp only [step] at h
    cases he : s.bufs[k]? with
    | none => simp [he] at h
    | some b =>
      simp only [he, bufTruncate] at h
      split at h
      · next hn =>
        cases h
        exact .inr (.inr ⟨k, b, _, rfl, he, rfl, hn⟩)
      · cases h
        exact .inr (.inr ⟨k, b, b, rfl, he, (set_self he).symm, hw.bufs k b he⟩)
  | bufWrite k d =>
    simp only [step] at h
    cases he : s.bufs[k]? with
    | none => simp [he] at h
    | some b =>
      simp only [he] at h
      split at h
      · cases h
      · next j hj =>
        split at h
        · next hd =>
          cases h
          refine .inr (.inr ⟨k, b, b, rfl, he, (set_self he).symm, ?_⟩)
          have := hw.bufs k b he
          rw [hj] at this ⊢
          simp only [bufLen, St.write, if_true] at this ⊢
          omega
        · cases h
  | bufClose k =>
    simp only [step] at h
    cases he : s.bufs[k]? with
    | none => simp [he] at h
    | some b =>
      simp only [he, bufClose] at h
      split at h
      · cases h
        exact .inr (.inr ⟨k, b, b, rfl, he, (set_self he).symm, hw.bufs k b he⟩)
      · cases h
        exact .inr (.inr ⟨k, b, _, rfl, he, by simp only [(put_spec s _ _).1.bufs]; rfl, by simp [bufLen]⟩)
  | newIter pooled n c =>
    refine .inl ⟨rfl, by simp, ?_⟩
    simp only [step, newIter, Option.map_eq_some_iff, Prod.mk.injEq] at h
    obtain ⟨s1, h, rfl, rfl⟩ := h
    split at h
    · cases h
    · next ha =>
      cases h
      exact (allocate_spec ha).1.bufs
  | itRead k d c =>
    refine .inl ⟨rfl, by simp, ?_⟩
    simp only [step] at h
    split at h
    · cases h
    · simp only [Option.map_eq_some_iff, Prod.mk.injEq, itRead] at h
      obtain ⟨s1, h, rfl, rfl⟩ := h
      split at h
      · cases h; rfl
      · split at h
        · cases h
        · next hen =>
          cases h
          rcases ensure_spec hen with ⟨_, rfl, _⟩ | ⟨j, g, _⟩
          · rfl
          · cases g
        · next j s2 hen =>
          cases h
          rcases ensure_spec hen with ⟨g, rfl, _⟩ | ⟨j', g, hs, _⟩
          · rfl
          · exact hs.bufs
  | itClose k =>
    refine .inl ⟨rfl, by simp, ?_⟩
    simp only [step] at h
    split at h
    · cases h
    · cases h
      unfold itClose
      split
      · rfl
      · simp only [(put_spec s _ _).1.bufs]
  | otherNew d =>
    refine .inl ⟨rfl, by simp, ?_⟩
    cases h; rfl
  | otherGet j =>
    refine .inl ⟨rfl, by simp, ?_⟩
    simp only [step] at h
    split at h <;> cases h; rfl
  | otherWrite j d =>
    refine .inl ⟨rfl, by simp, ?_⟩
    simp only [step] at h
    split at h <;> cases h; rfl
  | otherPut j =>
    refine .inl ⟨rfl, by simp, ?_⟩
    simp only [step] at h
    split at h <;> cases h; rfl

/-- The one who acts has an array nobody else has. -/
theorem actor_owner {x : XTime} {s s' : St} {op : Op} {r : Res} (h : step x s op = some (r, s')) {j : Nat} (ha : actor s op = some j) :
    (∃ k e, onEncoder op = some k ∧ s.encs[k]? = some e ∧ e.buf = some j) ∨
    (∃ (k : Nat) (b : Buffer), onBuffer op = some k ∧ s.bufs[k]? = some b ∧ b.buf = some j) ∨
    (∃ (k : Nat) (t : ItBuf), (onEncoder op = none ∧ ∃ d c, op = .itRead k d c) ∧ onBuffer op = none ∧ s.its[k]? = some t ∧ t.buf = some j) ∨
    (onEncoder op = none ∧ onBuffer op = none ∧ j ∈ s.others) := by
  cases op with
  | reset k d c =>
    simp only [actor, Option.bind_eq_some_iff] at ha
    obtain ⟨e, h1, h2⟩ := ha
    exact .inl ⟨k, e, rfl, h1, h2⟩
  | encode k p m c =>
    simp only [actor, Option.bind_eq_some_iff] at ha
    obtain ⟨e, h1, h2⟩ := ha
    exact .inl ⟨k, e, rfl, h1, h2⟩
  | bufWrite k d =>
    simp only [actor, Option.bind_eq_some_iff] at ha
    obtain ⟨e, h1, h2⟩ := ha
    exact .inr (.inl ⟨k, e, rfl, h1, h2⟩)
  | itRead k d c =>
    simp only [actor, Option.bind_eq_some_iff] at ha
    obtain ⟨e, h1, h2⟩ := ha
    exact .inr (.inr (.inl ⟨k, e, ⟨rfl, d, c, rfl⟩, rfl, h1, h2⟩))
  | otherWrite i d =>
    simp only [actor, Option.some.injEq] at ha
    subst ha
    simp only [step] at h
    split at h
    · next hh => exact .inr (.inr (.inr ⟨rfl, rfl, hh.1⟩))
    · cases h
  | _ => simp [actor] at ha

theorem keep_enc {x : XTime} {s s' : St} {op : Op} {r : Res} (hi : Inv s) (hw : Wf s) (hsm : Small s)
    (h : step x s op = some (r, s')) {q : Nat} {e : Enc} (he : s.encs[q]? = some e) (hq : onEncoder op ≠ some q) :
    s'.encs[q]? = some e ∧ bufBytes s' e.buf = bufBytes s e.buf := by
  constructor
  · have hl : q < s.encs.length := (List.getElem?_eq_some_iff.mp he).1
    rcases step_enc hi hw hsm h with ⟨_, _, h1⟩ | ⟨_, _, _, _, _, _, _, h1, _⟩ | ⟨k, _, _, hk, _, h1, _⟩
    · rw [h1, he]
    · rw [h1, List.getElem?_append_left hl, he]
    · rw [h1, List.getElem?_set_ne (by rintro rfl; exact hq hk), he]
  · cases hb : e.buf with
    | none => rfl
    | some j =>
      obtain ⟨g1, g2⟩ := hi.enc he hb
      refine step_heap hi hw hsm h g1 g2 fun ha => ?_
      have hone := hi.one j
      unfold owners at hone
      have h1 := cnt_ge Enc.buf j e s.encs q he
      rw [hb, own_self] at h1
      rcases actor_owner h ha with ⟨k, e2, hk, h2, h3⟩ | ⟨k, b, _, h2, h3⟩ | ⟨k, t, _, _, h2, h3⟩ | ⟨_, _, h2⟩
      · have := cnt_two Enc.buf j e e2 s.encs q k (by rintro rfl; exact hq hk) he h2
        rw [hb, h3, own_self] at this
        omega
      · have := cnt_ge Buffer.buf j b s.bufs k h2
        rw [h3, own_self] at this
        omega
      · have := cnt_ge ItBuf.buf j t s.its k h2
        rw [h3, own_self] at this
        omega
      · have := List.count_pos_iff.mpr h2
        omega

theorem keep_buf {x : XTime} {s s' : St} {op : Op} {r : Res} (hi : Inv s) (hw : Wf s) (hsm : Small s)
    (h : step x s op = some (r, s')) {q : Nat} {e : Buffer} (he : s.bufs[q]? = some e) (hq : onBuffer op ≠ some q) :
    s'.bufs[q]? = some e ∧ bufBytes s' e.buf = bufBytes s e.buf := by
  constructor
  · have hl : q < s.bufs.length := (List.getElem?_eq_some_iff.mp he).1
    rcases step_buf hi hw hsm h with ⟨_, _, h1⟩ | ⟨_, _, _, _, _, h1, _⟩ | ⟨k, _, _, hk, _, h1, _⟩
    · rw [h1, he]
    · rw [h1, List.getElem?_append_left hl, he]
    · rw [h1, List.getElem?_set_ne (by rintro rfl; exact hq hk), he]
  · cases hb : e.buf with
    | none => rfl
    | some j =>
      obtain ⟨g1, g2⟩ := hi.buf he hb
      refine step_heap hi hw hsm h g1 g2 fun ha => ?_
      have hone := hi.one j
      unfold owners at hone
      have h1 := cnt_ge Buffer.buf j e s.bufs q he
      rw [hb, own_self] at h1
      rcases actor_owner h ha with ⟨k, e2, hk, h2, h3⟩ | ⟨k, b, hk, h2, h3⟩ | ⟨k, t, _, _, h2, h3⟩ | ⟨_, _, h2⟩
      · have := cnt_ge Enc.buf j e2 s.encs k h2
        rw [h3, own_self] at this
        omega
      · have := cnt_two Buffer.buf j e b s.bufs q k (by rintro rfl; exact hq hk) he h2
        rw [hb, h3, own_self] at this
        omega
      · have := cnt_ge ItBuf.buf j t s.its k h2
        rw [h3, own_self] at this
        omega
      · have := List.count_pos_iff.mpr h2
        omega

theorem wf_step {x : XTime} {s s' : St} {op : Op} {r : Res} (hi : Inv s) (hw : Wf s) (hsm : Small s)
    (h : step x s op = some (r, s')) : Wf s' := by
  refine ⟨fun q e he => ?_, fun q b hb => ?_⟩
  · by_cases hq : onEncoder op = some q
    · rcases step_enc hi hw hsm h with ⟨h0, _, _⟩ | ⟨_, _, _, _, _, h0, _⟩ | ⟨k, e1, e2, hk, h1, h2, h3, _⟩
      · rw [h0] at hq; cases hq
      · subst h0; cases hq
      · rw [hk] at hq; cases hq
        have hl : q < s.encs.length := (List.getElem?_eq_some_iff.mp h1).1
        rw [h2, List.getElem?_set_self hl] at he
        cases he; exact h3
    · cases h1 : s.encs[q]? with
      | some e1 =>
        obtain ⟨g1, g2⟩ := keep_enc hi hw hsm h h1 hq
        rw [g1] at he; cases he
        have := hw.encs q _ h1
        rw [← bufBytes_length] at this ⊢
        rw [g2]; exact this
      | none =>
        rcases step_enc hi hw hsm h with ⟨_, _, h0⟩ | ⟨_, _, _, _, e', _, _, h0, _, h2, _⟩ | ⟨k, e1, e2, hk, h3, h2, _⟩
        · rw [h0, h1] at he; cases he
        · rw [h0, List.getElem?_append_right (by simpa using h1)] at he
          cases hs : q - s.encs.length with
          | zero => rw [hs] at he; cases he; exact h2
          | succ n => rw [hs] at he; simp at he
        · rw [h2, List.getElem?_set_ne (by rintro rfl; exact hq hk), h1] at he; cases he
  · by_cases hq : onBuffer op = some q
    · rcases step_buf hi hw hsm h with ⟨h0, _, _⟩ | ⟨_, _, _, h0, _⟩ | ⟨k, e1, e2, hk, h1, h2, h3⟩
      · rw [h0] at hq; cases hq
      · subst h0; cases hq
      · rw [hk] at hq; cases hq
        have hl : q < s.bufs.length := (List.getElem?_eq_some_iff.mp h1).1
        rw [h2, List.getElem?_set_self hl] at hb
        cases hb; exact h3
    · cases h1 : s.bufs[q]? with
      | some e1 =>
        obtain ⟨g1, g2⟩ := keep_buf hi hw hsm h h1 hq
        rw [g1] at hb; cases hb
        have := hw.bufs q _ h1
        rw [← bufBytes_length] at this ⊢
        rw [g2]; exact this
      | none =>
        rcases step_buf hi hw hsm h with ⟨_, _, h0⟩ | ⟨_, _, e', _, _, h0, _, _, h2, _⟩ | ⟨k, e1, e2, hk, h3, h2, _⟩
        · rw [h0, h1] at hb; cases hb
        · rw [h0, List.getElem?_append_right (by simpa using h1)] at hb
          cases hs : q - s.bufs.length with
          | zero => rw [hs] at hb; cases hb; exact h2
          | succ n => rw [hs] at hb; simp at hb
        · rw [h2, List.getElem?_set_ne (by rintro rfl; exact hq hk), h1] at hb; cases hb

theorem call_max (x : XTime) (l : Log) (op : Op) : (l.call x op).2.max = l.max := by
  cases op <;> simp only [Log.call]
  · split <;> rfl
  · split <;> rfl

theorem small_step {x : XTime} {s s' : St} {op : Op} {r : Res} (hi : Inv s) (hw : Wf s) (hsm : Small s) (hop : small op)
    (h : step x s op = some (r, s')) : Small s' := by
  intro q e he
  rcases step_enc hi hw hsm h with ⟨_, _, h0⟩ | ⟨_, _, _, _, e', rfl, _, h0, h3, _, _⟩ | ⟨k, e1, e2, hk, h1, h2, _, h3⟩
  · exact hsm q e (by rw [← h0]; exact he)
  · by_cases hl : q < s.encs.length
    · rw [h0, List.getElem?_append_left hl] at he
      exact hsm q e he
    · rw [h0, List.getElem?_append_right (by omega)] at he
      cases hs : q - s.encs.length with
      | zero => rw [hs] at he; cases he; rw [h3]; exact hop
      | succ n => rw [hs] at he; simp at he
  · rw [h2, List.getElem?_set] at he
    split at he
    · split at he
      · cases he
        have := congrArg (fun y => y.2.max) h3
        simp only [call_max] at this
        rw [this]
        exact hsm k e1 h1
      · cases he
    · exact hsm q e he

end Verif.PBuf
