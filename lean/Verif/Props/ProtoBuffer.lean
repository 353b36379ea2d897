import Verif.Lemmas.EncoderLog
import Verif.Props.ProtoIterator
/-
C19 (the encoder is a byte log), C20 (no buffer has two owners), and the part of C17 that connects encoder and iterator.
All steps of encoders, of the buffers they gave away, of iterators and of other users of the pool may be interleaved, and the
pool may return any array it has or a new one.
-/
namespace Verif.PBuf
open Verif.Policy Verif.Meta Verif.Wire Verif.Msg Verif.PIter Verif.Spec.Msg Verif.Spec.ByteLog

/-- A sequence of steps and the results of the calls. -/
def run (x : XTime) : St → List Op → Option (List Res × St)
  | s, [] => some ([], s)
  | s, op :: ops => match step x s op with
    | none => none
    | some (r, s') => (run x s' ops).map fun y => (r :: y.1, y.2)

/-- The states a program can be in. -/
def Reachable (x : XTime) (s : St) : Prop := ∃ ops rs, (∀ op ∈ ops, small op) ∧ run x {} ops = some (rs, s)

/-- What the encoders contain. -/
def logs (s : St) : List Log := s.encs.map fun e => ⟨e.maxMessageSize, contents s e⟩

/-- Everything known about a state. -/
structure Good (s : St) : Prop where
  inv : Inv s
  wf : Wf s
  small : Small s

/-- Only `Buffer.Truncate` panics, and it changes nothing then. -/
theorem step_panic {x : XTime} {s s' : St} {op : Op} (hg : Good s) (h : step x s op = some (.panic, s')) :
    s' = s ∧ ∃ k n, op = .bufTruncate k n := by
  rcases step_enc hg.inv hg.wf hg.small h with ⟨h0, hn, _⟩ | ⟨_, _, _, _, _, _, h0, _⟩ | ⟨k, e, e', _, _, _, _, h1⟩
  · cases op with
    | bufTruncate k n =>
      simp only [step] at h
      split at h
      · cases h
      · simp only [bufTruncate] at h
        split at h <;> cases h
        exact ⟨rfl, k, n, rfl⟩
    | newEncoder a b c d => exact absurd rfl (hn a b c d)
    | reset k d c => cases h0
    | truncate k n => cases h0
    | relinquish k => cases h0
    | encode k p m c => cases h0
    | bufWrite k d =>
      simp only [step] at h
      split at h
      · cases h
      · split at h
        · cases h
        · split at h <;> cases h
    | bufClose k =>
      simp only [step] at h
      split at h <;> cases h
    | newIter p n c =>
      simp only [step, Option.map_eq_some_iff, Prod.mk.injEq] at h
      obtain ⟨_, _, h, _⟩ := h
      cases h
    | itRead k d c =>
      simp only [step] at h
      split at h
      · cases h
      · simp only [Option.map_eq_some_iff, Prod.mk.injEq] at h
        obtain ⟨_, _, h, _⟩ := h
        cases h
    | itClose k =>
      simp only [step] at h
      split at h <;> cases h
    | otherNew d => cases h
    | otherGet i =>
      simp only [step] at h
      split at h <;> cases h
    | otherWrite i d =>
      simp only [step] at h
      split at h <;> cases h
    | otherPut i =>
      simp only [step] at h
      split at h <;> cases h
  · cases h0
  · have := congrArg Prod.fst h1
    exfalso
    cases op <;> simp only [Log.call] at this
    all_goals first | (cases this; done) | (split at this <;> cases this)

theorem good_step {x : XTime} {s s' : St} {op : Op} {r : Res} (hg : Good s) (hop : small op) (h : step x s op = some (r, s')) : Good s' := by
  by_cases hr : r = .panic
  · subst hr
    exact (step_panic hg h).1 ▸ hg
  · exact ⟨hg.inv.grow (step_grow h hr), wf_step hg.inv hg.wf hg.small h, small_step hg.inv hg.wf hg.small hop h⟩

theorem good_run {x : XTime} : ∀ {ops : List Op} {s s' : St} {rs : List Res}, Good s → (∀ op ∈ ops, small op) →
    run x s ops = some (rs, s') → Good s'
  | [], _, _, _, hg, _, h => by cases h; exact hg
  | op :: ops, s, s', rs, hg, hop, h => by
    simp only [run] at h
    split at h
    · cases h
    · next hs =>
      simp only [Option.map_eq_some_iff, Prod.mk.injEq] at h
      obtain ⟨y, h, _, rfl⟩ := h
      exact good_run (good_step hg (hop op (by simp)) hs) (fun o ho => hop o (by simp [ho])) h

theorem good_init : Good {} :=
  ⟨⟨by simp [owners, cnt], by simp [owners, cnt]⟩, ⟨by simp, by simp⟩, by simp [Small]⟩

theorem good_reach {x : XTime} {s : St} (h : Reachable x s) : Good s := by
  obtain ⟨ops, rs, h1, h2⟩ := h
  exact good_run good_init h1 h2

/-! ### C19 -/

/-- C19, one step: the contents of all encoders are those of the byte lists, and a call on an encoder returns what the call on
the byte list returns. It does not matter what the buffers are, what else happens and what the pool does. -/
theorem C19_step {x : XTime} {s s' : St} {op : Op} {r : Res} (hg : Reachable x s) (h : step x s op = some (r, s')) :
    logs s' = logStep x (logs s) op ∧
    ∀ k, onEncoder op = some k → ∃ l, (logs s)[k]? = some l ∧ r = (l.call x op).1 := by
  replace hg := good_reach hg
  have hse := step_enc hg.inv hg.wf hg.small h
  have key : ∀ (q : Nat) (e : Enc), s.encs[q]? = some e → onEncoder op ≠ some q →
      (logs s')[q]? = some ⟨e.maxMessageSize, contents s e⟩ := by
    intro q e he hq
    obtain ⟨h1, h2⟩ := keep_enc hg.inv hg.wf hg.small h he hq
    simp only [logs, List.getElem?_map, h1, Option.map_some, contents, h2]
  have hl : ∀ (q : Nat) (e : Enc), s.encs[q]? = some e → (logs s)[q]? = some ⟨e.maxMessageSize, contents s e⟩ := by
    intro q e he
    simp only [logs, List.getElem?_map, he, Option.map_some]
  have hlen : (logs s).length = s.encs.length := by simp [logs]
  rcases hse with ⟨h0, hn, h1⟩ | ⟨a, b, m, d, e', rfl, _, h1, h2, _, h3⟩ | ⟨k, e, e', hk, he, h1, _, h2⟩
  · refine ⟨?_, fun k hk => by rw [h0] at hk; cases hk⟩
    have : logStep x (logs s) op = logs s := by
      unfold logStep
      split
      · exact absurd rfl (hn _ _ _ _)
      · rw [h0]
    rw [this]
    apply List.ext_getElem?
    intro q
    cases he : s.encs[q]? with
    | none => simp [logs, h1, he]
    | some e => rw [key q e he (by rw [h0]; simp), hl q e he]
  · refine ⟨?_, fun k hk => by cases hk⟩
    simp only [logStep]
    apply List.ext_getElem?
    intro q
    cases he : s.encs[q]? with
    | none =>
      have hq : s.encs.length ≤ q := by simpa using he
      rw [List.getElem?_append_right (by omega), hlen]
      simp only [logs, h1, List.map_append, List.map_cons, List.map_nil]
      rw [List.getElem?_append_right (by simpa using hq), List.length_map, h2, h3]
    | some e =>
      have hq : q < s.encs.length := (List.getElem?_eq_some_iff.mp he).1
      rw [key q e he (by simp [onEncoder]), List.getElem?_append_left (by omega), hl q e he]
  · constructor
    · have : logStep x (logs s) op = (logs s).set k (Log.call x ⟨e.maxMessageSize, contents s e⟩ op).2 := by
        unfold logStep
        split
        · cases hk
        · rw [hk]; simp only [hl k e he]
      rw [this, ← h2]
      apply List.ext_getElem?
      intro q
      have hq : k < s.encs.length := (List.getElem?_eq_some_iff.mp he).1
      by_cases hkq : k = q
      · subst hkq
        rw [List.getElem?_set_self (by omega)]
        simp only [logs, List.getElem?_map, h1, List.getElem?_set_self hq, Option.map_some]
      · rw [List.getElem?_set_ne hkq]
        cases hq' : s.encs[q]? with
        | none => simp [logs, h1, List.getElem?_set_ne hkq, hq']
        | some e2 => rw [key q e2 hq' (by rw [hk]; simpa using hkq), hl q e2 hq']
    · intro k' hk'
      rw [hk] at hk'; cases hk'
      exact ⟨_, hl k e he, congrArg Prod.fst h2⟩

theorem run_append {x : XTime} : ∀ {ops ops' : List Op} {s t : St} {rs : List Res}, run x s ops = some (rs, t) →
    run x s (ops ++ ops') = (run x t ops').map fun y => (rs ++ y.1, y.2)
  | [], ops', s, t, rs, h => by
    cases h
    simp only [List.nil_append]
    cases run x s ops' <;> rfl
  | op :: ops, ops', s, t, rs, h => by
    simp only [run, List.cons_append] at h ⊢
    split at h
    · cases h
    · next hs =>
      simp only [Option.map_eq_some_iff, Prod.mk.injEq] at h
      obtain ⟨y, h, rfl, rfl⟩ := h
      simp only [run_append h]
      cases run x _ ops' <;> simp

theorem reach_step {x : XTime} {s s' : St} {op : Op} {r : Res} (hr : Reachable x s) (ho : small op) (h : step x s op = some (r, s')) :
    Reachable x s' := by
  obtain ⟨ops, rs, h1, h2⟩ := hr
  refine ⟨ops ++ [op], rs ++ [r], ?_, ?_⟩
  · intro o hm
    rcases List.mem_append.mp hm with hm | hm
    · exact h1 o hm
    · simp at hm; exact hm ▸ ho
  · rw [run_append h2]
    simp [run, h]

/-- C19, sequences of steps. -/
theorem C19_run {x : XTime} : ∀ {ops : List Op} {s s' : St} {rs : List Res}, Reachable x s → (∀ op ∈ ops, small op) →
    run x s ops = some (rs, s') → logs s' = ops.foldl (logStep x) (logs s)
  | [], _, _, _, _, _, h => by cases h; rfl
  | op :: ops, s, s', rs, hg, hop, h => by
    simp only [run] at h
    split at h
    · cases h
    · next hs =>
      simp only [Option.map_eq_some_iff, Prod.mk.injEq] at h
      obtain ⟨y, h, _, rfl⟩ := h
      rw [C19_run (reach_step hg (hop op (by simp)) hs) (fun o ho => hop o (by simp [ho])) h, List.foldl_cons,
        (C19_step hg hs).1]

theorem foldl_alone (x : XTime) (k : Nat) : ∀ (ops : List Op) (ls : List Log) (l : Log), ls[k]? = some l →
    (ops.foldl (logStep x) ls)[k]? = some ((ops.filter (onEncoder · == some k)).foldl (fun l op => (l.call x op).2) l)
  | [], ls, l, h => h
  | op :: ops, ls, l, h => by
    have hk : k < ls.length := (List.getElem?_eq_some_iff.mp h).1
    rw [List.foldl_cons]
    by_cases ho : onEncoder op = some k
    · rw [List.filter_cons_of_pos (by simp [ho]), List.foldl_cons]
      refine foldl_alone x k ops _ _ ?_
      unfold logStep
      split
      · cases ho
      · rw [ho]
        simp only [h]
        rw [List.getElem?_set_self hk]
    · rw [List.filter_cons_of_neg (by simp [ho])]
      refine foldl_alone x k ops _ _ ?_
      unfold logStep
      split
      · rw [List.getElem?_append_left hk, h]
      · split
        · exact h
        · next q hq =>
          split
          · exact h
          · rw [List.getElem?_set_ne (by rintro rfl; exact ho hq), h]

/-- C19: what an encoder contains depends on the calls made on it alone. -/
theorem C19_alone {x : XTime} {ops : List Op} {s s' : St} {rs : List Res} (hr : Reachable x s) (ho : ∀ op ∈ ops, small op)
    (h : run x s ops = some (rs, s')) {k : Nat} {l : Log} (hl : (logs s)[k]? = some l) :
    (logs s')[k]? = some ((ops.filter (onEncoder · == some k)).foldl (fun l op => (l.call x op).2) l) := by
  rw [C19_run hr ho h]
  exact foldl_alone x k ops _ l hl

/-- C19: `Relinquish` hands over exactly the contents, as a new buffer. -/
theorem C19_relinquish {x : XTime} {s s' : St} {k : Nat} {r : Res} (hr : Reachable x s) (h : step x s (.relinquish k) = some (r, s')) :
    ∃ l b, (logs s)[k]? = some l ∧ s'.bufs = s.bufs ++ [b] ∧ visible s' b = l.bytes ∧ b.closed = false := by
  have hg := good_reach hr
  rcases step_buf hg.inv hg.wf hg.small h with ⟨_, h0, _⟩ | ⟨q, e, b, h0, he, h1, h2, h3, h4, h5⟩ | ⟨_, _, _, h0, _⟩
  · exact absurd rfl (h0 k)
  · cases h0
    exact ⟨⟨e.maxMessageSize, contents s e⟩, b, by simp [logs, he], h1, h5, h3⟩
  · cases h0

/-! ### C20 -/

/-- C20: every array has at most one owner among the pool, the encoders, the buffers that were given away, the iterators and
the other users of the pool; in particular the pool does not hold an array twice. -/
theorem C20_owner {x : XTime} {s : St} (h : Reachable x s) :
    (s.pool ++ s.encs.filterMap Enc.buf ++ s.bufs.filterMap Buffer.buf ++ s.its.filterMap ItBuf.buf ++ s.others).Nodup := by
  rw [List.nodup_iff_count]
  intro i
  have := (good_reach h).inv.one i
  simp only [owners, cnt] at this
  simp only [List.count_append]
  omega

/-- C20: nobody but its owner changes a buffer that was given away, or the array behind it. -/
theorem C20_handed_over {x : XTime} : ∀ {ops : List Op} {s s' : St} {rs : List Res}, Reachable x s → (∀ op ∈ ops, small op) →
    run x s ops = some (rs, s') → ∀ {k : Nat} {b : Buffer}, s.bufs[k]? = some b → (∀ op ∈ ops, onBuffer op ≠ some k) →
    s'.bufs[k]? = some b ∧ bufBytes s' b.buf = bufBytes s b.buf ∧ visible s' b = visible s b
  | [], _, _, _, _, _, h, _, _, hb, _ => by cases h; exact ⟨hb, rfl, rfl⟩
  | op :: ops, s, s', rs, hg, hop, h, k, b, hb, hk => by
    simp only [run] at h
    split at h
    · cases h
    · next hs =>
      simp only [Option.map_eq_some_iff, Prod.mk.injEq] at h
      obtain ⟨y, h, _, rfl⟩ := h
      have hgood := good_reach hg
      obtain ⟨h1, h2⟩ := keep_buf hgood.inv hgood.wf hgood.small hs hb (hk op (by simp))
      obtain ⟨h3, h4, h5⟩ := C20_handed_over (reach_step hg (hop op (by simp)) hs) (fun o ho => hop o (by simp [ho])) h h1
        (fun o ho => hk o (by simp [ho]))
      exact ⟨h3, by rw [h4, h2], by rw [h5]; simp only [visible, h2]⟩

/-- C20: closing a buffer again has no effect. -/
theorem C20_close_twice {x : XTime} {s s1 s2 : St} {k : Nat} {r1 r2 : Res} (h1 : step x s (.bufClose k) = some (r1, s1))
    (h2 : step x s1 (.bufClose k) = some (r2, s2)) : s2 = s1 := by
  simp only [step] at h1
  cases hb : s.bufs[k]? with
  | none => simp [hb] at h1
  | some b =>
    have hl : k < s.bufs.length := (List.getElem?_eq_some_iff.mp hb).1
    simp only [hb, bufClose, Option.some.injEq, Prod.mk.injEq] at h1
    obtain ⟨_, h1⟩ := h1
    have : ∃ b', s1.bufs[k]? = some b' ∧ b'.closed = true := by
      split at h1
      · subst h1
        exact ⟨b, hb, by assumption⟩
      · subst h1
        simp only [(put_spec s b.pooled b.buf).1.bufs]
        exact ⟨_, List.getElem?_set_self hl, rfl⟩
    obtain ⟨b', hb', hc⟩ := this
    simp only [step, hb', bufClose, hc, if_true, Option.some.injEq, Prod.mk.injEq] at h2
    exact h2.2.symm

/-! ### C17: from the encoder to the iterator -/

/-- A message to encode, with what the encoder has in its protobuf messages and what the pool does. -/
structure Item where
  protos : Protos
  union : Union
  message : Message
  pb : PBMetric
  choice : Choice

theorem fold_encode {x : XTime} {k : Nat} : ∀ (ms : List Item) (l : Log), (∀ m ∈ ms, Sent x l.max m.union m.message m.pb) →
    (ms.map fun m => Op.encode k m.protos m.union m.choice).foldl (fun l op => (l.call x op).2) l =
      { l with bytes := l.bytes ++ ms.flatMap fun m => frame m.pb }
  | [], l, _ => by simp
  | m :: ms, l, h => by
    have hm := h m (by simp)
    obtain ⟨p, hp⟩ := hm.conv
    rw [toPB_history x p blank] at hp
    have hs := hm.small
    rw [size_eq] at hs
    have hc : (l.call x (.encode k m.protos m.union m.choice)).2 = { l with bytes := l.bytes ++ frame m.pb } := by
      simp [Log.call, Spec.ByteLog.message, hp, hs]
    rw [List.map_cons, List.foldl_cons, hc, fold_encode ms { l with bytes := l.bytes ++ frame m.pb } (fun a ha => h a (by simp [ha]))]
    simp

/-- C17: messages encoded by one encoder, whatever happens in between, and then read by an iterator come out as they went in. -/
theorem C17_encoder {x : XTime} {s s' : St} {ops : List Op} {rs : List Res} (hr : Reachable x s) (ho : ∀ op ∈ ops, small op)
    (h : run x s ops = some (rs, s')) {k : Nat} {max max' : Int} (hl : (logs s)[k]? = some ⟨max, []⟩) (hmax : max ≤ max')
    (ms : List Item) (hms : ∀ m ∈ ms, Sent x max m.union m.message m.pb)
    (hops : ops.filter (onEncoder · == some k) = ms.map fun m => .encode k m.protos m.union m.choice)
    (fresh : Nat → Nat → Bytes) (hf : ∀ k, Enough (fresh k)) (buf : Bytes) {n : Nat} (hn : ms.length < n) :
    ∃ l it', (logs s')[k]? = some l ∧
      drain x fresh n (new l.bytes max' buf) = .ok (ms.map (fun m => some (received (canon m.message))), it') ∧ it'.err = some .eof := by
  have h1 := C19_alone hr ho h hl
  rw [hops, fold_encode ms _ hms] at h1
  obtain ⟨it', h2, h3⟩ := C17_stream x fresh hf (ms.map fun m => (m.union, m.message, m.pb)) n
    (new (ms.flatMap fun m => frame m.pb) max' buf) rfl rfl
    (by
      intro a ha
      obtain ⟨m, hm, rfl⟩ := List.mem_map.mp ha
      exact { hms m hm with small := Int.le_trans (hms m hm).small hmax })
    (by simp [new, List.flatMap_map]) (by simpa using hn)
  refine ⟨_, it', h1, ?_, h3⟩
  simpa [List.map_map, Function.comp_def] using h2

/-! ### Examples -/

/-- Two encoders and an iterator share a pool; a buffer is given away, closed, and its array is used again by the other encoder. -/
def exOps : List Op :=
  [.newEncoder true 4 1000 (.fresh (List.replicate 8 0xEE)), .newEncoder true 4 1000 (.fresh (List.replicate 8 0xDD)),
   .encode 0 blank exUnion (.fresh (List.replicate 200 0xCC)), .truncate 0 500, .relinquish 0, .encode 0 blank exUnion (.fresh (List.replicate 200 0xBB)),
   .bufClose 0, .encode 1 blank exUnion (.held 2), .newIter true 4 (.held 0), .reset 1 (bs "ab") (.held 1), .bufClose 0]

set_option synthInstance.maxSize 1000 in
/-- The example runs, both encoders have what they should have, and the array of the first buffer is that of the second encoder for a while. -/
example : (match run unitX {} exOps with
    | some (rs, s) => decide (rs = [.ok, .ok, .ok, .err, .ok, .ok, .ok, .ok, .ok, .ok, .ok] ∧
        logs s = [⟨1000, frame exPB⟩, ⟨1000, bs "ab"⟩] ∧ s.pool = [2])
    | none => false) = true := by decide +kernel

example : ∀ op ∈ exOps, small op := by
  intro op h
  simp only [exOps, List.mem_cons, List.not_mem_nil, or_false] at h
  rcases h with rfl | rfl | rfl | rfl | rfl | rfl | rfl | rfl | rfl | rfl | rfl <;> simp [small]

/-- Why ownership matters: a copy of a `Buffer` that is closed as well puts its array into the pool twice; the model of a program
that copies buffers would have two buffers with the same array, and closing both gives a pool that violates `C20_owner`. -/
theorem C20_copied : ∃ s : St, s.bufs.map Buffer.buf = [some 0, some 0] ∧
    ∃ s1 s2, step unitX s (.bufClose 0) = some (.ok, s1) ∧ step unitX s1 (.bufClose 1) = some (.ok, s2) ∧ s2.pool = [0, 0] :=
  ⟨{ heap := fun _ => [1], next := 1, bufs := [⟨some 0, 1, true, false⟩, ⟨some 0, 1, true, false⟩] }, rfl, _, _, rfl, rfl, rfl⟩

end Verif.PBuf
