import Verif.Lemmas.ProtoStream
/-
C16, C17, C18: the protobuf iterator.
-/
namespace Verif.PIter
open Verif.Policy Verif.Meta Verif.Wire Verif.Msg Verif.Spec.Msg

/-- Calls `Next` up to `n` times, until it returns false; `fresh k` is what the pool returns when `k` calls are left. The
messages that `Current` returns in between. -/
def drain (x : XTime) (fresh : Nat → Nat → Bytes) : Nat → Iter → Out (List (Option Message) × Iter)
  | 0, it => .ok ([], it)
  | n + 1, it => match next x (fresh n) it with
    | .panic => .panic
    | .err => .err
    | .ok (false, it') => .ok ([], it')
    | .ok (true, it') => match drain x fresh n it' with
      | .panic => .panic
      | .err => .err
      | .ok (ms, e) => .ok (view it'.msg :: ms, e)

/-! ### C17: streams -/

/-- C17: a stream of messages comes out as it went in, and then the iterator is at the end. -/
theorem C17_stream (x : XTime) (fresh : Nat → Nat → Bytes) (hf : ∀ k, Enough (fresh k)) :
    ∀ (ms : List (Union × Message × PBMetric)) (n : Nat) (it : Iter), it.err = none → it.closed = false →
      (∀ m ∈ ms, Sent x it.maxMessageSize m.1 m.2.1 m.2.2) → it.reader = ms.flatMap (fun m => frame m.2.2) → ms.length < n →
      ∃ it', drain x fresh n it = .ok (ms.map (fun m => some (received (canon m.2.1))), it') ∧ it'.err = some .eof
  | ms, 0, _, _, _, _, _, hn => absurd hn (by omega)
  | [], n + 1, it, he, hc, _, hr, _ => by
    simp only [List.flatMap_nil] at hr
    refine ⟨{ it with reader := [], err := some .eof }, ?_, rfl⟩
    simp [drain, next, he, hc, hr, readZigzag, uvarintLoop]
  | m :: ms, n + 1, it, he, hc, hs, hr, hn => by
    rw [List.flatMap_cons] at hr
    obtain ⟨it', h1, h2, h3, h4, h5, h6⟩ := next_frame (hf n) he hc (hs m (by simp)) hr
    obtain ⟨e, h7, h8⟩ := C17_stream x fresh hf ms n it' h3 h4 (fun a ha => h5 ▸ hs a (by simp [ha])) h2 (by simp at hn; omega)
    exact ⟨e, by simp [drain, h1, h7, h6], h8⟩

/-- `Next` on a frame that is cut short. -/
theorem next_cut {x : XTime} {fresh : Nat → Bytes} (hf : Enough fresh) {it : Iter} (he : it.err = none) (hc : it.closed = false)
    {pb : PBMetric} (hs : (metricWithMetadatas.size pb : Int) ≤ it.maxMessageSize) (hi : metricWithMetadatas.size pb < 9223372036854775808)
    {k : Nat} (hk : k < (frame pb).length) (hr : it.reader = (frame pb).take k) :
    ∃ it' e, next x fresh it = .ok (false, it') ∧ it'.err = some e ∧ (e = .eof ∨ e = .unexpectedEOF) := by
  have hsz := size_eq pb
  unfold next
  rw [he, hc, hr]
  simp only [Option.isSome_none, Bool.false_eq_true, or_self, if_false]
  by_cases hp : k < (putVarint (metricWithMetadatas.size pb)).length
  · have : (frame pb).take k = (putVarint (metricWithMetadatas.size pb)).take k := by
      unfold frame
      rw [List.take_append_of_le_length (by omega)]
    rw [this, readZigzag_cut _ ⟨by omega, by omega⟩ k hp]
    exact ⟨_, _, rfl, rfl, .inl rfl⟩
  · have : (frame pb).take k = putVarint (metricWithMetadatas.size pb) ++
        (metricWithMetadatas.marshal pb).take (k - (putVarint (metricWithMetadatas.size pb)).length) := by
      unfold frame
      rw [List.take_append, List.take_of_length_le (by omega)]
    rw [this, readZigzag_put _ ⟨by omega, by omega⟩]
    simp only
    rw [if_neg (by omega)]
    unfold decodeMessage
    have hl := ensure_len hf it.buf (metricWithMetadatas.size pb)
    simp only
    rw [if_neg (by omega)]
    have hlt : k - (putVarint (metricWithMetadatas.size pb)).length < (metricWithMetadatas.marshal pb).length := by
      simp only [frame, List.length_append] at hk
      omega
    unfold readFull
    rw [if_neg (by rw [List.length_take]; omega)]
    by_cases hem : ((metricWithMetadatas.marshal pb).take (k - (putVarint (metricWithMetadatas.size pb)).length)).isEmpty = true
    · rw [if_pos hem]
      exact ⟨_, _, rfl, rfl, .inl rfl⟩
    · rw [if_neg hem]
      exact ⟨_, _, rfl, rfl, .inr rfl⟩

/-- C17: of a stream that is cut at any byte come exactly the messages that are wholly in the part that is left, and then an
error. -/
theorem C17_truncated (x : XTime) (fresh : Nat → Nat → Bytes) (hf : ∀ k, Enough (fresh k)) :
    ∀ (ms : List (Union × Message × PBMetric)) (k n : Nat) (it : Iter), it.err = none → it.closed = false →
      (∀ m ∈ ms, Sent x it.maxMessageSize m.1 m.2.1 m.2.2) → it.reader = (ms.flatMap (fun m => frame m.2.2)).take k → ms.length < n →
      ∃ j it' e, drain x fresh n it = .ok ((ms.take j).map (fun m => some (received (canon m.2.1))), it') ∧ it'.err = some e ∧
        (e = .eof ∨ e = .unexpectedEOF) ∧ j ≤ ms.length ∧
        ((ms.take j).flatMap (fun m => frame m.2.2)).length ≤ k ∧
        (j < ms.length → k < ((ms.take (j + 1)).flatMap (fun m => frame m.2.2)).length)
  | ms, _, 0, _, _, _, _, _, hn => absurd hn (by omega)
  | [], k, n + 1, it, he, hc, _, hr, _ => by
    simp only [List.flatMap_nil, List.take_nil] at hr
    refine ⟨0, { it with reader := [], err := some .eof }, .eof, ?_, rfl, .inl rfl, by simp, by simp, by simp⟩
    simp [drain, next, he, hc, hr, readZigzag, uvarintLoop]
  | m :: ms, k, n + 1, it, he, hc, hs, hr, hn => by
    have hm := hs m (by simp)
    by_cases hk : k < (frame m.2.2).length
    · rw [List.flatMap_cons, List.take_append_of_le_length (by omega)] at hr
      obtain ⟨it', e, h1, h2, h3⟩ := next_cut (x := x) (hf n) he hc hm.small hm.int64 hk hr
      refine ⟨0, it', e, by simp [drain, h1], h2, h3, by omega, by simp, fun _ => by simpa using hk⟩
    · rw [List.flatMap_cons, List.take_append, List.take_of_length_le (by omega)] at hr
      obtain ⟨it', h1, h2, h3, h4, h5, h6⟩ := next_frame (hf n) he hc hm hr
      obtain ⟨j, it'', e, g1, g2, g3, g4, g5, g6⟩ := C17_truncated x fresh hf ms (k - (frame m.2.2).length) n it' h3 h4
        (fun a ha => h5 ▸ hs a (by simp [ha])) h2 (by simp at hn; omega)
      refine ⟨j + 1, it'', e, by simp [drain, h1, g1, h6], g2, g3, by simp; omega, ?_, ?_⟩
      · rw [List.take_succ_cons, List.flatMap_cons, List.length_append]; omega
      · intro hj
        rw [List.take_succ_cons, List.flatMap_cons, List.length_append]
        have := g6 (by simp at hj; omega)
        omega

/-! ### C18: arbitrary bytes -/

theorem readZigzag_suffix : ∀ (d : Bytes) (k acc : Nat),
    (∀ n r, uvarintLoop k acc d = .ok (n, r) → r <:+ d ∧ r.length < d.length) ∧ (∀ e r, uvarintLoop k acc d = .error (e, r) → r <:+ d)
  | [], k, acc => by simp [uvarintLoop]
  | b :: d, k, acc => by
    unfold uvarintLoop
    split
    · split
      · refine ⟨by simp, ?_⟩
        intro e r h
        cases h
        exact List.suffix_cons _ _
      · refine ⟨?_, by simp⟩
        intro n r h
        cases h
        exact ⟨List.suffix_cons _ _, by simp⟩
    · obtain ⟨h1, h2⟩ := readZigzag_suffix d (k + 1) (acc + b.toNat % 128 * 2 ^ (7 * k))
      refine ⟨fun n r h => ?_, fun e r h => ?_⟩
      · obtain ⟨h3, h4⟩ := h1 n r h
        exact ⟨h3.trans (List.suffix_cons _ _), by simp; omega⟩
      · exact (h2 e r h).trans (List.suffix_cons _ _)

theorem readZigzag_ok {d : Bytes} {n : Int} {r : Bytes} (h : readZigzag d = .ok (n, r)) : r <:+ d ∧ r.length < d.length := by
  unfold readZigzag at h
  cases hu : uvarintLoop 0 0 d with
  | error e => simp [hu] at h
  | ok y =>
    obtain ⟨u, r'⟩ := y
    simp only [hu, Except.ok.injEq, Prod.mk.injEq] at h
    obtain ⟨_, rfl⟩ := h
    exact (readZigzag_suffix d 0 0).1 u r' hu

theorem readZigzag_error {d : Bytes} {e : Err} {r : Bytes} (h : readZigzag d = .error (e, r)) : r <:+ d := by
  unfold readZigzag at h
  cases hu : uvarintLoop 0 0 d with
  | error y =>
    obtain ⟨e', r'⟩ := y
    simp only [hu, Except.error.injEq, Prod.mk.injEq] at h
    obtain ⟨_, rfl⟩ := h
    exact (readZigzag_suffix d 0 0).2 e' r' hu
  | ok y => simp [hu] at h

theorem readFull_suffix {n : Nat} {d : Bytes} : (∀ a r, readFull n d = .ok (a, r) → r <:+ d ∧ a <:+: d ∧ a.length = n) ∧
    (∀ e r, readFull n d = .error (e, r) → r <:+ d) := by
  unfold readFull
  split
  · refine ⟨?_, by simp⟩
    intro a r h
    cases h
    exact ⟨List.drop_suffix _ _, (List.take_prefix _ _).isInfix, by simp; omega⟩
  · split
    · refine ⟨by simp, ?_⟩
      intro e r h
      cases h
      exact List.nil_suffix
    · refine ⟨by simp, ?_⟩
      intro e r h
      cases h
      exact List.nil_suffix

theorem convert_view (x : XTime) (pb : PBMetric) (msg : Union) (h : (convert x pb msg).2 = none) :
    ∃ m, view (convert x pb msg).1 = some m := by
  unfold convert at h ⊢
  split at h
  · split at h
    · cases h
    · simp_all [view]
  · split at h
    · split at h
      · cases h
      · simp_all [view]
    · split at h
      · split at h
        · cases h
        · simp_all [view]
      · split at h
        · split at h
          · cases h
          · simp_all [view]
        · split at h
          · split at h
            · cases h
            · simp_all [view]
          · cases h

/-- C18: whatever the bytes, a call that does not panic either delivers a message, of a known kind, having consumed at least
one byte and without recording an error, or returns false; then an error is recorded unless there was one before or the
iterator is closed. Nothing is ever read twice. -/
theorem C18_outcome (x : XTime) (fresh : Nat → Bytes) (it it' : Iter) (b : Bool) (h : next x fresh it = .ok (b, it')) :
    it'.reader <:+ it.reader ∧
    (b = true → it.err = none ∧ it.closed = false ∧ it'.err = none ∧ it'.closed = false ∧ it'.reader.length < it.reader.length ∧
      ∃ m, view it'.msg = some m) ∧
    (b = false → it'.err ≠ none ∨ it'.closed = true) := by
  unfold next at h
  by_cases hc : it.err.isSome = true ∨ it.closed = true
  · rw [if_pos hc] at h
    cases h
    refine ⟨List.suffix_refl _, by simp, fun _ => ?_⟩
    rcases hc with hc | hc
    · exact .inl (by intro h; simp [h] at hc)
    · exact .inr hc
  · rw [if_neg hc] at h
    have he : it.err = none := by
      cases hh : it.err with
      | none => rfl
      | some e => exact absurd (.inl (by simp [hh])) hc
    have hcl : it.closed = false := by
      cases hh : it.closed with
      | false => rfl
      | true => exact absurd (.inr hh) hc
    cases hz : readZigzag it.reader with
    | error y =>
      obtain ⟨e, r⟩ := y
      simp only [hz] at h
      cases h
      exact ⟨readZigzag_error hz, by simp, by simp⟩
    | ok y =>
      obtain ⟨size, r⟩ := y
      obtain ⟨hs1, hs2⟩ := readZigzag_ok hz
      simp only [hz] at h
      split at h
      · cases h
        exact ⟨hs1, by simp, by simp⟩
      · unfold decodeMessage at h
        simp only at h
        split at h
        · cases h
        · cases hf : readFull size.toNat r with
          | error y =>
            obtain ⟨e, r'⟩ := y
            simp only [hf] at h
            cases h
            exact ⟨(readFull_suffix.2 e r' hf).trans hs1, by simp, by simp⟩
          | ok y =>
            obtain ⟨d, r'⟩ := y
            obtain ⟨hd, _, _⟩ := readFull_suffix.1 d r' hf
            simp only [hf] at h
            split at h
            · cases h
            · cases h
              exact ⟨hd.trans hs1, by simp, by simp⟩
            · cases h
              refine ⟨hd.trans hs1, ?_, ?_⟩
              · intro hb
                simp only [Option.isNone_iff_eq_none] at hb
                exact ⟨he, hcl, hb, hcl, by have := hd.length_le; simp only; omega, convert_view x _ _ hb⟩
              · intro hb
                refine .inl fun e => ?_
                simp only at e
                simp [e] at hb

/-- C18: after an error and after `Close`, `Next` returns false and does nothing. -/
theorem C18_stopped (x : XTime) (fresh : Nat → Bytes) (it : Iter) (h : it.err ≠ none ∨ it.closed = true) :
    next x fresh it = .ok (false, it) ∧ ∀ it', close it = it' → it'.closed = true ∧ close it' = it' ∧ next x fresh it' = .ok (false, it') := by
  refine ⟨?_, ?_⟩
  · unfold next
    rw [if_pos]
    rcases h with h | h
    · exact .inl (by cases hh : it.err <;> simp_all)
    · exact .inr h
  · rintro it' rfl
    have hc : (close it).closed = true := by unfold close; split <;> simp_all
    refine ⟨hc, if_pos hc, ?_⟩
    unfold next
    rw [if_pos (.inr hc)]

/-- What a user may call on an iterator. -/
inductive Call where
  | next (fresh : Nat → Bytes)
  | close

/-- The results of a sequence of calls of `Next`; `none` is a panic. -/
def calls (x : XTime) : List Call → Iter → Option (List Bool)
  | [], _ => some []
  | .close :: cs, it => calls x cs (close it)
  | .next fresh :: cs, it => match next x fresh it with
    | .ok (b, it') => (calls x cs it').map (b :: ·)
    | _ => none

/-- C18: after an error or `Close`, every later call of `Next` in any sequence of calls returns false, without a panic. -/
theorem C18_stopped_forever (x : XTime) : ∀ (cs : List Call) (it : Iter), (it.err ≠ none ∨ it.closed = true) →
    ∃ bs, calls x cs it = some bs ∧ ∀ b ∈ bs, b = false
  | [], _, _ => ⟨[], rfl, by simp⟩
  | .close :: cs, it, h =>
    have hc : (close it).closed = true := ((C18_stopped x (fun _ => []) it h).2 _ rfl).1
    C18_stopped_forever x cs (close it) (.inr hc)
  | .next fresh :: cs, it, h => by
    obtain ⟨bs, h1, h2⟩ := C18_stopped_forever x cs it h
    exact ⟨false :: bs, by simp [calls, (C18_stopped x fresh it h).1, h1], by simpa using h2⟩

/-- C18 fails: a size may be negative, and then `Next` panics; here on a stream of a single byte. -/
theorem C18_violation_negative (x : XTime) (fresh : Nat → Bytes) (max : Int) (buf : Bytes) (hmax : 0 ≤ max) :
    next x fresh (new [1] max buf) = .panic := by
  have h : readZigzag [1] = .ok (-1, []) := rfl
  have hn : ¬ (-1 : Int) > max := by omega
  simp only [next, new, h, Option.isSome_none, Bool.false_eq_true, or_self, if_false, hn]
  simp [decodeMessage]

/-- The message of the next theorem: a counter of length 2^63 - 1. -/
def longPayload : Bytes := [0x12, 0xff, 0xff, 0xff, 0xff, 0xff, 0xff, 0xff, 0xff, 0x7f]

/-- C18 fails: a message with a length close to 2^63 makes the generated `Unmarshal` panic; here in a stream of eleven bytes. -/
theorem C18_violation_length (x : XTime) (fresh : Nat → Bytes) (hf : Enough fresh) (max : Int) (buf : Bytes) (hmax : 10 ≤ max) :
    next x fresh (new (20 :: longPayload) max buf) = .panic := by
  have h : readZigzag (20 :: longPayload) = .ok (10, longPayload) := rfl
  have h2 : metricWithMetadatas.unmarshal longPayload (resetMetric {}) = .panic := by decide +kernel
  have hn : ¬ (10 : Int) > max := by omega
  simp only [next, new, h, Option.isSome_none, Bool.false_eq_true, or_self, if_false, hn]
  unfold decodeMessage
  have hl := ensure_len hf buf 10
  simp only
  rw [if_neg (by omega)]
  have h3 : readFull (10 : Int).toNat longPayload = .ok (longPayload, []) := rfl
  rw [h3]
  simp only
  have h4 : List.take (10 : Int).toNat (longPayload ++ List.drop (10 : Int).toNat (ensureBufferSize fresh buf 10)) = longPayload :=
    List.take_left' rfl
  rw [h4, h2]

/-- C18, exactly when a call panics: the iterator is open, a size follows that is not too large, and it is negative or the
bytes it announces are there and make the generated `Unmarshal` panic. -/
theorem C18_panics_iff (x : XTime) (fresh : Nat → Bytes) (hf : Enough fresh) (it : Iter) :
    next x fresh it = .panic ↔ it.err = none ∧ it.closed = false ∧ ∃ size r, readZigzag it.reader = .ok (size, r) ∧
      size ≤ it.maxMessageSize ∧
      (size < 0 ∨ (0 ≤ size ∧ size ≤ r.length ∧
        metricWithMetadatas.unmarshal (r.take size.toNat) (resetMetric it.pb) = .panic)) := by
  unfold next
  by_cases hc : it.err.isSome = true ∨ it.closed = true
  · rw [if_pos hc]
    refine ⟨by simp, fun h => ?_⟩
    rcases hc with hc | hc
    · simp [h.1] at hc
    · simp [h.2.1] at hc
  · rw [if_neg hc]
    have he : it.err = none := by
      cases hh : it.err with
      | none => rfl
      | some e => exact absurd (.inl (by simp [hh])) hc
    have hcl : it.closed = false := by
      cases hh : it.closed with
      | false => rfl
      | true => exact absurd (.inr hh) hc
    cases hz : readZigzag it.reader with
    | error y => simp
    | ok y =>
      obtain ⟨size, r⟩ := y
      simp only [he, hcl, true_and, Except.ok.injEq, Prod.mk.injEq]
      by_cases hm : size > it.maxMessageSize
      · rw [if_pos hm]
        refine ⟨by simp, ?_⟩
        rintro ⟨s, r', ⟨rfl, rfl⟩, h, _⟩
        omega
      · rw [if_neg hm]
        have hle := ensure_len hf it.buf size
        have hgoal : (∃ s r', (size = s ∧ r = r') ∧ s ≤ it.maxMessageSize ∧ (s < 0 ∨ (0 ≤ s ∧ s ≤ r'.length ∧
            metricWithMetadatas.unmarshal (r'.take s.toNat) (resetMetric it.pb) = .panic))) ↔
            (size < 0 ∨ (0 ≤ size ∧ size ≤ r.length ∧
            metricWithMetadatas.unmarshal (r.take size.toNat) (resetMetric it.pb) = .panic)) := by
          constructor
          · rintro ⟨_, _, ⟨rfl, rfl⟩, _, h⟩; exact h
          · intro h; exact ⟨_, _, ⟨rfl, rfl⟩, by omega, h⟩
        rw [hgoal]
        unfold decodeMessage
        simp only
        by_cases h0 : size < 0
        · rw [if_pos (.inl h0)]
          simp [h0]
        · rw [if_neg (by omega)]
          by_cases hr : size.toNat ≤ r.length
          · have hrf : readFull size.toNat r = .ok (r.take size.toNat, r.drop size.toNat) := if_pos hr
            rw [hrf]
            simp only
            rw [List.take_left' (by simp [hr])]
            cases hu : metricWithMetadatas.unmarshal (List.take size.toNat r) (resetMetric it.pb) with
            | panic => simp only [true_iff]; right; exact ⟨by omega, by omega, trivial⟩
            | err => simp [h0]
            | ok pb => simp [h0]
          · have : ∃ e, readFull size.toNat r = .error e := by
              unfold readFull
              rw [if_neg hr]
              split <;> exact ⟨_, rfl⟩
            obtain ⟨e, he'⟩ := this
            rw [he']
            refine Iff.intro (fun h => nomatch h) ?_
            rintro (h | h)
            · omega
            · omega

theorem uvarintLoop_num {v : Nat} {g : Bytes} (h : Spec.WireFormat.Varint v g) : ∀ (i acc : Nat) (r : Bytes), i + g.length ≤ 10 →
    v * 2 ^ (7 * i) < 18446744073709551616 → uvarintLoop i acc (g ++ r) = .ok (acc + v * 2 ^ (7 * i), r) := by
  induction h with
  | last b hb =>
    intro i acc r hi hv
    simp only [List.singleton_append, uvarintLoop, hb, if_true]
    rw [if_neg]
    simp only [List.length_singleton] at hi
    intro hc
    rcases hc with hc | ⟨rfl, hc⟩
    · omega
    · simp only [Nat.reduceMul, Nat.reducePow] at hv
      omega
  | more b n g hb _ ih =>
    intro i acc r hi hv
    have hlt := b.toNat_lt
    have e : b.toNat % 128 = b.toNat - 128 := by omega
    have e2 : (b.toNat - 128 + 128 * n) * 2 ^ (7 * i) = (b.toNat - 128) * 2 ^ (7 * i) + n * 2 ^ (7 * (i + 1)) := by
      rw [Nat.add_mul, show 7 * (i + 1) = 7 * i + 7 by omega, Nat.pow_add, show (2 : Nat) ^ 7 = 128 from rfl,
        Nat.mul_comm (2 ^ (7 * i)) 128, ← Nat.mul_assoc, Nat.mul_comm n 128]
    rw [e2] at hv
    rw [List.cons_append, uvarintLoop, if_neg (by omega), ih (i + 1) _ r (by simp at hi; omega) (by omega), e, e2]
    congr 2
    omega

/-- C18, in general where it fails: an open iterator panics on every stream that begins with an odd number below 2^64, for
that stands for a negative size. -/
theorem C18_violation_odd (x : XTime) (fresh : Nat → Bytes) (it : Iter) (he : it.err = none) (hc : it.closed = false)
    (hmax : -1 ≤ it.maxMessageSize) (k : Nat) (g rest : Bytes) (hg : Spec.WireFormat.Num k g) (hk : k < 18446744073709551616)
    (hodd : k % 2 = 1) (hr : it.reader = g ++ rest) : next x fresh it = .panic := by
  have h1 : uvarintLoop 0 0 it.reader = .ok (k, rest) := by
    rw [hr, uvarintLoop_num hg.1 0 0 rest (by have := hg.2; omega) (by simpa using hk)]
    simp
  have h2 : readZigzag it.reader = .ok (unzigzag k, rest) := by simp [readZigzag, h1]
  have h3 : unzigzag k < 0 ∧ unzigzag k ≤ -1 := by unfold unzigzag; rw [if_pos hodd]; omega
  unfold next
  rw [if_neg (by simp [he, hc]), h2]
  simp only
  rw [if_neg (by omega)]
  unfold decodeMessage
  rw [if_pos (.inl h3.1)]

theorem next_calm (x : XTime) (fresh : Nat → Bytes) (hf : Enough fresh) (it : Iter) (hq : Quiet it.reader)
    (hl : it.reader.length < big) (hn : ∀ n r, readZigzag it.reader = .ok (n, r) → 0 ≤ n) : ∃ b it', next x fresh it = .ok (b, it') := by
  unfold next
  split
  · exact ⟨_, _, rfl⟩
  · cases hz : readZigzag it.reader with
    | error y => exact ⟨_, _, rfl⟩
    | ok y =>
      obtain ⟨size, r⟩ := y
      have h0 := hn size r hz
      obtain ⟨hs1, hs2⟩ := readZigzag_ok hz
      simp only
      split
      · exact ⟨_, _, rfl⟩
      · unfold decodeMessage
        have hle := ensure_len hf it.buf size
        simp only
        rw [if_neg (by omega)]
        cases hr : readFull size.toNat r with
        | error y => exact ⟨_, _, rfl⟩
        | ok y =>
          obtain ⟨d, r'⟩ := y
          obtain ⟨_, hd, hlen⟩ := readFull_suffix.1 d r' hr
          simp only
          have ht : List.take size.toNat (d ++ List.drop size.toNat (ensureBufferSize fresh it.buf size)) = d := List.take_left' hlen
          rw [ht]
          have hdl := hd.length_le
          have := metricWithMetadatas_calm d (resetMetric it.pb) ((hq.suffix hs1).infix hd) (by omega)
          cases hu : metricWithMetadatas.unmarshal d (resetMetric it.pb) with
          | panic => exact absurd hu this
          | err => exact ⟨_, _, rfl⟩
          | ok pb => exact ⟨_, _, rfl⟩

/-- C18 in part: the two ways above are the only ones to panic. Reading any stream shorter than 2^62 bytes that nowhere has
a number from 2^62 to 2^63 and nowhere a negative size ends without a panic. Missing: streams that do. -/
theorem C18_partial (x : XTime) (fresh : Nat → Nat → Bytes) (hf : ∀ k, Enough (fresh k)) :
    ∀ (n : Nat) (it : Iter), Quiet it.reader → it.reader.length < big →
      (∀ s, s <:+ it.reader → ∀ n r, readZigzag s = .ok (n, r) → 0 ≤ n) → ∃ ms it', drain x fresh n it = .ok (ms, it')
  | 0, it, _, _, _ => ⟨_, _, rfl⟩
  | n + 1, it, hq, hl, hn => by
    obtain ⟨b, it', h⟩ := next_calm x (fresh n) (hf n) it hq hl (hn _ (List.suffix_refl _))
    unfold drain
    rw [h]
    cases b with
    | false => exact ⟨_, _, rfl⟩
    | true =>
      have hs := (C18_outcome x _ it it' true h).1
      obtain ⟨ms, it'', h2⟩ := C18_partial x fresh hf n it' (hq.suffix hs) (by have := hs.length_le; omega)
        fun s hs' => hn s (hs'.trans hs)
      simp only [h2]
      exact ⟨_, _, rfl⟩

/-- C18: a stream of `n` bytes yields at most `n` messages: with more calls than bytes the iterator has stopped. -/
theorem C18_terminates (x : XTime) (fresh : Nat → Nat → Bytes) : ∀ (n : Nat) (it : Iter) (ms : List (Option Message)) (it' : Iter),
    it.reader.length < n → drain x fresh n it = .ok (ms, it') →
    ms.length ≤ it.reader.length ∧ (it'.err ≠ none ∨ it'.closed = true) ∧ ∀ m ∈ ms, m ≠ none
  | 0, _, _, _, h, _ => absurd h (by omega)
  | n + 1, it, ms, it', hn, h => by
    unfold drain at h
    cases hx : next x (fresh n) it with
    | panic => simp [hx] at h
    | err => simp [hx] at h
    | ok y =>
      obtain ⟨b, it1⟩ := y
      obtain ⟨h1, h2, h3⟩ := C18_outcome x _ it it1 b hx
      rw [hx] at h
      cases b with
      | false =>
        cases h
        exact ⟨by simp, h3 rfl, by simp⟩
      | true =>
        obtain ⟨_, _, _, _, hlt, m, hm⟩ := h2 rfl
        cases hd : drain x fresh n it1 with
        | panic => simp [hd] at h
        | err => simp [hd] at h
        | ok z =>
          obtain ⟨ms', e⟩ := z
          simp only [hd] at h
          cases h
          obtain ⟨g1, g2, g3⟩ := C18_terminates x fresh n it1 ms' _ (by omega) hd
          refine ⟨by simp; omega, g2, ?_⟩
          intro m' hm'
          rcases List.mem_cons.mp hm' with rfl | hm'
          · simp [hm]
          · exact g3 m' hm'

/-! ### C16: no leaks -/

/-- What a call on a used iterator may do, given what the same call does on a new one: the same, or deliver an empty message
that the new one refuses. -/
def Agree (a b : Bool × Iter) : Prop :=
  a.2.reader = b.2.reader ∧
  ((a.1 = b.1 ∧ a.2.err = b.2.err ∧ (a.1 = true → view a.2.msg = view b.2.msg)) ∨
   (a.1 = false ∧ a.2.err = some .convert ∧ b.1 = true ∧ ∃ m, view b.2.msg = some m ∧ Blank m))

theorem convert_agree (x : XTime) (p q : PBMetric) (a b : Union) (h : PBLe p q) :
    ((convert x p a).2 = (convert x q b).2 ∧ ((convert x p a).2 = none → view (convert x p a).1 = view (convert x q b).1)) ∨
    ((convert x p a).2 = some .convert ∧ (convert x q b).2 = none ∧ ∃ m, view (convert x q b).1 = some m ∧ Blank m) := by
  obtain ⟨_, n1, _, n2, _, n3, _, n4, _, n5⟩ := C65_no_history x
  unfold convert
  rw [← h.type]
  by_cases t1 : p.type = 1
  · simp only [t1, if_true]
    rcases h.counter with e | ⟨e1, e2⟩
    · rw [e, n1 a.counter b.counter]
      cases counterFromProto x b.counter q.counter <;> simp [view]
    · rw [e1, e2]
      refine .inr ?_
      have : counterFromProto x b.counter (some ⟨{}, []⟩) = some ⟨{}, []⟩ := by
        rw [n1 _ ⟨{}, []⟩]; simp [counterFromProto, stagedFromProto_eq, mapOpt, Counter.fromProto]
      rw [this]
      simp [counterFromProto, view, Blank]
  · simp only [t1, if_false]
    by_cases t2 : p.type = 2
    · simp only [t2, if_true]
      rcases h.batchTimer with e | ⟨e1, e2⟩
      · rw [e, n2 a.batchTimer b.batchTimer]
        cases batchTimerFromProto x b.batchTimer q.batchTimer <;> simp [view]
      · rw [e1, e2]
        refine .inr ?_
        have : batchTimerFromProto x b.batchTimer (some ⟨{}, []⟩) = some ⟨{}, []⟩ := by
          rw [n2 _ ⟨{}, []⟩]; simp [batchTimerFromProto, stagedFromProto_eq, mapOpt, BatchTimer.fromProto]
        rw [this]
        simp [batchTimerFromProto, view, Blank]
    · simp only [t2, if_false]
      by_cases t3 : p.type = 3
      · simp only [t3, if_true]
        rcases h.gauge with e | ⟨e1, e2⟩
        · rw [e, n3 a.gauge b.gauge]
          cases gaugeFromProto x b.gauge q.gauge <;> simp [view]
        · rw [e1, e2]
          refine .inr ?_
          have : gaugeFromProto x b.gauge (some ⟨{}, []⟩) = some ⟨{}, []⟩ := by
            rw [n3 _ ⟨{}, []⟩]; simp [gaugeFromProto, stagedFromProto_eq, mapOpt, Gauge.fromProto]
          rw [this]
          simp [gaugeFromProto, view, Blank]
      · simp only [t3, if_false]
        by_cases t4 : p.type = 4
        · simp only [t4, if_true]
          rcases h.forwarded with e | ⟨e1, e2⟩
          · rw [e, n4 a.forwarded b.forwarded]
            cases forwardedFromProto x b.forwarded q.forwarded <;> simp [view]
          · rw [e1, e2]
            have : forwardedFromProto x b.forwarded (some ⟨{}, {}⟩) = none := by
              simp [forwardedFromProto, ForwardedMetric.fromProto, typeFromProto]
            rw [this]
            simp [forwardedFromProto]
        · simp only [t4, if_false]
          by_cases t5 : p.type = 5
          · simp only [t5, if_true]
            rcases h.timed with e | ⟨e1, e2⟩
            · rw [e, n5 a.timed b.timed]
              cases timedFromProto x b.timed q.timed <;> simp [view]
            · rw [e1, e2]
              have : timedFromProto x b.timed (some ⟨{}, {}⟩) = none := by
                simp [timedFromProto, Metric.fromProto, typeFromProto]
              rw [this]
              simp [timedFromProto]
          · simp [t5]

/-- C16 in part: whatever an iterator has read before, and whatever its buffer and the pool contain, the next call does what it
would do on a new iterator at the same place of the same stream, with one exception: a message that says it is a counter, timer
or gauge but does not contain one is refused by a new iterator and may be delivered, empty, by one that has read such a message
before. Missing: this exception, see `C16_violation`. -/
theorem C16_partial (x : XTime) (fresh fresh' : Nat → Bytes) (hf : Enough fresh) (hf' : Enough fresh') (it : Iter)
    (he : it.err = none) (hc : it.closed = false) (buf : Bytes) :
    OutRel Agree (next x fresh' (new it.reader it.maxMessageSize buf)) (next x fresh it) := by
  unfold next
  simp only [he, hc, new, Option.isSome_none, Bool.false_eq_true, or_self, if_false]
  cases hz : readZigzag it.reader with
  | error y => exact ⟨rfl, .inl ⟨rfl, rfl, by simp⟩⟩
  | ok y =>
    obtain ⟨size, r⟩ := y
    simp only
    by_cases hm : size > it.maxMessageSize
    · simp only [hm, if_true]
      exact ⟨rfl, .inl ⟨rfl, rfl, by simp⟩⟩
    · simp only [hm, if_false]
      unfold decodeMessage
      have h1 := ensure_len hf it.buf size
      have h2 := ensure_len hf' buf size
      by_cases hneg : size < 0
      · simp [hneg, OutRel]
      · simp only
        rw [if_neg (by omega), if_neg (by omega)]
        cases hr : readFull size.toNat r with
        | error y => exact ⟨rfl, .inl ⟨rfl, rfl, by simp⟩⟩
        | ok y =>
          obtain ⟨d, r'⟩ := y
          obtain ⟨_, _, hlen⟩ := readFull_suffix.1 d r' hr
          simp only
          rw [List.take_left' hlen, List.take_left' hlen]
          have hz : resetMetric {} = {} := rfl
          rw [hz]
          have hu := unmarshal_le d {} (resetMetric it.pb) (clean_reset it.pb).le
          cases hu1 : metricWithMetadatas.unmarshal d {} <;> cases hu2 : metricWithMetadatas.unmarshal d (resetMetric it.pb) <;>
            rw [hu1, hu2] at hu <;> simp only [OutRel] at hu ⊢
          · next p q =>
            refine ⟨rfl, ?_⟩
            rcases convert_agree x p q {} it.msg hu with ⟨e1, e2⟩ | ⟨e1, e2, e3⟩
            · refine .inl ⟨congrArg Option.isNone e1, e1, fun hb => e2 (Option.isNone_iff_eq_none.mp hb)⟩
            · exact .inr ⟨congrArg Option.isNone e1, e1, by simp [e2], e3⟩
          · exact ⟨rfl, .inl ⟨rfl, rfl, by simp⟩⟩

/-- The messages that a new iterator for each of them delivers. -/
def alone (x : XTime) (fresh : Nat → Bytes) (max : Int) : Nat → Bytes → List (Option Message)
  | 0, _ => []
  | n + 1, r => match next x fresh (new r max []) with
    | .ok (true, it) => view it.msg :: alone x fresh max n it.reader
    | _ => []

theorem next_max {x : XTime} {fresh : Nat → Bytes} {it it' : Iter} {b : Bool} (h : next x fresh it = .ok (b, it')) :
    it'.maxMessageSize = it.maxMessageSize := by
  unfold next decodeMessage at h
  split at h
  · cases h; rfl
  · split at h
    · cases h; rfl
    · simp only at h
      split at h
      · cases h; rfl
      · split at h
        · cases h
        · split at h
          · cases h; rfl
          · split at h
            · cases h
            · cases h; rfl
            · cases h; rfl

/-- C16 in part, for whole streams: one iterator delivers what new iterators for every message deliver, up to a message that
these refuse; if it delivers more, the next one is an empty message. -/
theorem C16_sequence_partial (x : XTime) (fresh : Nat → Nat → Bytes) (fresh' : Nat → Bytes) (hf : ∀ k, Enough (fresh k)) (hf' : Enough fresh') :
    ∀ (n : Nat) (it it' : Iter) (ms : List (Option Message)), it.err = none → it.closed = false →
      drain x fresh n it = .ok (ms, it') →
      ∃ rest, ms = alone x fresh' it.maxMessageSize n it.reader ++ rest ∧ (rest = [] ∨ ∃ m r, rest = some m :: r ∧ Blank m)
  | 0, it, it', ms, _, _, h => by
    cases h
    exact ⟨[], rfl, .inl rfl⟩
  | n + 1, it, it', ms, he, hc, h => by
    have hp := C16_partial x (fresh n) fresh' (hf n) hf' it he hc []
    unfold drain at h
    unfold alone
    cases hx : next x (fresh n) it with
    | panic => simp [hx] at h
    | err => simp [hx] at h
    | ok y =>
      obtain ⟨b, it1⟩ := y
      rw [hx] at h hp
      cases hy : next x fresh' (new it.reader it.maxMessageSize []) with
      | panic => simp [hy, OutRel] at hp
      | err => simp [hy, OutRel] at hp
      | ok z =>
        obtain ⟨c, f1⟩ := z
        rw [hy] at hp
        obtain ⟨h1, h2⟩ := hp
        cases b with
        | false =>
          cases h
          rcases h2 with ⟨h2, _⟩ | ⟨_, _, h2, _⟩
          · simp only at h2
            subst h2
            exact ⟨[], rfl, .inl rfl⟩
          · cases h2
        | true =>
          cases hd : drain x fresh n it1 with
          | panic => simp [hd] at h
          | err => simp [hd] at h
          | ok z =>
            obtain ⟨ms', e⟩ := z
            simp only [hd] at h
            cases h
            rcases h2 with ⟨h2, _, h3⟩ | ⟨h2, _, _, m, h4, h5⟩
            · simp only at h2
              subst h2
              have ho := (C18_outcome x _ it it1 true hx).2.1 rfl
              obtain ⟨rest, g1, g2⟩ := C16_sequence_partial x fresh fresh' hf hf' n it1 _ ms' ho.2.2.1 ho.2.2.2.1 hd
              have hm := next_max hx
              simp only at h1
              have h3 : view f1.msg = view it1.msg := h3 rfl
              simp only [h3, h1]
              refine ⟨rest, ?_, g2⟩
              rw [g1, hm]
              rfl
            · simp only at h2
              subst h2
              exact ⟨view it1.msg :: ms', by simp, .inr ⟨m, ms', by simp at h4; simp [h4], h5⟩⟩

/-! ### Concrete streams -/

def exPool : Nat → Bytes := fun n => List.replicate n 0xAA

theorem exPool_enough : Enough exPool := fun n => by simp [exPool]

/-- A union with a counter. -/
def exUnion : Union := { type := 1, counter := ⟨{ id := bs "a", value := -3 }, exStaged⟩ }

/-- What the encoder makes of it. -/
def exPB : PBMetric := (PBuf.toPB unitX ⟨⟨{}, []⟩, ⟨{}, []⟩, ⟨{}, []⟩, ⟨{}, {}⟩, ⟨{}, {}⟩⟩ exUnion).getD {}

/-- A message that says it is a counter and contains none. -/
def hollow : Bytes := [4, 8, 1]

theorem exUnion_sent : Sent unitX 1000 exUnion (.counter ⟨{ id := bs "a", value := -3 }, exStaged⟩) exPB where
  view := rfl
  fits := by simp [Fits, Fits.UnitOK, exStaged, unitX]
  range := by simp [InRange, StagedRange, PolicyRange, Spec.Msg.Int64, exStaged, unitX]
  conv := ⟨⟨⟨{}, []⟩, ⟨{}, []⟩, ⟨{}, []⟩, ⟨{}, {}⟩, ⟨{}, {}⟩⟩, by decide +kernel⟩
  small := by decide +kernel
  int64 := by decide +kernel

/-- C16 fails: after a counter, an iterator delivers an empty counter where a new iterator reports an error. -/
theorem C16_violation : ∃ it : Iter, next unitX exPool (new (frame exPB ++ hollow) 1000 []) = .ok (true, it) ∧
    (∃ it', next unitX exPool it = .ok (true, it') ∧ view it'.msg = some (.counter ⟨{}, []⟩)) ∧
    (∃ it', next unitX exPool (new it.reader 1000 []) = .ok (false, it') ∧ it'.err = some .convert) := by
  obtain ⟨it, h1, h2, h3, h4, h5, h6⟩ := next_frame (x := unitX) exPool_enough (it := new (frame exPB ++ hollow) 1000 []) rfl rfl
    exUnion_sent rfl
  refine ⟨it, h1, ?_, ?_⟩
  · have e : (match next unitX exPool (new (frame exPB ++ hollow) 1000 []) with
        | .ok (true, it) => (match next unitX exPool it with
          | .ok (true, it') => decide (view it'.msg = some (.counter ⟨{}, []⟩))
          | _ => false)
        | _ => false) = true := by decide +kernel
    rw [h1] at e
    simp only at e
    split at e
    · next it' hx => exact ⟨it', hx, by simpa using e⟩
    · cases e
  · rw [h2]
    have e : (match next unitX exPool (new hollow 1000 []) with
        | .ok (false, it') => decide (it'.err = some .convert)
        | _ => false) = true := by decide +kernel
    split at e
    · next it' hx => exact ⟨it', hx, by simpa using e⟩
    · cases e

/-- C17: a gauge with a negative zero comes out with a positive one, equal to it in Go but with other bits. -/
theorem C17_zero_sign : ∃ it, next unitX exPool (new (frame { type := 3, gauge := some ⟨{ id := bs "g", value := 0x8000000000000000 }, []⟩ }) 1000 []) =
    .ok (true, it) ∧ it.msg.gauge.metric = { id := bs "g", value := 0 } := by
  have e : (match next unitX exPool (new (frame { type := 3, gauge := some ⟨{ id := bs "g", value := 0x8000000000000000 }, []⟩ }) 1000 []) with
    | .ok (true, it) => decide (it.msg.gauge.metric = { id := bs "g", value := 0 })
    | _ => false) = true := by decide +kernel
  split at e
  · next it' hx => exact ⟨it', hx, by simpa using e⟩
  · cases e

/-- C17: a stream that is cut right after a size ends with `io.EOF`, as a whole stream does. -/
theorem C17_cut_as_end (pb : PBMetric) (x : XTime) (fresh : Nat → Bytes) (hf : Enough fresh) (max : Int) (buf : Bytes)
    (h0 : 0 < metricWithMetadatas.size pb) (hi : metricWithMetadatas.size pb < 9223372036854775808)
    (hm : (metricWithMetadatas.size pb : Int) ≤ max) :
    ∃ it, next x fresh (new (putVarint (metricWithMetadatas.size pb)) max buf) = .ok (false, it) ∧ it.err = some .eof := by
  have := readZigzag_put (metricWithMetadatas.size pb) ⟨by omega, by omega⟩ []
  rw [List.append_nil] at this
  have hn : ¬ (metricWithMetadatas.size pb : Int) > max := by omega
  simp only [next, new, this, Option.isSome_none, Bool.false_eq_true, or_self, if_false, hn]
  unfold decodeMessage
  have hl := ensure_len hf buf (metricWithMetadatas.size pb)
  simp only
  rw [if_neg (by omega)]
  have h3 : readFull (metricWithMetadatas.size pb : Int).toNat [] = .error (.eof, []) := by
    unfold readFull
    rw [if_neg (by simp; omega)]
    rfl
  rw [h3]
  exact ⟨_, rfl, rfl⟩

/-- Two whole frames and part of a third: two messages, then an error. -/
example : (match drain unitX (fun _ => exPool) 4 (new ((frame exPB ++ frame exPB ++ frame exPB).take (2 * (frame exPB).length + 5)) 1000 []) with
    | .ok (ms, it) => decide (ms.length = 2 ∧ it.err = some .unexpectedEOF)
    | _ => false) = true := by decide +kernel

/-- The example stream is quiet. -/
example : Quiet hollow := quiet_of_short fun x hx hi => by
  have := hi.length_le
  simp [hollow] at this
  omega

end Verif.PIter
