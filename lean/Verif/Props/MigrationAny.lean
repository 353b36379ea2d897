import Verif.Props.Migration
import Verif.Props.MsgpackAny
import Verif.Props.MsgpackExact
import Verif.Props.SchemaAccept
import Verif.Props.MsgpackStream
/-
C117: streams of both protocols, whatever their bytes.
-/
namespace Verif.Mig
open Verif.Policy Verif.Meta Verif.Spec.Mig
open Verif.MP (StagedPolicies Lib Units Sample Delim)
open Verif.Spec.MP (Message Later)

/-- The iterator has neither stopped nor been closed and is about to read `b`; the last policies list was `pl`. -/
structure Open (ig : Bool) (max : Int) (it : Iter) (b : Bytes) (pl : List StagedPolicies) : Prop where
  reader : it.reader = b
  closed : it.closed = false
  err : it.err = none
  msgpack : ∃ mp : MP.Iter, it.msgpackIt = some mp ∧ mp.base.err = none ∧ mp.closed = false ∧ mp.policiesList = pl ∧ mp.ignoreHigherVersion = ig
  protobuf : ∃ pb : PIter.Iter, it.protobufIt = some pb ∧ pb.err = none ∧ pb.closed = false ∧ pb.maxMessageSize = max

theorem open_new (b : Bytes) (ig : Bool) (max : Int) (buf : Bytes) : Open ig max (new b ig max buf) b [] :=
  ⟨rfl, rfl, rfl, ⟨_, rfl, rfl, rfl, rfl, rfl⟩, ⟨_, rfl, rfl, rfl, rfl⟩⟩

theorem Open.at {ig : Bool} {max : Int} {it : Iter} {b : Bytes} {pl : List StagedPolicies} (h : Open ig max it b pl) : At max it b pl := by
  obtain ⟨mp, h1, h2, h3, h4, _⟩ := h.msgpack
  exact ⟨h.reader, h.closed, h.err, ⟨mp, h1, h2, h3, h4⟩, h.protobuf⟩

/-- The conversion of a metric with a known type. -/
theorem toUnion_view {v : Msg.MetricUnion} {m : Sample} (h : Spec.MP.view v = some m) (pl : List StagedPolicies) :
    ∃ un, toUnion v pl = some un ∧ Spec.Msg.view un = some (message m pl) := by
  have e := C27_staged pl
  unfold Spec.MP.view at h
  unfold toUnion
  split at h
  · rename_i ht
    cases h
    rw [if_pos ht]
    exact ⟨_, rfl, by rw [e]; rfl⟩
  · rename_i ht
    rw [if_neg ht]
    split at h
    · rename_i ht
      cases h
      rw [if_pos ht]
      exact ⟨_, rfl, by rw [e]; rfl⟩
    · rename_i ht
      rw [if_neg ht]
      split at h
      · rename_i ht
        cases h
        rw [if_pos ht]
        exact ⟨_, rfl, by rw [e]; rfl⟩
      · cases h

variable {l : Lib} {x : XTime} {u : Units} {fresh : Nat → Bytes}

/-- C117: an iterator that has an error or is closed delivers nothing and stays as it is. -/
theorem C117_stopped (it : Iter) (h : it.closed = true ∨ ∃ e, it.error = .ok (some e)) : next l x u fresh it = .ok (false, it) := by
  unfold next
  rcases h with h | ⟨e, h⟩
  · rw [if_pos h]
  · split
    · rfl
    · rw [h]

/-- C117: without any bytes left there is nothing to deliver, and the error is `io.EOF`. -/
theorem C117_end {ig : Bool} {max : Int} {it : Iter} {pl : List StagedPolicies} (h : Open ig max it [] pl) :
    ∃ it', next l x u fresh it = .ok (false, it') ∧ it'.error = .ok (some .eof) := by
  unfold next
  rw [h.closed, h.at.error, h.reader]
  exact ⟨_, rfl, rfl⟩

/-- C117: bytes of which the first is odd are read as msgpack: if they start with a message of the format, it is delivered, with the
metadata of its policies list or of the last one before, and the rest is left. -/
theorem C117_msgpack (C : Delim l) {ig : Bool} {max : Int} {it : Iter} {c : UInt8} {b : Bytes} {pl : List StagedPolicies}
    (h : Open ig max it (c :: b) pl) (hc : c.toNat % 2 = 1) (ls p r : Bytes) (m : Sample) (o : Option (List StagedPolicies))
    (hd : c :: b = ls ++ (p ++ r)) (hl : Later l ls) (hi : ig = false → ls = []) (hm : Message l x u m o p) :
    ∃ it', next l x u fresh it = .ok (true, it') ∧ Open ig max it' r (o.getD pl) ∧ Spec.Msg.view it'.msg = some (message m (o.getD pl)) := by
  obtain ⟨mp, h1, h2, h3, h4, h5⟩ := h.msgpack
  have hb : isProtobuf c = false := by
    unfold isProtobuf
    have : (c &&& 1).toNat = 1 := by rw [UInt8.toNat_and, show (1 : UInt8).toNat = 1 from rfl, Nat.and_one_is_mod, hc]
    rw [show c &&& 1 = 1 from UInt8.toNat.inj this]
    rfl
  rw [h.at.next h.reader, hb, if_neg (by decide)]
  obtain ⟨mp', e, ⟨a1, a2⟩, v, q, g⟩ := MP.C114_delivered C (x := x) (u := u) { mp with base := { mp.base with data := it.reader } } ls p r m o
    ⟨by rw [h.reader, hd]; simp [h2], h3⟩ hl (by rw [← h5] at hi; exact hi) hm
  simp only at q g
  obtain ⟨un, f1, f2⟩ := toUnion_view v mp'.policiesList
  unfold nextMsgpack
  rw [h1]
  simp only [e]
  rw [f1]
  refine ⟨_, rfl, ⟨by simp [a1], h.closed, h.err, ⟨mp', rfl, by rw [a1], a2, by rw [q, h4], by rw [g, h5]⟩, h.protobuf⟩, ?_⟩
  simp only
  rw [f2, q, h4]

/-- C117: else nothing is delivered, and the iterator has stopped with an error of the msgpack iterator. -/
theorem C117_msgpack_not (C : Delim l) {ig : Bool} {max : Int} {it : Iter} {c : UInt8} {b : Bytes} {pl : List StagedPolicies}
    (h : Open ig max it (c :: b) pl) (hc : c.toNat % 2 = 1)
    (hn : ¬ ∃ ls p r m o, c :: b = ls ++ (p ++ r) ∧ Later l ls ∧ (ig = false → ls = []) ∧ Message l x u m o p) :
    ∃ it' e, next l x u fresh it = .ok (false, it') ∧ it'.error = .ok (some (.msgpack e)) ∧ it'.msg = it.msg := by
  obtain ⟨mp, h1, h2, h3, h4, h5⟩ := h.msgpack
  have hb : isProtobuf c = false := by
    unfold isProtobuf
    have : (c &&& 1).toNat = 1 := by rw [UInt8.toNat_and, show (1 : UInt8).toNat = 1 from rfl, Nat.and_one_is_mod, hc]
    rw [show c &&& 1 = 1 from UInt8.toNat.inj this]
    rfl
  rw [h.at.next h.reader, hb, if_neg (by decide)]
  have hx : (MP.next l x u { mp with base := { mp.base with data := it.reader } }).1 = false := by
    by_cases hx : (MP.next l x u { mp with base := { mp.base with data := it.reader } }).1 = true
    · obtain ⟨ls, p, r, m, o, q1, q2, q3, q4⟩ := (MP.C114_exactly C { mp with base := { mp.base with data := it.reader } } (c :: b)
        ⟨by rw [h.reader]; simp [h2], h3⟩).mp hx
      exact absurd ⟨ls, p, r, m, o, q1, q2, by rw [← h5]; exact q3, q4⟩ hn
    · simpa using hx
  have hs := (MP.C107_stopped C x u _ hx).2 h3
  rcases e : MP.next l x u { mp with base := { mp.base with data := it.reader } } with ⟨ok, mp'⟩
  rw [e] at hx hs
  simp only at hx hs
  subst hx
  obtain ⟨er, her⟩ := Option.isSome_iff_exists.mp hs
  refine ⟨{ it with reader := mp'.base.data, msgpackIt := some mp' }, er, ?_, ?_, rfl⟩
  · unfold nextMsgpack
    rw [h1]
    simp only [e]
    rfl
  · unfold Iter.error
    rw [h.err]
    simp only [her]

/-- C117: bytes of which the first is even are read by the protobuf iterator: what it delivers is delivered, and the iterator goes on
with what it leaves; where it stops the iterator stops with its error. -/
theorem C117_protobuf {ig : Bool} {max : Int} {it : Iter} {c : UInt8} {b : Bytes} {pl : List StagedPolicies}
    (h : Open ig max it (c :: b) pl) (hc : c.toNat % 2 = 0) (pb : PIter.Iter) (hp : it.protobufIt = some pb) :
    (∀ pb', PIter.next x fresh { pb with reader := c :: b } = .ok (true, pb') →
      ∃ it', next l x u fresh it = .ok (true, it') ∧ Open ig max it' pb'.reader pl ∧ it'.msg = pb'.msg ∧ it'.protobufIt = some pb') ∧
    (∀ pb', PIter.next x fresh { pb with reader := c :: b } = .ok (false, pb') →
      ∃ it' e, next l x u fresh it = .ok (false, it') ∧ it'.error = .ok (some (.protobuf e)) ∧ pb'.err = some e ∧ it'.msg = it.msg) := by
  obtain ⟨mp, m1, m2, m3, m4, m5⟩ := h.msgpack
  obtain ⟨pb0, p1, p2, p3, p4⟩ := h.protobuf
  rw [hp] at p1
  cases p1
  have hb : isProtobuf c = true := by
    unfold isProtobuf
    have : (c &&& 1).toNat = 0 := by rw [UInt8.toNat_and, show (1 : UInt8).toNat = 1 from rfl, Nat.and_one_is_mod, hc]
    rw [show c &&& 1 = 0 from UInt8.toNat.inj this]
    rfl
  have hk : ∀ ok pb', PIter.next x fresh { pb with reader := c :: b } = .ok (ok, pb') →
      pb'.closed = false ∧ pb'.maxMessageSize = max ∧ (ok = pb'.err.isNone) := by
    intro ok pb' e
    unfold PIter.next at e
    rw [if_neg (by simp [p2, p3])] at e
    simp only at e
    split at e
    · cases e
      exact ⟨p3, p4, rfl⟩
    · split at e
      · cases e
        exact ⟨p3, p4, rfl⟩
      · unfold PIter.decodeMessage at e
        simp only at e
        split at e
        · cases e
        · split at e
          · cases e
            exact ⟨p3, p4, rfl⟩
          · split at e
            · cases e
            · cases e
              exact ⟨p3, p4, rfl⟩
            · cases e
              exact ⟨p3, p4, rfl⟩
  constructor
  · intro pb' e
    obtain ⟨k1, k2, k3⟩ := hk _ _ e
    refine ⟨{ it with reader := pb'.reader, protobufIt := some pb', msg := pb'.msg }, ?_, ⟨rfl, h.closed, h.err, ⟨mp, m1, m2, m3, m4, m5⟩,
      ⟨pb', rfl, by simpa using k3.symm, k1, k2⟩⟩, rfl, rfl⟩
    rw [h.at.next h.reader, hb, if_pos rfl]
    unfold nextProtobuf
    rw [hp, h.reader]
    simp only [e]
    rfl
  · intro pb' e
    obtain ⟨k1, k2, k3⟩ := hk _ _ e
    obtain ⟨er, her⟩ : ∃ er, pb'.err = some er := by
      cases he : pb'.err with
      | none => rw [he] at k3; cases k3
      | some er => exact ⟨er, rfl⟩
    refine ⟨{ it with reader := pb'.reader, protobufIt := some pb' }, er, ?_, ?_, her, rfl⟩
    · rw [h.at.next h.reader, hb, if_pos rfl]
      unfold nextProtobuf
      rw [hp, h.reader]
      simp only [e]
      rfl
    · unfold Iter.error
      rw [h.err, m1]
      simp only [m2, her]
      rfl

/-- C117: so what is delivered from such bytes was a size, at most the largest one, and after it that many bytes of a message. -/
theorem C117_frame (hf : PIter.Enough fresh) {ig : Bool} {max : Int} (hm : max < 2 ^ 63) {it it' : Iter} {c : UInt8} {b : Bytes} {pl : List StagedPolicies}
    (h : Open ig max it (c :: b) pl) (hc : c.toNat % 2 = 0) (hn : next l x u fresh it = .ok (true, it')) :
    ∃ s d, c :: b = s ++ (d ++ it'.reader) ∧ Spec.WireFormat.Num (2 * d.length) s ∧ d.length ≤ max ∧ Spec.Schema.Acceptable .MetricWithMetadatas d := by
  obtain ⟨pb, p1, p2, p3, p4⟩ := h.protobuf
  have hb : isProtobuf c = true := by
    unfold isProtobuf
    have : (c &&& 1).toNat = 0 := by rw [UInt8.toNat_and, show (1 : UInt8).toNat = 1 from rfl, Nat.and_one_is_mod, hc]
    rw [show c &&& 1 = 0 from UInt8.toNat.inj this]
    rfl
  rw [h.at.next h.reader, hb, if_pos rfl] at hn
  unfold nextProtobuf at hn
  rw [p1, h.reader] at hn
  simp only at hn
  rcases e : PIter.next x fresh { pb with reader := c :: b } with ⟨ok, pb'⟩ | _ | _
  · rw [e] at hn
    cases ok
    · cases hn
    · simp only [if_true] at hn
      cases hn
      have := Wire.C116_next hf (by rw [← p4] at hm; exact hm) e
      rw [← p4]
      exact this
  · rw [e] at hn; cases hn
  · rw [e] at hn; cases hn

/-! ### Panics and the end -/

theorem uvarintLoop_parity : ∀ (d : Bytes) (i acc u : Nat) (r : Bytes), 0 < i → PIter.uvarintLoop i acc d = .ok (u, r) → u % 2 = acc % 2
  | [], _, _, _, _, _, h => by cases h
  | b :: d, i, acc, u, r, hi, h => by
    have hp : ∀ k, (acc + k * 2 ^ (7 * i)) % 2 = acc % 2 := by
      intro k
      obtain ⟨j, rfl⟩ : ∃ j, i = j + 1 := ⟨i - 1, by omega⟩
      rw [show 7 * (j + 1) = (7 * j + 6) + 1 by omega, Nat.pow_succ, ← Nat.mul_assoc]
      omega
    unfold PIter.uvarintLoop at h
    split at h
    · split at h
      · cases h
      · cases h; exact hp _
    · rw [uvarintLoop_parity d (i + 1) _ u r (by omega) h]
      exact hp _

/-- A size of which the first byte is even is not negative. -/
theorem size_of_even {c : UInt8} {b : Bytes} (hc : c.toNat % 2 = 0) {n : Int} {r : Bytes} (h : PIter.readZigzag (c :: b) = .ok (n, r)) : 0 ≤ n := by
  unfold PIter.readZigzag at h
  cases hu : PIter.uvarintLoop 0 0 (c :: b) with
  | error e => rw [hu] at h; cases h
  | ok y =>
    obtain ⟨u, r'⟩ := y
    rw [hu] at h
    cases h
    have he : u % 2 = 0 := by
      unfold PIter.uvarintLoop at hu
      split at hu
      · split at hu
        · cases hu
        · cases hu; simpa using hc
      · rw [uvarintLoop_parity b 1 _ u r (by omega) hu]
        simp only [Nat.mul_zero, Nat.pow_zero, Nat.mul_one, Nat.zero_add]
        omega
    unfold PIter.unzigzag
    rw [if_neg (by omega)]
    omega

theorem even_protobuf {c : UInt8} (hc : c.toNat % 2 = 0) : isProtobuf c = true := by
  unfold isProtobuf
  have : (c &&& 1).toNat = 0 := by rw [UInt8.toNat_and, show (1 : UInt8).toNat = 1 from rfl, Nat.and_one_is_mod, hc]
  rw [show c &&& 1 = 0 from UInt8.toNat.inj this]
  rfl

/-- C117, exactly when a call panics: the first byte is even, a size follows that is not too large, the bytes it announces are there and make
the generated `Unmarshal` panic.  Sizes below zero, at which the protobuf iterator by itself panics (C18), never get to it. -/
theorem C117_panics_iff (C : Delim l) (hf : PIter.Enough fresh) {ig : Bool} {max : Int} {it : Iter} {c : UInt8} {b : Bytes} {pl : List StagedPolicies}
    (h : Open ig max it (c :: b) pl) (pb : PIter.Iter) (hp : it.protobufIt = some pb) :
    next l x u fresh it = .panic ↔ c.toNat % 2 = 0 ∧ ∃ (size : Nat) (r : Bytes), PIter.readZigzag (c :: b) = .ok ((size : Int), r) ∧ (size : Int) ≤ max ∧
      size ≤ r.length ∧ Wire.metricWithMetadatas.unmarshal (r.take size) (Wire.resetMetric pb.pb) = .panic := by
  obtain ⟨pb0, p1, p2, p3, p4⟩ := h.protobuf
  rw [hp] at p1
  cases p1
  rcases Nat.mod_two_eq_zero_or_one c.toNat with hc | hc
  · rw [h.at.next h.reader, even_protobuf hc, if_pos rfl]
    have e : nextProtobuf x fresh it = .panic ↔ PIter.next x fresh { pb with reader := c :: b } = .panic := by
      unfold nextProtobuf
      rw [hp, h.reader]
      simp only
      cases PIter.next x fresh { pb with reader := c :: b } with
      | panic => simp
      | err => simp
      | ok y => obtain ⟨ok, y⟩ := y; cases ok <;> simp
    rw [e, PIter.C18_panics_iff x fresh hf]
    simp only [p2, p3, p4, true_and, hc]
    constructor
    · rintro ⟨size, r, h1, h2, h3⟩
      have h0 := size_of_even hc h1
      obtain ⟨k, rfl⟩ := Int.eq_ofNat_of_zero_le h0
      rcases h3 with h3 | ⟨_, h3, h4⟩
      · omega
      · exact ⟨k, r, h1, h2, by omega, h4⟩
    · rintro ⟨size, r, h1, h2, h3, h4⟩
      exact ⟨size, r, h1, h2, Or.inr ⟨by omega, by omega, h4⟩⟩
  · constructor
    · intro hn
      exfalso
      by_cases hm : ∃ ls p r m o, c :: b = ls ++ (p ++ r) ∧ Later l ls ∧ (ig = false → ls = []) ∧ Message l x u m o p
      · obtain ⟨ls, p, r, m, o, h1, h2, h3, h4⟩ := hm
        obtain ⟨it', e, _⟩ := C117_msgpack C (fresh := fresh) h hc ls p r m o h1 h2 h3 h4
        rw [e] at hn; cases hn
      · obtain ⟨it', er, e, _⟩ := C117_msgpack_not C (fresh := fresh) h hc hm
        rw [e] at hn; cases hn
    · rintro ⟨h0, _⟩
      omega

/-- C117: whatever the bytes, if there are less than 2^62 and there is no number from 2^62 to 2^63 among them, calling `Next` until it
returns false delivers messages of known kinds, at most one for each byte, and ends with an error. -/
theorem C117_ends (C : Delim l) (Q : MP.Consuming l) (fresh : Nat → Nat → Bytes) (hf : ∀ k, PIter.Enough (fresh k)) {ig : Bool} {max : Int} :
    ∀ (n : Nat) (it : Iter) (b : Bytes) (pl : List StagedPolicies), Open ig max it b pl → Wire.Quiet b → b.length < Wire.big → b.length < n →
    ∃ ms it' e, drain l x u fresh n it = .ok (ms, it') ∧ it'.error = .ok (some e) ∧ ms.length ≤ b.length ∧ ∀ m ∈ ms, m ≠ none
  | 0, _, _, _, _, _, _, hn => absurd hn (Nat.not_lt_zero _)
  | n + 1, it, [], pl, h, _, _, _ => by
    obtain ⟨it', e, h2⟩ := C117_end (l := l) (x := x) (u := u) (fresh := fresh n) h
    exact ⟨[], it', _, by simp only [drain, e], h2, by simp, by simp⟩
  | n + 1, it, c :: b, pl, h, hq, hl, hn => by
    have go : ∀ (it' : Iter) (r : Bytes) (pl' : List StagedPolicies), next l x u (fresh n) it = .ok (true, it') → Open ig max it' r pl' →
        r <:+ c :: b → r.length < (c :: b).length → Spec.Msg.view it'.msg ≠ none →
        ∃ ms it' e, drain l x u fresh (n + 1) it = .ok (ms, it') ∧ it'.error = .ok (some e) ∧ ms.length ≤ (c :: b).length ∧ ∀ m ∈ ms, m ≠ none := by
      intro it' r pl' e ho hs hr hv
      obtain ⟨ms, it2, er, i1, i2, i3, i4⟩ := C117_ends C Q fresh hf n it' r pl' ho (hq.suffix hs) (by omega) (by omega)
      refine ⟨Spec.Msg.view it'.msg :: ms, it2, er, by simp only [drain, e, i1], i2, by simp only [List.length_cons] at hr ⊢; omega, ?_⟩
      intro m hm
      rcases List.mem_cons.mp hm with rfl | hm
      · exact hv
      · exact i4 m hm
    rcases Nat.mod_two_eq_zero_or_one c.toNat with hc | hc
    · obtain ⟨pb, p1, p2, p3, p4⟩ := h.protobuf
      obtain ⟨ok, pb', e⟩ := PIter.next_calm x (fresh n) (hf n) { pb with reader := c :: b } hq hl fun _ _ => size_of_even hc
      have ho := PIter.C18_outcome x _ _ _ _ e
      cases ok with
      | true =>
        obtain ⟨it', e1, e2, e3, _⟩ := (C117_protobuf (l := l) (u := u) h hc pb p1).1 pb' e
        obtain ⟨_, _, _, _, s5, m, s6⟩ := ho.2.1 rfl
        exact go it' _ pl e1 e2 ho.1 s5 (by rw [e3, s6]; simp)
      | false =>
        obtain ⟨it', er, e1, e2, _⟩ := (C117_protobuf (l := l) (u := u) h hc pb p1).2 pb' e
        exact ⟨[], it', _, by simp only [drain, e1], e2, by simp, by simp⟩
    · by_cases hm : ∃ ls p r m o, c :: b = ls ++ (p ++ r) ∧ Later l ls ∧ (ig = false → ls = []) ∧ Message l x u m o p
      · obtain ⟨ls, p, r, m, o, h1, h2, h3, h4⟩ := hm
        obtain ⟨it', e, ho, hv⟩ := C117_msgpack C (fresh := fresh n) h hc ls p r m o h1 h2 h3 h4
        have ht := MP.message_takes Q h4
        refine go it' r _ e ho ⟨ls ++ p, by rw [h1, List.append_assoc]⟩ ?_ (by rw [hv]; simp)
        rw [h1]
        simp only [List.length_append]
        omega
      · obtain ⟨it', er, e, e2, _⟩ := C117_msgpack_not C (fresh := fresh n) h hc hm
        exact ⟨[], it', _, by simp only [drain, e], e2, by simp, by simp⟩

/-- A size below zero is no size here: the iterator stops where the protobuf iterator panics; and there are no large numbers in it. -/
example : Delim MP.std ∧ MP.Consuming MP.std ∧ Wire.Quiet [1] ∧ PIter.Enough (fun n => List.replicate n 0) ∧
    PIter.next unitX PIter.exPool (PIter.new [1] 1000 []) = .panic ∧
    seen (drain MP.std unitX MP.exU (fun _ => PIter.exPool) 9 (new [1] false 1000 [])) = [] :=
  ⟨MP.std_delim, MP.std_consuming, Wire.quiet_of_short (by
    intro y hy hi
    have := hi.length_le
    simp at this
    omega), fun n => by simp, PIter.C18_violation_negative _ _ _ _ (by decide), by decide +kernel⟩

/-- A message is delivered in full, then garbage stops the iterator: of msgpack, of protobuf. -/
example : Delim MP.std ∧ Open false 1000 (new (MP.encodeMetricWithPolicies MP.std MP.exU false [{}] (.gauge ⟨bs "g", 5⟩) ++ [1, 0xc1]) false 1000 [])
      (MP.encodeMetricWithPolicies MP.std MP.exU false [{}] (.gauge ⟨bs "g", 5⟩) ++ [1, 0xc1]) [] ∧
    seen (drain MP.std unitX MP.exU (fun _ => PIter.exPool) 9 (new (MP.encodeMetricWithPolicies MP.std MP.exU false [{}] (.gauge ⟨bs "g", 5⟩) ++ [1, 0xc1]) false 1000 [])) =
      [some (message (.gauge ⟨bs "g", 5⟩) [{}])] ∧
    seen (drain MP.std unitX MP.exU (fun _ => PIter.exPool) 9 (new (PIter.frame PIter.exPB ++ [2, 9]) false 1000 [])) = [some exMessage] :=
  ⟨MP.std_delim, open_new _ _ _ _, by decide +kernel, by decide +kernel⟩

end Verif.Mig
