import Verif.Props.ProtoIterator
/- C16: exactly when a used iterator delivers a message that says it is a counter, timer or gauge and contains none. -/
namespace Verif.PIter
open Verif.Policy Verif.Meta Verif.Wire Verif.Msg Verif.Spec.Msg

/-- The message contains a counter (1), a timer (2), a gauge (3). -/
def Contains (p : PBMetric) (k : Int) : Prop :=
  (k = 1 ∧ p.counter.isSome = true) ∨ (k = 2 ∧ p.batchTimer.isSome = true) ∨ (k = 3 ∧ p.gauge.isSome = true)

/-- Bytes that, read on their own, are a message containing a counter (1), a timer (2), a gauge (3). -/
def BytesContain (d : Bytes) (k : Int) : Prop := ∃ p, metricWithMetadatas.unmarshal d {} = .ok p ∧ Contains p k

/-- Bytes that, read on their own, say they are a counter (1), a timer (2) or a gauge (3) and contain none. -/
def HollowBytes (d : Bytes) (k : Int) : Prop :=
  (k = 1 ∨ k = 2 ∨ k = 3) ∧ ∃ p, metricWithMetadatas.unmarshal d {} = .ok p ∧ p.type = k ∧ ¬ Contains p k

/-- The bytes of a message with the number of its bytes in front. -/
def framed (d : Bytes) : Bytes := putVarint d.length ++ d

/-- Iterators that delivered, one after the other, the messages with these bytes since they were made. -/
inductive HasRead (x : XTime) (max : Int) : List Bytes → Iter → Prop
  | new (r buf : Bytes) : HasRead x max [] (new r max buf)
  | next {ds : List Bytes} {it it' : Iter} {d rest : Bytes} {fresh : Nat → Bytes} : HasRead x max ds it → Enough fresh →
      it.reader = framed d ++ rest → next x fresh it = .ok (true, it') → HasRead x max (ds ++ [d]) it'

/-- The same message, read into an empty one and into `s`. -/
structure PBHad (s a b : PBMetric) : Prop where
  le : PBLe a b
  counter : b.counter.isSome = (s.counter.isSome || a.counter.isSome)
  batchTimer : b.batchTimer.isSome = (s.batchTimer.isSome || a.batchTimer.isSome)
  gauge : b.gauge.isSome = (s.gauge.isSome || a.gauge.isSome)

theorem unmarshal_had (d : Bytes) (s : PBMetric) (h : Clean s) :
    OutRel (PBHad s) (metricWithMetadatas.unmarshal d {}) (metricWithMetadatas.unmarshal d s) := by
  have h0 : PBHad s {} s := ⟨h.le, by simp, by simp, by simp⟩
  refine loop_respects ?_ d.length _ d {} s h0
  refine allCons ?_ (allCons ?_ (allCons ?_ (allCons ?_ (allCons ?_ (allCons ?_ allNil)))))
  · intro l wt r a b hab
    simp only [int32Field, varintField]
    split
    · simp [OutRel]
    · cases readVarint r with
      | none => simp [OutRel]
      | some x => exact ⟨{ hab with le := { hab.le with type := rfl } }, rfl⟩
  · exact optField_respects _ _ _ _ (fun a b h => h.le.counter) fun a b v h =>
      { h with le := { h.le with counter := .inl rfl }, counter := by simp }
  · exact optField_respects _ _ _ _ (fun a b h => h.le.batchTimer) fun a b v h =>
      { h with le := { h.le with batchTimer := .inl rfl }, batchTimer := by simp }
  · exact optField_respects _ _ _ _ (fun a b h => h.le.gauge) fun a b v h =>
      { h with le := { h.le with gauge := .inl rfl }, gauge := by simp }
  · exact optField_respects _ _ _ _ (fun a b h => h.le.forwarded) fun a b v h => { h with le := { h.le with forwarded := .inl rfl } }
  · exact optField_respects _ _ _ _ (fun a b h => h.le.timed) fun a b v h => { h with le := { h.le with timed := .inl rfl } }

theorem contains_reset (p : PBMetric) (k : Int) : Contains (resetMetric p) k ↔ Contains p k := by
  unfold Contains resetMetric
  simp

theorem PBHad.contains {s a b : PBMetric} (h : PBHad s a b) (k : Int) : Contains b k ↔ Contains s k ∨ Contains a k := by
  unfold Contains
  rw [h.counter, h.batchTimer, h.gauge]
  simp only [Bool.or_eq_true]
  constructor
  · rintro (⟨h, h' | h'⟩ | ⟨h, h' | h'⟩ | ⟨h, h' | h'⟩)
    · exact .inl (.inl ⟨h, h'⟩)
    · exact .inr (.inl ⟨h, h'⟩)
    · exact .inl (.inr (.inl ⟨h, h'⟩))
    · exact .inr (.inr (.inl ⟨h, h'⟩))
    · exact .inl (.inr (.inr ⟨h, h'⟩))
    · exact .inr (.inr (.inr ⟨h, h'⟩))
  · rintro ((⟨h, h'⟩ | ⟨h, h'⟩ | ⟨h, h'⟩) | (⟨h, h'⟩ | ⟨h, h'⟩ | ⟨h, h'⟩))
    · exact .inl ⟨h, .inl h'⟩
    · exact .inr (.inl ⟨h, .inl h'⟩)
    · exact .inr (.inr ⟨h, .inl h'⟩)
    · exact .inl ⟨h, .inr h'⟩
    · exact .inr (.inl ⟨h, .inr h'⟩)
    · exact .inr (.inr ⟨h, .inr h'⟩)

/-- What `Next` does with a whole message in front of it. -/
theorem next_framed {x : XTime} {fresh : Nat → Bytes} (hf : Enough fresh) {it : Iter} (he : it.err = none) (hc : it.closed = false)
    {d rest : Bytes} (hi : d.length < 2 ^ 63) (hm : (d.length : Int) ≤ it.maxMessageSize) (hr : it.reader = framed d ++ rest) :
    ∃ buf, next x fresh it = (match metricWithMetadatas.unmarshal d (resetMetric it.pb) with
      | .panic => .panic
      | .err => .ok (false, { it with reader := rest, buf := buf, pb := resetMetric it.pb, err := some .unmarshal })
      | .ok pb => .ok ((convert x pb it.msg).2.isNone,
          { it with reader := rest, buf := buf, pb := pb, msg := (convert x pb it.msg).1, err := (convert x pb it.msg).2 })) := by
  unfold next
  rw [he, hc, hr]
  simp only [Option.isSome_none, Bool.false_eq_true, or_self, if_false, framed, List.append_assoc]
  rw [readZigzag_put _ ⟨by omega, by omega⟩]
  simp only
  rw [if_neg (by omega)]
  unfold decodeMessage
  have hl := ensure_len hf it.buf d.length
  simp only
  rw [if_neg (by omega)]
  have ht : ((d.length : Nat) : Int).toNat = d.length := by omega
  simp only [ht, readFull, List.length_append]
  rw [if_pos (by omega)]
  simp only [List.take_left, List.drop_left]
  exact ⟨_, rfl⟩

theorem next_too_large {x : XTime} {fresh : Nat → Bytes} {it it' : Iter} {d rest : Bytes} (he : it.err = none) (hc : it.closed = false)
    (hi : d.length < 2 ^ 63) (hr : it.reader = framed d ++ rest) (h : next x fresh it = .ok (true, it')) :
    (d.length : Int) ≤ it.maxMessageSize := by
  unfold next at h
  rw [he, hc, hr] at h
  simp only [Option.isSome_none, Bool.false_eq_true, or_self, if_false, framed, List.append_assoc] at h
  rw [readZigzag_put _ ⟨by omega, by omega⟩] at h
  simp only at h
  split at h
  · cases h
  · omega

theorem hasRead_inv {x : XTime} {max : Int} {ds : List Bytes} {it : Iter} (h : HasRead x max ds it) (hs : ∀ d ∈ ds, d.length < 2 ^ 63) :
    it.err = none ∧ it.closed = false ∧ it.maxMessageSize = max ∧ ∀ k, Contains it.pb k ↔ ∃ d ∈ ds, BytesContain d k := by
  induction h with
  | new r buf => exact ⟨rfl, rfl, rfl, fun k => by simp [new, Contains]⟩
  | @next ds it it' d rest fresh _ hf hr hn ih =>
    obtain ⟨h1, h2, h3, h4⟩ := ih fun d hd => hs d (by simp [hd])
    have hd : d.length < 2 ^ 63 := hs d (by simp)
    obtain ⟨buf, e⟩ := next_framed (x := x) hf h1 h2 hd (next_too_large h1 h2 hd hr hn) hr
    have hu := unmarshal_had d (resetMetric it.pb) (clean_reset _)
    rw [e] at hn
    cases hb : metricWithMetadatas.unmarshal d (resetMetric it.pb) with
    | panic => simp [hb] at hn
    | err => simp [hb] at hn
    | ok q =>
      cases ha : metricWithMetadatas.unmarshal d {} with
      | panic => simp [ha, hb, OutRel] at hu
      | err => simp [ha, hb, OutRel] at hu
      | ok p =>
        rw [ha, hb] at hu
        simp only [OutRel] at hu
        rw [hb] at hn
        simp only [Out.ok.injEq, Prod.mk.injEq, Option.isNone_iff_eq_none] at hn
        obtain ⟨hnone, rfl⟩ := hn
        refine ⟨hnone, h2, h3, fun k => ?_⟩
        show Contains q k ↔ _
        rw [hu.contains, contains_reset, h4]
        constructor
        · rintro (⟨d', hd', hk⟩ | hk)
          · exact ⟨d', by simp [hd'], hk⟩
          · exact ⟨d, by simp, p, ha, hk⟩
        · rintro ⟨d', hd', hk⟩
          rcases List.mem_append.mp hd' with hd' | hd'
          · exact .inl ⟨d', hd', hk⟩
          · rw [List.mem_singleton] at hd'
            subst hd'
            obtain ⟨p', hp', hk⟩ := hk
            rw [ha] at hp'
            cases hp'
            exact .inr hk

theorem convert_hollow {x : XTime} {p q : PBMetric} {a b : Union} (h : PBLe p q) (h1 : (convert x p a).2 = some .convert)
    (h2 : (convert x q b).2 = none) : (p.type = 1 ∨ p.type = 2 ∨ p.type = 3) ∧ ¬ Contains p p.type := by
  obtain ⟨_, n1, _, n2, _, n3, _, n4, _, n5⟩ := C65_no_history x
  unfold convert at h1 h2
  rw [← h.type] at h2
  by_cases t1 : p.type = 1
  · simp only [t1, if_true] at h1 h2
    refine ⟨.inl t1, ?_⟩
    rcases h.counter with e | ⟨e1, _⟩
    · rw [← e, n1 b.counter a.counter] at h2
      cases hx : counterFromProto x a.counter p.counter <;> simp [hx] at h1 h2
    · simp [Contains, t1, e1]
  · simp only [t1, if_false] at h1 h2
    by_cases t2 : p.type = 2
    · simp only [t2, if_true] at h1 h2
      refine ⟨.inr (.inl t2), ?_⟩
      rcases h.batchTimer with e | ⟨e1, _⟩
      · rw [← e, n2 b.batchTimer a.batchTimer] at h2
        cases hx : batchTimerFromProto x a.batchTimer p.batchTimer <;> simp [hx] at h1 h2
      · simp [Contains, t2, e1]
    · simp only [t2, if_false] at h1 h2
      by_cases t3 : p.type = 3
      · simp only [t3, if_true] at h1 h2
        refine ⟨.inr (.inr t3), ?_⟩
        rcases h.gauge with e | ⟨e1, _⟩
        · rw [← e, n3 b.gauge a.gauge] at h2
          cases hx : gaugeFromProto x a.gauge p.gauge <;> simp [hx] at h1 h2
        · simp [Contains, t3, e1]
      · exfalso
        simp only [t3, if_false] at h1 h2
        by_cases t4 : p.type = 4
        · simp only [t4, if_true] at h1 h2
          rcases h.forwarded with e | ⟨_, e2⟩
          · rw [← e, n4 b.forwarded a.forwarded] at h2
            cases hx : forwardedFromProto x a.forwarded p.forwarded <;> simp [hx] at h1 h2
          · rw [e2] at h2
            simp [forwardedFromProto, ForwardedMetric.fromProto, typeFromProto] at h2
        · simp only [t4, if_false] at h1 h2
          by_cases t5 : p.type = 5
          · simp only [t5, if_true] at h1 h2
            rcases h.timed with e | ⟨_, e2⟩
            · rw [← e, n5 b.timed a.timed] at h2
              cases hx : timedFromProto x a.timed p.timed <;> simp [hx] at h1 h2
            · rw [e2] at h2
              simp [timedFromProto, Metric.fromProto, typeFromProto] at h2
          · simp [t5] at h1

/-- A message that contains nothing of its kind is refused by a conversion, unless an empty one was allocated before. -/
theorem convert_of_hollow {x : XTime} {p q : PBMetric} (b : Union) (h : PBLe p q) (ht : p.type = 1 ∨ p.type = 2 ∨ p.type = 3)
    (hno : ¬ Contains p p.type) :
    (Contains q p.type → (convert x q b).2 = none ∧ ∃ m, view (convert x q b).1 = some m ∧ Blank m) ∧
    (¬ Contains q p.type → (convert x q b).2 = some .convert) := by
  obtain ⟨_, n1, _, n2, _, n3, _⟩ := C65_no_history x
  rcases ht with ht | ht | ht
  · have e0 : p.counter = none := by simpa [Contains, ht] using hno
    have hc : Contains q p.type ↔ q.counter.isSome = true := by simp [Contains, ht]
    rw [hc]
    unfold convert
    rw [← h.type, ht]
    simp only [if_true]
    rcases h.counter with e | ⟨_, e2⟩
    · rw [← e, e0]
      simp [counterFromProto]
    · rw [e2]
      have : counterFromProto x b.counter (some ⟨{}, []⟩) = some ⟨{}, []⟩ := by
        rw [n1 _ ⟨{}, []⟩]; simp [counterFromProto, stagedFromProto_eq, mapOpt, Counter.fromProto]
      rw [this]
      simp [view, Blank]
  · have e0 : p.batchTimer = none := by simpa [Contains, ht] using hno
    have hc : Contains q p.type ↔ q.batchTimer.isSome = true := by simp [Contains, ht]
    rw [hc]
    unfold convert
    rw [← h.type, ht]
    simp only [show ¬ (2 : Int) = 1 by decide, if_true, if_false]
    rcases h.batchTimer with e | ⟨_, e2⟩
    · rw [← e, e0]
      simp [batchTimerFromProto]
    · rw [e2]
      have : batchTimerFromProto x b.batchTimer (some ⟨{}, []⟩) = some ⟨{}, []⟩ := by
        rw [n2 _ ⟨{}, []⟩]; simp [batchTimerFromProto, stagedFromProto_eq, mapOpt, BatchTimer.fromProto]
      rw [this]
      simp [view, Blank]
  · have e0 : p.gauge = none := by simpa [Contains, ht] using hno
    have hc : Contains q p.type ↔ q.gauge.isSome = true := by simp [Contains, ht]
    rw [hc]
    unfold convert
    rw [← h.type, ht]
    simp only [show ¬ (3 : Int) = 1 by decide, show ¬ (3 : Int) = 2 by decide, if_true, if_false]
    rcases h.gauge with e | ⟨_, e2⟩
    · rw [← e, e0]
      simp [gaugeFromProto]
    · rw [e2]
      have : gaugeFromProto x b.gauge (some ⟨{}, []⟩) = some ⟨{}, []⟩ := by
        rw [n3 _ ⟨{}, []⟩]; simp [gaugeFromProto, stagedFromProto_eq, mapOpt, Gauge.fromProto]
      rw [this]
      simp [view, Blank]

/-- C16, exactly: let an iterator have delivered the messages `ds` and a message `d` of allowed size be next.  If `d` is not
hollow, the call does what it does on a new iterator at the same place.  If `d` is a hollow counter, timer or gauge, a new
iterator refuses it, and this one delivers it, empty, if and only if one of the messages `ds` contained a counter, timer or
gauge, respectively; else it refuses it, too. -/
theorem C16_exact (x : XTime) (fresh fresh' : Nat → Bytes) (hf : Enough fresh) (hf' : Enough fresh') (max : Int) (ds : List Bytes)
    (it : Iter) (h : HasRead x max ds it) (hs : ∀ d ∈ ds, d.length < 2 ^ 63) (d rest : Bytes) (hd : d.length < 2 ^ 63)
    (hm : (d.length : Int) ≤ max) (hr : it.reader = framed d ++ rest) (buf : Bytes) :
    ((∀ k, ¬ HollowBytes d k) → OutRel (fun a b => a.2.reader = b.2.reader ∧ a.1 = b.1 ∧ a.2.err = b.2.err ∧
        (a.1 = true → view a.2.msg = view b.2.msg)) (next x fresh' (new it.reader max buf)) (next x fresh it)) ∧
    ∀ k, HollowBytes d k →
      (∃ it', next x fresh' (new it.reader max buf) = .ok (false, it') ∧ it'.err = some .convert) ∧
      ((∃ e ∈ ds, BytesContain e k) → ∃ it' m, next x fresh it = .ok (true, it') ∧ view it'.msg = some m ∧ Blank m) ∧
      ((¬ ∃ e ∈ ds, BytesContain e k) → ∃ it', next x fresh it = .ok (false, it') ∧ it'.err = some .convert) := by
  obtain ⟨h1, h2, h3, h4⟩ := hasRead_inv h hs
  obtain ⟨buf1, e1⟩ := next_framed (x := x) hf h1 h2 hd (by rw [h3]; exact hm) hr
  obtain ⟨buf2, e2⟩ := next_framed (x := x) hf' (it := new it.reader max buf) rfl rfl hd hm hr
  have hz : resetMetric (new it.reader max buf).pb = {} := rfl
  rw [hz] at e2
  have hu := unmarshal_had d (resetMetric it.pb) (clean_reset _)
  rw [e1, e2]
  constructor
  · intro hno
    cases ha : metricWithMetadatas.unmarshal d {} <;> cases hb : metricWithMetadatas.unmarshal d (resetMetric it.pb) <;>
      rw [ha, hb] at hu <;> simp only [OutRel] at hu ⊢
    · next p q =>
      refine ⟨trivial, ?_⟩
      rcases convert_agree x p q (new it.reader max buf).msg it.msg hu.le with ⟨g1, g2⟩ | ⟨g1, g2, _⟩
      · exact ⟨congrArg Option.isNone g1, g1, fun hb => g2 (Option.isNone_iff_eq_none.mp hb)⟩
      · obtain ⟨ht, hc⟩ := convert_hollow hu.le g1 g2
        exact absurd ⟨ht, p, ha, rfl, hc⟩ (hno p.type)
    · exact ⟨trivial, trivial, trivial, by simp⟩
  · rintro k ⟨hk, p, ha, rfl, hc⟩
    rw [ha] at hu ⊢
    cases hb : metricWithMetadatas.unmarshal d (resetMetric it.pb) with
    | panic => simp [hb, OutRel] at hu
    | err => simp [hb, OutRel] at hu
    | ok q =>
      rw [hb] at hu
      simp only [OutRel] at hu
      have hq : Contains q p.type ↔ ∃ e ∈ ds, BytesContain e p.type := by
        rw [hu.contains, contains_reset, h4]
        exact ⟨fun h => h.resolve_right hc, Or.inl⟩
      have hp : (convert x p (new it.reader max buf).msg).2 = some .convert :=
        (convert_of_hollow _ ⟨rfl, .inl rfl, .inl rfl, .inl rfl, .inl rfl, .inl rfl⟩ hk hc).2 hc
      obtain ⟨c1, c2⟩ := convert_of_hollow (x := x) it.msg hu.le hk hc
      rw [hq] at c1 c2
      refine ⟨⟨_, by simp only [hp]; rfl, rfl⟩, ?_, ?_⟩
      · intro hex
        obtain ⟨g1, m, g2, g3⟩ := c1 hex
        exact ⟨_, m, by simp only [g1]; rfl, g2, g3⟩
      · intro hno
        exact ⟨_, by simp only [c2 hno]; rfl, rfl⟩

/-- The example of `C16_violation`: the hollow counter `[8, 1]` after a counter. -/
example : HollowBytes [8, 1] 1 ∧ hollow = framed [8, 1] ∧ BytesContain (metricWithMetadatas.marshal exPB) 1 := by
  refine ⟨⟨.inl rfl, { type := 1 }, by decide +kernel, rfl, by simp [Contains]⟩, by decide +kernel, ?_⟩
  have e : (match metricWithMetadatas.unmarshal (metricWithMetadatas.marshal exPB) {} with
    | .ok p => p.counter.isSome
    | _ => false) = true := by decide +kernel
  unfold BytesContain
  split at e
  · next p hp => exact ⟨p, hp, .inl ⟨rfl, e⟩⟩
  · cases e

end Verif.PIter
