import Verif.Model.ProtoBuffer
import Verif.Lemmas.WireRobust
import Verif.Props.Messages
/-
Lemmas on streams of messages: sizes, frames, one call of `Next` on a frame.
-/
namespace Verif.PIter
open Verif.Policy Verif.Meta Verif.Wire Verif.Msg Verif.Spec.Msg

/-! ### Sizes -/

theorem zigzag_lt (n : Int) (h : I64 n) : zigzag n < 18446744073709551616 := by
  unfold zigzag I64 at *
  split <;> omega

theorem unzigzag_zigzag (n : Int) : unzigzag (zigzag n) = n := by
  unfold unzigzag zigzag
  split <;> split <;> omega

theorem uvarintLoop_enc : ∀ (f k acc v : Nat) (tail : Bytes), v < 128 ^ f → 0 < f → k ≤ 9 → v * 2 ^ (7 * k) < 2 ^ 64 →
    uvarintLoop k acc (encLoop f v ++ tail) = .ok (acc + v * 2 ^ (7 * k), tail)
  | 0, _, _, _, _, _, h, _, _ => absurd h (by omega)
  | f + 1, k, acc, v, tail, hv, _, hk, hmul => by
    have hp : 0 < 2 ^ (7 * k) := Nat.two_pow_pos _
    unfold encLoop
    by_cases h : v ≥ 128
    · rw [if_pos h, List.cons_append]
      unfold uvarintLoop
      have hb : (UInt8.ofNat (v % 128 + 128)).toNat = v % 128 + 128 := toNat_ofNat (by omega)
      rw [hb, if_neg (by omega : ¬ v % 128 + 128 < 128)]
      have e1 : (v % 128 + 128) % 128 = v % 128 := by omega
      have hpow : 2 ^ (7 * (k + 1)) = 128 * 2 ^ (7 * k) := by
        rw [Nat.mul_add, Nat.pow_add]; simp [Nat.mul_comm]
      have hdiv : v = 128 * (v / 128) + v % 128 := by omega
      have hsum : v * 2 ^ (7 * k) = v / 128 * 2 ^ (7 * (k + 1)) + v % 128 * 2 ^ (7 * k) := by
        rw [hpow, ← Nat.mul_assoc, ← Nat.add_mul, Nat.mul_comm (v / 128) 128, ← hdiv]
      have hge : 2 ^ (7 * (k + 1)) ≤ v * 2 ^ (7 * k) := by
        rw [hpow]; exact Nat.mul_le_mul_right _ h
      have hk1 : 7 * (k + 1) < 64 := by
        refine Classical.byContradiction fun hc => ?_
        have : 2 ^ 64 ≤ 2 ^ (7 * (k + 1)) := Nat.pow_le_pow_right (by omega) (by omega)
        omega
      rw [e1, uvarintLoop_enc f (k + 1) _ _ tail ?_ ?_ (by omega) ?_]
      · rw [hsum]; simp only [Except.ok.injEq, Prod.mk.injEq, and_true]; omega
      · rw [Nat.div_lt_iff_lt_mul (by omega)]; rw [Nat.pow_succ] at hv; exact hv
      · refine Nat.pos_of_ne_zero fun hf => ?_
        subst hf
        simp at hv; omega
      · omega
    · rw [if_neg h]
      simp only [List.cons_append, List.nil_append]
      unfold uvarintLoop
      have hb : (UInt8.ofNat v).toNat = v := toNat_ofNat (by omega)
      rw [hb, if_pos (by omega : v < 128), if_neg ?_]
      rintro (h9 | ⟨rfl, h9⟩)
      · omega
      · omega

/-- A size is read back. -/
theorem readZigzag_put (n : Int) (h : I64 n) (tail : Bytes) : readZigzag (putVarint n ++ tail) = .ok (n, tail) := by
  have hz := zigzag_lt n h
  have := uvarintLoop_enc 10 0 0 (zigzag n) tail (by omega) (by omega) (by omega) (by omega)
  simp only [readZigzag, putVarint, encodeVarint, this]
  simp [unzigzag_zigzag]

theorem encLoop_shape : ∀ (f v : Nat), v < 128 ^ f → 0 < f → ∃ p b, encLoop f v = p ++ [b] ∧ ∀ c ∈ p, 128 ≤ c.toNat
  | 0, _, _, h => absurd h (by omega)
  | f + 1, v, hv, _ => by
    unfold encLoop
    by_cases h : v ≥ 128
    · rw [if_pos h]
      have hf : 0 < f := by
        refine Nat.pos_of_ne_zero fun hf => ?_
        subst hf
        simp at hv; omega
      obtain ⟨p, b, h1, h2⟩ := encLoop_shape f (v / 128) (by
        rw [Nat.div_lt_iff_lt_mul (by omega)]; rw [Nat.pow_succ] at hv; exact hv) hf
      refine ⟨UInt8.ofNat (v % 128 + 128) :: p, b, by simp [h1], ?_⟩
      intro c hc
      rcases List.mem_cons.mp hc with rfl | hc
      · rw [toNat_ofNat (by omega)]; omega
      · exact h2 c hc
    · rw [if_neg h]
      exact ⟨[], _, rfl, by simp⟩

theorem uvarintLoop_cut : ∀ (p : Bytes) (k acc : Nat), (∀ c ∈ p, 128 ≤ c.toNat) → uvarintLoop k acc p = .error (.eof, [])
  | [], _, _, _ => by simp [uvarintLoop]
  | b :: p, k, acc, h => by
    unfold uvarintLoop
    have := h b (by simp)
    rw [if_neg (by omega)]
    exact uvarintLoop_cut p _ _ fun c hc => h c (by simp [hc])

/-- A size that is cut short. -/
theorem readZigzag_cut (n : Int) (h : I64 n) (j : Nat) (hj : j < (putVarint n).length) :
    readZigzag ((putVarint n).take j) = .error (.eof, []) := by
  obtain ⟨p, b, h1, h2⟩ := encLoop_shape 10 (zigzag n) (by have := zigzag_lt n h; omega) (by omega)
  unfold putVarint encodeVarint at *
  rw [h1] at hj ⊢
  rw [List.take_append_of_le_length (by simp at hj; omega)]
  unfold readZigzag
  rw [uvarintLoop_cut _ _ _ fun c hc => h2 c (List.take_subset _ _ hc)]

theorem putVarint_ne_nil (n : Int) : putVarint n ≠ [] := by
  unfold putVarint encodeVarint encLoop
  split <;> simp

/-! ### Messages in range -/

theorem toInt32_range (n : Int) : I32 (toInt32 n) := by
  unfold toInt32 I32
  have h1 := BitVec.toInt_lt (x := BitVec.ofInt 32 n)
  have h2 := BitVec.le_toInt (x := BitVec.ofInt 32 n)
  exact ⟨h2, h1⟩

theorem policy_range {x : XTime} {p : StoragePolicy} {d q : PBStoragePolicy} (h : PolicyRange x p) (e : p.toProto x d = some q) :
    StoragePolicyOK q := by
  rw [C08_toProto_spec] at e
  cases hu : x.unitValue p.resolution.precision with
  | none => simp [hu] at e
  | some u =>
    simp only [hu, Option.map_some, Option.some.injEq] at e
    subst e
    refine ⟨?_, ?_⟩
    · intro r hr
      simp only [Option.mem_def, Option.some.injEq] at hr
      subst hr
      exact ⟨h.1, h.2.2 u hu⟩
    · intro r hr
      simp only [Option.mem_def, Option.some.injEq] at hr
      subst hr
      exact h.2.1

theorem op_range {u : Applied.OpUnion} {d o : Applied.PBOp} (e : u.toProto d = some o) : OpOK o := by
  unfold Applied.OpUnion.toProto Pipe.transToProto Applied.PBOp.reset at e
  split at e
  · split at e
    · cases e
      exact ⟨by simp [I32], by simp [I32]⟩
    · split at e
      · cases e
        exact ⟨by simp [I32], by simp [I32]⟩
      · cases e
  · split at e
    · cases e
      exact ⟨by simp [I32], by simp⟩
    · cases e

theorem mapOpt_forall {g : σ → Option τ} {P : σ → Prop} {Q : τ → Prop} (h : ∀ a b, P a → g a = some b → Q b) {l : List σ} {r : List τ}
    (hl : ∀ a ∈ l, P a) (e : mapOpt g l = some r) : ∀ b ∈ r, Q b := by
  rw [mapOpt_eq_some_iff] at e
  intro b hb
  have : some b ∈ l.map g := by rw [e]; exact List.mem_map_of_mem hb
  obtain ⟨a, ha, hab⟩ := List.mem_map.mp this
  exact h a b (hl a ha) hab

theorem dropToProto_range (d : Nat) : I32 (dropToProto d) :=
  ⟨BitVec.le_toInt (x := BitVec.ofNat 32 d), BitVec.toInt_lt (x := BitVec.ofNat 32 d)⟩

theorem staged_range {x : XTime} {s : List StagedMetadata} {d pb : List PBStagedMetadata} (h : ∀ m ∈ s, StagedRange x m)
    (e : stagedToProto x d s = some pb) : ∀ m ∈ pb, StagedOK m := by
  rw [stagedToProto_eq] at e
  refine mapOpt_forall ?_ h e
  intro m q hm hq
  unfold StagedMetadata.toProto at hq
  rw [metadataToProto_eq] at hq
  cases hp : mapOpt (PipelineMetadata.toProto x {}) m.pipelines with
  | none => rw [hp] at hq; cases hq
  | some ps =>
    rw [hp] at hq
    simp only [Option.some.injEq] at hq
    subst hq
    refine ⟨hm.1, mapOpt_forall ?_ hm.2 hp⟩
    intro p pp hpp he
    rw [pm_toProto_spec] at he
    cases h1 : mapOpt (Applied.OpUnion.toProto {}) p.pipeline with
    | none => simp [h1] at he
    | some ops =>
      cases h2 : mapOpt (fun s => StoragePolicy.toProto x s {}) p.storagePolicies with
      | none => simp [h1, h2] at he
      | some sps =>
        simp only [h1, h2, Option.some.injEq] at he
        subst he
        exact ⟨mapOpt_forall (fun a b ha hb => policy_range ha hb) hpp h2,
          mapOpt_forall (P := fun _ => True) (fun a b _ hb => op_range hb) (fun _ _ => trivial) h1, dropToProto_range _⟩

theorem type_range {t p : Int} (h : typeToProto t = some p) : I32 p := by
  have := type_roundtrip t p h
  unfold I32
  omega

/-- What the encoder makes of a message in range is in range. -/
theorem toPB_ok {x : XTime} {p : PBuf.Protos} {u : Union} {m : Message} {pb : PBMetric} (hv : view u = some m)
    (hr : InRange x m) (h : PBuf.toPB x p u = some pb) : MetricOK pb := by
  unfold view at hv
  unfold PBuf.toPB at h
  split at hv
  · next ht =>
    cases hv
    rw [if_pos ht] at h
    simp only [Option.map_eq_some_iff, counterToProto] at h
    obtain ⟨v, h1, h2⟩ := h
    cases hs : stagedToProto x p.cm.metadata u.counter.metadata with
    | none => simp [hs] at h1
    | some md =>
      simp only [hs, Option.some.injEq] at h1
      subst h1 h2
      exact ⟨by simp [I32], by simpa [Counter.toProto] using ⟨hr.1, staged_range hr.2 hs⟩, by simp, by simp, by simp, by simp⟩
  · next ht1 =>
    split at hv
    · next ht =>
      cases hv
      rw [if_neg ht1, if_pos ht] at h
      simp only [Option.map_eq_some_iff, batchTimerToProto] at h
      obtain ⟨v, h1, h2⟩ := h
      cases hs : stagedToProto x p.bm.metadata u.batchTimer.metadata with
      | none => simp [hs] at h1
      | some md =>
        simp only [hs, Option.some.injEq] at h1
        subst h1 h2
        exact ⟨by simp [I32], by simp, by simpa using staged_range hr hs, by simp, by simp, by simp⟩
    · next ht2 =>
      split at hv
      · next ht =>
        cases hv
        rw [if_neg ht1, if_neg ht2, if_pos ht] at h
        simp only [Option.map_eq_some_iff, gaugeToProto] at h
        obtain ⟨v, h1, h2⟩ := h
        cases hs : stagedToProto x p.gm.metadata u.gauge.metadata with
        | none => simp [hs] at h1
        | some md =>
          simp only [hs, Option.some.injEq] at h1
          subst h1 h2
          exact ⟨by simp [I32], by simp, by simp, by simpa using staged_range hr hs, by simp, by simp⟩
      · next ht3 =>
        split at hv
        · next ht =>
          cases hv
          rw [if_neg ht1, if_neg ht2, if_neg ht3, if_pos ht] at h
          simp only [Option.map_eq_some_iff, forwardedToProto, ForwardedMetric.toProto, ForwardMetadata.toProto,
            Applied.pipelineToProto_eq] at h
          obtain ⟨v, h1, h2⟩ := h
          cases hty : typeToProto u.forwarded.metric.type with
          | none => simp [hty] at h1
          | some t =>
            cases hsp : u.forwarded.metadata.storagePolicy.toProto x p.fm.metadata.storagePolicy with
            | none => simp [hty, hsp] at h1
            | some sp =>
              cases hpl : mapOpt (Applied.OpUnion.toProto {}) u.forwarded.metadata.pipeline with
              | none => simp [hty, hsp, hpl] at h1
              | some pl =>
                simp only [hty, hsp, hpl, Option.some.injEq] at h1
                subst h1 h2
                exact ⟨by simp [I32], by simp, by simp, by simp, by
                  simpa using ⟨type_range hty, hr.1, policy_range hr.2 hsp,
                    mapOpt_forall (P := fun _ => True) (fun a b _ hb => op_range hb) (fun _ _ => trivial) hpl, toInt32_range _⟩, by simp⟩
        · next ht4 =>
          split at hv
          · next ht =>
            cases hv
            rw [if_neg ht1, if_neg ht2, if_neg ht3, if_neg ht4, if_pos ht] at h
            simp only [Option.map_eq_some_iff, timedToProto, Metric.toProto, TimedMetadata.toProto] at h
            obtain ⟨v, h1, h2⟩ := h
            cases hty : typeToProto u.timed.metric.type with
            | none => simp [hty] at h1
            | some t =>
              cases hsp : u.timed.metadata.storagePolicy.toProto x p.tm.metadata.storagePolicy with
              | none => simp [hty, hsp] at h1
              | some sp =>
                simp only [hty, hsp, Option.some.injEq] at h1
                subst h1 h2
                exact ⟨by simp [I32], by simp, by simp, by simp, by simp, by
                  simpa using ⟨type_range hty, hr.1, policy_range hr.2 hsp⟩⟩
          · cases hv

/-! ### One frame -/

/-- A frame: the size of a message and the message. -/
def frame (pb : PBMetric) : Bytes := putVarint (metricWithMetadatas.size pb) ++ metricWithMetadatas.marshal pb

/-- The pool returns slices of at least the size asked for. -/
def Enough (fresh : Nat → Bytes) : Prop := ∀ n, n ≤ (fresh n).length

theorem ensure_len {fresh : Nat → Bytes} (h : Enough fresh) (buf : Bytes) (t : Int) : t ≤ (ensureBufferSize fresh buf t).length := by
  unfold ensureBufferSize
  split
  · omega
  · have := h (max t.toNat (buf.length * 2))
    omega

theorem size_eq (pb : PBMetric) : metricWithMetadatas.size pb = (metricWithMetadatas.marshal pb).length :=
  metricWithMetadatas_ok.sized pb

theorem convert_back {x : XTime} {p : PBuf.Protos} {u : Union} {m : Message} {pb old : PBMetric} (hv : view u = some m)
    (hf : Fits x m) (h : PBuf.toPB x p u = some pb) (msg : Union) :
    ∃ msg', convert x (readBack pb old) msg = (msg', none) ∧ view msg' = some (received (canon m)) := by
  obtain ⟨r1, r2, r3, r4, r5⟩ := C65_roundtrip x
  unfold view at hv
  unfold PBuf.toPB at h
  split at hv
  · next ht =>
    cases hv
    rw [if_pos ht] at h
    simp only [Option.map_eq_some_iff] at h
    obtain ⟨v, h1, rfl⟩ := h
    have := r1 _ msg.counter _ _ hf h1
    simp only [Option.map_eq_some_iff] at this
    obtain ⟨w, hw, e⟩ := this
    refine ⟨_, by simp [convert, readBack, hw]; rfl, by simp [view, e, received, canon]⟩
  · next ht1 =>
    split at hv
    · next ht =>
      cases hv
      rw [if_neg ht1, if_pos ht] at h
      simp only [Option.map_eq_some_iff] at h
      obtain ⟨v, h1, rfl⟩ := h
      have := r2 _ msg.batchTimer _ _ hf h1
      simp only [Option.map_eq_some_iff] at this
      obtain ⟨w, hw, e⟩ := this
      refine ⟨_, by simp [convert, readBack, hw]; rfl, by simp [view, e, received, canon]⟩
    · next ht2 =>
      split at hv
      · next ht =>
        cases hv
        rw [if_neg ht1, if_neg ht2, if_pos ht] at h
        simp only [Option.map_eq_some_iff] at h
        obtain ⟨v, h1, rfl⟩ := h
        have := r3 _ msg.gauge _ _ hf h1
        simp only [Option.map_eq_some_iff] at this
        obtain ⟨w, hw, e⟩ := this
        have hg : gaugeFromProto x msg.gauge (some (normGauge v)) =
            some { w with metric := { w.metric with value := plainZero w.metric.value } } := by
          simp only [gaugeFromProto, normGauge] at hw ⊢
          cases hs : stagedFromProto x msg.gauge.metadata v.metadata with
          | none => simp [hs] at hw
          | some md =>
            simp only [hs, Option.some.injEq] at hw
            subst hw
            rfl
        refine ⟨_, by simp [convert, readBack, hg]; rfl, ?_⟩
        rw [← e]
        simp [view, received]
      · next ht3 =>
        split at hv
        · next ht =>
          cases hv
          rw [if_neg ht1, if_neg ht2, if_neg ht3, if_pos ht] at h
          simp only [Option.map_eq_some_iff] at h
          obtain ⟨v, h1, rfl⟩ := h
          have := r4 _ msg.forwarded _ _ hf h1
          simp only [Option.map_eq_some_iff] at this
          obtain ⟨w, hw, e⟩ := this
          refine ⟨_, by simp [convert, readBack, hw]; rfl, by simp [view, e, received, canon]⟩
        · next ht4 =>
          split at hv
          · next ht =>
            cases hv
            rw [if_neg ht1, if_neg ht2, if_neg ht3, if_neg ht4, if_pos ht] at h
            simp only [Option.map_eq_some_iff] at h
            obtain ⟨v, h1, rfl⟩ := h
            have := r5 _ msg.timed _ _ hf h1
            simp only [Option.map_eq_some_iff] at this
            obtain ⟨w, hw, e⟩ := this
            have hg : timedFromProto x msg.timed (some (normTimed v)) =
                some { w with metric := { w.metric with value := plainZero w.metric.value } } := by
              simp only [timedFromProto, normTimed, Metric.fromProto] at hw ⊢
              cases hty : typeFromProto v.metric.type with
              | none => simp [hty] at hw
              | some t =>
                simp only [hty] at hw ⊢
                cases hs : msg.timed.metadata.fromProto x v.metadata with
                | none => simp [hs] at hw
                | some md =>
                  simp only [hs, Option.some.injEq] at hw
                  subst hw
                  rfl
            refine ⟨_, by simp [convert, readBack, hg]; rfl, ?_⟩
            rw [← e]
            simp [view, received]
          · cases hv

/-- A message that can go through the stream: in range, its units can be found again, and it is not too large. -/
structure Sent (x : XTime) (max : Int) (u : Union) (m : Message) (pb : PBMetric) : Prop where
  view : view u = some m
  fits : Fits x m
  range : InRange x m
  conv : ∃ p, PBuf.toPB x p u = some pb
  small : (metricWithMetadatas.size pb : Int) ≤ max
  int64 : metricWithMetadatas.size pb < 9223372036854775808

/-- `Next` on a whole frame. -/
theorem next_frame {x : XTime} {fresh : Nat → Bytes} (hf : Enough fresh) {it : Iter} (he : it.err = none) (hc : it.closed = false)
    {u : Union} {m : Message} {pb : PBMetric} (hs : Sent x it.maxMessageSize u m pb) {tail : Bytes} (hr : it.reader = frame pb ++ tail) :
    ∃ it', next x fresh it = .ok (true, it') ∧ it'.reader = tail ∧ it'.err = none ∧ it'.closed = false ∧
      it'.maxMessageSize = it.maxMessageSize ∧ view it'.msg = some (received (canon m)) := by
  obtain ⟨p, hp⟩ := hs.conv
  have hok := toPB_ok hs.view hs.range hp
  have hsz := size_eq pb
  have hi := hs.int64
  unfold next
  rw [he, hc, hr]
  simp only [Option.isSome_none, Bool.false_eq_true, or_self, if_false, frame, List.append_assoc]
  rw [readZigzag_put _ ⟨by omega, by omega⟩]
  simp only
  rw [if_neg (by have := hs.small; omega)]
  unfold decodeMessage
  have hl := ensure_len hf it.buf (metricWithMetadatas.size pb)
  simp only
  rw [if_neg (by omega)]
  have ht : (metricWithMetadatas.size pb : Int).toNat = (metricWithMetadatas.marshal pb).length := by omega
  simp only [ht, readFull, List.length_append]
  rw [if_pos (by omega)]
  simp only [List.take_left, List.drop_left]
  rw [metricWithMetadatas_rt pb _ hok (clean_reset _) (by omega)]
  simp only
  obtain ⟨msg', e1, e2⟩ := convert_back (old := resetMetric it.pb) hs.view hs.fits hp it.msg
  rw [e1]
  exact ⟨_, rfl, rfl, rfl, rfl, rfl, e2⟩

end Verif.PIter
