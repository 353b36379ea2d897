import Verif.Props.Schema
import Verif.Lemmas.SchemaReadRules
import Verif.Lemmas.SchemaReadEncoded
import Verif.Lemmas.WireRobust
/- C101: what other programs write following the published .proto files is read as it is meant. -/
namespace Verif.Wire
open Verif.Policy Verif.Rules Verif.RuleSet Verif.Meta Verif.Msg Verif.PIter
open Verif.Spec.Schema (Val Contents Encodes ReadAs StreamAs)

/-- Bytes that are to be read as the same contents are read as the same message, and without an error. -/
theorem C101_same {c : Contents} {d d' : Bytes} (hd : d.length < 2 ^ 63) (hd' : d'.length < 2 ^ 63) :
    (ReadAs .MetricWithMetadatas c d → ReadAs .MetricWithMetadatas c d' →
      ∃ m, metricWithMetadatas.unmarshal d {} = .ok m ∧ metricWithMetadatas.unmarshal d' {} = .ok m) ∧
    (ReadAs .RuleSet c d → ReadAs .RuleSet c d' → ∃ m, ruleSet.unmarshal d {} = .ok m ∧ ruleSet.unmarshal d' {} = .ok m) ∧
    (ReadAs .Namespaces c d → ReadAs .Namespaces c d' →
      ∃ m, namespacesMsg.unmarshal d ⟨[]⟩ = .ok m ∧ namespacesMsg.unmarshal d' ⟨[]⟩ = .ok m) := by
  refine ⟨fun h h' => ⟨Decode.metricWithMetadatas c, ?_, ?_⟩, fun h h' => ⟨Decode.ruleSet c, ?_, ?_⟩,
    fun h h' => ⟨Decode.namespacesMsg c, ?_, ?_⟩⟩
  · exact Decode.metricWithMetadatas_reads.reads _ _ _ h hd
  · exact Decode.metricWithMetadatas_reads.reads _ _ _ h' hd'
  · exact Decode.ruleSet_reads.reads _ _ _ h hd
  · exact Decode.ruleSet_reads.reads _ _ _ h' hd'
  · exact Decode.namespacesMsg_reads.reads _ _ _ h hd
  · exact Decode.namespacesMsg_reads.reads _ _ _ h' hd'

/-- What an encoder writes is among it: an encoding of some contents, as in C100, is to be read as these contents. -/
theorem C101_encoded {m : Spec.Schema.Message} {c : Contents} {d : Bytes} (h : Encodes m c d) : ReadAs m c d := h.readAs

/-! ### Rule sets -/

/-- A rule set that can be stored, under its key as any program wrote it: `ReadRuleSet` returns what it returns after `WriteRuleSet`. -/
theorem C101_ruleSet {o : Store.Options} {kv : Store.BKV} {name : Bytes} {rs : RuleSet} {pb : PBRuleSet} {d : Bytes}
    (hr : Store.Sane o.x rs) (hs : ∀ r ∈ rs.mappingRules, ∀ s ∈ r.snapshots, s.drop ≤ 2) (e : rs.proto o.x = some pb)
    (hd : d.length < 2 ^ 63) (h : ReadAs .RuleSet (Spec.Schema.ruleSet o.x rs) d) (hkv : (kv (o.ruleSetKey name)).getLast? = some d) :
    Store.readRuleSetB o kv name = .ok (match reload o.x o.filterKey (kv.version (o.ruleSetKey name)) rs with
      | none => .err
      | some rs' => .ok rs') := by
  have h1 := C79_message pb (proto_ok hr.1 e) (hr.2 pb e)
  obtain ⟨m, h2, h3⟩ := (C101_same (hr.2 pb e) hd).2.1 (C100_ruleSet hr hs e).readAs h
  have h4 : m = pb := by
    rw [show (ruleSet.zero) = ({} : PBRuleSet) from rfl, h2] at h1
    exact Out.ok.inj h1
  subst h4
  unfold Store.readRuleSetB reload
  rw [hkv, e]
  simp only [show (ruleSet.zero) = ({} : PBRuleSet) from rfl, h3, Option.bind_some]
  cases newRuleSetFromProto o.x o.filterKey (kv.version (o.ruleSetKey name)) (some m) <;> rfl

/-- The same for namespaces: they come back as they are. -/
theorem C101_namespaces {o : Store.Options} {kv : Store.BKV} {nss : NS.Namespaces} {d : Bytes} (hr : Store.NSSane nss) (hs : nss.Storable)
    (hd : d.length < 2 ^ 63) (h : ReadAs .Namespaces (Spec.Schema.namespaces nss) d) (hkv : (kv o.namespacesKey).getLast? = some d) :
    Store.readNamespacesB o kv = .ok (.ok { nss with version := kv.version o.namespacesKey }) := by
  have hv : ∀ n ∈ nss.namespaces, ∀ s ∈ n.snaps, -2 ^ 31 ≤ s.forRuleSetVersion ∧ s.forRuleSetVersion < 2 ^ 31 := by
    intro n hn s h
    have := (hs n hn).2 s h
    unfold NS.Fits at this
    omega
  have h5 := NS.C55_roundtrip hs (kv.version o.namespacesKey)
  cases e : nss.proto with
  | none => rw [e] at h5; cases h5
  | some pb =>
    rw [e] at h5
    have h1 := C79_namespaces_message pb (nssProto_ok hr.1 e) (hr.2 pb e)
    obtain ⟨m, h2, h3⟩ := (C101_same (hr.2 pb e) hd).2.2 (C100_namespaces hr hv e).readAs h
    have h4 : m = pb := by
      rw [show (namespacesMsg.zero) = (⟨[]⟩ : NS.PBNamespaces) from rfl, h2] at h1
      exact Out.ok.inj h1
    subst h4
    unfold Store.readNamespacesB
    rw [hkv]
    simp only [show (namespacesMsg.zero) = (⟨[]⟩ : NS.PBNamespaces) from rfl, h3]
    simp only [Option.bind_some] at h5
    rw [h5]

/-! ### Messages -/

theorem OptLe.some {z : A} {a b : Option A} (h : OptLe z a b) {v : A} (e : a = some v) : b = some v := by
  rcases h with h | ⟨h1, _⟩
  · rw [← h, e]
  · rw [h1] at e; cases e

/-- A conversion that succeeds does not depend on messages allocated before. -/
theorem convert_le {x : XTime} {a b : PBMetric} (h : PBLe a b) {msg msg' : Union} (e : convert x a msg = (msg', none)) :
    convert x b msg = (msg', none) := by
  unfold convert at e ⊢
  rw [← h.type]
  split at e
  · next ht =>
    rw [if_pos ht]
    cases hc : a.counter with
    | none => rw [hc] at e; simp [counterFromProto] at e
    | some v => rw [h.counter.some hc, ← hc]; exact e
  · next h1 =>
    rw [if_neg h1]
    split at e
    · next ht =>
      rw [if_pos ht]
      cases hc : a.batchTimer with
      | none => rw [hc] at e; simp [batchTimerFromProto] at e
      | some v => rw [h.batchTimer.some hc, ← hc]; exact e
    · next h2 =>
      rw [if_neg h2]
      split at e
      · next ht =>
        rw [if_pos ht]
        cases hc : a.gauge with
        | none => rw [hc] at e; simp [gaugeFromProto] at e
        | some v => rw [h.gauge.some hc, ← hc]; exact e
      · next h3 =>
        rw [if_neg h3]
        split at e
        · next ht =>
          rw [if_pos ht]
          cases hc : a.forwarded with
          | none => rw [hc] at e; simp [forwardedFromProto] at e
          | some v => rw [h.forwarded.some hc, ← hc]; exact e
        · next h4 =>
          rw [if_neg h4]
          split at e
          · next ht =>
            rw [if_pos ht]
            cases hc : a.timed with
            | none => rw [hc] at e; simp [timedFromProto] at e
            | some v => rw [h.timed.some hc, ← hc]; exact e
          · cases e

/-- `Next` on a message any program wrote. -/
theorem next_read {x : XTime} {fresh : Nat → Bytes} (hf : Enough fresh) {it : Iter} (he : it.err = none) (hc : it.closed = false)
    {u : Union} {m : Spec.Msg.Message} {pb : PBMetric} {max : Int} (hs : Sent x max u m pb) (hsane : Spec.Schema.Sane m)
    {l d tail : Bytes} (hn : Spec.WireFormat.Num (2 * d.length) l) (hmax : d.length ≤ it.maxMessageSize) (hd : d.length < 2 ^ 63)
    (h : ReadAs .MetricWithMetadatas (Spec.Schema.message x (Spec.Msg.received m)) d) (hr : it.reader = l ++ (d ++ tail)) :
    ∃ it', next x fresh it = .ok (true, it') ∧ it'.reader = tail ∧ it'.err = none ∧ it'.closed = false ∧
      it'.maxMessageSize = it.maxMessageSize ∧ Spec.Msg.view it'.msg = some (Spec.Msg.received (Spec.Msg.canon m)) := by
  obtain ⟨p, hp⟩ := hs.conv
  have hok := toPB_ok hs.view hs.range hp
  have hi := hs.int64
  rw [size_eq] at hi
  have henc := Follows.message hs.view hs.range hsane hp hi
  obtain ⟨b, h1, h2⟩ := (C101_same hi hd).1 henc.readAs h
  have clean0 : Clean {} := clean_reset {}
  have h3 := metricWithMetadatas_rt pb {} hok clean0 hi
  have hb : b = readBack pb {} := by rw [h1] at h3; exact Out.ok.inj h3
  subst hb
  have hz : readZigzag (l ++ (d ++ tail)) = .ok ((d.length : Int), d ++ tail) := by
    have hv := uvarintLoop_num hn.1 0 0 (d ++ tail) (by have := hn.2; omega) (by simp only [Nat.mul_zero, Nat.pow_zero]; omega)
    unfold readZigzag
    rw [hv]
    simp only [unzigzag]
    rw [if_neg (by omega)]
    simp only [Nat.mul_zero, Nat.pow_zero, Nat.mul_one, Nat.zero_add]
    congr 2
    omega
  have hle := unmarshal_le d {} (resetMetric it.pb) (clean_reset it.pb).le
  rw [h2] at hle
  cases hu : metricWithMetadatas.unmarshal d (resetMetric it.pb) with
  | err => rw [hu] at hle; cases hle
  | panic => rw [hu] at hle; cases hle
  | ok b' =>
    rw [hu] at hle
    obtain ⟨msg', e1, e2⟩ := convert_back (old := {}) hs.view hs.fits hp it.msg
    have e3 := convert_le hle e1
    unfold next
    rw [he, hc, hr]
    simp only [Option.isSome_none, Bool.false_eq_true, or_self, if_false]
    rw [hz]
    simp only
    rw [if_neg (by omega)]
    unfold decodeMessage
    have hl := ensure_len hf it.buf d.length
    simp only
    rw [if_neg (by omega)]
    have ht : (d.length : Int).toNat = d.length := by omega
    simp only [ht, readFull, List.length_append]
    rw [if_pos (by omega)]
    simp only [List.take_left, List.drop_left]
    rw [hu]
    simp only
    rw [e3]
    exact ⟨_, rfl, rfl, rfl, rfl, rfl, e2⟩

/-- A stream of messages that could also be sent from here, as any program wrote it: an iterator, whatever it has read before, returns
these messages as it does for a stream written here (C17), and then is at the end. -/
theorem C101_stream (x : XTime) (fresh : Nat → Nat → Bytes) (hf : ∀ k, Enough (fresh k)) :
    ∀ (ms : List Spec.Msg.Message) (n : Nat) (it : Iter), it.err = none → it.closed = false → it.maxMessageSize < 2 ^ 63 →
      (∀ m ∈ ms, (∃ max u pb, Sent x max u m pb) ∧ Spec.Schema.Sane m) →
      StreamAs it.maxMessageSize (ms.map fun m => Spec.Schema.message x (Spec.Msg.received m)) it.reader → ms.length < n →
      ∃ it', drain x fresh n it = .ok (ms.map (fun m => some (Spec.Msg.received (Spec.Msg.canon m))), it') ∧ it'.err = some .eof
  | ms, 0, _, _, _, _, _, _, hn => absurd hn (by omega)
  | [], n + 1, it, he, hc, _, _, hr, _ => by
    have hr' : it.reader = [] := by
      simp only [List.map_nil] at hr
      cases hr' : it.reader with
      | nil => rfl
      | cons b r => rw [hr'] at hr; cases hr
    refine ⟨{ it with reader := [], err := some .eof }, ?_, rfl⟩
    simp [drain, next, he, hc, hr', readZigzag, uvarintLoop]
  | m :: ms, n + 1, it, he, hc, hm, hs, hr, hn => by
    rw [List.map_cons] at hr
    obtain ⟨⟨max, u, pb, h1⟩, h2⟩ := hs m (by simp)
    generalize hR : it.reader = R at hr
    cases hr with
    | cons _ _ l d r hl hd hra hrest =>
      obtain ⟨it', h3, h4, h5, h6, h7, h8⟩ := next_read (hf n) he hc h1 h2 hl hd (by omega) hra hR
      obtain ⟨e, h9, h10⟩ := C101_stream x fresh hf ms n it' h5 h6 (by omega) (fun a ha => hs a (by simp [ha]))
        (by rw [h7, h4]; exact hrest) (by simp at hn; omega)
      exact ⟨e, by simp [drain, h3, h9, h8], h10⟩

/-! ### Concrete cases -/

/-- The hypotheses of `C101_stream` are met by a counter with metadata, as it is written here. -/
example : ∃ m, (∃ max u pb, Sent unitX max u m pb) ∧ Spec.Schema.Sane m ∧
    ∃ d, StreamAs 1000 [Spec.Schema.message unitX (Spec.Msg.received m)] d := by
  refine ⟨_, ⟨_, _, _, exUnion_sent⟩, by unfold Spec.Schema.Sane exStaged; decide, ?_⟩
  obtain ⟨l, d, e, hn, hd⟩ := C100_message exUnion_sent (by unfold Spec.Schema.Sane exStaged; decide)
  exact ⟨_, .cons _ _ l d [] hn (by
    have h1 : (frame exPB).length ≤ 1000 := by decide +kernel
    rw [e, List.length_append] at h1
    omega) hd.readAs .nil⟩

/-- The hypotheses of `C101_ruleSet` and `C101_namespaces` are met, by what is written here. -/
example : ∃ pb d nd, Store.Sane exUnits Store.exRead ∧ (∀ r ∈ Store.exRead.mappingRules, ∀ s ∈ r.snapshots, s.drop ≤ 2) ∧
    Store.exRead.proto exUnits = some pb ∧ d.length < 2 ^ 63 ∧ ReadAs .RuleSet (Spec.Schema.ruleSet exUnits Store.exRead) d ∧
    Store.exNames.Storable ∧ ReadAs .Namespaces (Spec.Schema.namespaces Store.exNames) nd := by
  have hp : (Store.exRead.proto exUnits).isSome = true := by decide +kernel
  obtain ⟨pb, hp⟩ := Option.isSome_iff_exists.mp hp
  have hn : (Store.exNames.proto).isSome = true := by decide +kernel
  obtain ⟨npb, hn⟩ := Option.isSome_iff_exists.mp hn
  exact ⟨pb, _, _, Store.exRead_sane, by decide +kernel, hp, Store.exRead_sane.2 _ hp,
    (C100_ruleSet Store.exRead_sane (by decide +kernel) hp).readAs,
    by unfold NS.Namespaces.Storable NS.Fits; decide +kernel, (C100_namespaces Store.exNames_sane (by decide +kernel) hn).readAs⟩

/-- A counter `a` of value 5 as another program may write it: the value first, once wrong and then right, in two bytes, then a field 9
that is not declared, then the id. -/
example : ReadAs .Counter [("id", [.bytes (bs "a")]), ("value", [.int 5])] [16, 4, 16, 133, 0, 72, 1, 10, 1, 97] ∧
    counter.unmarshal [16, 4, 16, 133, 0, 72, 1, 10, 1, 97] {} = .ok { id := bs "a", value := 5 } := by
  refine ⟨?_, by decide +kernel⟩
  refine .scalar _ _ .int64 "value" 2 (.int 4) 0 [16] [4] _ _ (by simp [Spec.Schema.Message.fields, Spec.Schema.single]) ⟨.last 16 (by decide), by decide⟩
    (.int64 4 [4] (by decide) (by decide) ⟨.last 4 (by decide), by decide⟩) ?_
  refine .scalar _ _ .int64 "value" 2 (.int 5) 0 [16] [133, 0] _ _ (by simp [Spec.Schema.Message.fields, Spec.Schema.single]) ⟨.last 16 (by decide), by decide⟩
    (.int64 5 _ (by decide) (by decide) ⟨.more 133 0 [0] (by decide) (.last 0 (by decide)), by decide⟩) ?_
  refine .unknown _ _ 9 [72, 1] _ _ (by decide) (.varint 9 1 [72] [1] (by unfold Spec.WireFormat.FieldNumber; decide)
    ⟨.last 72 (by decide), by decide⟩ ⟨.last 1 (by decide), by decide⟩) ?_
  refine .scalar _ _ .bytes "id" 1 (.bytes [97]) 2 [10] [1, 97] [] _ (by simp [Spec.Schema.Message.fields, Spec.Schema.single]) ⟨.last 10 (by decide), by decide⟩
    (.bytes [97] [1] ⟨.last 1 (by decide), by decide⟩) ?_
  exact .done _ _

/-- `tombstoned` as a program may write it that has a number there: 2 is true. -/
example : ReadAs .StagedMetadata [("cutover_nanos", [.int 0]), ("tombstoned", [.bool true]), ("metadata", [])] [16, 2] ∧
    stagedMetadata.unmarshal [16, 2] {} = .ok { tombstoned := true } := by
  refine ⟨?_, by decide +kernel⟩
  refine .cast _ _ .bool "tombstoned" 2 2 (.bool true) [16] [2] [] _ (by simp [Spec.Schema.Message.fields, Spec.Schema.single]) ⟨.last 16 (by decide), by decide⟩
    (by decide) ⟨.last 2 (by decide), by decide⟩ (.bool 2) ?_
  exact .done _ _

end Verif.Wire
