import Verif.Props.SchemaRead
import Verif.Lemmas.SchemaAcceptMessages
/- C116: which bytes are taken for a message of the published .proto files. -/
namespace Verif.Wire
open Verif.Policy Verif.Rules Verif.RuleSet Verif.Meta Verif.Msg Verif.PIter
open Verif.Spec.WireFormat (Num Varint Chunk)
open Verif.Spec.Schema (Val Contents Reads ReadAs Acceptable values put)

/-- `Unmarshal` of a message on the wire, a stored rule set and stored namespaces succeeds for exactly the bytes of the specification,
whatever is in the message it is read into. -/
theorem C116_exactly {d : Bytes} (hd : d.length < 2 ^ 63) :
    (∀ m, (∃ m', metricWithMetadatas.unmarshal d m = .ok m') ↔ Acceptable .MetricWithMetadatas d) ∧
    (∀ m, (∃ m', ruleSet.unmarshal d m = .ok m') ↔ Acceptable .RuleSet d) ∧
    (∀ m, (∃ m', namespacesMsg.unmarshal d m = .ok m') ↔ Acceptable .Namespaces d) :=
  ⟨fun m => Accept.metricWithMetadatas_takes d m hd, fun m => Accept.ruleSet_takes d m hd, fun m => Accept.namespacesMsg_takes d m hd⟩

/-- Everything that follows the published files is among them. -/
theorem C116_published {c : Contents} {d : Bytes} (hd : d.length < 2 ^ 63) :
    (ReadAs .MetricWithMetadatas c d → Acceptable .MetricWithMetadatas d) ∧ (ReadAs .RuleSet c d → Acceptable .RuleSet d) ∧
    (ReadAs .Namespaces c d → Acceptable .Namespaces d) := by
  obtain ⟨h1, h2, h3⟩ := C116_exactly hd
  obtain ⟨e1, e2, e3⟩ := @C101_same c d d hd hd
  exact ⟨fun h => (h1 _).mp ((e1 h h).imp fun _ h => h.1), fun h => (h2 _).mp ((e2 h h).imp fun _ h => h.1),
    fun h => (h3 _).mp ((e3 h h).imp fun _ h => h.1)⟩

/-! ### Streams and the store -/

theorem num_of_uvarintLoop : ∀ (d : Bytes) (i acc u : Nat) (r : Bytes), i ≤ 10 → uvarintLoop i acc d = .ok (u, r) →
    ∃ v g, Varint v g ∧ d = g ++ r ∧ i + g.length ≤ 10 ∧ u = acc + v * 2 ^ (7 * i)
  | [], _, _, _, _, _, h => by simp [uvarintLoop] at h
  | b :: d, i, acc, u, r, hi, h => by
    rw [uvarintLoop] at h
    by_cases hb : b.toNat < 128
    · rw [if_pos hb] at h
      split at h
      · cases h
      · rename_i hc
        simp only [Except.ok.injEq, Prod.mk.injEq] at h
        have : ¬ i > 9 := fun h => hc (.inl h)
        exact ⟨b.toNat, [b], .last b hb, by simp [h.2], by simp; omega, h.1.symm⟩
    · rw [if_neg hb] at h
      by_cases h10 : i = 10
      · have aux : ∀ (d : Bytes) (i acc : Nat), 9 < i → uvarintLoop i acc d ≠ .ok (u, r) := by
          intro d
          induction d with
          | nil => intro i acc _ h; simp [uvarintLoop] at h
          | cons b d ih =>
            intro i acc hi h
            rw [uvarintLoop] at h
            split at h
            · rw [if_pos (.inl hi)] at h; cases h
            · exact ih _ _ (by omega) h
        exact absurd h (aux d _ _ (by omega))
      obtain ⟨v, g, h1, h2, h3, h4⟩ := num_of_uvarintLoop d (i + 1) _ u r (by omega) h
      refine ⟨b.toNat - 128 + 128 * v, b :: g, .more b v g (by omega) h1, by simp [h2], by rw [List.length_cons]; omega, ?_⟩
      have hlt := b.toNat_lt
      have e2 : (b.toNat - 128 + 128 * v) * 2 ^ (7 * i) = (b.toNat - 128) * 2 ^ (7 * i) + v * 2 ^ (7 * (i + 1)) := by
        rw [Nat.add_mul, show 7 * (i + 1) = 7 * i + 7 by omega, Nat.pow_add, show (2 : Nat) ^ 7 = 128 from rfl,
          Nat.mul_comm (2 ^ (7 * i)) 128, ← Nat.mul_assoc, Nat.mul_comm v 128]
      rw [h4, e2, show b.toNat % 128 = b.toNat - 128 by omega, Nat.add_assoc]

/-- If `Next` returns true then it read a size, at most the largest one, and after it that many bytes that are taken for a message. -/
theorem C116_next {x : XTime} {fresh : Nat → Bytes} (hf : Enough fresh) {it it' : Iter} (hm : it.maxMessageSize < 2 ^ 63)
    (h : next x fresh it = .ok (true, it')) :
    ∃ l d, it.reader = l ++ (d ++ it'.reader) ∧ Num (2 * d.length) l ∧ d.length ≤ it.maxMessageSize ∧
      Acceptable .MetricWithMetadatas d := by
  unfold next at h
  split at h
  · simp at h
  · cases hz : readZigzag it.reader with
    | error e => rw [hz] at h; simp at h
    | ok y =>
      obtain ⟨size, r⟩ := y
      rw [hz] at h
      simp only at h
      split at h
      · simp at h
      rename_i hmax
      unfold decodeMessage at h
      simp only at h
      split at h
      · cases h
      rename_i hsz
      have hl := ensure_len hf it.buf size
      cases hr : readFull size.toNat r with
      | error e => rw [hr] at h; simp at h
      | ok y =>
        obtain ⟨d, r'⟩ := y
        rw [hr] at h
        simp only at h
        unfold readFull at hr
        split at hr
        · simp only [Except.ok.injEq, Prod.mk.injEq] at hr
          obtain ⟨rfl, rfl⟩ := hr
          rename_i hle
          have hlen : (r.take size.toNat).length = size.toNat := by rw [List.length_take]; omega
          rw [List.take_left' hlen] at h
          unfold readZigzag at hz
          cases hu : uvarintLoop 0 0 it.reader with
          | error e => rw [hu] at hz; cases hz
          | ok y =>
            obtain ⟨u, r1⟩ := y
            rw [hu] at hz
            simp only [Except.ok.injEq, Prod.mk.injEq] at hz
            obtain ⟨v, g, h1, h2, h3, h4⟩ := num_of_uvarintLoop _ 0 0 u r1 (by omega) hu
            have hv : v = 2 * size.toNat := by
              have := hz.1
              unfold unzigzag at this
              split at this <;> omega
            cases hun : metricWithMetadatas.unmarshal (r.take size.toNat) (resetMetric it.pb) with
            | err => rw [hun] at h; simp at h
            | panic => rw [hun] at h; simp at h
            | ok pb =>
              rw [hun] at h
              simp only [Out.ok.injEq, Prod.mk.injEq] at h
              refine ⟨g, r.take size.toNat, ?_, ?_, by omega, ((C116_exactly (by omega)).1 _).mp ⟨pb, hun⟩⟩
              · rw [← h.2, h2, hz.2]
                simp only
                rw [List.take_append_drop]
              · rw [hlen, ← hv]
                exact ⟨h1, by omega⟩
        · split at hr <;> cases hr

/-- What `ReadRuleSet` and `ReadNamespaces` return was read from a value that is taken for such a message; a value that is not is never
returned as anything. -/
theorem C116_store {o : Store.Options} {kv : Store.BKV} (hs : ∀ k, ∀ d ∈ kv k, d.length < 2 ^ 63) :
    (∀ name rs, Store.readRuleSetB o kv name = .ok (.ok rs) → ∃ d, (kv (o.ruleSetKey name)).getLast? = some d ∧ Acceptable .RuleSet d) ∧
    (∀ nss, Store.readNamespacesB o kv = .ok (.ok nss) → ∃ d, (kv o.namespacesKey).getLast? = some d ∧ Acceptable .Namespaces d) := by
  constructor
  · intro name rs h
    unfold Store.readRuleSetB at h
    cases hk : (kv (o.ruleSetKey name)).getLast? with
    | none => rw [hk] at h; cases h
    | some d =>
      rw [hk] at h
      cases hu : ruleSet.unmarshal d ruleSet.zero with
      | err => simp [hu] at h
      | panic => simp [hu] at h
      | ok p => exact ⟨d, rfl, ((C116_exactly (hs _ d (List.mem_of_getLast? hk))).2.1 _).mp ⟨p, hu⟩⟩
  · intro nss h
    unfold Store.readNamespacesB at h
    cases hk : (kv o.namespacesKey).getLast? with
    | none => rw [hk] at h; cases h
    | some d =>
      rw [hk] at h
      cases hu : namespacesMsg.unmarshal d namespacesMsg.zero with
      | err => simp [hu] at h
      | panic => simp [hu] at h
      | ok p => exact ⟨d, rfl, ((C116_exactly (hs _ d (List.mem_of_getLast? hk))).2.2 _).mp ⟨p, hu⟩⟩

/-! ### Beyond the documentation -/

theorem packed_length {vs : List Val} {d : Bytes} (h : Spec.Schema.Packed .double vs d) : d.length % 8 = 0 := by
  induction h with
  | nil => rfl
  | cons v vs w d r hs _ ih =>
    cases hs with
    | double v d h _ => rw [List.length_append]; omega

theorem key_is {t : Nat} {k y : Bytes} {b : UInt8} {x : Bytes} (hb : b.toNat < 128) (ht : t < 18446744073709551616) (h : Num t k)
    (e : b :: x = k ++ y) : t = b.toNat ∧ y = x := by
  have h1 := readVarint_num h ht y
  rw [← e, readVarint_byte b hb x] at h1
  simp only [Option.some.injEq, Prod.mk.injEq] at h1
  exact ⟨h1.1.symm, h1.2.symm⟩

/-- The documentation requires the size of packed values of a batch timer to be a multiple of eight, and so many bytes to follow. -/
theorem batchTimer_packed {c c' : Contents} {x : Bytes} (h : Reads .BatchTimer c (18 :: x) c') :
    ∃ s d r, x = s ++ (d ++ r) ∧ Num d.length s ∧ d.length % 8 = 0 := by
  have hnum : ∀ decl ∈ Spec.Schema.Message.fields .BatchTimer, decl = Spec.Schema.single .bytes "id" 1 ∨
      decl = Spec.Schema.repeated .double "values" 2 := by
    intro decl h
    simpa [Spec.Schema.Message.fields] using h
  generalize e : (18 :: x : Bytes) = y at h
  cases h with
  | done => cases e
  | scalar _ _ ty name num v w k p r _ hm hk hs hr =>
    rcases hnum _ hm with h | h <;> cases h
    have := (key_is (by decide) (by have := scalar_wire hs; omega) hk e).1
    have := scalar_wire hs
    rw [show (18 : UInt8).toNat = 18 from rfl] at *
    omega
  | cast _ _ ty name num n v k p r _ hm hk hn hs hv hr => rcases hnum _ hm with h | h <;> cases h; cases hv
  | message _ _ sub name num new k l p r _ hm => rcases hnum _ hm with h | h <;> cases h
  | merge _ _ sub name num old new k l p r _ hm => rcases hnum _ hm with h | h <;> cases h
  | one _ _ ty name num v w k p r _ hm hk hs hr =>
    rcases hnum _ hm with h | h <;> cases h
    have hw := scalar_wire hs
    have := (key_is (by decide) (by omega) hk e).1
    rw [show (18 : UInt8).toNat = 18 from rfl] at this
    obtain rfl : w = 2 := by omega
    cases hs
  | packed _ _ ty name num vs k s p r _ hm hp hk hs hv hr =>
    rcases hnum _ hm with h | h <;> cases h
    have := (key_is (by decide) (by omega) hk e).2
    exact ⟨s, p, r, this.symm, hs, packed_length hv⟩
  | element _ _ sub name num new k l p r _ hm => rcases hnum _ hm with h | h <;> cases h
  | unknown _ _ n p r _ hn hp hr =>
    obtain ⟨w, rest, h1, _, h2, _⟩ := chunk_key hp r
    rw [← e, readVarint_byte 18 (by decide) x] at h1
    simp only [Option.some.injEq, Prod.mk.injEq] at h1
    obtain rfl : n = 2 := by rw [← h2, ← h1.1]; rfl
    exact absurd (by simp [Spec.Schema.Message.fields, Spec.Schema.single, Spec.Schema.repeated]) hn

/-- A batch timer with packed values of three bytes, followed by eight: they are taken for a value. -/
def exOver : Bytes := [18, 3, 0, 0, 0, 0, 0, 0, 240, 63]

/-- A batch timer with packed values of 2^63-1 bytes, none of which follow. -/
def exHuge : Bytes := [18, 255, 255, 255, 255, 255, 255, 255, 255, 127]

/-- A counter with a group of number 9 that ends with the number 10. -/
def exGroupEnd : Bytes := [75, 84]

/-- A counter with the number 2^32+2 in a key, which is taken for 2, and the value 7. -/
def exNumber : Bytes := [144, 128, 128, 128, 128, 1, 7]

theorem exOver_not {c c' : Contents} (h : Reads .BatchTimer c exOver c') : False := by
  obtain ⟨s, d, r, e, hs, hd⟩ := batchTimer_packed h
  have hlen : d.length ≤ 9 := by have := congrArg List.length e; simp at this; omega
  have := readVarint_num hs (by omega) (d ++ r)
  rw [← e, readVarint_byte 3 (by decide)] at this
  simp only [Option.some.injEq, Prod.mk.injEq] at this
  rw [← this.1] at hd
  exact absurd hd (by decide)

theorem exHuge_not {c c' : Contents} (h : Reads .BatchTimer c exHuge c') : False := by
  obtain ⟨s, d, r, e, hs, hd⟩ := batchTimer_packed h
  have hlen : d.length ≤ 9 := by have := congrArg List.length e; simp at this; omega
  have h1 := readVarint_num hs (by omega) (d ++ r)
  rw [← e] at h1
  have h2 : readVarint [255, 255, 255, 255, 255, 255, 255, 255, 127] = some (9223372036854775807, []) := by decide +kernel
  rw [h2] at h1
  simp only [Option.some.injEq, Prod.mk.injEq] at h1
  omega

theorem exGroupEnd_not {c c' : Contents} (h : Reads .Counter c exGroupEnd c') : False := by
  have hnum : ∀ decl ∈ Spec.Schema.Message.fields .Counter, decl.num ≤ 2 := by
    intro decl h
    have : decl = Spec.Schema.single .bytes "id" 1 ∨ decl = Spec.Schema.single .int64 "value" 2 := by
      simpa [Spec.Schema.Message.fields] using h
    rcases this with rfl | rfl <;> decide
  have hkey : ∀ {num w : Nat} {k y : Bytes}, num ≤ 2 → w < 3 → Num (num * 8 + w) k → exGroupEnd = k ++ y → False := by
    intro num w k y hn hw hk e
    have := (key_is (b := 75) (by decide) (by omega) hk e).1
    rw [show (75 : UInt8).toNat = 75 from rfl] at this
    omega
  generalize e : exGroupEnd = y at h
  cases h with
  | done => cases e
  | scalar _ _ ty name num v w k p r _ hm hk hs hr => exact hkey (hnum _ hm) (scalar_wire hs) hk e
  | cast _ _ ty name num n v k p r _ hm hk hn hs hv hr => exact hkey (w := 0) (hnum _ hm) (by decide) hk e
  | message _ _ sub name num new k l p r _ hm _ hk => exact hkey (hnum _ hm) (by decide) hk e
  | merge _ _ sub name num old new k l p r _ hm _ hk => exact hkey (hnum _ hm) (by decide) hk e
  | one _ _ ty name num v w k p r _ hm hk hs hr => exact hkey (hnum _ hm) (scalar_wire hs) hk e
  | packed _ _ ty name num vs k s p r _ hm hp hk => exact hkey (hnum _ hm) (by decide) hk e
  | element _ _ sub name num new k l p r _ hm hk => exact hkey (hnum _ hm) (by decide) hk e
  | unknown _ _ n p r _ hn hp hr =>
    have bad : ∀ {n w : Nat} {k y : Bytes}, Spec.WireFormat.FieldNumber n → w < 8 → Num (n * 8 + w) k → exGroupEnd = k ++ y →
        w = 3 ∧ n = 9 ∧ y = [84] := by
      intro n w k y hf hw hk e
      have := key_is (b := 75) (by decide) (by have := hf.2; omega) hk e
      rw [show (75 : UInt8).toNat = 75 from rfl] at this
      exact ⟨by omega, by omega, this.2⟩
    cases hp with
    | varint _ v k d hf hk _ => exact absurd (bad (w := 0) hf (by decide) hk (by rw [e, List.append_assoc])).1 (by decide)
    | fixed64 _ k d hf hk _ => exact absurd (bad hf (by decide) hk (by rw [e, List.append_assoc])).1 (by decide)
    | bytes _ k l d hf hk _ => exact absurd (bad hf (by decide) hk (by rw [e, List.append_assoc])).1 (by decide)
    | fixed32 _ k d hf hk _ => exact absurd (bad hf (by decide) hk (by rw [e, List.append_assoc])).1 (by decide)
    | group _ k d q hf hk hd hq =>
      obtain ⟨_, rfl, h84⟩ := bad hf (by decide) hk (by rw [e, List.append_assoc])
      generalize ho : (none : Option Nat) = o at hd
      cases hd with
      | nil =>
        have := (key_is (b := 84) (x := []) (by decide) (by decide) hq (by rw [← h84, List.nil_append])).1
        exact absurd this (by decide)
      | cons n' d1 d2 h1 _ =>
        obtain ⟨w, rest, hr', hw, _⟩ := chunk_key h1 (d2 ++ (q ++ r))
        rw [List.append_assoc, List.append_assoc] at h84
        rw [h84, readVarint_byte 84 (by decide)] at hr'
        simp only [Option.some.injEq, Prod.mk.injEq] at hr'
        rw [← hr'.1] at hw
        exact hw (by decide)
      | _ => cases ho

/-- Bytes that are taken for a message although no contents are to be read from them: packed values that end after their size, packed
values whose size overflows, and a group with another number at its end.  The generated code reads a value, nothing and nothing. -/
theorem C116_lenient :
    (Acceptable .BatchTimer exOver ∧ (¬ ∃ c, ReadAs .BatchTimer c exOver) ∧
      batchTimer.unmarshal exOver {} = .ok { values := [0x3ff0000000000000] }) ∧
    (Acceptable .BatchTimer exHuge ∧ (¬ ∃ c, ReadAs .BatchTimer c exHuge) ∧ batchTimer.unmarshal exHuge {} = .ok {}) ∧
    (Acceptable .Counter exGroupEnd ∧ (¬ ∃ c, ReadAs .Counter c exGroupEnd) ∧ counter.unmarshal exGroupEnd {} = .ok {}) ∧
    (Acceptable .Counter exNumber ∧ counter.unmarshal exNumber {} = .ok { value := 7 }) := by
  have h1 : batchTimer.unmarshal exOver {} = .ok { values := [0x3ff0000000000000] } := by decide +kernel
  have h2 : batchTimer.unmarshal exHuge {} = .ok {} := by decide +kernel
  have h3 : counter.unmarshal exGroupEnd {} = .ok {} := by decide +kernel
  have h4 : counter.unmarshal exNumber {} = .ok { value := 7 } := by decide +kernel
  exact ⟨⟨(Accept.batchTimer_takes _ {} (by decide)).mp ⟨_, h1⟩, fun ⟨c, h⟩ => exOver_not h, h1⟩,
    ⟨(Accept.batchTimer_takes _ {} (by decide)).mp ⟨_, h2⟩, fun ⟨c, h⟩ => exHuge_not h, h2⟩,
    ⟨(Accept.counter_takes _ {} (by decide)).mp ⟨_, h3⟩, fun ⟨c, h⟩ => exGroupEnd_not h, h3⟩,
    ⟨(Accept.counter_takes _ {} (by decide)).mp ⟨_, h4⟩, h4⟩⟩

/-! ### Concrete cases -/

/-- A counter `a` of value 5, taken; and with its last byte missing, with the wire type of another type, with the number 0 and with a
size beyond the end, not taken. -/
example : Acceptable .Counter [10, 1, 97, 16, 5] ∧ ¬ Acceptable .Counter [10, 1, 97, 16] ∧ ¬ Acceptable .Counter [9, 1, 97, 16, 5] ∧
    ¬ Acceptable .Counter [2, 1, 97] ∧ ¬ Acceptable .Counter [10, 3, 97, 16] := by
  have key : ∀ d : Bytes, d.length < 9 → (Acceptable .Counter d ↔ ∃ m', counter.unmarshal d {} = .ok m') := fun d h =>
    (Accept.counter_takes d {} (by omega)).symm
  have no : ∀ d : Bytes, d.length < 9 → counter.unmarshal d {} = .err → ¬ Acceptable .Counter d := by
    intro d h e ha
    obtain ⟨m, hm⟩ := (key d h).mp ha
    rw [e] at hm
    cases hm
  exact ⟨(key _ (by decide)).mpr ⟨{ id := [97], value := 5 }, by decide +kernel⟩, no _ (by decide) (by decide +kernel),
    no _ (by decide) (by decide +kernel), no _ (by decide) (by decide +kernel), no _ (by decide) (by decide +kernel)⟩

/-- The hypotheses of `C116_next` are met by a stream of one message as it is written here, and those of `C116_store` by a store with a
rule set of uuid `a` in namespace `b`. -/
example : (∃ (fresh : Nat → Bytes) (it it' : Iter), Enough fresh ∧ it.maxMessageSize < 2 ^ 63 ∧ next unitX fresh it = .ok (true, it')) ∧
    ∃ d rs, (d.length < 2 ^ 63 ∧ Store.readRuleSetB ⟨[], id, none, exUnits, []⟩ (fun _ => [d]) [] = .ok (.ok rs)) := by
  constructor
  · obtain ⟨l, d, e, hn, hd⟩ := C100_message exUnion_sent (by unfold Spec.Schema.Sane exStaged; decide)
    have h1 : (frame exPB).length ≤ 1000 := by decide +kernel
    rw [e, List.length_append] at h1
    have hf : Enough (fun n => List.replicate n (0 : UInt8)) := fun n => by simp
    obtain ⟨it', h, _⟩ := next_read (it := PIter.new (l ++ (d ++ [])) 1000 []) (tail := []) hf rfl rfl exUnion_sent
      (by unfold Spec.Schema.Sane exStaged; decide) hn (by show (d.length : Int) ≤ 1000; omega) (by omega) hd.readAs rfl
    exact ⟨_, _, it', hf, by show (1000 : Int) < 2 ^ 63; decide, h⟩
  · refine ⟨[10, 1, 97, 18, 1, 98], ?_⟩
    have h : (match Store.readRuleSetB ⟨[], id, none, exUnits, []⟩ (fun _ => [[10, 1, 97, 18, 1, 98]]) [] with | .ok (.ok _) => true | _ => false) = true := by
      decide +kernel
    split at h
    · next rs e => exact ⟨rs, by decide, e⟩
    · cases h

end Verif.Wire
