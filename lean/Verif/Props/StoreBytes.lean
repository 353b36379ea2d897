import Verif.Props.WireRules
/-
C79: the rule store on bytes behaves as the rule store on messages, which C56 and the other properties of the store are about.
-/
namespace Verif.Store
open Verif.Meta Verif.RuleSet Verif.Rules Verif.NS Verif.Policy Verif.Wire

/-- A call on the store. -/
inductive Call where
  | writeRuleSet (rs : RuleSet)
  | writeAll (nss : Namespaces) (rs : RuleSet)
  | readNamespaces
  | readRuleSet (name : Bytes)

/-- What the caller gets. -/
inductive Answer where
  | write (w : Write)
  | namespaces (r : Read Namespaces)
  | ruleSet (r : Read RuleSet)

/-- A call on the store of messages. -/
def call (o : Options) (kv : KV) : Call → KV × Answer
  | .writeRuleSet rs => ((writeRuleSet o kv rs).1, .write (writeRuleSet o kv rs).2)
  | .writeAll nss rs => ((writeAll o kv nss rs).1, .write (writeAll o kv nss rs).2)
  | .readNamespaces => (kv, .namespaces (readNamespaces o kv))
  | .readRuleSet name => (kv, .ruleSet (readRuleSet o kv name))

/-- A call on the store of bytes; a read may panic. -/
def callB (o : Options) (kv : BKV) : Call → BKV × Out Answer
  | .writeRuleSet rs => ((writeRuleSetB o kv rs).1, .ok (.write (writeRuleSetB o kv rs).2))
  | .writeAll nss rs => ((writeAllB o kv nss rs).1, .ok (.write (writeAllB o kv nss rs).2))
  | .readNamespaces => (kv, match readNamespacesB o kv with | .ok r => .ok (.namespaces r) | .err => .err | .panic => .panic)
  | .readRuleSet name => (kv, match readRuleSetB o kv name with | .ok r => .ok (.ruleSet r) | .err => .err | .panic => .panic)

/-- The answers to a list of calls, in order. -/
def answers (o : Options) : KV → List Call → List Answer
  | _, [] => []
  | kv, c :: cs => (call o kv c).2 :: answers o (call o kv c).1 cs

def answersB (o : Options) : BKV → List Call → List (Out Answer)
  | _, [] => []
  | kv, c :: cs => (callB o kv c).2 :: answersB o (callB o kv c).1 cs

/-- A rule set that the program can have: numbers in range, and its message, if it has one, fits the memory. -/
def Sane (x : XTime) (rs : RuleSet) : Prop :=
  Spec.StoredRules.InRange x rs ∧ ∀ pb, rs.proto x = some pb → (Wire.ruleSet.marshal pb).length < 9223372036854775808

def NSSane (nss : Namespaces) : Prop :=
  Spec.StoredRules.NamespacesInRange nss ∧ ∀ pb, nss.proto = some pb → (namespacesMsg.marshal pb).length < 9223372036854775808

/-- The arguments of a call. -/
def Call.Sane (x : XTime) : Call → Prop
  | .writeRuleSet rs => Store.Sane x rs
  | .writeAll nss rs => NSSane nss ∧ Store.Sane x rs
  | _ => True

/-- The values under the keys are messages of the right kind that come back from their bytes. -/
structure Good (o : Options) (kv : KV) : Prop where
  namespaces : ∀ v ∈ kv o.namespacesKey, ∃ p, v = .namespaces p ∧ namespacesMsg.unmarshal v.bytes namespacesMsg.zero = .ok p
  ruleSets : ∀ n, ∀ v ∈ kv (o.ruleSetKey n), ∃ p, v = .ruleSet p ∧ Wire.ruleSet.unmarshal v.bytes Wire.ruleSet.zero = .ok p

/-- The bytes of the messages. -/
def KV.bytes (kv : KV) : BKV := fun k => (kv k).map Value.bytes

theorem bytes_version (kv : KV) (k : Bytes) : kv.bytes.version k = kv.version k := by simp [KV.bytes, BKV.version, KV.version]

theorem bytes_set (kv : KV) (ops : List (Bytes × Value)) :
    ops.foldl (fun kv o => fun k => if k = o.1 then kv k ++ [o.2.bytes] else kv k) kv.bytes =
      (ops.foldl (fun kv o => fun k => if k = o.1 then kv k ++ [o.2] else kv k) kv : KV).bytes := by
  induction ops generalizing kv with
  | nil => rfl
  | cons op ops ih =>
    rw [List.foldl_cons, List.foldl_cons, ← ih]
    congr 1
    funext k
    simp only [KV.bytes]
    split <;> simp

theorem bytes_commit (kv : KV) (conds : List (Bytes × Int)) (ops : List (Bytes × Value)) :
    kv.bytes.commit conds ops = (kv.commit conds ops).map KV.bytes := by
  unfold BKV.commit KV.commit
  simp only [bytes_version]
  split
  · rw [bytes_set]; rfl
  · rfl

theorem bytes_commitWrite (kv : KV) (conds : List (Bytes × Int)) (ops : List (Bytes × Value)) :
    commitWriteB kv.bytes conds ops = ((commitWrite kv conds ops).1.bytes, (commitWrite kv conds ops).2) := by
  unfold commitWriteB commitWrite
  rw [bytes_commit]
  cases kv.commit conds ops <;> rfl

theorem bytes_writeRuleSet (o : Options) (kv : KV) (rs : RuleSet) :
    writeRuleSetB o kv.bytes rs = ((writeRuleSet o kv rs).1.bytes, (writeRuleSet o kv rs).2) := by
  unfold writeRuleSetB writeRuleSet
  split
  · rfl
  · cases ruleSetTransaction o rs with
    | none => rfl
    | some t => exact bytes_commitWrite kv _ _

theorem bytes_writeAll (o : Options) (kv : KV) (nss : Namespaces) (rs : RuleSet) :
    writeAllB o kv.bytes nss rs = ((writeAll o kv nss rs).1.bytes, (writeAll o kv nss rs).2) := by
  unfold writeAllB writeAll
  split
  · rfl
  · cases ruleSetTransaction o rs with
    | none => rfl
    | some t =>
      cases namespacesTransaction o nss with
      | none => rfl
      | some u => exact bytes_commitWrite kv _ _

theorem bytes_readNamespaces {o : Options} {kv : KV} (h : Good o kv) :
    readNamespacesB o kv.bytes = .ok (readNamespaces o kv) := by
  unfold readNamespacesB readNamespaces
  simp only [bytes_version]
  simp only [KV.bytes, List.getLast?_map]
  cases hl : (kv o.namespacesKey).getLast? with
  | none => rfl
  | some v =>
    obtain ⟨p, rfl, hu⟩ := h.namespaces v (List.mem_of_getLast? hl)
    simp only [Option.map_some, hu]
    cases newNamespaces (kv.version o.namespacesKey) (some p) <;> rfl

theorem bytes_readRuleSet {o : Options} {kv : KV} (h : Good o kv) (name : Bytes) :
    readRuleSetB o kv.bytes name = .ok (readRuleSet o kv name) := by
  unfold readRuleSetB readRuleSet
  simp only [bytes_version]
  simp only [KV.bytes, List.getLast?_map]
  cases hl : (kv (o.ruleSetKey name)).getLast? with
  | none => rfl
  | some v =>
    obtain ⟨p, rfl, hu⟩ := h.ruleSets name v (List.mem_of_getLast? hl)
    simp only [Option.map_some, hu]
    cases newRuleSetFromProto o.x o.filterKey (kv.version (o.ruleSetKey name)) (some p) <;> rfl

/-- A value set under a key. -/
theorem Good.set_ruleSet {o : Options} {kv : KV} (h : Good o kv) (hk : ∀ n, o.ruleSetKey n ≠ o.namespacesKey) (name : Bytes)
    (p : PBRuleSet) (hu : Wire.ruleSet.unmarshal (Value.ruleSet p).bytes Wire.ruleSet.zero = .ok p) :
    Good o (fun k => if k = o.ruleSetKey name then kv k ++ [.ruleSet p] else kv k) := by
  constructor
  · intro v hv
    rw [if_neg (fun e => hk name e.symm)] at hv
    exact h.namespaces v hv
  · intro n v hv
    split at hv
    · rcases List.mem_append.mp hv with hv | hv
      · exact h.ruleSets n v hv
      · simp only [List.mem_singleton] at hv
        subst hv
        exact ⟨p, rfl, hu⟩
    · exact h.ruleSets n v hv

theorem Good.set_namespaces {o : Options} {kv : KV} (h : Good o kv) (hk : ∀ n, o.ruleSetKey n ≠ o.namespacesKey)
    (p : PBNamespaces) (hu : namespacesMsg.unmarshal (Value.namespaces p).bytes namespacesMsg.zero = .ok p) :
    Good o (fun k => if k = o.namespacesKey then kv k ++ [.namespaces p] else kv k) := by
  constructor
  · intro v hv
    simp only [if_true] at hv
    rcases List.mem_append.mp hv with hv | hv
    · exact h.namespaces v hv
    · simp only [List.mem_singleton] at hv
      subst hv
      exact ⟨p, rfl, hu⟩
  · intro n v hv
    rw [if_neg (hk n)] at hv
    exact h.ruleSets n v hv

theorem good_commit {o : Options} {kv : KV} {conds : List (Bytes × Int)} {ops : List (Bytes × Value)} (h : Good o kv)
    (hs : Good o (ops.foldl (fun kv o => fun k => if k = o.1 then kv k ++ [o.2] else kv k) kv)) : Good o (commitWrite kv conds ops).1 := by
  unfold commitWrite KV.commit
  split
  · exact h
  · rename_i kv' e
    split at e
    · cases e; exact hs
    · cases e

theorem good_call {o : Options} {kv : KV} (h : Good o kv) (hk : ∀ n, o.ruleSetKey n ≠ o.namespacesKey) (c : Call) (hc : c.Sane o.x) :
    Good o (call o kv c).1 := by
  cases c with
  | writeRuleSet rs =>
    simp only [call, writeRuleSet]
    split
    · exact h
    · cases ht : ruleSetTransaction o rs with
      | none => exact h
      | some t =>
        unfold ruleSetTransaction at ht
        cases hp : rs.proto o.x with
        | none => simp [hp] at ht
        | some p =>
          simp only [hp, Option.some.injEq] at ht
          subst ht
          exact good_commit h (h.set_ruleSet hk rs.namespace_ p (ruleSet_rt p (proto_ok hc.1 hp) (hc.2 p hp)))
  | writeAll nss rs =>
    simp only [call, writeAll]
    split
    · exact h
    · cases ht : ruleSetTransaction o rs with
      | none => exact h
      | some t =>
        cases hv : namespacesTransaction o nss with
        | none => exact h
        | some u =>
          unfold ruleSetTransaction at ht
          unfold namespacesTransaction at hv
          cases hp : rs.proto o.x with
          | none => simp [hp] at ht
          | some p =>
            cases hq : nss.proto with
            | none => simp [hq] at hv
            | some q =>
              simp only [hp, hq, Option.some.injEq] at ht hv
              subst ht hv
              exact good_commit h ((h.set_ruleSet hk rs.namespace_ p (ruleSet_rt p (proto_ok hc.2.1 hp) (hc.2.2 p hp))).set_namespaces hk q
                (namespacesMsg_rt q (nssProto_ok hc.1.1 hq) (hc.1.2 q hq)))
  | readNamespaces => exact h
  | readRuleSet name => exact h

theorem bytes_call {o : Options} {kv : KV} (h : Good o kv) (c : Call) :
    callB o kv.bytes c = ((call o kv c).1.bytes, .ok (call o kv c).2) := by
  cases c with
  | writeRuleSet rs => simp [callB, call, bytes_writeRuleSet]
  | writeAll nss rs => simp [callB, call, bytes_writeAll]
  | readNamespaces => simp [callB, call, bytes_readNamespaces h]
  | readRuleSet name => simp [callB, call, bytes_readRuleSet h]

/-- C79: whatever calls are made, by however many clients in whatever order, a store that keeps the bytes of messages answers as one
that keeps the messages, and no call panics. -/
theorem C79_store {o : Options} (hk : ∀ n, o.ruleSetKey n ≠ o.namespacesKey) : ∀ (cs : List Call) (kv : KV), Good o kv →
    (∀ c ∈ cs, c.Sane o.x) → answersB o kv.bytes cs = (answers o kv cs).map .ok
  | [], _, _, _ => rfl
  | c :: cs, kv, h, hc => by
    simp only [answersB, answers, List.map_cons, bytes_call h]
    rw [C79_store hk cs _ (good_call h hk c (hc c (by simp))) fun c' hc' => hc c' (by simp [hc'])]

/-- The same from an empty store. -/
theorem C79_new_store {o : Options} (hk : ∀ n, o.ruleSetKey n ≠ o.namespacesKey) (cs : List Call) (hc : ∀ c ∈ cs, c.Sane o.x) :
    answersB o (fun _ => []) cs = (answers o (fun _ => []) cs).map .ok :=
  C79_store hk cs (fun _ => []) ⟨by simp, by simp⟩ hc

/-- C79: a rule set or namespaces are reported missing only if nothing was ever stored, and bytes that are no message are an
error, whatever was stored. -/
theorem C79_missing (o : Options) (kv : BKV) (name : Bytes) :
    (readRuleSetB o kv name = .ok .notFound ↔ kv (o.ruleSetKey name) = []) ∧
    (readNamespacesB o kv = .ok .notFound ↔ kv o.namespacesKey = []) ∧
    (∀ b ∈ (kv (o.ruleSetKey name)).getLast?, Wire.ruleSet.unmarshal b Wire.ruleSet.zero = .err → readRuleSetB o kv name = .ok .err) ∧
    (∀ b ∈ (kv o.namespacesKey).getLast?, namespacesMsg.unmarshal b namespacesMsg.zero = .err → readNamespacesB o kv = .ok .err) := by
  refine ⟨?_, ?_, ?_, ?_⟩
  · rw [← List.getLast?_eq_none_iff]
    unfold readRuleSetB
    cases (kv (o.ruleSetKey name)).getLast? with
    | none => simp
    | some b =>
      simp only [reduceCtorEq, iff_false]
      repeat' split
      all_goals simp
  · rw [← List.getLast?_eq_none_iff]
    unfold readNamespacesB
    cases (kv o.namespacesKey).getLast? with
    | none => simp
    | some b =>
      simp only [reduceCtorEq, iff_false]
      repeat' split
      all_goals simp
  · intro b hb hu
    simp only [Option.mem_def] at hb
    simp only [readRuleSetB, hb, hu]
  · intro b hb hu
    simp only [Option.mem_def] at hb
    simp only [readNamespacesB, hb, hu]

/-! ### Beside C79 -/

/-- Bytes that are no message. -/
example : (match Wire.ruleSet.unmarshal [10] Wire.ruleSet.zero, namespacesMsg.unmarshal [10, 7] namespacesMsg.zero with
    | .err, .err => true | _, _ => false) = true := by decide +kernel

theorem exUnits_range (p : StoragePolicy) (h : Spec.Msg.Int64 p.resolution.window ∧ Spec.Msg.Int64 p.retention) :
    Spec.Msg.PolicyRange exUnits p := by
  refine ⟨h.1, h.2, fun d hd => ?_⟩
  simp only [exUnits] at hd
  split at hd
  · cases hd; simp [Spec.Msg.Int64]
  · cases hd

instance (n : Int) : Decidable (Spec.Msg.Int64 n) := inferInstanceAs (Decidable (_ ∧ _))

/-- The rule set that is read from `exStored`. -/
def exRead : RuleSet := (newRuleSetFromProto exUnits [] 1 (some exStored)).getD exEmpty

theorem exRead_inRange : Spec.StoredRules.InRange exUnits exRead := by
  have hm : ∀ r ∈ exRead.mappingRules, ∀ s ∈ r.snapshots, Spec.Msg.Int64 s.cutoverNanos ∧ Spec.Msg.Int64 s.lastUpdatedAtNanos ∧
      ∀ p ∈ s.storagePolicies, Spec.Msg.Int64 p.resolution.window ∧ Spec.Msg.Int64 p.retention := by decide +kernel
  have hr : ∀ r ∈ exRead.rollupRules, ∀ s ∈ r.snapshots, Spec.Msg.Int64 s.cutoverNanos ∧ Spec.Msg.Int64 s.lastUpdatedAtNanos ∧
      ∀ t ∈ s.targets, ∀ p ∈ t.storagePolicies, Spec.Msg.Int64 p.resolution.window ∧ Spec.Msg.Int64 p.retention := by decide +kernel
  exact ⟨by decide +kernel, by decide +kernel, by decide +kernel,
    fun r h s hs => ⟨(hm r h s hs).1, (hm r h s hs).2.1, fun p hp => exUnits_range p ((hm r h s hs).2.2 p hp)⟩,
    fun r h s hs => ⟨(hr r h s hs).1, (hr r h s hs).2.1, fun t ht p hp => exUnits_range p ((hr r h s hs).2.2 t ht p hp)⟩⟩

/-- The stored form of `exRead` is of 176 bytes. -/
theorem exRead_sane : Sane exUnits exRead := by
  refine ⟨exRead_inRange, fun pb h => ?_⟩
  have e : ((exRead.proto exUnits).map fun pb => (Wire.ruleSet.marshal pb).length) = some 176 := by decide +kernel
  rw [h] at e
  have e : (Wire.ruleSet.marshal pb).length = 176 := by simpa using e
  rw [e]
  decide

/-- A namespace that was deleted and made again. -/
def exNames : Namespaces := ⟨0, [⟨bs "a", some [⟨3, false, 7, bs "u"⟩, ⟨4, true, 8, bs "u"⟩, ⟨4, false, 9, bs "u"⟩]⟩]⟩

theorem exNames_sane : NSSane exNames := by
  refine ⟨by unfold Spec.StoredRules.NamespacesInRange; decide +kernel, fun pb h => ?_⟩
  have e : (exNames.proto.map fun pb => (namespacesMsg.marshal pb).length) = some 34 := by decide +kernel
  rw [h] at e
  have e : (namespacesMsg.marshal pb).length = 34 := by simpa using e
  rw [e]
  decide

/-- The hypotheses of `C79_message`, `C79_namespaces_message` and `C79_namespaces` are met. -/
example : (∃ pb, exRead.proto exUnits = some pb ∧ RuleSetOK pb) ∧ (∃ pb, exNames.proto = some pb ∧ NamespacesOK pb) ∧ exNames.Storable := by
  have h1 : (exRead.proto exUnits).isSome = true := by decide +kernel
  have h2 : exNames.proto.isSome = true := by decide +kernel
  obtain ⟨p, hp⟩ := Option.isSome_iff_exists.mp h1
  obtain ⟨q, hq⟩ := Option.isSome_iff_exists.mp h2
  refine ⟨⟨p, hp, proto_ok exRead_inRange hp⟩, ⟨q, hq, nssProto_ok exNames_sane.1 hq⟩, ?_⟩
  unfold Namespaces.Storable Fits
  decide +kernel

/-- A stored rule set cut in the middle is not read, and does not panic (`C79_no_panic`). -/
example : ((List.range 93).all fun i => ((((Wire.ruleSet.marshal exStored).take 100).drop i).take 8).any (· < 128)) = true ∧
    (match Wire.ruleSet.unmarshal ((Wire.ruleSet.marshal exStored).take 100) Wire.ruleSet.zero with | .err => true | _ => false) = true := by
  decide +kernel

def exStoreOpts : Options := { exOpts with x := exUnits }

/-- The hypotheses of `C79_new_store` are met by a run in which both kinds are written and read. -/
example : (∀ n, exStoreOpts.ruleSetKey n ≠ exStoreOpts.namespacesKey) ∧
    ∀ c ∈ [Call.writeAll exNames { exRead with version := 0 }, .writeRuleSet exRead, .readNamespaces, .readRuleSet (bs "ns")],
      c.Sane exUnits := by
  refine ⟨exOpts_ok.2, ?_⟩
  intro c hc
  simp only [List.mem_cons, List.not_mem_nil, or_false] at hc
  rcases hc with rfl | rfl | rfl | rfl
  · exact ⟨exNames_sane, ⟨exRead_inRange.1, exRead_inRange.2, exRead_inRange.3, exRead_inRange.4, exRead_inRange.5⟩, exRead_sane.2⟩
  · exact exRead_sane
  · trivial
  · trivial

/-- And the store of bytes then answers with what was written. -/
example :
    (match answersB exStoreOpts (fun _ => []) [.writeAll exNames { exRead with version := 0 }, .writeRuleSet exRead, .readNamespaces,
      .readRuleSet (bs "ns"), .writeRuleSet exRead] with
    | [.ok (.write .ok), .ok (.write .ok), .ok (.namespaces (.ok nss)), .ok (.ruleSet (.ok rs)), .ok (.write .stale)] =>
      decide (nss.version = 1 ∧ nss.namespaces.map (fun n => n.snaps.map fun s => (s.forRuleSetVersion, s.tombstoned)) =
        [[(3, false), (4, true), (4, false)]] ∧ rs.version = 2 ∧ rs.mappingRules.map (·.uuid) = [bs "1", bs "2"] ∧
        rs.rollupRules.map (·.uuid) = [bs "3"])
    | _ => false) = true := by decide +kernel

end Verif.Store
