import Verif.Lemmas.MsgpackExactIter
import Verif.Props.RawMetric
/- Exactly which bytes the aggregated iterator reads as a message. -/
namespace Verif.MP
open Verif.Policy Verif.Meta Verif.Wire Verif.Msg Verif.Spec.MP

/-- What a message of an aggregated stream says: the bytes of the metric, the storage policy, the encode time if any. -/
abbrev Sent := Bytes × StoragePolicy × Option Int

section
variable (l : Lib) (x : XTime) (u : Units)

/-- The decoders of the aggregated iterator with the message as their value. -/
def readPlain : D Base Sent := checkNumFields l rawMetricWithStoragePolicyType >>= fun o => match o with
  | none => Pure.pure ([], EmptyStoragePolicy, none)
  | some k => decodeBytes l >>= fun d => decodeStoragePolicy l x u >>= fun p => skip l k >>= fun _ => Pure.pure (d, p, none)

def readTimed : D Base Sent := checkNumFields l rawMetricWithStoragePolicyAndEncodeTimeType >>= fun o => match o with
  | none => Pure.pure ([], EmptyStoragePolicy, none)
  | some k => decodeBytes l >>= fun d => decodeStoragePolicy l x u >>= fun p => decodeVarint l >>= fun t => skip l k >>= fun _ => Pure.pure (d, p, some t)

def readAObject (t : Int) : D Base Sent :=
  if t = rawMetricWithStoragePolicyType then readPlain l x u
  else if t = rawMetricWithStoragePolicyAndEncodeTimeType then readTimed l x u
  else (setErr (some .other) >>= fun _ => Pure.pure ([], EmptyStoragePolicy, none))

def readABody : D Base Sent := checkNumFields l rootObjectType >>= fun o => match o with
  | none => Pure.pure ([], EmptyStoragePolicy, none)
  | some k => decodeObjectType l >>= fun t => getErr >>= fun e => match e with
    | some _ => Pure.pure ([], EmptyStoragePolicy, none)
    | none => readAObject l x u t >>= fun m => skip l k >>= fun _ => Pure.pure m

/-- The end of `decodeABody`, after the type. -/
def decodeARest (t k : Int) : D AIter Bool := do
  if t = rawMetricWithStoragePolicyType then decodeRawWithPolicy l x u
  else if t = rawMetricWithStoragePolicyAndEncodeTimeType then decodeRawWithPolicyAndTime l x u
  else onABase (setErr (some .other))
  onABase (skip l k)
  let e ← onABase getErr
  return e.isNone

/-- The forms of the two kinds of objects. -/
def AForm (w : Sent) : Bytes → Prop := match w.2.2 with
  | none => Object l [As l.getBytes w.1, Storage l x u w.2.1]
  | some t => Object l [As l.getBytes w.1, Storage l x u w.2.1, As l.getInt t]

def ANumber (w : Sent) : Int := if w.2.2.isSome then 22 else 5
end

section
variable {l : Lib} {x : XTime} {u : Units}

theorem run_aiter (m : D Base α) (f : α → D AIter β) (it : AIter) : (onABase m >>= f) it = f (m it.base).1 { it with base := (m it.base).2 } := rfl

/-- Reading an object: the base iterator does the same, and without an error what it says is stored. -/
def ASim (m : D AIter Unit) (b : D Base Sent) : Prop :=
  ∀ it, ∃ met sp ea, m it = ((), { it with base := (b it.base).2, metric := met, storagePolicy := sp, encodedAtNanos := ea }) ∧
    ((b it.base).2.err = none → met = it.metric.reset (b it.base).1.1 ∧ sp = (b it.base).1.2.1 ∧ ea = (b it.base).1.2.2.getD 0)

theorem plain_sim : ASim (decodeRawWithPolicy l x u) (readPlain l x u) := by
  intro it
  rcases h : checkNumFields l rawMetricWithStoragePolicyType it.base with ⟨o, s⟩
  unfold decodeRawWithPolicy readPlain
  simp only [run_aiter, bind_run, h]
  cases o with
  | none => exact ⟨it.metric, it.storagePolicy, it.encodedAtNanos, rfl, fun he => absurd he (fields_none h)⟩
  | some k => exact ⟨_, _, _, rfl, fun _ => ⟨rfl, rfl, rfl⟩⟩

theorem timed_sim : ASim (decodeRawWithPolicyAndTime l x u) (readTimed l x u) := by
  intro it
  rcases h : checkNumFields l rawMetricWithStoragePolicyAndEncodeTimeType it.base with ⟨o, s⟩
  unfold decodeRawWithPolicyAndTime readTimed
  simp only [run_aiter, bind_run, h]
  cases o with
  | none => exact ⟨it.metric, it.storagePolicy, it.encodedAtNanos, rfl, fun he => absurd he (fields_none h)⟩
  | some k => exact ⟨_, _, _, rfl, fun _ => ⟨rfl, rfl, rfl⟩⟩

theorem aobject_sim (t : Int) : ASim (if t = rawMetricWithStoragePolicyType then decodeRawWithPolicy l x u
    else if t = rawMetricWithStoragePolicyAndEncodeTimeType then decodeRawWithPolicyAndTime l x u
    else onABase (setErr (some .other))) (readAObject l x u t) := by
  unfold readAObject
  split
  · exact plain_sim
  split
  · exact timed_sim
  · exact fun it => ⟨it.metric, it.storagePolicy, it.encodedAtNanos, rfl, fun he => by cases he⟩

theorem decodeARest_eq (t k : Int) (it : AIter) : decodeARest l x u t k it =
    (onABase (skip l k) >>= fun _ => onABase getErr >>= fun e => Pure.pure e.isNone : D AIter Bool)
    ((if t = rawMetricWithStoragePolicyType then decodeRawWithPolicy l x u
      else if t = rawMetricWithStoragePolicyAndEncodeTimeType then decodeRawWithPolicyAndTime l x u
      else onABase (setErr (some .other))) it).2 := by
  unfold decodeARest
  split
  · rfl
  split
  · rfl
  · rfl
end

section
variable {l : Lib} (C : Delim l) {x : XTime} {u : Units}
include C

theorem plain_exact : Exact (readPlain l x u) (fun w p => w.2.2 = none ∧ Object l [As l.getBytes w.1, Storage l x u w.2.1] p) := by
  have h1 : ∀ d (k : Int), Exact (decodeStoragePolicy l x u >>= fun p => skip l k >>= fun _ => Pure.pure ((d, p, none) : Sent)) _ := fun d k =>
    (storage_exact C).bind (fun p _ => (skip_exact C k).map (fun _ => ((d, p, none) : Sent))) fun p => last_stays C k _
  have h2 : ∀ k : Int, Exact (decodeBytes l >>= fun d => decodeStoragePolicy l x u >>= fun p => skip l k >>= fun _ => Pure.pure ((d, p, none) : Sent)) _ := fun k =>
    (bytes_exact C).bind (fun d _ => h1 d k) fun d => (h1 d k).stays
  refine (object_exact C (α := Sent) (t := rawMetricWithStoragePolicyType)
    (F := fun w => [fun p => w.2.2 = none ∧ As l.getBytes w.1 p, Storage l x u w.2.1]) (fun _ => rfl) (.pure _)
    (fun k => (h2 k).congr fun a p => ?_) fun k => (h2 k).stays).congr fun w p => ?_
  · constructor
    · rintro ⟨m, q, _, h3, ⟨pl, q1, q2, h4, ⟨_, rfl, _, h5⟩, rfl⟩, rfl⟩
      exact ⟨q ++ q1, q2, ⟨q, q1, ⟨rfl, h3⟩, seq_one.mpr h4, rfl⟩, h5, by simp⟩
    · rintro ⟨_, r, ⟨q, q1, ⟨h3', h3⟩, h4, rfl⟩, h5, rfl⟩
      obtain ⟨a, b, c⟩ := a
      cases h3'
      exact ⟨a, q, q1 ++ r, h3, ⟨b, q1, r, seq_one.mp h4, ⟨(), rfl, by omega, h5⟩, rfl⟩, by simp⟩
  · constructor
    · rintro ⟨n, hn, c, d, h3, ⟨c1, d1, ⟨h4, h5⟩, h6, rfl⟩, rfl⟩
      exact ⟨h4, n, hn, c, _, h3, ⟨c1, d1, h5, h6, rfl⟩, rfl⟩
    · rintro ⟨h4, n, hn, c, d, h3, ⟨c1, d1, h5, h6, rfl⟩, rfl⟩
      exact ⟨n, hn, c, _, h3, ⟨c1, d1, ⟨h4, h5⟩, h6, rfl⟩, rfl⟩

theorem timed_exact : Exact (readTimed l x u) (fun w p => ∃ t, w.2.2 = some t ∧ Object l [As l.getBytes w.1, Storage l x u w.2.1, As l.getInt t] p) := by
  have h0 : ∀ d p (k : Int), Exact (decodeVarint l >>= fun t => skip l k >>= fun _ => Pure.pure ((d, p, some t) : Sent)) _ := fun d p k =>
    (varint_exact C).bind (fun t _ => (skip_exact C k).map (fun _ => ((d, p, some t) : Sent))) fun t => last_stays C k _
  have h1 : ∀ d (k : Int), Exact (decodeStoragePolicy l x u >>= fun p => decodeVarint l >>= fun t => skip l k >>= fun _ => Pure.pure ((d, p, some t) : Sent)) _ := fun d k =>
    (storage_exact C).bind (fun p _ => h0 d p k) fun p => (h0 d p k).stays
  have h2 : ∀ k : Int, Exact (decodeBytes l >>= fun d => decodeStoragePolicy l x u >>= fun p => decodeVarint l >>= fun t => skip l k >>= fun _ => Pure.pure ((d, p, some t) : Sent)) _ := fun k =>
    (bytes_exact C).bind (fun d _ => h1 d k) fun d => (h1 d k).stays
  refine (object_exact C (α := Sent) (t := rawMetricWithStoragePolicyAndEncodeTimeType)
    (F := fun w => [As l.getBytes w.1, Storage l x u w.2.1, fun p => ∃ t, w.2.2 = some t ∧ As l.getInt t p]) (fun _ => rfl) (.pure _)
    (fun k => (h2 k).congr fun a p => ?_) fun k => (h2 k).stays).congr fun w p => ?_
  · constructor
    · rintro ⟨m, q, _, h3, ⟨pl, q1, _, h4, ⟨t, q2, q3, h5, ⟨_, rfl, _, h6⟩, rfl⟩, rfl⟩, rfl⟩
      exact ⟨q ++ (q1 ++ q2), q3, ⟨q, q1 ++ q2, h3, ⟨q1, q2, h4, seq_one.mpr ⟨t, rfl, h5⟩, rfl⟩, rfl⟩, h6, by simp⟩
    · rintro ⟨_, r, ⟨q, _, h3, ⟨q1, q2, h4, h5, rfl⟩, rfl⟩, h6, rfl⟩
      obtain ⟨a, b, c⟩ := a
      obtain ⟨t, ht, h7⟩ := seq_one.mp h5
      cases ht
      exact ⟨a, q, q1 ++ (q2 ++ r), h3, ⟨b, q1, q2 ++ r, h4, ⟨t, q2, r, h7, ⟨(), rfl, by omega, h6⟩, rfl⟩, rfl⟩, by simp⟩
  · constructor
    · rintro ⟨n, hn, c, d, h3, ⟨c1, d1, h4, ⟨c2, d2, h5, ⟨c3, d3, ⟨t, ht, h6⟩, h7, rfl⟩, rfl⟩, rfl⟩, rfl⟩
      exact ⟨t, ht, n, hn, c, _, h3, ⟨c1, _, h4, ⟨c2, _, h5, ⟨c3, d3, h6, h7, rfl⟩, rfl⟩, rfl⟩, rfl⟩
    · rintro ⟨t, ht, n, hn, c, d, h3, ⟨c1, d1, h4, ⟨c2, d2, h5, ⟨c3, d3, h6, h7, rfl⟩, rfl⟩, rfl⟩, rfl⟩
      exact ⟨n, hn, c, _, h3, ⟨c1, _, h4, ⟨c2, _, h5, ⟨c3, d3, ⟨t, ht, h6⟩, h7, rfl⟩, rfl⟩, rfl⟩, rfl⟩

theorem aobject_exact (t : Int) : Exact (readAObject l x u t) (fun w p => t = ANumber w ∧ AForm l x u w p) := by
  unfold readAObject
  refine (Exact.ite _ (fun _ => plain_exact C (x := x) (u := u)) fun _ => Exact.ite _ (fun _ => timed_exact C (x := x) (u := u))
    fun _ => .fail (α := Sent) .other (fun _ => Pure.pure ([], EmptyStoragePolicy, none)) (.pure _)).congr fun w p => ?_
  obtain ⟨d, sp, o⟩ := w
  constructor
  · rintro (⟨rfl, h, h2⟩ | ⟨_, ⟨rfl, t', h, h2⟩ | ⟨_, h⟩⟩)
    · cases h; exact ⟨rfl, h2⟩
    · cases h; exact ⟨rfl, h2⟩
    · exact h.elim
  · rintro ⟨rfl, h2⟩
    cases o with
    | none => exact .inl ⟨rfl, rfl, h2⟩
    | some t => exact .inr ⟨by simp [ANumber, rawMetricWithStoragePolicyType], .inl ⟨rfl, t, rfl, h2⟩⟩

theorem abody_exact : Exact (readABody l x u) (fun w p => Object l [As l.getInt (ANumber w), AForm l x u w] p) := by
  have h1 : ∀ t (k : Int), Exact (readAObject l x u t >>= fun m => skip l k >>= fun _ => Pure.pure m) _ := fun t k =>
    (aobject_exact C t).bind (fun m _ => (skip_exact C k).map (fun _ => m)) fun m => last_stays C k m
  have h2 : ∀ t (k : Int), Exact (getErr >>= fun e => match e with
    | some _ => Pure.pure ([], EmptyStoragePolicy, none)
    | none => readAObject l x u t >>= fun m => skip l k >>= fun _ => Pure.pure m : D Base Sent) _ := fun t k => .check (h1 t k) fun _ => .pure _
  have h3 : ∀ k : Int, Exact (decodeObjectType l >>= fun t => getErr >>= fun e => match e with
    | some _ => Pure.pure ([], EmptyStoragePolicy, none)
    | none => readAObject l x u t >>= fun m => skip l k >>= fun _ => Pure.pure m : D Base Sent) _ := fun k =>
    (objectType_exact C).bind (fun t _ => h2 t k) fun t => (h2 t k).stays
  refine object_exact C (α := Sent) (t := rootObjectType) (F := fun w => [As l.getInt (ANumber w), AForm l x u w]) (fun _ => rfl) (.pure _)
    (fun k => (h3 k).congr fun a p => ?_) fun k => (h3 k).stays
  constructor
  · rintro ⟨t, q, _, ⟨_, _, h4⟩, ⟨w, q1, q2, ⟨rfl, h5⟩, ⟨_, rfl, _, h6⟩, rfl⟩, rfl⟩
    exact ⟨q ++ q1, q2, ⟨q, q1, h4, seq_one.mpr h5, rfl⟩, h6, by simp⟩
  · rintro ⟨_, r, ⟨q, q1, h4, h5, rfl⟩, h6, rfl⟩
    refine ⟨_, q, q1 ++ r, ⟨?_, ?_, h4⟩, ⟨a, q1, r, ⟨rfl, seq_one.mp h5⟩, ⟨(), rfl, by omega, h6⟩, rfl⟩, by simp⟩ <;>
      (unfold ANumber; split <;> decide)

theorem abody_sim (it : AIter) : ∃ met sp ea b, decodeABody l x u it = (b, { it with base := (readABody l x u it.base).2, metric := met, storagePolicy := sp, encodedAtNanos := ea }) ∧
    (b = true ↔ (readABody l x u it.base).2.err = none) ∧
    ((readABody l x u it.base).2.err = none → met = it.metric.reset (readABody l x u it.base).1.1 ∧ sp = (readABody l x u it.base).1.2.1 ∧
      ea = (readABody l x u it.base).1.2.2.getD 0) := by
  rcases h : checkNumFields l rootObjectType it.base with ⟨o, s⟩
  unfold decodeABody readABody
  simp only [run_aiter, bind_run, h]
  cases o with
  | none => exact ⟨it.metric, it.storagePolicy, it.encodedAtNanos, false, rfl, ⟨fun h => (by cases h), fun he => absurd he (fields_none h)⟩, fun he => absurd he (fields_none h)⟩
  | some k =>
    rcases h1 : decodeObjectType l s with ⟨t, d, e⟩
    simp only [run_aiter, bind_run, h1]
    cases e with
    | some e => exact ⟨it.metric, it.storagePolicy, it.encodedAtNanos, false, rfl, ⟨fun h => (by cases h), fun h => (by cases h)⟩, fun h => (by cases h)⟩
    | none =>
      obtain ⟨met, sp, ea, h2, h3⟩ := aobject_sim (l := l) (x := x) (u := u) t { it with base := ⟨d, none⟩ }
      have e1 : decodeARest l x u t k { it with base := ⟨d, none⟩ } =
          ((skip l k (readAObject l x u t ⟨d, none⟩).2).2.err.isNone, { it with base := (skip l k (readAObject l x u t ⟨d, none⟩).2).2, metric := met, storagePolicy := sp, encodedAtNanos := ea }) := by
        rw [decodeARest_eq, h2]; rfl
      refine ⟨met, sp, ea, _, e1, by simp; rfl, fun he => h3 (stays_of (skip_exact C k).stays _ he)⟩

omit C in
theorem amessage_iff {w : Sent} {b : Bytes} :
    AMessage l x u w.1 w.2.1 w.2.2 b ↔ ∃ v ≤ 1, ∃ c d, As l.getInt v c ∧ Object l [As l.getInt (ANumber w), AForm l x u w] d ∧ b = c ++ d := by
  obtain ⟨raw, sp, o⟩ := w
  constructor
  · rintro ⟨v, hv, c, d, h1, h2, rfl⟩
    refine ⟨v, hv, c, d, h1, ?_, rfl⟩
    cases o <;> exact seq_one.mp h2
  · rintro ⟨v, hv, c, d, h1, h2, rfl⟩
    refine ⟨v, hv, c, d, h1, ?_, rfl⟩
    cases o <;> exact seq_one.mpr h2

omit C in
theorem aloop_body (f : Nat) (it : AIter) (v : Int) (d : Bytes) (he : it.base.err = none) (hc : it.closed = false)
    (h : decodeVarint l it.base = (v, ⟨d, none⟩)) (hv : v ≤ 1) :
    nextALoop l x u (f + 1) it = decodeABody l x u { it with base := ⟨d, none⟩ } := by
  obtain ⟨base, ig, cl, met, sp, ea⟩ := it
  cases hc
  have hv' : ¬ v > 1 := by omega
  simp only at h he
  simp only [nextALoop, onABase, h, he, Option.isSome_none, Bool.or_self, if_false, hv', Bool.false_eq_true]

omit C in
theorem aloop_later (f : Nat) (it : AIter) (v : Int) (d : Bytes) (he : it.base.err = none) (hc : it.closed = false)
    (h : decodeVarint l it.base = (v, ⟨d, none⟩)) (hv : 1 < v) (hi : it.ignoreHigherVersion = true) :
    nextALoop l x u (f + 1) it = nextALoop l x u f { it with base := (skip l (decodeArrayLen l ⟨d, none⟩).1 (decodeArrayLen l ⟨d, none⟩).2).2 } := by
  obtain ⟨base, ig, cl, met, sp, ea⟩ := it
  cases hc
  cases hi
  have hv' : v > 1 := by omega
  simp only at h he
  simp only [nextALoop, onABase, h, he, Option.isSome_none, Bool.or_self, if_false, hv', if_true, Bool.false_eq_true]

omit C in
theorem aloop_reject (f : Nat) (it : AIter) (v : Int) (d : Bytes) (he : it.base.err = none) (hc : it.closed = false)
    (h : decodeVarint l it.base = (v, ⟨d, none⟩)) (hv : 1 < v) (hi : it.ignoreHigherVersion = false) :
    (nextALoop l x u (f + 1) it).1 = false := by
  obtain ⟨base, ig, cl, met, sp, ea⟩ := it
  cases hc
  cases hi
  have hv' : v > 1 := by omega
  simp only at h he
  simp only [nextALoop, onABase, h, he, Option.isSome_none, Bool.or_self, if_false, hv', if_true, Bool.false_eq_true]

omit C in
theorem aloop_err (f : Nat) (it : AIter) (v : Int) (d : Bytes) (e : Err) (h : decodeVarint l it.base = (v, ⟨d, some e⟩)) :
    (nextALoop l x u (f + 1) it).1 = false := by
  obtain ⟨base, ig, cl, met, sp, ea⟩ := it
  simp only at h
  simp only [nextALoop, onABase, h, Option.isSome_some, if_true]
  split <;> rfl

omit C in
theorem aloop_stopped (f : Nat) (it : AIter) (h : it.base.err ≠ none) : (nextALoop l x u f it).1 = false := by
  cases f with
  | zero => rfl
  | succ f =>
    have : it.base.err.isSome = true := by cases h' : it.base.err <;> simp_all
    simp only [nextALoop, this, Bool.true_or, if_true]

/-- A message that is delivered, after messages of higher versions. -/
def ADelivered (l : Lib) (x : XTime) (u : Units) (it it' : AIter) : Prop :=
  ∃ h p r, ∃ w : Sent, it.base.data = h ++ (p ++ r) ∧ Later l h ∧ (it.ignoreHigherVersion = false → h = []) ∧ AMessage l x u w.1 w.2.1 w.2.2 p ∧
    it' = { it with base := ⟨r, none⟩, metric := it.metric.reset w.1, storagePolicy := w.2.1, encodedAtNanos := w.2.2.getD 0 }

theorem aloop_sound : ∀ f (it it' : AIter), it.base.err = none → it.closed = false → nextALoop l x u f it = (true, it') → ADelivered l x u it it'
  | 0, it, it', _, _, h => by cases h
  | f + 1, it, it', he, hc, h => by
    rcases hd : decodeVarint l it.base with ⟨v, d, e⟩
    cases e with
    | some e =>
      have := aloop_err (x := x) (u := u) f it v d e hd
      rw [h] at this; cases this
    | none =>
      rcases hb : it.base with ⟨data, err⟩
      rw [hb] at hd he
      simp only at he
      subst he
      obtain ⟨_, q, hq, hv⟩ := (varint_exact C _ _ _ _).mp hd
      by_cases hv1 : v ≤ 1
      · rw [aloop_body f it v d (by rw [hb]) hc (by rw [hb]; exact hd) hv1] at h
        obtain ⟨met, sp, ea, b, h1, h2, h3⟩ := abody_sim C (x := x) (u := u) { it with base := ⟨d, none⟩ }
        rw [h1] at h
        cases h
        have hn := h2.mp rfl
        rcases hr : readABody l x u ⟨d, none⟩ with ⟨w, r, o⟩
        simp only [hr] at hn h3
        subst hn
        obtain ⟨_, p, hp, hw⟩ := (abody_exact C _ _ _ _).mp hr
        obtain ⟨hm, hsp, hea⟩ := h3 rfl
        refine ⟨[], q ++ p, r, w, by simp only [hb, hq, hp]; simp, .none, fun _ => rfl, amessage_iff.mpr ⟨v, hv1, q, p, hv, hw, rfl⟩, ?_⟩
        rw [hm, hsp, hea]
      · cases hi : it.ignoreHigherVersion with
        | false =>
          have := aloop_reject (x := x) (u := u) f it v d (by rw [hb]) hc (by rw [hb]; exact hd) (by omega) hi
          rw [h] at this; cases this
        | true =>
          rw [aloop_later f it v d (by rw [hb]) hc (by rw [hb]; exact hd) (by omega) hi] at h
          rcases ha : decodeArrayLen l ⟨d, none⟩ with ⟨n, s⟩
          rcases hs : skip l n s with ⟨_, d2, e2⟩
          rw [ha] at h
          simp only [hs] at h
          cases e2 with
          | some e2 =>
            have := aloop_stopped (l := l) (x := x) (u := u) f { it with base := ⟨d2, some e2⟩ } (by simp)
            rw [h] at this; cases this
          | none =>
            obtain ⟨d1, e1⟩ := s
            obtain ⟨rfl, q2, rfl, hn, hw⟩ := (skip_exact C n _ _ _ _).mp hs
            obtain ⟨_, q1, rfl, h1⟩ := (arrayLen_exact C _ _ _ _).mp ha
            obtain ⟨hh, p, r, w, g1, g2, _, g4, rfl⟩ := aloop_sound f { it with base := ⟨d2, none⟩ } it' rfl hc h
            simp only at g1
            refine ⟨(q ++ (q1 ++ q2)) ++ hh, p, r, w, by simp only [hb, hq, g1]; simp, .one v n.toNat _ _ (by omega) ?_ g2, fun h => (by simp [hi] at h), g4, rfl⟩
            rw [Int.toNat_of_nonneg hn]
            exact ⟨q, q1 ++ q2, hv, ⟨q1, q2, h1, seq_one.mpr hw, rfl⟩, rfl⟩

theorem aloop_complete {h : Bytes} (hl : Later l h) : ∀ f (it : AIter) (p r : Bytes) (w : Sent),
    it.base = ⟨h ++ (p ++ r), none⟩ → it.closed = false → h.length < f → (it.ignoreHigherVersion = false → h = []) → AMessage l x u w.1 w.2.1 w.2.2 p →
    nextALoop l x u f it = (true, { it with base := ⟨r, none⟩, metric := it.metric.reset w.1, storagePolicy := w.2.1, encodedAtNanos := w.2.2.getD 0 }) := by
  induction hl with
  | none =>
    intro f it p r w hb hc hf _ hm
    obtain ⟨v, hv, c, d, h1, h2, rfl⟩ := amessage_iff.mp hm
    have hd := (varint_exact C (c ++ (d ++ r)) none v (d ++ r)).mpr ⟨rfl, c, rfl, h1⟩
    cases f with
    | zero => simp at hf
    | succ f =>
      rw [aloop_body f it v (d ++ r) (by rw [hb]) hc (by rw [hb]; simpa using hd) hv]
      obtain ⟨met, sp, ea, b, g1, g2, g3⟩ := abody_sim C (x := x) (u := u) { it with base := ⟨d ++ r, none⟩ }
      have hr := (abody_exact C (x := x) (u := u) (d ++ r) none w r).mpr ⟨rfl, d, rfl, h2⟩
      simp only [hr] at g1 g2 g3
      obtain ⟨rfl, rfl, rfl⟩ := g3 trivial
      rw [g1, g2.mpr trivial]
  | one v n b c hv hs _ ih =>
    intro f it p r w hb hc hf hi hm
    obtain ⟨q, _, h1, ⟨q1, q2, h2, h3, rfl⟩, rfl⟩ := hs
    have h3 := seq_one.mp h3
    have hq : q ≠ [] := as_ne C h1
    have hlen : 0 < q.length := List.length_pos_iff.mpr hq
    have hig : it.ignoreHigherVersion = true := by
      cases h : it.ignoreHigherVersion with
      | true => rfl
      | false => have := hi h; simp [hq] at this
    cases f with
    | zero => simp at hf
    | succ f =>
      have hd := (varint_exact C (q ++ (q1 ++ (q2 ++ (c ++ (p ++ r))))) none v _).mpr ⟨rfl, q, rfl, h1⟩
      have ha := (arrayLen_exact C (q1 ++ (q2 ++ (c ++ (p ++ r)))) none (n : Int) _).mpr ⟨rfl, q1, rfl, h2⟩
      have hk := (skip_exact C (n : Int) (q2 ++ (c ++ (p ++ r))) none () _).mpr ⟨rfl, q2, rfl, by omega, h3⟩
      rw [aloop_later f it v _ (by rw [hb]) hc (by rw [hb]; simpa using hd) hv hig, ha]
      simp only [hk]
      exact ih f { it with base := ⟨c ++ (p ++ r), none⟩ } p r w rfl hc (by simp at hf; omega) (fun h => by simp [hig] at h) hm

/-! ### The raw metric -/

theorem stage1_iff (d r id : Bytes) : (stage1 l d).base = ⟨r, none⟩ ∧ (stage1 l d).metric.id = id ↔ ∃ p, d = p ++ r ∧ PointID l id p := by
  rcases h1 : decodeVarint l ⟨d, none⟩ with ⟨v, d1, e1⟩
  have hx : ∀ p, d = p ++ r → PointID l id p → ∃ q1 q2 q3, v ≤ 1 ∧ d1 = q2 ++ (q3 ++ (id ++ r)) ∧ e1 = none ∧ d = q1 ++ d1 ∧
      ∃ n : Int, 3 ≤ n ∧ ∃ k : Int, (k = id.length ∨ k = -1 ∧ id = []) ∧ As l.getArrayLen n q2 ∧ As l.getBytesLen k q3 := by
    rintro p rfl ⟨v', hv, n, hn, k, hk, q1, _, g1, ⟨q2, _, g2, ⟨q3, q4, g3, g4, rfl⟩, rfl⟩, rfl⟩
    have g4 := (seq_one (f := (· = id))).mp g4
    have g4 : q4 = id := g4
    subst g4
    have := (varint_exact C (q1 ++ (q2 ++ (q3 ++ (q4 ++ r)))) none v' _).mpr ⟨rfl, q1, rfl, g1⟩
    simp only [List.append_assoc] at h1
    rw [h1] at this
    cases this
    exact ⟨q1, q2, q3, hv, rfl, rfl, by simp, n, hn, k, hk, g2, g3⟩
  have e0 : stage1 l d = Raw.decodeID l (newRaw d) := rfl
  rw [e0]
  unfold Raw.decodeID newRaw onRaw
  simp only [Option.isSome_none, Bool.or_self, Bool.false_eq_true, if_false, h1]
  cases e1 with
  | some e1 =>
    simp only [Option.isSome_some, if_true]
    constructor
    · rintro ⟨h, _⟩; cases h
    · rintro ⟨p, hp, hh⟩; obtain ⟨_, _, _, _, _, h, _⟩ := hx p hp hh; cases h
  | none =>
    obtain ⟨_, q1, hq1, g1⟩ := (varint_exact C _ _ _ _).mp h1
    simp only [Option.isSome_none, Bool.false_eq_true, if_false]
    by_cases hv : v > 1
    · rw [if_pos hv]
      constructor
      · rintro ⟨h, _⟩; cases h
      · rintro ⟨p, hp, hh⟩; obtain ⟨_, _, _, h, _⟩ := hx p hp hh; omega
    rw [if_neg hv]
    rcases h2 : checkNumFields l metricType ⟨d1, none⟩ with ⟨o, d2, e2⟩
    have hx2 : ∀ p, d = p ++ r → PointID l id p → ∃ q3, o ≠ none ∧ d2 = q3 ++ (id ++ r) ∧ e2 = none ∧
        ∃ k : Int, (k = id.length ∨ k = -1 ∧ id = []) ∧ As l.getBytesLen k q3 := by
      intro p hp hh
      obtain ⟨_, q2, q3, _, rfl, _, _, n, hn, k, hk, g2, g3⟩ := hx p hp hh
      have := (numFields_exact C metricType (q2 ++ (q3 ++ (id ++ r))) none (some (n - 3)) _).mpr
        ⟨rfl, q2, rfl, n.toNat, by show 3 ≤ _; omega, by rw [Int.toNat_of_nonneg (by omega)]; rfl, by rw [Int.toNat_of_nonneg (by omega)]; exact g2⟩
      rw [h2] at this
      cases this
      exact ⟨q3, by simp, rfl, rfl, k, hk, g3⟩
    cases o with
    | none =>
      simp only
      constructor
      · rintro ⟨h, _⟩; cases h; exact absurd rfl (fields_none h2)
      · rintro ⟨p, hp, hh⟩; obtain ⟨_, h, _⟩ := hx2 p hp hh; exact absurd rfl h
    | some extra =>
      simp only
      obtain ⟨k, d3, e3, h3⟩ : ∃ k d3 e3, decodeBytesLen l ⟨d2, e2⟩ = (k, ⟨d3, e3⟩) := ⟨_, _, _, rfl⟩
      simp only [h3]
      have hx3 : ∀ p, d = p ++ r → PointID l id p → d3 = id ++ r ∧ e3 = none ∧ (k = id.length ∨ k = -1 ∧ id = []) := by
        intro p hp hh
        obtain ⟨q3, _, rfl, rfl, k', hk, g3⟩ := hx2 p hp hh
        have := (bytesLen_exact C (q3 ++ (id ++ r)) none k' _).mpr ⟨rfl, q3, rfl, g3⟩
        rw [h3] at this
        cases this
        exact ⟨rfl, rfl, hk⟩
      cases e3 with
      | some e3 =>
        simp only [Option.isSome_some, if_true]
        constructor
        · rintro ⟨h, _⟩; cases h
        · rintro ⟨p, hp, hh⟩; obtain ⟨_, h, _⟩ := hx3 p hp hh; cases h
      | none =>
        obtain ⟨rfl, q3, rfl, g3⟩ := (bytesLen_exact C _ _ _ _).mp h3
        obtain ⟨_, q2, rfl, n, hn, _, g2⟩ := (numFields_exact C _ _ _ _ _).mp h2
        have hn : 3 ≤ n := hn
        simp only [Option.isSome_none, Bool.false_eq_true, if_false]
        by_cases hk : k = -1
        · simp only [if_pos hk]
          constructor
          · rintro ⟨h, rfl⟩
            cases h
            refine ⟨q1 ++ (q2 ++ q3), by rw [hq1]; simp, v, by omega, (n : Int), by omega, k, .inr ⟨hk, rfl⟩, q1, _, g1, ⟨q2, _, g2, ⟨q3, [], g3, seq_one.mpr rfl, by simp⟩, rfl⟩, rfl⟩
          · rintro ⟨p, hp, hh⟩
            obtain ⟨h, _, h'⟩ := hx3 p hp hh
            have : id = [] := by
              rcases h' with h' | ⟨_, h'⟩
              · omega
              · exact h'
            subst this
            exact ⟨by rw [h]; rfl, rfl⟩
        · simp only [if_neg hk]
          unfold readBytes
          simp only
          have hd : d = (q1 ++ (q2 ++ q3)) ++ d3 := by rw [hq1]; simp
          have hlen : (d.length : Int) - d3.length = ((q1 ++ (q2 ++ q3)).length : Int) := by
            have := congrArg List.length hd
            rw [List.length_append] at this
            omega
          have hdr : d.drop ((d.length : Int) - d3.length).toNat = d3 := by
            rw [hlen, Int.toNat_natCast, hd, List.drop_left]
          have hlen2 : (d.length : Int) = ((q1 ++ (q2 ++ q3)).length : Int) + d3.length := by omega
          by_cases hc : k < 0 ∨ (d.length : Int) - d3.length < 0 ∨ (d.length : Int) - d3.length + k > d.length
          · simp only [if_pos hc]
            constructor
            · rintro ⟨h, _⟩; cases h
            · rintro ⟨p, hp, hh⟩
              obtain ⟨h, _, h'⟩ := hx3 p hp hh
              have h4 := congrArg List.length h
              rw [List.length_append] at h4
              rcases h' with rfl | ⟨h', _⟩
              · omega
              · exact absurd h' hk
          · simp only [if_neg hc, hdr, Option.isSome_none, Bool.false_eq_true, if_false]
            have hk0 : 0 ≤ k := by omega
            have hk1 : k.toNat ≤ d3.length := by omega
            constructor
            · rintro ⟨h, rfl⟩
              cases h
              refine ⟨q1 ++ (q2 ++ (q3 ++ d3.take k.toNat)), ?_, v, by omega, (n : Int), by omega, k, .inl ?_, q1, _, g1, ⟨q2, _, g2, ⟨q3, _, g3, seq_one.mpr rfl, rfl⟩, rfl⟩, rfl⟩
              · rw [hd]; simp
              · simp only [List.length_take]; omega
            · rintro ⟨p, hp, hh⟩
              obtain ⟨rfl, _, h'⟩ := hx3 p hp hh
              rcases h' with rfl | ⟨h', _⟩
              · simp
              · exact absurd h' hk

end
end Verif.MP
