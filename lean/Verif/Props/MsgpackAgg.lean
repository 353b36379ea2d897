import Verif.Props.RawMetric
import Verif.Props.Msgpack
/-
C23: the msgpack encoding of aggregated metrics.
-/
namespace Verif.Spec.MP
open Verif.MP Verif.Policy Verif.Wire
open Verif.Spec.Msg (Int64)

/-- The bytes of a metric within a message; what comes after the value is not looked at. -/
def WPoint (l : Lib) (m : Point) (b : Bytes) : Prop :=
  Int64 m.timeNanos ∧ ∃ ib k rest, WId l m.id ib ∧ Len (3 + k) ∧
    b = l.putInt 1 ++ (l.putArrayLen (3 + k) ++ (ib ++ (l.putInt m.timeNanos ++ (l.putF64 m.value ++ rest))))

/-- A message of an aggregated stream: the raw bytes, the storage policy, the encode time if there is one. -/
inductive AItem where
  | metric (raw : Bytes) (p : StoragePolicy) (encodedAt : Option Int)
  | higher (v : Int)

/-- The bytes of a message. -/
def WAItem (l : Lib) (x : XTime) (u : Units) : AItem → Bytes → Prop
  | .metric raw p none, b => Len raw.length ∧ ∃ pb ob body, WStoragePolicy l x u p pb ∧
      Obj l 2 (l.putBytes (some raw) ++ pb) ob ∧ Obj l 2 (l.putInt 5 ++ ob) body ∧ b = l.putInt 1 ++ body
  | .metric raw p (some t), b => Len raw.length ∧ Int64 t ∧ ∃ pb ob body, WStoragePolicy l x u p pb ∧
      Obj l 3 (l.putBytes (some raw) ++ (pb ++ l.putInt t)) ob ∧ Obj l 2 (l.putInt 22 ++ ob) body ∧ b = l.putInt 1 ++ body
  | .higher v, b => 1 < v ∧ Int64 v ∧ ∃ n body, Len n ∧ Values l n body ∧ b = l.putInt v ++ (l.putArrayLen n ++ body)

end Verif.Spec.MP

namespace Verif.MP
open Verif.Policy Verif.Meta Verif.Wire Verif.Msg Verif.Spec.MP
open Verif.Spec.Msg (Int64)

/-! ### The raw metric -/

variable {l : Lib} (L : Laws l) {x : XTime} {u : Units}
include L

theorem stage1_point {m : Point} {b : Bytes} (h : WPoint l m b) :
    ∃ rest, stage1 l b = ⟨b, ⟨l.putInt m.timeNanos ++ (l.putF64 m.value ++ rest), none⟩, { id := m.id }, true, false, false⟩ := by
  obtain ⟨ht, ib, k, rest, hi, hk, hb⟩ := h
  refine ⟨rest, ?_⟩
  have e1 := varint_reads L (v := 1) (by constructor <;> decide)
    (l.putArrayLen (3 + k) ++ (ib ++ (l.putInt m.timeNanos ++ (l.putF64 m.value ++ rest))))
  have e2 : checkNumFields l metricType ⟨l.putArrayLen (3 + k) ++ (ib ++ (l.putInt m.timeNanos ++ (l.putF64 m.value ++ rest))), none⟩ =
      (some (k : Int), ⟨ib ++ (l.putInt m.timeNanos ++ (l.putF64 m.value ++ rest)), none⟩) := by
    have : Reads (checkNumFields l metricType) (l.putArrayLen (3 + k)) (some (k : Int)) := by
      unfold checkNumFields
      refine .bindLast (array_reads L hk) (.first (checkExpected_reads (n := 3) rfl) ?_)
      rw [show Option.map (fun e => ((3 + k : Nat) : Int) - e) (some ((3 : Nat) : Int)) = some (k : Int) by
        rw [Option.map_some]; congr 1; omega]
      exact .pure _
    exact this _
  unfold stage1 Raw.decodeID stage0 newRaw onRaw
  simp only [Option.isSome_none, Bool.or_self, Bool.false_eq_true, if_false]
  rw [← hb] at e1
  simp only [e1, e2, Option.isSome_none, Bool.false_eq_true, if_false, show ¬ ((1 : Int) > 1) by decide]
  obtain ⟨hl, hi⟩ := hi
  rcases hi with ⟨hz, rfl⟩ | hi
  · simp [decodeBytesLen, call, L.nilLen, hz]
  · have hib : ib = l.putBytesLen m.id.length ++ m.id := by
      rcases hi with rfl | rfl
      · exact L.bytesForm _ hl
      · rfl
    have e3 : decodeBytesLen l ⟨ib ++ (l.putInt m.timeNanos ++ (l.putF64 m.value ++ rest)), none⟩ =
        ((m.id.length : Int), ⟨m.id ++ (l.putInt m.timeNanos ++ (l.putF64 m.value ++ rest)), none⟩) := by
      simp [decodeBytesLen, call, hib, List.append_assoc, L.chunkedLen _ _ hl]
    have hb' : b = (l.putInt 1 ++ (l.putArrayLen (3 + k) ++ l.putBytesLen m.id.length)) ++
        (m.id ++ (l.putInt m.timeNanos ++ (l.putF64 m.value ++ rest))) := by
      rw [hb, hib]; simp only [List.append_assoc]
    generalize hpre : l.putInt 1 ++ (l.putArrayLen (3 + k) ++ l.putBytesLen m.id.length) = pre at hb'
    generalize htail : l.putInt m.timeNanos ++ (l.putF64 m.value ++ rest) = tail at *
    have hn1 : ¬ ((m.id.length : Int) = -1) := by omega
    have hlen : b.length = pre.length + (m.id ++ tail).length := by rw [hb', List.length_append]
    have hstart : ((b.length : Int) - ((m.id ++ tail).length : Int)).toNat = pre.length := by omega
    have hc : ¬ ((m.id.length : Int) < 0 ∨ (b.length : Int) - ((m.id ++ tail).length : Int) < 0 ∨
        (b.length : Int) - ((m.id ++ tail).length : Int) + (m.id.length : Int) > (b.length : Int)) := by
      rw [hlen]; simp only [List.length_append]; omega
    simp only [e3, hn1, if_false, Option.isSome_none, Bool.false_eq_true, readBytes, hc, hstart, Int.toNat_natCast]
    have h1 : (List.drop pre.length b).take m.id.length = m.id := by rw [hb']; simp
    simp [h1]

/-- C23: the accessors of a metric that was written, called first, give its fields. -/
theorem C23_first {m : Point} {b : Bytes} (h : WPoint l m b) : first l b .id = .id m.id ∧ first l b .time = .time m.timeNanos ∧
    first l b .value = .value m.value ∧ first l b .metric = .metric m ∧ first l b .bytes = .bytes b := by
  obtain ⟨rest, e1⟩ := stage1_point L h
  have e2 : stage2 l b = ⟨b, ⟨l.putF64 m.value ++ rest, none⟩, { id := m.id, timeNanos := m.timeNanos }, true, true, false⟩ := by
    unfold stage2
    rw [e1]
    simp [Raw.decodeTime, onRaw, varint_reads L h.1 _]
  have e3 : stage3 l b = ⟨b, ⟨rest, none⟩, m, true, true, true⟩ := by
    unfold stage3
    rw [e2]
    simp [Raw.decodeValue, onRaw, f64_reads L _]
  have f1 : (newRaw b).decodeID l = stage1 l b := rfl
  have f2 : (stage1 l b).decodeTime l = stage2 l b := rfl
  have f3 : (stage2 l b).decodeValue l = stage3 l b := rfl
  refine ⟨?_, ?_, ?_, ?_, rfl⟩
  · simp only [first, Raw.call, f1, e1]; rfl
  · simp only [first, Raw.call, f1, f2, e2]; rfl
  · simp only [first, Raw.call, f1, f2, f3, e3]; rfl
  · simp only [first, Raw.call, f1, f2, f3, e3]; rfl

omit L in
/-- The field an accessor asks for. -/
def answer (m : Point) (b : Bytes) : Acc → Ans
  | .id => .id m.id
  | .time => .time m.timeNanos
  | .value => .value m.value
  | .metric => .metric m
  | .bytes => .bytes b

/-- C23: in any order, any number of times. -/
theorem C23_access {m : Point} {b : Bytes} (h : WPoint l m b) (as : List Acc) :
    (calls l as (newRaw b)).1 = as.map (answer m b) := by
  have hf : ∀ a, first l b a = answer m b a := by
    obtain ⟨h1, h2, h3, h4, h5⟩ := C23_first L h
    intro a
    cases a <;> assumption
  have hne : ∀ a, answer m b a ≠ .err := by intro a; cases a <;> simp [answer]
  suffices ∀ (as : List Acc) (s : Raw), At4 l b s → (calls l as s).1 = as.map (answer m b) from this as _ .s0
  intro as
  induction as with
  | nil => intro s _; rfl
  | cons a as ih =>
    intro s hs
    obtain ⟨c1, c2⟩ := call_stage l hs a
    have hn : At4 l b (s.call l a).2 := by
      rcases c2 with c2 | c2
      · exact c2
      · rw [c1, hf] at c2; exact absurd c2.1 (hne a)
    simp only [calls, List.map_cons, c1, hf, ih _ hn]

/-! ### The iterator -/

omit L

/-- `m` reads the bytes `b`, returns `a`, changes raw metric, storage policy and encode time. -/
def ReadsA (m : D AIter α) (b : Bytes) (a : α) (g : Raw → Raw) (h : StoragePolicy → StoragePolicy) (k : Int → Int) : Prop :=
  ∀ r ig met p t, m ⟨⟨b ++ r, none⟩, ig, false, met, p, t⟩ = (a, ⟨⟨r, none⟩, ig, false, g met, h p, k t⟩)

theorem ReadsA.bind {m : D AIter α} {f : α → D AIter β} (h : ReadsA m b a g p k) (h' : ReadsA (f a) b' a' g' p' k') :
    ReadsA (m >>= f) (b ++ b') a' (fun x => g' (g x)) (fun x => p' (p x)) (fun x => k' (k x)) := by
  intro r ig met q t
  show (match m ⟨⟨b ++ b' ++ r, none⟩, ig, false, met, q, t⟩ with | (a, s') => f a s') = _
  rw [List.append_assoc, h (b' ++ r)]
  exact h' r _ _ _ _

theorem ReadsA.base {m : D Base α} (h : Reads m b a) : ReadsA (onABase m) b a (fun x => x) (fun x => x) (fun x => x) := by
  intro r ig met q t
  simp only [onABase, h r]

theorem ReadsA.raw (d : Bytes) : ReadsA (setRaw d) [] () (fun _ => newRaw d) (fun x => x) (fun x => x) := fun _ _ _ _ _ => rfl
theorem ReadsA.storage (p : StoragePolicy) : ReadsA (setStorage p) [] () (fun x => x) (fun _ => p) (fun x => x) := fun _ _ _ _ _ => rfl
theorem ReadsA.encodedAt (t : Int) : ReadsA (setEncodedAt t) [] () (fun x => x) (fun x => x) (fun _ => t) := fun _ _ _ _ _ => rfl
theorem ReadsA.pure (a : α) : ReadsA (Pure.pure a) [] a (fun x => x) (fun x => x) (fun x => x) := fun _ _ _ _ _ => rfl

theorem ReadsA.cast {m : D AIter α} (h : ReadsA m b a g p k) (e : b = b') (eg : ∀ x, g x = g' x := by intro; rfl)
    (ep : ∀ x, p x = p' x := by intro; rfl) (ek : ∀ x, k x = k' x := by intro; rfl) : ReadsA m b' a g' p' k' := by
  rw [← e, ← show g = g' from funext eg, ← show p = p' from funext ep, ← show k = k' from funext ek]; exact h

include L

theorem obj_readsA {f : Option Int → D AIter α} (hn : numFieldsForType t = n) (h : Obj l n fields b)
    (hf : ∀ k extra, Values l k extra → ReadsA (f (some (k : Int))) (fields ++ extra) a g p q) :
    ReadsA (onABase (checkNumFields l t) >>= f) b a g p q := by
  obtain ⟨k, extra, hv, hl, rfl⟩ := h
  refine .bind (a := some (k : Int)) (.base ?_) (hf k extra hv)
  unfold checkNumFields
  refine .bindLast (array_reads L hl) (.first (checkExpected_reads hn) ?_)
  rw [show Option.map (fun e => ((n + k : Nat) : Int) - e) (some (n : Int)) = some (k : Int) by
    rw [Option.map_some]; congr 1; omega]
  exact .pure _

theorem bytes_reads (h : Len b.length) : Reads (decodeBytes l) (l.putBytes (some b)) b := .call fun r => L.bytes b r h

theorem rawWithPolicy_reads {raw : Bytes} (hl : Len raw.length) (hp : WStoragePolicy l x u p pb)
    (h : Obj l 2 (l.putBytes (some raw) ++ pb) b) :
    ReadsA (decodeRawWithPolicy l x u) b () (fun _ => newRaw raw) (fun _ => p) (fun _ => 0) := by
  refine obj_readsA (n := 2) L rfl h fun k extra he => ?_
  exact .cast (.bind (.base (bytes_reads L hl)) (.bind (.raw _) (.bind (.base (storagePolicy_reads L hp)) (.bind (.storage _)
    (.bind (.encodedAt _) (.base (skip_reads L he))))))) (by simp)

theorem rawWithPolicyAndTime_reads {raw : Bytes} (hl : Len raw.length) (ht : Int64 t) (hp : WStoragePolicy l x u p pb)
    (h : Obj l 3 (l.putBytes (some raw) ++ (pb ++ l.putInt t)) b) :
    ReadsA (decodeRawWithPolicyAndTime l x u) b () (fun _ => newRaw raw) (fun _ => p) (fun _ => t) := by
  refine obj_readsA (n := 3) L rfl h fun k extra he => ?_
  exact .cast (.bind (.base (bytes_reads L hl)) (.bind (.raw _) (.bind (.base (storagePolicy_reads L hp)) (.bind (.storage _)
    (.bind (.base (varint_reads L ht)) (.bind (.encodedAt _) (.base (skip_reads L he)))))))) (by simp)

theorem abody_plain {raw : Bytes} (hl : Len raw.length) (hp : WStoragePolicy l x u p pb)
    (ho : Obj l 2 (l.putBytes (some raw) ++ pb) ob) (h : Obj l 2 (l.putInt 5 ++ ob) b) :
    ReadsA (decodeABody l x u) b true (fun _ => newRaw raw) (fun _ => p) (fun _ => 0) := by
  refine obj_readsA (n := 2) L rfl h fun k extra he => ?_
  refine .cast (.bind (.base (objectType_reads (t := 5) L (by decide))) (.bind (.base .getErr)
    (b' := ob ++ (extra ++ ([] ++ []))) (a' := true) (g' := fun _ => newRaw raw) (p' := fun _ => p) (k' := fun _ => 0) ?_)) (by simp)
  exact .cast (.bind (rawWithPolicy_reads L hl hp ho) (.bind (.base (skip_reads L he)) (.bind (.base .getErr) (.pure _)))) rfl

theorem abody_time {raw : Bytes} (hl : Len raw.length) (ht : Int64 t) (hp : WStoragePolicy l x u p pb)
    (ho : Obj l 3 (l.putBytes (some raw) ++ (pb ++ l.putInt t)) ob) (h : Obj l 2 (l.putInt 22 ++ ob) b) :
    ReadsA (decodeABody l x u) b true (fun _ => newRaw raw) (fun _ => p) (fun _ => t) := by
  refine obj_readsA (n := 2) L rfl h fun k extra he => ?_
  refine .cast (.bind (.base (objectType_reads (t := 22) L (by decide))) (.bind (.base .getErr)
    (b' := ob ++ (extra ++ ([] ++ []))) (a' := true) (g' := fun _ => newRaw raw) (p' := fun _ => p) (k' := fun _ => t) ?_)) (by simp)
  exact .cast (.bind (rawWithPolicyAndTime_reads L hl ht hp ho) (.bind (.base (skip_reads L he)) (.bind (.base .getErr) (.pure _)))) rfl

theorem nextALoop_end (f : Nat) (it : AIter) (h : it.base = ⟨[], none⟩) (hc : it.closed = false) :
    nextALoop l x u (f + 1) it = (false, { it with base := ⟨[], some .eof⟩ }) := by
  obtain ⟨base, ig, cl, met, p, t⟩ := it
  cases h; cases hc
  simp [nextALoop, onABase, decodeVarint, call, L.intEnd]

theorem nextALoop_body (f : Nat) (h : ReadsA (decodeABody l x u) b true g p k) (r : Bytes) (it : AIter)
    (hb : it.base = ⟨l.putInt 1 ++ b ++ r, none⟩) (hc : it.closed = false) :
    nextALoop l x u (f + 1) it = (true, { it with base := ⟨r, none⟩, metric := g it.metric, storagePolicy := p it.storagePolicy, encodedAtNanos := k it.encodedAtNanos }) := by
  obtain ⟨base, ig, cl, met, q, t⟩ := it
  cases hb; cases hc
  have h1 : Int64 1 := by constructor <;> decide
  have h2 : ¬ ((1 : Int) > 1) := by decide
  simp only [nextALoop, onABase, varint_reads L h1 (b ++ r), List.append_assoc, Option.isSome_none, Bool.or_self, if_false, h2,
    Bool.false_eq_true]
  exact h r _ _ _ _

theorem nextALoop_higher (f : Nat) (hv : 1 < v) (hi : Int64 v) (hl : Len n) (hs : Values l n body) (r : Bytes) (it : AIter)
    (hb : it.base = ⟨l.putInt v ++ (l.putArrayLen n ++ body) ++ r, none⟩) (hc : it.closed = false) (hg : it.ignoreHigherVersion = true) :
    nextALoop l x u (f + 1) it = nextALoop l x u f { it with base := ⟨r, none⟩ } := by
  obtain ⟨base, ig, cl, met, p, t⟩ := it
  cases hb; cases hc; cases hg
  have h2 : v > 1 := hv
  simp only [nextALoop, onABase, varint_reads L hi _, array_reads L hl _, skip_reads L hs _, List.append_assoc, Option.isSome_none,
    Bool.or_self, if_false, h2, if_true, Bool.false_eq_true]

theorem nextALoop_reject (f : Nat) (hv : 1 < v) (hi : Int64 v) (r : Bytes) (it : AIter)
    (hb : it.base = ⟨l.putInt v ++ r, none⟩) (hc : it.closed = false) (hg : it.ignoreHigherVersion = false) :
    nextALoop l x u (f + 1) it = (false, { it with base := ⟨r, some .other⟩ }) := by
  obtain ⟨base, ig, cl, met, p, t⟩ := it
  cases hb; cases hc; cases hg
  have h2 : v > 1 := hv
  simp only [nextALoop, onABase, varint_reads L hi _, Option.isSome_none, Bool.or_self, if_false, h2, if_true, Bool.false_eq_true]

theorem nextALoop_metric (f : Nat) (h : WAItem l x u (.metric raw p t) b) (r : Bytes) (it : AIter)
    (hb : it.base = ⟨b ++ r, none⟩) (hc : it.closed = false) :
    nextALoop l x u (f + 1) it = (true, { it with base := ⟨r, none⟩, metric := newRaw raw, storagePolicy := p, encodedAtNanos := t.getD 0 }) := by
  cases t with
  | none =>
    obtain ⟨hl, pb, ob, body, hp, ho, hq, rfl⟩ := h
    exact nextALoop_body L f (abody_plain L hl hp ho hq) r it hb hc
  | some t =>
    obtain ⟨hl, ht, pb, ob, body, hp, ho, hq, rfl⟩ := h
    exact nextALoop_body L f (abody_time L hl ht hp ho hq) r it hb hc

theorem aitem_length {i : AItem} (h : WAItem l x u i b) : 0 < b.length := by
  have h1 := putInt_length L (v := 1) (by constructor <;> decide)
  cases i with
  | metric raw p t =>
    cases t with
    | none => obtain ⟨hl, pb, ob, body, hp, ho, hq, rfl⟩ := h; simp; omega
    | some t => obtain ⟨hl, ht, pb, ob, body, hp, ho, hq, rfl⟩ := h; simp; omega
  | higher v => obtain ⟨hv, hi, n, body, hn, hs, rfl⟩ := h; have := putInt_length L hi; simp; omega

theorem astream_length : ∀ (is : List AItem) (b : Bytes), WList (WAItem l x u) is b → is.length ≤ b.length := by
  intro is
  induction is with
  | nil => intro b h; simp
  | cons i is ih =>
    rintro b ⟨ab, rest, hi, hr, rfl⟩
    have := ih rest hr
    have := aitem_length L hi
    simp; omega

theorem nextALoop_fuel : ∀ (is : List AItem) (f f' : Nat) (it : AIter), WList (WAItem l x u) is it.base.data → is.length < f →
    is.length < f' → nextALoop l x u f it = nextALoop l x u f' it := by
  intro is
  induction is with
  | nil =>
    intro f f' it h hf hf'
    cases f with
    | zero => simp at hf
    | succ f => cases f' with
      | zero => simp at hf'
      | succ f' =>
        cases hc : it.closed with
        | true => simp [nextALoop, hc]
        | false =>
          cases he : it.base.err with
          | some e => simp [nextALoop, he]
          | none =>
            have hb : it.base = ⟨[], none⟩ := by
              obtain ⟨⟨d, e⟩, ig, cl, met, p, t⟩ := it
              simp_all [WList]
            rw [nextALoop_end L f it hb hc, nextALoop_end L f' it hb hc]
  | cons i is ih =>
    intro f f' it h hf hf'
    obtain ⟨ab, rest, hi, hr, hd⟩ := h
    cases f with
    | zero => simp at hf
    | succ f => cases f' with
      | zero => simp at hf'
      | succ f' =>
        cases hc : it.closed with
        | true => simp [nextALoop, hc]
        | false =>
          cases he : it.base.err with
          | some e => simp [nextALoop, he]
          | none =>
            have hb : it.base = ⟨ab ++ rest, none⟩ := by
              obtain ⟨⟨d, e⟩, ig, cl, met, p, t⟩ := it
              simp_all
            cases i with
            | metric raw p t => rw [nextALoop_metric L f hi rest it hb hc, nextALoop_metric L f' hi rest it hb hc]
            | higher v =>
              obtain ⟨hv, hi, n, body, hn, hs, rfl⟩ := hi
              cases hg : it.ignoreHigherVersion with
              | false =>
                rw [List.append_assoc] at hb
                rw [nextALoop_reject L f hv hi _ it hb hc hg, nextALoop_reject L f' hv hi _ it hb hc hg]
              | true =>
                rw [nextALoop_higher L f hv hi hn hs rest it hb hc hg, nextALoop_higher L f' hv hi hn hs rest it hb hc hg]
                exact ih f f' _ hr (by simpa using hf) (by simpa using hf')

omit L

/-- What is seen of a message: the answers of the raw metric to calls, the storage policy and the encode time. -/
abbrev Seen := List Ans × StoragePolicy × Int

/-- Call `Next` once for each list of calls, as long as it returns true, and make these calls on the metric. -/
def drainAgg (l : Lib) (x : XTime) (u : Units) : List (List Acc) → AIter → List Seen × AIter
  | [], it => ([], it)
  | as :: rest, it => match nextAgg l x u it with
    | (false, it) => ([], it)
    | (true, it) => match calls l as it.metric with
      | (rs, m) => match drainAgg l x u rest { it with metric := m } with
        | (r, it') => ((rs, it.storagePolicy, it.encodedAtNanos) :: r, it')

/-- What is to be seen. -/
def expectAgg (l : Lib) (ig : Bool) : List AItem → List (List Acc) → List Seen
  | .metric raw p t :: is, as :: rest => ((calls l as (newRaw raw)).1, p, t.getD 0) :: expectAgg l ig is rest
  | .higher _ :: is, rest => if ig then expectAgg l ig is rest else []
  | _, _ => []

include L

/-- C23 and C22 for aggregated streams: each message with its storage policy, its encode time or zero, and a raw metric that
is as new, whatever was done to the one before; messages of higher versions are passed over or end the stream. -/
theorem C23_stream : ∀ (is : List AItem) (b : Bytes), WList (WAItem l x u) is b → ∀ (it : AIter),
    it.base = ⟨b, none⟩ → it.closed = false → ∀ ass,
    (drainAgg l x u ass it).1 = expectAgg l it.ignoreHigherVersion is ass := by
  intro is
  induction is with
  | nil =>
    rintro b hb it h hc ass
    cases hb
    cases ass with
    | nil => rfl
    | cons as rest =>
      have e : nextAgg l x u it = _ := nextALoop_end L _ it h hc
      simp only [drainAgg, e]
      rfl
  | cons i is ih =>
    rintro b hb it h hc ass
    obtain ⟨ab, rest, hi, hr, rfl⟩ := hb
    cases i with
    | metric raw p t =>
      cases ass with
      | nil => rfl
      | cons as ass =>
        have e : nextAgg l x u it = _ := nextALoop_metric L _ hi rest it h hc
        simp only [drainAgg, e, expectAgg]
        congr 1
        exact ih rest hr { it with base := ⟨rest, none⟩, metric := (calls l as (newRaw raw)).2, storagePolicy := p, encodedAtNanos := t.getD 0 } rfl hc ass
    | higher v =>
      have hall : WList (WAItem l x u) (.higher v :: is) (ab ++ rest) := ⟨ab, rest, hi, hr, rfl⟩
      have hlen := astream_length L _ _ hall
      have hlen' := astream_length L _ _ hr
      have hpos := aitem_length L hi
      obtain ⟨hv, hi, k, body, hk, hs, rfl⟩ := hi
      cases hg : it.ignoreHigherVersion with
      | false =>
        cases ass with
        | nil => rfl
        | cons as ass =>
          rw [List.append_assoc] at h
          have e : nextAgg l x u it = _ := nextALoop_reject L _ hv hi _ it h hc hg
          simp only [drainAgg, e]
          rfl
      | true =>
        have e : nextAgg l x u it = nextALoop l x u _ _ := nextALoop_higher L _ hv hi hk hs rest it h hc hg
        have e' : nextAgg l x u it = nextAgg l x u { it with base := ⟨rest, none⟩ } := by
          rw [e]
          refine nextALoop_fuel L is _ _ _ hr ?_ ?_
          · rw [h]; simp at hlen hpos ⊢; omega
          · show is.length < rest.length + 2; omega
        rw [show (drainAgg l x u ass it).1 = (drainAgg l x u ass { it with base := ⟨rest, none⟩ }).1 by
          cases ass with
          | nil => rfl
          | cons as ass => simp only [drainAgg, e']]
        rw [ih rest hr { it with base := ⟨rest, none⟩ } rfl hc ass]
        simp [expectAgg, hg]

/-- The identifier of a message, whole or in three parts. -/
inductive MsgID where
  | raw (id : Bytes) (isNil : Bool)
  | chunked (pre data suf : Bytes)

omit L in
def MsgID.bytes : MsgID → Bytes
  | .raw id _ => id
  | .chunked pre data suf => pre ++ data ++ suf

/-- An aggregated metric to be encoded. -/
structure AggMsg where
  id : MsgID
  time : Int
  value : F64
  policy : StoragePolicy
  encodedAt : Option Int

omit L in
def AggMsg.point (m : AggMsg) : Point := ⟨m.id.bytes, m.time, m.value⟩

omit L in
/-- The bytes of the metric, by the encoder. -/
def AggMsg.raw (l : Lib) (m : AggMsg) : Bytes := match m.id with
  | .raw id isNil => encodeMetricAsRaw l isNil ⟨id, m.time, m.value⟩
  | .chunked pre data suf => encodeChunkedMetricAsRaw l pre data suf m.time m.value

omit L in
/-- The bytes of the message, by the encoder. -/
def AggMsg.encode (l : Lib) (u : Units) (m : AggMsg) : Bytes := match m.encodedAt with
  | none => encodeWithPolicy l u (m.raw l) m.policy
  | some t => encodeWithPolicyAndTime l u (m.raw l) m.policy t

omit L in
/-- What can be written. -/
def AggMsg.Writable (l : Lib) (x : XTime) (u : Units) (m : AggMsg) : Prop :=
  Len m.id.bytes.length ∧ Int64 m.time ∧ Len (m.raw l).length ∧ WritableStorage x u m.policy ∧ ∀ t, m.encodedAt = some t → Int64 t

omit L in
theorem raw_point (m : AggMsg) (h : m.Writable l x u) : WPoint l m.point (m.raw l) := by
  obtain ⟨⟩ := m
  rename_i id time value policy enc
  obtain ⟨h1, h2, -⟩ := h
  cases id with
  | raw id isNil =>
    refine ⟨h2, _, 0, [], encodeID_w h1 isNil, by unfold Len; omega, ?_⟩
    simp only [AggMsg.raw, encodeMetricAsRaw, AggMsg.point, MsgID.bytes, List.append_assoc, List.append_nil]
    rfl
  | chunked pre data suf =>
    refine ⟨h2, encodeChunkedID l pre data suf, 0, [], ⟨h1, .inr (.inr ?_)⟩, by unfold Len; omega, ?_⟩
    · simp only [encodeChunkedID, AggMsg.point, MsgID.bytes, List.append_assoc, List.length_append]
      simp only [Nat.add_assoc]
    · simp only [AggMsg.raw, encodeChunkedMetricAsRaw, AggMsg.point, List.append_assoc, List.append_nil]
      rfl

omit L in
theorem encode_item (m : AggMsg) (h : m.Writable l x u) :
    WAItem l x u (.metric (m.raw l) m.policy m.encodedAt) (m.encode l u) := by
  obtain ⟨h1, h2, h3, h4, h5⟩ := h
  unfold AggMsg.encode
  cases he : m.encodedAt with
  | none =>
    refine ⟨h3, _, _, _, encodeStoragePolicy_w h4, obj_plain 2 _ _ (by decide) rfl, obj_plain 2 _ _ (by decide) rfl, ?_⟩
    simp only [encodeWithPolicy, encodeRootObject, List.append_assoc]
    rfl
  | some t =>
    refine ⟨h3, h5 t he, _, _, _, encodeStoragePolicy_w h4, obj_plain 3 _ _ (by decide) rfl, obj_plain 2 _ _ (by decide) rfl, ?_⟩
    simp only [encodeWithPolicyAndTime, encodeRootObject, List.append_assoc]
    rfl

/-- C23: an iterator that is reset, also one that was closed, or that has stopped with an error, is read as a new one; a closed one
has nothing. -/
theorem C23_reset (is : List AItem) (b : Bytes) (h : WList (WAItem l x u) is b) (it : AIter) (ass : List (List Acc)) :
    (drainAgg l x u ass (it.reset b)).1 = expectAgg l it.ignoreHigherVersion is ass ∧
    (drainAgg l x u ass (it.close.reset b)).1 = expectAgg l it.ignoreHigherVersion is ass ∧ (drainAgg l x u ass it.close).1 = [] := by
  refine ⟨C23_stream L is b h (it.reset b) rfl rfl ass, ?_, ?_⟩
  · have := C23_stream L is b h (it.close.reset b) rfl rfl ass
    rw [this]
    unfold AIter.close AIter.reset
    split <;> rfl
  · cases ass with
    | nil => rfl
    | cons as rest =>
      have hc : it.close.closed = true := by
        unfold AIter.close
        split
        · assumption
        · rfl
      have : (nextAgg l x u it.close).1 = false := by simp [nextAgg, nextALoop, hc]
      unfold drainAgg
      rcases hn : nextAgg l x u it.close with ⟨b, it'⟩
      rw [hn] at this
      cases this
      rfl

/-- C23: what is read from an encoded sequence of aggregated metrics, with any calls of the accessors in between. -/
theorem C23_roundtrip (ms : List (AggMsg × List Acc)) (hw : ∀ m ∈ ms, m.1.Writable l x u) (it : AIter)
    (h : it.base = ⟨ms.flatMap fun m => m.1.encode l u, none⟩) (hc : it.closed = false) :
    (drainAgg l x u (ms.map (·.2)) it).1 =
      ms.map fun m => (m.2.map (answer m.1.point (m.1.raw l)), m.1.policy, m.1.encodedAt.getD 0) := by
  have hs : WList (WAItem l x u) (ms.map fun m => AItem.metric (m.1.raw l) m.1.policy m.1.encodedAt)
      (ms.flatMap fun m => m.1.encode l u) := by
    clear h
    induction ms with
    | nil => rfl
    | cons m ms ih => exact ⟨_, _, encode_item m.1 (hw m (by simp)), ih fun a ha => hw a (by simp [ha]), rfl⟩
  rw [C23_stream L _ _ hs it h hc]
  clear h hs
  induction ms with
  | nil => rfl
  | cons m ms ih =>
    simp only [List.map_cons, expectAgg, ih fun a ha => hw a (by simp [ha])]
    rw [C23_access L (raw_point m.1 (hw m (by simp)))]

omit L

/-! ### A concrete case -/

def exAgg : List (AggMsg × List Acc) :=
  [(⟨.raw (bs "foo") false, 1234567, 88, ⟨⟨60000000000, 5⟩, 86400000000000⟩, none⟩, [.value, .id, .metric, .time]),
   (⟨.chunked (bs "pre.") (bs "data") (bs ".suf"), -5, 99, ⟨⟨7000000000, 1⟩, 17⟩, some 40000⟩, [.time, .time, .bytes, .id]),
   (⟨.raw [] true, 0, 0, ⟨⟨1000000000, 1⟩, 3600000000000⟩, none⟩, [.id])]

example : ∀ m ∈ exAgg, m.1.Writable std unitX exU := by
  intro m hm
  simp only [exAgg, List.mem_cons, List.not_mem_nil, or_false] at hm
  rcases hm with rfl | rfl | rfl
  · exact ⟨by unfold Len; decide, by constructor <;> decide, by unfold Len; decide +kernel,
      ⟨.inr ⟨3, by simp [KnownResolution, exU]⟩, by constructor <;> decide⟩, by simp⟩
  · exact ⟨by unfold Len; decide, by constructor <;> decide, by unfold Len; decide +kernel,
      ⟨.inl ⟨by constructor <;> decide, by constructor <;> decide⟩, by constructor <;> decide⟩, fun t ht => by
        cases ht; constructor <;> decide⟩
  · exact ⟨by unfold Len; decide, by constructor <;> decide, by unfold Len; decide +kernel,
      ⟨.inl ⟨by constructor <;> decide, by constructor <;> decide⟩, by constructor <;> decide⟩, by simp⟩

example : (drainAgg std unitX exU (exAgg.map (·.2)) (newAgg (exAgg.flatMap fun m => m.1.encode std exU) false)).1 =
    exAgg.map fun m => (m.2.map (answer m.1.point (m.1.raw std)), m.1.policy, m.1.encodedAt.getD 0) := by
  set_option synthInstance.maxSize 1000 in
  decide +kernel

end Verif.MP
