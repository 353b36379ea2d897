import Verif.Spec.Msgpack
/- Decoding what the relations of Verif.Spec.Msgpack describe. -/
namespace Verif.MP
open Verif.Policy Verif.Meta Verif.Wire Verif.Msg Verif.Spec.MP
open Verif.Spec.Msg (Int64)

/-- `m` reads the bytes `b` and returns `a`. -/
def Reads (m : D Base α) (b : Bytes) (a : α) : Prop := ∀ r, m ⟨b ++ r, none⟩ = (a, ⟨r, none⟩)

theorem Reads.bind {m : D Base α} {f : α → D Base β} (h : Reads m b a) (h' : Reads (f a) b' a') :
    Reads (m >>= f) (b ++ b') a' := by
  intro r
  show (match m ⟨b ++ b' ++ r, none⟩ with | (a, s') => f a s') = _
  rw [List.append_assoc, h (b' ++ r)]
  exact h' r

/-- `bind` where the rest reads nothing more. -/
theorem Reads.bindLast {m : D Base α} {f : α → D Base β} (h : Reads m b a) (h' : Reads (f a) [] a') :
    Reads (m >>= f) b a' := by simpa using h.bind h'

theorem Reads.first {m : D Base α} {f : α → D Base β} (h : Reads m [] a) (h' : Reads (f a) b a') :
    Reads (m >>= f) b a' := by simpa using h.bind h'

theorem Reads.pure (a : α) : Reads (pure a) [] a := fun _ => rfl

theorem Reads.getErr : Reads getErr [] none := fun _ => rfl

theorem Reads.call {g : Bytes → Except Err (α × Bytes)} {z : α} (h : ∀ r, g (b ++ r) = .ok (a, r)) : Reads (call g z) b a := by
  intro r
  simp [MP.call, h]

theorem Reads.cast {m : D Base α} (h : Reads m b a) (e : b = b') : Reads m b' a := e ▸ h

variable {l : Lib} (L : Laws l)
include L

theorem varint_reads (h : Int64 v) : Reads (decodeVarint l) (l.putInt v) v := .call fun r => L.int v r h
theorem bool_reads : Reads (decodeBool l) (l.putBool v) v := .call fun r => L.bool v r
theorem f64_reads : Reads (decodeFloat64 l) (l.putF64 v) v := .call fun r => L.f64 v r
theorem array_reads (h : Len n) : Reads (decodeArrayLen l) (l.putArrayLen n) (n : Int) := .call fun r => L.arrayLen n r h

theorem skipLoop_reads : ∀ n b, Values l n b → Reads (skipLoop l n) b () := by
  intro n
  induction n with
  | zero => intro b h r; cases h; rfl
  | succ n ih =>
    intro b h r
    cases h with
    | cons n b c hb hc =>
      rw [List.append_assoc]
      simp only [skipLoop, L.skip _ _ hb]
      exact ih _ hc r

theorem skip_reads (h : Values l n b) : Reads (skip l n) b () := by
  intro r
  have : ¬ ((n : Int) < 0) := by omega
  simp only [skip, this, if_false, Int.toNat_natCast]
  exact skipLoop_reads L n b h r

omit L in
theorem checkExpected_reads (h : numFieldsForType t = n) : Reads (checkExpected t ((n + k : Nat) : Int)) [] (some (n : Int)) := by
  intro r
  simp only [checkExpected, h, List.nil_append]
  rw [if_neg (by omega)]

/-- An object whose type is known beforehand. -/
theorem obj_reads {f : Option Int → D Base α} (hn : numFieldsForType t = n) (h : Obj l n fields b)
    (hf : ∀ k extra, Values l k extra → Reads (f (some (k : Int))) (fields ++ extra) a) :
    Reads (checkNumFields l t >>= f) b a := by
  obtain ⟨k, extra, hv, hl, rfl⟩ := h
  refine .bind (a := some (k : Int)) ?_ (hf k extra hv)
  unfold checkNumFields
  refine .bindLast (array_reads L hl) (.first (checkExpected_reads hn) ?_)
  rw [show Option.map (fun e => ((n + k : Nat) : Int) - e) (some (n : Int)) = some (k : Int) by
    rw [Option.map_some]; congr 1; omega]
  exact .pure _

theorem objectType_reads (h : 0 < t ∧ t ≤ 22) : Reads (decodeObjectType l) (l.putInt t) t := by
  unfold decodeObjectType
  refine .bindLast (varint_reads L ⟨by omega, by omega⟩) (.first .getErr ?_)
  have h' : t > 0 ∧ t ≤ numObjectTypes := h
  simp only [h', and_self, if_true]
  exact .pure _

/-- An object whose first field is its type. -/
theorem typed_reads {f : Option (Int × Int) → D Base α} (ht : 0 < t ∧ t ≤ 22) (hn : numFieldsForType t = n)
    (h : Obj l n (l.putInt t ++ fields) b)
    (hf : ∀ k extra, Values l k extra → Reads (f (some (t, (k : Int)))) (fields ++ extra) a) :
    Reads (decodeTyped l >>= f) b a := by
  obtain ⟨k, extra, hv, hl, rfl⟩ := h
  refine .cast (b := (l.putArrayLen (n + k) ++ l.putInt t) ++ (fields ++ extra)) (.bind (a := some (t, (k : Int))) ?_ (hf k extra hv))
    (by simp)
  unfold decodeTyped
  refine .bind (array_reads L hl) (.bindLast (objectType_reads L ht) (.first (checkExpected_reads hn) ?_))
  rw [show Option.map (fun e => (t, ((n + k : Nat) : Int) - e)) (some (n : Int)) = some (t, (k : Int)) by
    rw [Option.map_some]; congr 2; omega]
  exact .pure _

omit L in
theorem repeat_reads {m : D Base α} {w : α → Bytes → Prop} (h : ∀ a b, w a b → Reads m b a) :
    ∀ as b, WList w as b → Reads (repeatD m as.length) b as := by
  intro as
  induction as with
  | nil => intro b hb; cases hb; exact .pure _
  | cons a as ih =>
    rintro b ⟨ab, rest, ha, hr, rfl⟩
    exact .bind (h a ab ha) (.bindLast (ih rest hr) (.pure _))

theorem aggID_reads {id : Agg.ID} (h : WAggID l id b) : Reads (decodeAggID l) b id := by
  have hi : Int64 id.toInt := by
    have := BitVec.toInt_lt (x := id); have := BitVec.le_toInt (x := id)
    constructor <;> simp_all <;> omega
  have hid : BitVec.ofInt 64 id.toInt = id := BitVec.ofInt_toInt
  unfold decodeAggID
  rcases h with ⟨rfl, h⟩ | h | h
  · refine typed_reads (t := 18) (n := 1) (fields := []) L (by decide) rfl (by simpa using h) fun k extra hv => ?_
    exact .bindLast (skip_reads L hv) (.pure _)
  · refine typed_reads (t := 19) (n := 2) L (by decide) rfl h fun k extra hv => ?_
    refine .bind (varint_reads L hi) (.bindLast (skip_reads L hv) ?_)
    rw [hid]; exact .pure _
  · refine typed_reads (t := 20) (n := 2) L (by decide) rfl h fun k extra hv => ?_
    refine .cast (b := l.putArrayLen 1 ++ (l.putInt id.toInt ++ extra)) (.bind (array_reads (n := 1) L (by unfold Len; decide)) ?_) (by simp)
    refine .bind (b := l.putInt id.toInt) (a := [id.toInt]) ?_ (.bindLast (skip_reads L hv) ?_)
    · exact .bindLast (varint_reads L hi) (.first (.pure _) (.pure _))
    · simp only [List.headD, hid]; exact .pure _

omit L in
theorem knownResolution_value (h : (v, r) ∈ KnownResolution u) : valueToResolution u v = some r ∧ Int64 v := by
  simp only [KnownResolution, List.mem_cons, Prod.mk.injEq, List.not_mem_nil, or_false] at h
  rcases h with ⟨rfl, rfl⟩ | ⟨rfl, rfl⟩ | ⟨rfl, rfl⟩ | ⟨rfl, rfl⟩ | ⟨rfl, rfl⟩ <;> exact ⟨rfl, by constructor <;> decide⟩

theorem resolution_reads (h : WResolution l x u res b) : Reads (decodeResolution l x u) b res := by
  unfold decodeResolution
  rcases h with ⟨v, hv, h⟩ | ⟨hw, ⟨hp, hx⟩, h⟩
  · obtain ⟨hr, hv⟩ := knownResolution_value hv
    refine typed_reads (t := 14) (n := 2) L (by decide) rfl h fun k extra he => ?_
    refine .bind (varint_reads L hv) ?_
    rw [hr]
    exact .bindLast (skip_reads L he) (.first .getErr (.pure _))
  · refine typed_reads (t := 15) (n := 3) L (by decide) rfl h fun k extra he => ?_
    refine .cast (b := l.putInt res.window ++ (l.putInt res.precision ++ extra)) ?_ (by simp)
    refine .bind (varint_reads L hw) (.bind (varint_reads L ⟨by omega, by omega⟩) (.first .getErr ?_))
    obtain ⟨d, hd⟩ := Option.isSome_iff_exists.mp hx
    have e : ((res.precision : Int) % 256).toNat = res.precision := by omega
    simp only [e, hd]
    exact .bindLast (skip_reads L he) (.pure _)

omit L in
theorem knownRetention_value (h : (v, n) ∈ KnownRetention) : valueToRetention v = some (n * 3600000000000) ∧ Int64 v := by
  simp only [KnownRetention, List.mem_cons, Prod.mk.injEq, List.not_mem_nil, or_false] at h
  rcases h with ⟨rfl, rfl⟩ | ⟨rfl, rfl⟩ | ⟨rfl, rfl⟩ | ⟨rfl, rfl⟩ | ⟨rfl, rfl⟩ | ⟨rfl, rfl⟩ | ⟨rfl, rfl⟩ | ⟨rfl, rfl⟩ | ⟨rfl, rfl⟩ <;>
    exact ⟨rfl, by constructor <;> decide⟩

theorem retention_reads (h : WRetention l ret b) : Reads (decodeRetention l) b ret := by
  unfold decodeRetention
  rcases h with ⟨v, n, hv, rfl, h⟩ | ⟨hw, h⟩
  · obtain ⟨hr, hv⟩ := knownRetention_value hv
    refine typed_reads (t := 16) (n := 2) L (by decide) rfl h fun k extra he => ?_
    refine .bind (varint_reads L hv) ?_
    rw [hr]
    exact .bindLast (skip_reads L he) (.first .getErr (.pure _))
  · refine typed_reads (t := 17) (n := 2) L (by decide) rfl h fun k extra he => ?_
    exact .bind (varint_reads L hw) (.bindLast (skip_reads L he) (.pure _))

theorem storagePolicy_reads (h : WStoragePolicy l x u p b) : Reads (decodeStoragePolicy l x u) b p := by
  obtain ⟨rb, tb, hr, ht, h⟩ := h
  refine obj_reads (n := 2) L rfl h fun k extra he => ?_
  refine .cast (b := rb ++ (tb ++ extra)) ?_ (by simp)
  exact .bind (resolution_reads L hr) (.bind (retention_reads L ht) (.bindLast (skip_reads L he) (.pure _)))

theorem policy_reads (h : WPolicy l x u p b) : Reads (decodePolicy l x u) b p := by
  obtain ⟨sb, ab, hs, ha, h⟩ := h
  refine obj_reads (n := 2) L rfl h fun k extra he => ?_
  refine .cast (b := sb ++ (ab ++ extra)) ?_ (by simp)
  exact .bind (storagePolicy_reads L hs) (.bind (aggID_reads L ha) (.bindLast (skip_reads L he) (.pure _)))

theorem staged_reads (h : WStaged l x u p b) : Reads (decodeStagedPolicies l x u) b p := by
  obtain ⟨hc, hl, pb, hp, h⟩ := h
  refine obj_reads (n := 3) L rfl h fun k extra he => ?_
  refine .cast (b := l.putInt p.cutoverNanos ++ (l.putBool p.tombstoned ++ (l.putArrayLen p.policies.length ++ (pb ++ extra)))) ?_
    (by simp)
  refine .bind (varint_reads L hc) (.bind (bool_reads L) (.bind (array_reads L hl) ?_))
  rw [Int.toNat_natCast]
  exact .bind (repeat_reads (fun a b => policy_reads L) _ _ hp) (.bindLast (skip_reads L he) (.pure _))

theorem id_reads {id : Bytes} (h : WId l id b) : Reads (decodeID l) b id := by
  intro r
  obtain ⟨hl, h⟩ := h
  unfold decodeID decodeBytesLen
  rcases h with ⟨rfl, rfl⟩ | rfl | rfl
  · simp [call, L.nilLen]
  · have hn : ¬ ((id.length : Int) = -1) := by omega
    simp [call, L.bytesForm _ hl, List.append_assoc, L.chunkedLen _ _ hl, hn]
  · have hn : ¬ ((id.length : Int) = -1) := by omega
    simp [call, List.append_assoc, L.chunkedLen _ _ hl, hn]

/-! ### The unaggregated iterator -/

omit L

/-- `m` reads the bytes `b`, returns `a`, changes the metric by `g` and the policies list by `h`. -/
def ReadsI (m : D Iter α) (b : Bytes) (a : α) (g : MetricUnion → MetricUnion) (h : List StagedPolicies → List StagedPolicies) : Prop :=
  ∀ r ig met pl, m ⟨⟨b ++ r, none⟩, ig, false, met, pl⟩ = (a, ⟨⟨r, none⟩, ig, false, g met, h pl⟩)

theorem ReadsI.bind {m : D Iter α} {f : α → D Iter β} (h : ReadsI m b a g k) (h' : ReadsI (f a) b' a' g' k') :
    ReadsI (m >>= f) (b ++ b') a' (fun x => g' (g x)) (fun x => k' (k x)) := by
  intro r ig met pl
  show (match m ⟨⟨b ++ b' ++ r, none⟩, ig, false, met, pl⟩ with | (a, s') => f a s') = _
  rw [List.append_assoc, h (b' ++ r)]
  exact h' r _ _ _

theorem ReadsI.base {m : D Base α} (h : Reads m b a) : ReadsI (onBase m) b a (fun x => x) (fun x => x) := by
  intro r ig met pl
  simp only [onBase, h r]

theorem ReadsI.metric (g : MetricUnion → MetricUnion) : ReadsI (setMetric g) [] () g (fun x => x) := fun _ _ _ _ => rfl

theorem ReadsI.policies (pl : List StagedPolicies) : ReadsI (setPolicies pl) [] () (fun x => x) (fun _ => pl) := fun _ _ _ _ => rfl

theorem ReadsI.pure (a : α) : ReadsI (Pure.pure a) [] a (fun x => x) (fun x => x) := fun _ _ _ _ => rfl

theorem ReadsI.cast {m : D Iter α} (h : ReadsI m b a g k) (e : b = b') (eg : ∀ x, g x = g' x := by intro; rfl)
    (ek : ∀ x, k x = k' x := by intro; rfl) : ReadsI m b' a g' k' := by
  rw [← e, ← show g = g' from funext eg, ← show k = k' from funext ek]; exact h

include L

theorem obj_readsI {f : Option Int → D Iter α} (hn : numFieldsForType t = n) (h : Obj l n fields b)
    (hf : ∀ k extra, Values l k extra → ReadsI (f (some (k : Int))) (fields ++ extra) a g q) :
    ReadsI (onBase (checkNumFields l t) >>= f) b a g q := by
  obtain ⟨k, extra, hv, hl, rfl⟩ := h
  refine .bind (a := some (k : Int)) (.base ?_) (hf k extra hv)
  unfold checkNumFields
  refine .bindLast (array_reads L hl) (.first (checkExpected_reads hn) ?_)
  rw [show Option.map (fun e => ((n + k : Nat) : Int) - e) (some (n : Int)) = some (k : Int) by
    rw [Option.map_some]; congr 1; omega]
  exact .pure _

theorem typed_readsI {f : Option (Int × Int) → D Iter α} (ht : 0 < t ∧ t ≤ 22) (hn : numFieldsForType t = n)
    (h : Obj l n (l.putInt t ++ fields) b)
    (hf : ∀ k extra, Values l k extra → ReadsI (f (some (t, (k : Int)))) (fields ++ extra) a g q) :
    ReadsI (onBase (decodeTyped l) >>= f) b a g q := by
  obtain ⟨k, extra, hv, hl, rfl⟩ := h
  refine .cast (b := (l.putArrayLen (n + k) ++ l.putInt t) ++ (fields ++ extra))
    (.bind (a := some (t, (k : Int))) (.base ?_) (hf k extra hv)) (by simp)
  unfold decodeTyped
  refine .bind (array_reads L hl) (.bindLast (objectType_reads L ht) (.first (checkExpected_reads hn) ?_))
  rw [show Option.map (fun e => (t, ((n + k : Nat) : Int) - e)) (some (n : Int)) = some (t, (k : Int)) by
    rw [Option.map_some]; congr 2; omega]
  exact .pure _

/-- What reading a metric does to the union. -/
def store : Sample → MetricUnion → MetricUnion
  | .counter c, u => { u with type := CounterType, id := c.id, counterVal := c.value }
  | .timer t, u => { u with type := TimerType, id := t.id, batchTimerVal := t.values }
  | .gauge g, u => { u with type := GaugeType, id := g.id, gaugeVal := g.value }

omit L in
theorem view_store (m : Sample) (u : MetricUnion) : view (store m u) = some m := by
  cases m <;> rfl

omit L in
theorem wlist_f64 : ∀ vs : List F64, WList (fun v b => b = l.putF64 v) vs (vs.flatMap l.putF64) := by
  intro vs
  induction vs with
  | nil => rfl
  | cons v vs ih => exact ⟨_, _, rfl, ih, rfl⟩

theorem kind_reads {m : Sample} (h : WMetric l m b) (p : Bool) :
    ReadsI (decodeKind l (number m p)) b () (store m) (fun x => x) := by
  cases m with
  | counter c =>
    obtain ⟨hv, ib, hi, h⟩ := h
    have : decodeKind l (number (.counter c) p) = decodeCounter l := by cases p <;> rfl
    rw [this]
    refine obj_readsI (n := 2) L rfl h fun k extra he => ?_
    exact .cast (.bind (.metric _) (.bind (.base (id_reads L hi)) (.bind (.metric _) (.bind (.base (varint_reads L hv))
      (.bind (.metric _) (.base (skip_reads L he))))))) (by simp)
  | timer t =>
    obtain ⟨hl, ib, hi, h⟩ := h
    have : decodeKind l (number (.timer t) p) = decodeBatchTimer l := by cases p <;> rfl
    rw [this]
    refine obj_readsI (n := 2) L rfl h fun k extra he => ?_
    refine .cast (.bind (.metric _) (.bind (.base (id_reads L hi)) (.bind (.metric _) (.bind (.base (array_reads L hl))
      (b' := t.values.flatMap l.putF64 ++ ([] ++ extra)) (a' := ())
      (g' := fun u => { u with batchTimerVal := t.values }) (k' := fun x => x) ?_)))) (by simp)
    rw [Int.toNat_natCast]
    exact .cast (.bind (.base (repeat_reads (fun a b hb => hb ▸ f64_reads L) _ _ (wlist_f64 _)))
      (.bind (.metric _) (.base (skip_reads L he)))) rfl
  | gauge g =>
    obtain ⟨ib, hi, h⟩ := h
    have : decodeKind l (number (.gauge g) p) = decodeGauge l := by cases p <;> rfl
    rw [this]
    refine obj_readsI (n := 2) L rfl h fun k extra he => ?_
    exact .cast (.bind (.metric _) (.bind (.base (id_reads L hi)) (.bind (.metric _) (.bind (.base (f64_reads (v := g.value) L))
      (.bind (.metric _) (.base (skip_reads L he))))))) (by simp)

theorem policies_reads (h : WPolicies l x u pl b) : ReadsI (decodePoliciesList l x u) b () (fun x => x) (fun _ => pl) := by
  unfold decodePoliciesList
  rcases h with ⟨rfl, h⟩ | ⟨hl, pb, hp, h⟩
  · refine typed_readsI (t := 10) (n := 1) (fields := []) L (by decide) rfl (by simpa using h) fun k extra he => ?_
    exact .cast (.bind (.policies _) (.base (skip_reads L he))) rfl
  · refine typed_readsI (t := 11) (n := 2) L (by decide) rfl h fun k extra he => ?_
    refine .cast (.bind (.base (array_reads L hl)) (b' := pb ++ ([] ++ extra)) (a' := ())
      (g' := fun x => x) (k' := fun _ => pl) ?_) (by simp)
    rw [Int.toNat_natCast]
    exact .cast (.bind (.base (repeat_reads (fun a b => staged_reads L) _ _ hp)) (.bind (.policies _) (.base (skip_reads L he)))) rfl

omit L in
theorem number_range (m : Sample) (p : Bool) : 0 < number m p ∧ number m p ≤ 22 := by
  cases m <;> cases p <;> simp [number]

theorem bare_body {m : Sample} (hm : WMetric l m mb) (h : Obj l 2 (l.putInt (number m false) ++ mb) b) :
    ReadsI (decodeBody l x u) b true (store m) (fun x => x) := by
  refine obj_readsI (n := 2) L rfl h fun k extra he => ?_
  refine .cast (.bind (.base (objectType_reads L (number_range m false))) (.bind (.base .getErr)
    (b' := mb ++ (extra ++ ([] ++ []))) (a' := true) (g' := store m) (k' := fun x => x) ?_)) (by simp)
  have hp : number m false = counterType ∨ number m false = timerType ∨ number m false = gaugeType := by cases m <;> simp [number, counterType, timerType, gaugeType, counterWithPoliciesListType, batchTimerWithPoliciesListType,
      gaugeWithPoliciesListType]
  simp only [hp, if_true]
  exact .cast (.bind (kind_reads L hm false) (.bind (.base (skip_reads L he)) (.bind (.base .getErr) (.pure _)))) rfl

theorem policies_body {m : Sample} (hm : WMetric l m mb) (hp : WPolicies l x u pl pb) (ho : Obj l 2 (mb ++ pb) ob)
    (h : Obj l 2 (l.putInt (number m true) ++ ob) b) :
    ReadsI (decodeBody l x u) b true (store m) (fun _ => pl) := by
  refine obj_readsI (n := 2) L rfl h fun k extra he => ?_
  refine .cast (.bind (.base (objectType_reads L (number_range m true))) (.bind (.base .getErr)
    (b' := ob ++ (extra ++ ([] ++ []))) (a' := true) (g' := store m) (k' := fun _ => pl) ?_)) (by simp)
  have h1 : ¬ (number m true = counterType ∨ number m true = timerType ∨ number m true = gaugeType) := by cases m <;> simp [number, counterType, timerType, gaugeType, counterWithPoliciesListType, batchTimerWithPoliciesListType,
      gaugeWithPoliciesListType]
  have h2 : number m true = counterWithPoliciesListType ∨ number m true = batchTimerWithPoliciesListType ∨
      number m true = gaugeWithPoliciesListType := by cases m <;> simp [number, counterType, timerType, gaugeType, counterWithPoliciesListType, batchTimerWithPoliciesListType,
      gaugeWithPoliciesListType]
  simp only [h1, h2, if_true, if_false]
  refine .cast (.bind (a := ()) (g := store m) (k := fun _ => pl) ?_ (.bind (.base (skip_reads L he)) (.bind (.base .getErr) (.pure _)))) rfl
  refine obj_readsI (n := 2) L (by cases m <;> rfl) ho fun k extra he => ?_
  exact .cast (.bind (kind_reads L hm true) (.bind (policies_reads L hp) (.base (skip_reads L he)))) (by simp)

/-! ### Messages and streams -/

/-- What is done first by `Next`: the values of the timer are dropped. -/
def drop (u : MetricUnion) : MetricUnion := { u with batchTimerVal := [] }

theorem putInt_length (h : Int64 v) : 0 < (l.putInt v).length := by
  have := L.intReads _ _ _ (by simpa using L.int v [] h)
  simpa using this

theorem nextLoop_end (f : Nat) (it : Iter) (h : it.base = ⟨[], none⟩) (hc : it.closed = false) :
    nextLoop l x u (f + 1) it = (false, { it with metric := drop it.metric, base := ⟨[], some .eof⟩ }) := by
  obtain ⟨base, ig, cl, met, pl⟩ := it
  cases h; cases hc
  simp [nextLoop, onBase, decodeVarint, call, L.intEnd, drop]

theorem nextLoop_body (f : Nat) (h : ReadsI (decodeBody l x u) b true g k) (r : Bytes) (it : Iter)
    (hb : it.base = ⟨l.putInt 1 ++ b ++ r, none⟩) (hc : it.closed = false) :
    nextLoop l x u (f + 1) it =
      (true, { it with base := ⟨r, none⟩, metric := g (drop it.metric), policiesList := k it.policiesList }) := by
  obtain ⟨base, ig, cl, met, pl⟩ := it
  cases hb; cases hc
  have h1 : Int64 1 := by constructor <;> decide
  have h2 : ¬ ((1 : Int) > 1) := by decide
  simp only [nextLoop, onBase, varint_reads L h1 (b ++ r), List.append_assoc, Option.isSome_none, Bool.or_self, if_false, h2,
    Bool.false_eq_true]
  exact h r _ _ _

theorem nextLoop_higher (f : Nat) (hv : 1 < v) (hi : Int64 v) (hl : Len n) (hs : Values l n body) (r : Bytes) (it : Iter)
    (hb : it.base = ⟨l.putInt v ++ (l.putArrayLen n ++ body) ++ r, none⟩) (hc : it.closed = false) (hg : it.ignoreHigherVersion = true) :
    nextLoop l x u (f + 1) it = nextLoop l x u f { it with base := ⟨r, none⟩, metric := drop it.metric } := by
  obtain ⟨base, ig, cl, met, pl⟩ := it
  cases hb; cases hc; cases hg
  have h2 : v > 1 := hv
  simp only [nextLoop, onBase, varint_reads L hi _, array_reads L hl _, skip_reads L hs _, List.append_assoc, Option.isSome_none,
    Bool.or_self, if_false, h2, if_true, Bool.false_eq_true]
  rfl

theorem nextLoop_reject (f : Nat) (hv : 1 < v) (hi : Int64 v) (r : Bytes) (it : Iter)
    (hb : it.base = ⟨l.putInt v ++ r, none⟩) (hc : it.closed = false) (hg : it.ignoreHigherVersion = false) :
    nextLoop l x u (f + 1) it = (false, { it with base := ⟨r, some .other⟩, metric := drop it.metric }) := by
  obtain ⟨base, ig, cl, met, pl⟩ := it
  cases hb; cases hc; cases hg
  have h2 : v > 1 := hv
  simp only [nextLoop, onBase, varint_reads L hi _, Option.isSome_none, Bool.or_self, if_false, h2, if_true, Bool.false_eq_true]
  rfl

/-- A message that is not of a higher version. -/
theorem nextLoop_bare (f : Nat) (h : WItem l x u (.bare m) b) (r : Bytes) (it : Iter)
    (hb : it.base = ⟨b ++ r, none⟩) (hc : it.closed = false) :
    nextLoop l x u (f + 1) it = (true, { it with base := ⟨r, none⟩, metric := store m (drop it.metric) }) := by
  obtain ⟨mb, body, hm, ho, rfl⟩ := h
  exact nextLoop_body L f (bare_body L hm ho) r it hb hc

theorem nextLoop_policies (f : Nat) (h : WItem l x u (.policies m pl) b) (r : Bytes) (it : Iter)
    (hb : it.base = ⟨b ++ r, none⟩) (hc : it.closed = false) :
    nextLoop l x u (f + 1) it = (true, { it with base := ⟨r, none⟩, metric := store m (drop it.metric), policiesList := pl }) := by
  obtain ⟨mb, pb, ob, body, hm, hp, ho, hq, rfl⟩ := h
  exact nextLoop_body L f (policies_body L hm hp ho hq) r it hb hc

theorem item_length {i : Item} (h : WItem l x u i b) : 0 < b.length := by
  have h1 := putInt_length L (v := 1) (by constructor <;> decide)
  cases i with
  | bare m => obtain ⟨mb, body, hm, ho, rfl⟩ := h; simp; omega
  | policies m pl => obtain ⟨mb, pb, ob, body, hm, hp, ho, hq, rfl⟩ := h; simp; omega
  | higher v => obtain ⟨hv, hi, n, body, hn, hs, rfl⟩ := h; have := putInt_length L hi; simp; omega

theorem stream_length : ∀ (is : List Item) (b : Bytes), WList (WItem l x u) is b → is.length ≤ b.length := by
  intro is
  induction is with
  | nil => intro b h; simp
  | cons i is ih =>
    rintro b ⟨ab, rest, hi, hr, rfl⟩
    have := ih rest hr
    have := item_length L hi
    simp; omega

/-- The fuel is enough. -/
theorem nextLoop_fuel : ∀ (is : List Item) (f f' : Nat) (it : Iter), WList (WItem l x u) is it.base.data → is.length < f →
    is.length < f' → nextLoop l x u f it = nextLoop l x u f' it := by
  intro is
  induction is with
  | nil =>
    intro f f' it h hf hf'
    cases f with
    | zero => simp at hf
    | succ f => cases f' with
      | zero => simp at hf'
      | succ f' =>
        cases hc : it.closed with
        | true => simp [nextLoop, hc]
        | false =>
          cases he : it.base.err with
          | some e => simp [nextLoop, he]
          | none =>
            have hb : it.base = ⟨[], none⟩ := by
              obtain ⟨⟨d, e⟩, ig, cl, met, pl⟩ := it
              simp_all [WList]
            rw [nextLoop_end L f it hb hc, nextLoop_end L f' it hb hc]
  | cons i is ih =>
    intro f f' it h hf hf'
    obtain ⟨ab, rest, hi, hr, hd⟩ := h
    cases f with
    | zero => simp at hf
    | succ f => cases f' with
      | zero => simp at hf'
      | succ f' =>
        cases hc : it.closed with
        | true => simp [nextLoop, hc]
        | false =>
          cases he : it.base.err with
          | some e => simp [nextLoop, he]
          | none =>
            have hb : it.base = ⟨ab ++ rest, none⟩ := by
              obtain ⟨⟨d, e⟩, ig, cl, met, pl⟩ := it
              simp_all
            cases i with
            | bare m => rw [nextLoop_bare L f hi rest it hb hc, nextLoop_bare L f' hi rest it hb hc]
            | policies m pl => rw [nextLoop_policies L f hi rest it hb hc, nextLoop_policies L f' hi rest it hb hc]
            | higher v =>
              obtain ⟨hv, hi, n, body, hn, hs, rfl⟩ := hi
              cases hg : it.ignoreHigherVersion with
              | false =>
                rw [List.append_assoc] at hb
                rw [nextLoop_reject L f hv hi _ it hb hc hg, nextLoop_reject L f' hv hi _ it hb hc hg]
              | true =>
                rw [nextLoop_higher L f hv hi hn hs rest it hb hc hg, nextLoop_higher L f' hv hi hn hs rest it hb hc hg]
                exact ih f f' _ hr (by simpa using hf) (by simpa using hf')

end Verif.MP
