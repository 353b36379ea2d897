import Verif.Lemmas.MsgpackWork
import Verif.Props.Msgpack
/- C75: what a msgpack iterator holds is bounded by what it has read. -/
namespace Verif.MP
open Verif.Policy Verif.Meta Verif.Wire Verif.Msg Verif.Spec.MP
open Verif.Spec.Msg (Int64)

/-- The number of staged policies in a list and of the policies in them. -/
def held (pl : List StagedPolicies) : Nat := (pl.map fun p => 1 + p.policies.length).sum

/-- With `c` more, no more than `N` bytes: for the timer values, and for the policies list unless it is still `p0`. -/
def Inv (N : Nat) (p0 : List StagedPolicies) (c : Nat) (it : Iter) : Prop :=
  it.metric.batchTimerVal.length + c + it.base.data.length ≤ N ∧
  (it.policiesList = p0 ∨ held it.policiesList + it.metric.batchTimerVal.length + c + it.base.data.length ≤ N)

/-- Unless there is an error in the end, there was none before, and `P` before leads to `Q` after. -/
def Leads (P : Iter → Prop) (m : D Iter α) (Q : α → Iter → Prop) : Prop :=
  ∀ it, (m it).2.base.err = none → it.base.err = none ∧ (P it → Q (m it).1 (m it).2)

theorem Leads.bind {m : D Iter α} {f : α → D Iter β} (h : Leads P m Q) (h' : ∀ a, Leads (Q a) (f a) R) : Leads P (m >>= f) R := by
  intro it
  show (f (m it).1 (m it).2).2.base.err = none → it.base.err = none ∧ (P it → R (f (m it).1 (m it).2).1 (f (m it).1 (m it).2).2)
  intro he
  obtain ⟨e1, h1⟩ := h' _ _ he
  obtain ⟨e2, h2⟩ := h _ e1
  exact ⟨e2, fun hp => h1 (h2 hp)⟩

theorem Leads.base {m : D Base α} {w : α → Nat} (h : Spends k m w) : Leads (Inv N p0 k) (onBase m) (fun a => Inv N p0 (w a)) := by
  intro it he
  obtain ⟨e, h1⟩ := h it.base he
  refine ⟨e, fun hp => ?_⟩
  show Inv N p0 (w (m it.base).1) { it with base := (m it.base).2 }
  obtain ⟨h2, h3⟩ := hp
  refine ⟨by simp only; omega, ?_⟩
  rcases h3 with h3 | h3
  · exact .inl h3
  · exact .inr (by simp only; omega)

theorem Leads.pure (a : α) (h : ∀ it, P it → Q a it) : Leads P (Pure.pure a : D Iter α) Q := fun it he => ⟨he, fun hp => h it hp⟩

theorem Leads.metric (g : MetricUnion → MetricUnion) (h : ∀ m, (g m).batchTimerVal = m.batchTimerVal) :
    Leads (Inv N p0 k) (setMetric g) (fun _ => Inv N p0 k) := by
  intro it he
  refine ⟨he, fun hp => ?_⟩
  show Inv N p0 k { it with metric := g it.metric }
  unfold Inv at hp ⊢
  simpa only [h] using hp

theorem Leads.timers (vs : List F64) :
    Leads (Inv N p0 (k + vs.length)) (setMetric fun m => { m with batchTimerVal := vs }) (fun _ => Inv N p0 k) := by
  intro it he
  refine ⟨he, fun hp => ?_⟩
  obtain ⟨h2, h3⟩ := hp
  show Inv N p0 k { it with metric := { it.metric with batchTimerVal := vs } }
  refine ⟨by simp only; omega, ?_⟩
  rcases h3 with h3 | h3
  · exact .inl h3
  · exact .inr (by simp only; omega)

theorem Leads.policies (pl : List StagedPolicies) : Leads (Inv N p0 (k + held pl)) (setPolicies pl) (fun _ => Inv N p0 k) := by
  intro it he
  refine ⟨he, fun hp => ?_⟩
  show Inv N p0 k { it with policiesList := pl }
  exact ⟨by have := hp.1; simp only; omega, .inr (by have := hp.1; simp only; omega)⟩

theorem Leads.weaken {m : D Iter α} (h : Leads P m Q) (hp : ∀ it, P' it → P it) (hq : ∀ a it, Q a it → Q' a it) : Leads P' m Q' :=
  fun it he => ⟨(h it he).1, fun p => hq _ _ ((h it he).2 (hp it p))⟩

theorem Inv.less (h : Inv N p0 k it) (hk : k' ≤ k) : Inv N p0 k' it :=
  ⟨by have := h.1; omega, h.2.imp id (fun h => by omega)⟩

section
variable {l : Lib} (C : Consuming l) {x : XTime} {u : Units}
include C

theorem leads_skip (n : Int) : Leads (Inv N p0 k) (onBase (skip l n)) (fun _ => Inv N p0 0) :=
  (Leads.base (skip_spends C n)).weaken (fun _ h => h) (fun _ _ h => h.less (Nat.zero_le _))

theorem leads_counter : Leads (Inv N p0 0) (decodeCounter l) (fun _ => Inv N p0 0) := by
  refine .bind (.base (numFields_spends C _)) fun o => ?_
  cases o with
  | none => exact .pure _ (fun _ h => h.less (Nat.zero_le _))
  | some extra =>
    exact .bind (.metric _ fun _ => rfl) fun _ => .bind (.base (id_spends C)) fun _ => .bind (.metric _ fun _ => rfl) fun _ =>
      .bind (.base (varint_spends C)) fun _ => .bind (.metric _ fun _ => rfl) fun _ => leads_skip C _

theorem leads_gauge : Leads (Inv N p0 0) (decodeGauge l) (fun _ => Inv N p0 0) := by
  refine .bind (.base (numFields_spends C _)) fun o => ?_
  cases o with
  | none => exact .pure _ (fun _ h => h.less (Nat.zero_le _))
  | some extra =>
    exact .bind (.metric _ fun _ => rfl) fun _ => .bind (.base (id_spends C)) fun _ => .bind (.metric _ fun _ => rfl) fun _ =>
      .bind (.base (float_spends C)) fun _ => .bind (.metric _ fun _ => rfl) fun _ => leads_skip C _

theorem leads_timer : Leads (Inv N p0 0) (decodeBatchTimer l) (fun _ => Inv N p0 0) := by
  refine .bind (.base (numFields_spends C _)) fun o => ?_
  cases o with
  | none => exact .pure _ (fun _ h => h.less (Nat.zero_le _))
  | some extra =>
    refine .bind (.metric _ fun _ => rfl) fun _ => .bind (.base (id_spends C)) fun _ => .bind (.metric _ fun _ => rfl) fun _ =>
      .bind (.base (arrayLen_spends C)) fun n => .bind (.base (repeat_spends (float_spends C (k := 0)) _)) fun vs =>
      .bind (Q := fun _ => Inv N p0 (0 + 1 + 1)) ?_ fun _ => leads_skip C _
    refine (Leads.timers (k := 0 + 1 + 1) vs).weaken (fun it h => ?_) (fun _ _ h => h)
    have : (vs.map fun _ => 0 + 1).sum = vs.length := sum_ones vs
    rw [this] at h
    exact h

theorem leads_kind (t : Int) : Leads (Inv N p0 0) (decodeKind l t) (fun _ => Inv N p0 0) := by
  unfold decodeKind
  split
  · exact leads_counter C
  split
  · exact leads_timer C
  · exact leads_gauge C

theorem leads_err : Leads P (onBase (setErr (some e))) Q := fun _ he => by cases he

theorem leads_policies : Leads (Inv N p0 0) (decodePoliciesList l x u) (fun _ => Inv N p0 0) := by
  refine .bind (.base (typed_spends C)) fun o => ?_
  cases o with
  | none => exact .pure _ (fun _ h => h.less (Nat.zero_le _))
  | some p =>
    obtain ⟨t, extra⟩ := p
    show Leads _ (if _ then _ else _) _
    split
    · exact .bind (Q := fun _ => Inv N p0 0) ((Leads.policies (k := 0) defaultPoliciesList).weaken (fun _ h => h) (fun _ _ h => h))
        fun _ => leads_skip C _
    split
    · exact .bind (.base (arrayLen_spends C)) fun n => .bind (.base (repeat_spends (staged_spends C) _)) fun pl =>
        .bind (.policies pl) fun _ => leads_skip C _
    · exact .bind (Q := fun _ => Inv N p0 0) (leads_err C) fun _ => leads_skip C _

theorem leads_withPolicies (t : Int) : Leads (Inv N p0 0) (decodeMetricWithPolicies l x u t) (fun _ => Inv N p0 0) := by
  refine .bind (.base (numFields_spends C _)) fun o => ?_
  cases o with
  | none => exact .pure _ (fun _ h => h.less (Nat.zero_le _))
  | some extra =>
    exact .bind ((leads_kind C t).weaken (fun _ h => h.less (Nat.zero_le _)) (fun _ _ h => h)) fun _ =>
      .bind (leads_policies C) fun _ => leads_skip C _

theorem leads_body : Leads (Inv N p0 0) (decodeBody l x u) (fun _ => Inv N p0 0) := by
  refine .bind (.base (numFields_spends C _)) fun o => ?_
  cases o with
  | none => exact .pure _ (fun _ h => h.less (Nat.zero_le _))
  | some extra =>
    refine .bind (.base (objectType_spends C)) fun t => .bind (.base .getErr) fun e => ?_
    cases e with
    | some e => exact .pure _ (fun _ h => h.less (Nat.zero_le _))
    | none =>
      have rest : Leads (Inv N p0 0) (do onBase (skip l extra); let e ← onBase getErr; return e.isNone) (fun _ => Inv N p0 0) :=
        .bind (leads_skip C _) fun _ => .bind (.base .getErr) fun _ => .pure _ (fun _ h => h)
      show Leads _ (if _ then _ else _) _
      split
      · exact .bind ((leads_kind C t).weaken (fun _ h => h.less (Nat.zero_le _)) (fun _ _ h => h)) fun _ => rest
      split
      · exact .bind ((leads_withPolicies C t).weaken (fun _ h => h.less (Nat.zero_le _)) (fun _ _ h => h)) fun _ => rest
      · exact .bind (Q := fun _ => Inv N p0 0) (leads_err C) fun _ => rest

/-- Success is reported only without an error. -/
def Tells (m : D Iter Bool) : Prop := ∀ it, (m it).1 = true → (m it).2.base.err = none

omit C in
theorem Tells.bind {m : D Iter α} {f : α → D Iter Bool} (h : ∀ a, Tells (f a)) : Tells (m >>= f) := fun it he => h (m it).1 (m it).2 he

omit C in
theorem Tells.no : Tells (Pure.pure false) := fun _ h => by cases h

omit C in
theorem body_tells : Tells (decodeBody l x u) := by
  refine .bind fun o => ?_
  cases o with
  | none => exact .no
  | some extra =>
    refine .bind fun t => .bind fun e => ?_
    cases e with
    | some e => exact .no
    | none =>
      have rest : Tells (do onBase (skip l extra); let e ← onBase getErr; return e.isNone) := by
        refine .bind fun _ it h => ?_
        have : it.base.err.isNone = true := h
        show it.base.err = none
        cases he : it.base.err with
        | none => rfl
        | some e => rw [he] at this; cases this
      show Tells (if _ then _ else _)
      split
      · exact .bind fun _ => rest
      split
      · exact .bind fun _ => rest
      · exact .bind fun _ => rest

/-- `Next` takes what it delivers from the input. -/
theorem nextLoop_bound : ∀ (f : Nat) (it : Iter), (nextLoop l x u f it).1 = true →
    (nextLoop l x u f it).2.metric.batchTimerVal.length + (nextLoop l x u f it).2.base.data.length ≤ it.base.data.length ∧
    ((nextLoop l x u f it).2.policiesList = it.policiesList ∨
      held (nextLoop l x u f it).2.policiesList + (nextLoop l x u f it).2.metric.batchTimerVal.length +
        (nextLoop l x u f it).2.base.data.length ≤ it.base.data.length)
  | 0, it, h => by cases h
  | f + 1, it, h => by
    unfold nextLoop at h ⊢
    by_cases hstop : (it.base.err.isSome || it.closed) = true
    · rw [if_pos hstop] at h; cases h
    rw [if_neg hstop] at h ⊢
    simp only at h ⊢
    generalize hv : onBase (decodeVarint l) { it with metric := { it.metric with batchTimerVal := [] } } = w at h ⊢
    obtain ⟨version, it1⟩ := w
    simp only at h ⊢
    by_cases he : it1.base.err.isSome = true
    · rw [if_pos he] at h; cases h
    rw [if_neg he] at h ⊢
    have he1 : it1.base.err = none := by cases h0 : it1.base.err with | none => rfl | some e => rw [h0] at he; exact absurd rfl he
    have hi := (Leads.base (N := it.base.data.length) (p0 := it.policiesList) (varint_spends C (k := 0)))
      { it with metric := { it.metric with batchTimerVal := [] } }
    rw [hv] at hi
    have hi1 := ((hi he1).2 ⟨by simp, .inl rfl⟩).less (Nat.zero_le _)
    simp only at hi1
    by_cases hver : version > 1
    · rw [if_pos hver] at h ⊢
      by_cases hg : it1.ignoreHigherVersion = true
      · rw [if_pos hg] at h ⊢
        generalize hn : onBase (decodeArrayLen l) it1 = w at h ⊢
        obtain ⟨n, it2⟩ := w
        simp only at h ⊢
        generalize hk : onBase (skip l n) it2 = w at h ⊢
        obtain ⟨_, it3⟩ := w
        simp only at h ⊢
        have he3 : it3.base.err = none := by
          cases h0 : it3.base.err with
          | none => rfl
          | some e =>
            exfalso
            cases f with
            | zero => cases h
            | succ f => unfold nextLoop at h; rw [if_pos (by simp [h0])] at h; cases h
        obtain ⟨e2, l2⟩ := leads_skip C (N := it.base.data.length) (p0 := it.policiesList) (k := 1) n it2 (by rw [hk]; exact he3)
        obtain ⟨e1, l1⟩ := Leads.base (N := it.base.data.length) (p0 := it.policiesList) (arrayLen_spends C (k := 0)) it1 (by rw [hn]; exact e2)
        rw [hn] at l1
        rw [hk] at l2
        have hi3 := l2 (l1 hi1)
        obtain ⟨b1, b2⟩ := nextLoop_bound f it3 h
        obtain ⟨c1, c2⟩ := hi3
        simp only at c1 c2
        refine ⟨by omega, ?_⟩
        rcases b2 with b2 | b2
        · rw [b2]
          rcases c2 with c2 | c2
          · exact .inl c2
          · exact .inr (by omega)
        · exact .inr (by omega)
      · rw [if_neg hg] at h; cases h
    · rw [if_neg hver] at h ⊢
      have ht := body_tells it1 h
      obtain ⟨_, l1⟩ := leads_body C (N := it.base.data.length) (p0 := it.policiesList) (x := x) (u := u) it1 ht
      obtain ⟨c1, c2⟩ := l1 hi1
      refine ⟨by omega, ?_⟩
      rcases c2 with c2 | c2
      · exact .inl c2
      · exact .inr (by omega)

/-- C75 (in part): if `Next` returns true, then the timer values together with what is left are no more than the bytes there were;
and so are the staged policies and policies together with the timer values, if the list is not the one of an earlier message.
Missing: this also if `Next` returns false. -/
theorem C75_next_partial (it it' : Iter) (h : next l x u it = (true, it')) :
    it'.metric.batchTimerVal.length + it'.base.data.length ≤ it.base.data.length ∧
    (it'.policiesList = it.policiesList ∨
      held it'.policiesList + it'.metric.batchTimerVal.length + it'.base.data.length ≤ it.base.data.length) := by
  have := nextLoop_bound C (x := x) (u := u) (it.base.data.length + 2) it
  unfold next at h
  rw [h] at this
  exact this rfl

/-- The timer values of a delivered metric. -/
def timers : Option Sample → Nat
  | some (.timer t) => t.values.length
  | _ => 0

omit C in
theorem timers_view (m : MetricUnion) : timers (view m) ≤ m.batchTimerVal.length := by
  unfold view
  repeat' split
  all_goals simp [timers, MetricUnion.batchTimer]

/-- C75 (in part): of all metrics delivered from an input together, there are no more timer values than bytes, and no list of
policies has more staged policies and policies than bytes, unless it was there before.  Missing: see `C75_next_partial`. -/
theorem C75_stream_partial : ∀ (n : Nat) (it : Iter),
    (((drain l x u n it).1.map fun m => timers m.1).sum ≤ it.base.data.length) ∧
    (∀ m ∈ (drain l x u n it).1, m.2 = it.policiesList ∨ held m.2 ≤ it.base.data.length)
  | 0, it => by simp [drain]
  | n + 1, it => by
    unfold drain
    cases hn : next l x u it with
    | mk b it' =>
      cases b with
      | false => simp
      | true =>
        simp only
        obtain ⟨h1, h2⟩ := C75_next_partial C it it' hn
        obtain ⟨h3, h4⟩ := C75_stream_partial n it'
        have h5 := timers_view it'.metric
        refine ⟨by simp only [List.map_cons, List.sum_cons]; omega, ?_⟩
        intro m hm
        rcases List.mem_cons.mp hm with rfl | hm
        · simp only
          rcases h2 with h2 | h2
          · exact .inl h2
          · exact .inr (by omega)
        · rcases h4 m hm with h4 | h4
          · rw [h4]
            rcases h2 with h2 | h2
            · exact .inl h2
            · exact .inr (by omega)
          · exact .inr (by omega)
end

/-! ### An announced number of values is believed -/

theorem repeat_stopped {l : Lib} {e : Err} : ∀ n, repeatD (decodeFloat64 l) n ⟨[], some e⟩ = (List.replicate n 0, ⟨[], some e⟩)
  | 0 => rfl
  | n + 1 => by
    have h0 : decodeFloat64 l ⟨[], some e⟩ = (0, ⟨[], some e⟩) := rfl
    show (match decodeFloat64 l ⟨[], some e⟩ with | (a, s') => match repeatD (decodeFloat64 l) n s' with | (r, s'') => (a :: r, s'')) = _
    rw [h0]
    simp only [repeat_stopped n]
    rfl

theorem repeat_end {l : Lib} {e : Err} (h : l.getF64 [] = .error e) (n : Nat) :
    repeatD (decodeFloat64 l) (n + 1) ⟨[], none⟩ = (List.replicate (n + 1) 0, ⟨[], some e⟩) := by
  have h0 : decodeFloat64 l ⟨[], none⟩ = (0, ⟨[], some e⟩) := by simp [decodeFloat64, MP.call, h]
  show (match decodeFloat64 l ⟨[], none⟩ with | (a, s') => match repeatD (decodeFloat64 l) n s' with | (r, s'') => (a :: r, s'')) = _
  rw [h0]
  simp only [repeat_stopped n]
  rfl

/-- A timer that announces `n` values and has none. -/
def announce (l : Lib) (n : Nat) : Bytes :=
  l.putInt 1 ++ (l.putArrayLen 2 ++ (l.putInt 7 ++ (l.putArrayLen 2 ++ (l.putBytes (some []) ++ l.putArrayLen n))))

theorem bind_eq {m : D σ α} {f : α → D σ β} (h : m s = (a, s1)) (h' : f a s1 = (b, s2)) : (m >>= f) s = (b, s2) := by
  show (match m s with | (a, s') => f a s') = _
  rw [h]
  exact h'

theorem ReadsI.eq {m : D Iter α} (h : ReadsI m b a g k) (r : Bytes) (ig : Bool) (met : MetricUnion) (pl : List StagedPolicies) :
    m ⟨⟨b ++ r, none⟩, ig, false, met, pl⟩ = (a, ⟨⟨r, none⟩, ig, false, g met, k pl⟩) := h r ig met pl

theorem fields_reads {l : Lib} (L : Laws l) (t : Int) (ht : numFieldsForType t = 2) : Reads (checkNumFields l t) (l.putArrayLen 2) (some 0) :=
  .cast (.bind (array_reads L (n := 2) (by unfold Len; decide)) (.bind (checkExpected_reads (k := 0) ht) (.pure _))) (by simp)

theorem emptyID_reads {l : Lib} (L : Laws l) : Reads (decodeID l) (l.putBytes (some [])) [] := by
  intro r
  have h : decodeBytesLen l ⟨l.putBytes (some []) ++ r, none⟩ = (0, ⟨r, none⟩) := by
    rw [L.bytesForm [] (by unfold Len; decide), List.append_nil]
    exact Reads.call (fun r => L.chunkedLen 0 r (by unfold Len; decide)) r
  unfold decodeID
  rw [h]
  simp

/-- The timer is decoded to as many zeros. -/
theorem announce_timer {l : Lib} (L : Laws l) {e : Err} (he : l.getF64 [] = .error e) (n : Nat) (hn : n + 1 < 4294967296) (ig : Bool)
    (met : MetricUnion) (pl : List StagedPolicies) :
    decodeBatchTimer l ⟨⟨l.putArrayLen 2 ++ (l.putBytes (some []) ++ l.putArrayLen (n + 1)), none⟩, ig, false, met, pl⟩ =
      ((), ⟨⟨[], some e⟩, ig, false, { met with type := TimerType, id := [], batchTimerVal := List.replicate (n + 1) 0 }, pl⟩) := by
  unfold decodeBatchTimer
  refine bind_eq (ReadsI.base (fields_reads L timerType rfl) _ _ _ _) ?_
  refine bind_eq (a := ()) rfl ?_
  refine bind_eq (ReadsI.base (emptyID_reads L) _ _ _ _) ?_
  refine bind_eq (a := ()) rfl ?_
  have ha := ReadsI.base (array_reads L (n := n + 1) hn) [] ig { met with type := TimerType, id := [] } pl
  rw [List.append_nil] at ha
  refine bind_eq ha ?_
  refine bind_eq (a := List.replicate (n + 1) 0) (s1 := ⟨⟨[], some e⟩, ig, false, { met with type := TimerType, id := [] }, pl⟩) ?_ ?_
  · show onBase (repeatD (decodeFloat64 l) (n + 1)) _ = _
    unfold onBase
    simp only [repeat_end he n]
  · exact bind_eq (a := ()) rfl rfl

/-- C75 fails: an iterator holds as many timer values as the input announces, up to 2^32 - 1, although `Next` returns false and the
input has none. -/
theorem C75_believed {l : Lib} (L : Laws l) {e : Err} (he : l.getF64 [] = .error e) (x : XTime) (u : Units) (n : Nat) (hn : n + 1 < 4294967296)
    (it : Iter) (h : At it (announce l (n + 1))) :
    ∃ it', next l x u it = (false, it') ∧ it'.metric.batchTimerVal = List.replicate (n + 1) 0 ∧ it'.base = ⟨[], some e⟩ := by
  obtain ⟨base, ig, cl, met, pl⟩ := it
  obtain ⟨hb, hc⟩ := h
  simp only at hb hc
  subst hb hc
  have h1 : ∀ met, onBase (decodeVarint l) ⟨⟨announce l (n + 1), none⟩, ig, false, met, pl⟩ = _ := fun met =>
    ReadsI.base (varint_reads L (v := 1) (by constructor <;> decide)) _ ig met pl
  unfold next nextLoop
  rw [if_neg (by simp)]
  simp only [h1]
  rw [if_neg (by simp), if_neg (by decide)]
  have hb : decodeBody l x u ⟨⟨l.putArrayLen 2 ++ (l.putInt 7 ++ (l.putArrayLen 2 ++ (l.putBytes (some []) ++ l.putArrayLen (n + 1)))), none⟩,
      ig, false, { met with batchTimerVal := [] }, pl⟩ =
      (false, ⟨⟨[], some e⟩, ig, false, { met with type := TimerType, id := [], batchTimerVal := List.replicate (n + 1) 0 }, pl⟩) := by
    unfold decodeBody
    refine bind_eq (ReadsI.base (fields_reads L rootObjectType rfl) _ _ _ _) ?_
    refine bind_eq (ReadsI.base (objectType_reads L (t := 7) (by decide)) _ _ _ _) ?_
    refine bind_eq (a := none) rfl ?_
    refine bind_eq (announce_timer L he n hn ig _ pl) ?_
    exact bind_eq (a := ()) rfl rfl
  rw [hb]
  exact ⟨_, rfl, rfl, rfl⟩

/-- For the library: an input of eleven bytes. -/
theorem C75_violation : ∃ (d : Bytes) (it : Iter), d.length = 11 ∧ next std unitX exU (new d false) = (false, it) ∧
    it.metric.batchTimerVal.length = 4294967295 ∧ it.base.err = some .eof := by
  obtain ⟨it, h1, h2, h3⟩ := C75_believed std_laws (e := .eof) rfl unitX exU 4294967294 (by decide) (new (announce std 4294967295) false) (at_new _ _)
  refine ⟨announce std 4294967295, it, by decide +kernel, h1, by rw [h2, List.length_replicate], by rw [h3]⟩

/-- The timer of the example messages: three values from more than three bytes. -/
example : Consuming std ∧ ((drain std unitX exU 9 (new (exMessages.flatMap fun m => encodeMetricWithPolicies std exU m.isNil m.policies m.sample)
    false)).1.map fun m => timers m.1).sum = 3 := ⟨std_consuming, by decide +kernel⟩

end Verif.MP
