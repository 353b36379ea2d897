import Verif.Lemmas.MsgpackExact
/- Exactly which bytes the unaggregated iterator reads as a message: its decoders as decoders of the base iterator that return the message. -/
namespace Verif.MP
open Verif.Policy Verif.Meta Verif.Wire Verif.Msg Verif.Spec.MP

section
variable (l : Lib) (x : XTime) (u : Units)

/-- `decodeCounter`, `decodeBatchTimer` and `decodeGauge` with the metric as their value. -/
def readCounter : D Base Sample := checkNumFields l counterType >>= fun o => match o with
  | none => Pure.pure (.counter {})
  | some k => decodeID l >>= fun id => decodeVarint l >>= fun v => skip l k >>= fun _ => Pure.pure (.counter { id := id, value := v })

def readTimer : D Base Sample := checkNumFields l timerType >>= fun o => match o with
  | none => Pure.pure (.timer {})
  | some k => decodeID l >>= fun id => decodeArrayLen l >>= fun n => repeatD (decodeFloat64 l) n.toNat >>= fun vs => skip l k >>= fun _ =>
      Pure.pure (.timer { id := id, values := vs })

def readGauge : D Base Sample := checkNumFields l gaugeType >>= fun o => match o with
  | none => Pure.pure (.gauge {})
  | some k => decodeID l >>= fun id => decodeFloat64 l >>= fun v => skip l k >>= fun _ => Pure.pure (.gauge { id := id, value := v })

def readKind (t : Int) : D Base Sample :=
  if t = counterType ∨ t = counterWithPoliciesListType then readCounter l
  else if t = timerType ∨ t = batchTimerWithPoliciesListType then readTimer l
  else readGauge l

def readPolicies : D Base (List StagedPolicies) := decodeTyped l >>= fun o => match o with
  | none => Pure.pure []
  | some (t, k) =>
    if t = defaultPoliciesListType then (skip l k >>= fun _ => Pure.pure defaultPoliciesList)
    else if t = customPoliciesListType then
      (decodeArrayLen l >>= fun n => repeatD (decodeStagedPolicies l x u) n.toNat >>= fun pl => skip l k >>= fun _ => Pure.pure pl)
    else (setErr (some .other) >>= fun _ => skip l k >>= fun _ => Pure.pure [])

def readWith (t : Int) : D Base (Sample × List StagedPolicies) := checkNumFields l t >>= fun o => match o with
  | none => Pure.pure (.counter {}, [])
  | some k => readKind l t >>= fun m => readPolicies l x u >>= fun pl => skip l k >>= fun _ => Pure.pure (m, pl)

def readObject (t : Int) : D Base (Sample × Option (List StagedPolicies)) :=
  if t = counterType ∨ t = timerType ∨ t = gaugeType then (readKind l t >>= fun m => Pure.pure (m, none))
  else if t = counterWithPoliciesListType ∨ t = batchTimerWithPoliciesListType ∨ t = gaugeWithPoliciesListType then
    (readWith l x u t >>= fun w => Pure.pure (w.1, some w.2))
  else (setErr (some .other) >>= fun _ => Pure.pure (.counter {}, none))

def readBody : D Base (Sample × Option (List StagedPolicies)) := checkNumFields l rootObjectType >>= fun o => match o with
  | none => Pure.pure (.counter {}, none)
  | some k => decodeObjectType l >>= fun t => getErr >>= fun e => match e with
    | some _ => Pure.pure (.counter {}, none)
    | none => readObject l x u t >>= fun m => skip l k >>= fun _ => Pure.pure m

/-- The end of `decodeBody`, after the type. -/
def decodeRest (t k : Int) : D Iter Bool := do
  if t = counterType ∨ t = timerType ∨ t = gaugeType then decodeKind l t
  else if t = counterWithPoliciesListType ∨ t = batchTimerWithPoliciesListType ∨ t = gaugeWithPoliciesListType then
    decodeMetricWithPolicies l x u t
  else onBase (setErr (some .other))
  onBase (skip l k)
  let e ← onBase getErr
  return e.isNone
end

section
variable {l : Lib} {x : XTime} {u : Units}

theorem expected_none {t n : Int} {s s' : Base} (h : checkExpected t n s = (none, s')) : s'.err ≠ none := by
  obtain ⟨d, e⟩ := s
  cases e with
  | some e => cases h; simp
  | none =>
    have e1 : checkExpected t n ⟨d, none⟩ = if (numFieldsForType t : Int) > n then (none, ⟨d, some .other⟩)
        else (some (numFieldsForType t : Int), ⟨d, none⟩) := rfl
    rw [e1] at h
    split at h
    · cases h; simp
    · cases h

theorem fields_none {t : Int} {s s' : Base} (h : checkNumFields l t s = (none, s')) : s'.err ≠ none := by
  have e1 : checkNumFields l t s = ((checkExpected t (decodeArrayLen l s).1 (decodeArrayLen l s).2).1.map fun e => (decodeArrayLen l s).1 - e,
    (checkExpected t (decodeArrayLen l s).1 (decodeArrayLen l s).2).2) := rfl
  rw [e1] at h
  rcases h2 : checkExpected t (decodeArrayLen l s).1 (decodeArrayLen l s).2 with ⟨o, s2⟩
  rw [h2] at h
  cases o with
  | some o => cases h
  | none => cases h; exact expected_none h2

theorem typed_none {s s' : Base} (h : decodeTyped l s = (none, s')) : s'.err ≠ none := by
  have e1 : decodeTyped l s = ((checkExpected (decodeObjectType l (decodeArrayLen l s).2).1 (decodeArrayLen l s).1 (decodeObjectType l (decodeArrayLen l s).2).2).1.map fun e =>
      ((decodeObjectType l (decodeArrayLen l s).2).1, (decodeArrayLen l s).1 - e),
    (checkExpected (decodeObjectType l (decodeArrayLen l s).2).1 (decodeArrayLen l s).1 (decodeObjectType l (decodeArrayLen l s).2).2).2) := rfl
  rw [e1] at h
  rcases h2 : checkExpected (decodeObjectType l (decodeArrayLen l s).2).1 (decodeArrayLen l s).1 (decodeObjectType l (decodeArrayLen l s).2).2 with ⟨o, s2⟩
  rw [h2] at h
  cases o with
  | some o => cases h
  | none => cases h; exact expected_none h2

/-- Reading a metric: the base iterator does the same, and without an error the metric is stored. -/
def KindSim (m : D Iter Unit) (b : D Base Sample) : Prop :=
  ∀ it, ∃ met, m it = ((), { it with base := (b it.base).2, metric := met }) ∧ ((b it.base).2.err = none → met = store (b it.base).1 it.metric)

theorem run_iter (m : D Base α) (f : α → D Iter β) (it : Iter) : (onBase m >>= f) it = f (m it.base).1 { it with base := (m it.base).2 } := rfl

theorem counter_sim : KindSim (decodeCounter l) (readCounter l) := by
  intro it
  rcases h : checkNumFields l counterType it.base with ⟨o, s⟩
  cases o with
  | none =>
    have e1 : decodeCounter l it = ((), { it with base := s }) := by
      show (onBase (checkNumFields l counterType) >>= _) it = _
      rw [run_iter, h]
      rfl
    have e2 : readCounter l it.base = (.counter {}, s) := by
      show (checkNumFields l counterType >>= _) it.base = _
      rw [bind_run, h]
      rfl
    rw [e1, e2]
    exact ⟨it.metric, rfl, fun he => absurd he (fields_none h)⟩
  | some k =>
    have e1 : decodeCounter l it = ((), { it with
        base := (skip l k (decodeVarint l (decodeID l s).2).2).2
        metric := store (.counter { id := (decodeID l s).1, value := (decodeVarint l (decodeID l s).2).1 }) it.metric }) := by
      show (onBase (checkNumFields l counterType) >>= _) it = _
      rw [run_iter, h]
      rfl
    have e2 : readCounter l it.base = (.counter { id := (decodeID l s).1, value := (decodeVarint l (decodeID l s).2).1 }, (skip l k (decodeVarint l (decodeID l s).2).2).2) := by
      show (checkNumFields l counterType >>= _) it.base = _
      rw [bind_run, h]
      rfl
    rw [e1, e2]
    exact ⟨_, rfl, fun _ => rfl⟩

theorem gauge_sim : KindSim (decodeGauge l) (readGauge l) := by
  intro it
  rcases h : checkNumFields l gaugeType it.base with ⟨o, s⟩
  cases o with
  | none =>
    have e1 : decodeGauge l it = ((), { it with base := s }) := by
      show (onBase (checkNumFields l gaugeType) >>= _) it = _
      rw [run_iter, h]
      rfl
    have e2 : readGauge l it.base = (.gauge {}, s) := by
      show (checkNumFields l gaugeType >>= _) it.base = _
      rw [bind_run, h]
      rfl
    rw [e1, e2]
    exact ⟨it.metric, rfl, fun he => absurd he (fields_none h)⟩
  | some k =>
    have e1 : decodeGauge l it = ((), { it with
        base := (skip l k (decodeFloat64 l (decodeID l s).2).2).2
        metric := store (.gauge { id := (decodeID l s).1, value := (decodeFloat64 l (decodeID l s).2).1 }) it.metric }) := by
      show (onBase (checkNumFields l gaugeType) >>= _) it = _
      rw [run_iter, h]
      rfl
    have e2 : readGauge l it.base = (.gauge { id := (decodeID l s).1, value := (decodeFloat64 l (decodeID l s).2).1 }, (skip l k (decodeFloat64 l (decodeID l s).2).2).2) := by
      show (checkNumFields l gaugeType >>= _) it.base = _
      rw [bind_run, h]
      rfl
    rw [e1, e2]
    exact ⟨_, rfl, fun _ => rfl⟩

theorem timer_sim : KindSim (decodeBatchTimer l) (readTimer l) := by
  intro it
  rcases h : checkNumFields l timerType it.base with ⟨o, s⟩
  cases o with
  | none =>
    have e1 : decodeBatchTimer l it = ((), { it with base := s }) := by
      show (onBase (checkNumFields l timerType) >>= _) it = _
      rw [run_iter, h]
      rfl
    have e2 : readTimer l it.base = (.timer {}, s) := by
      show (checkNumFields l timerType >>= _) it.base = _
      rw [bind_run, h]
      rfl
    rw [e1, e2]
    exact ⟨it.metric, rfl, fun he => absurd he (fields_none h)⟩
  | some k =>
    have e1 : decodeBatchTimer l it = ((), { it with
        base := (skip l k (repeatD (decodeFloat64 l) (decodeArrayLen l (decodeID l s).2).1.toNat (decodeArrayLen l (decodeID l s).2).2).2).2
        metric := store (.timer { id := (decodeID l s).1, values := (repeatD (decodeFloat64 l) (decodeArrayLen l (decodeID l s).2).1.toNat (decodeArrayLen l (decodeID l s).2).2).1 }) it.metric }) := by
      show (onBase (checkNumFields l timerType) >>= _) it = _
      rw [run_iter, h]
      rfl
    have e2 : readTimer l it.base = (.timer { id := (decodeID l s).1, values := (repeatD (decodeFloat64 l) (decodeArrayLen l (decodeID l s).2).1.toNat (decodeArrayLen l (decodeID l s).2).2).1 }, (skip l k (repeatD (decodeFloat64 l) (decodeArrayLen l (decodeID l s).2).1.toNat (decodeArrayLen l (decodeID l s).2).2).2).2) := by
      show (checkNumFields l timerType >>= _) it.base = _
      rw [bind_run, h]
      rfl
    rw [e1, e2]
    exact ⟨_, rfl, fun _ => rfl⟩

theorem kind_sim (t : Int) : KindSim (decodeKind l t) (readKind l t) := by
  unfold decodeKind readKind
  split
  · exact counter_sim
  split
  · exact timer_sim
  · exact gauge_sim

theorem policies_sim (it : Iter) : ∃ pl, decodePoliciesList l x u it = ((), { it with base := (readPolicies l x u it.base).2, policiesList := pl }) ∧
    ((readPolicies l x u it.base).2.err = none → pl = (readPolicies l x u it.base).1) := by
  rcases h : decodeTyped l it.base with ⟨o, s⟩
  unfold decodePoliciesList readPolicies
  simp only [run_iter, bind_run, h]
  cases o with
  | none => exact ⟨it.policiesList, rfl, fun he => absurd he (typed_none h)⟩
  | some p =>
    obtain ⟨t, k⟩ := p
    simp only
    by_cases h1 : t = defaultPoliciesListType
    · simp only [if_pos h1]
      exact ⟨_, rfl, fun _ => rfl⟩
    simp only [if_neg h1]
    by_cases h2 : t = customPoliciesListType
    · simp only [if_pos h2]
      exact ⟨_, rfl, fun _ => rfl⟩
    · simp only [if_neg h2]
      exact ⟨it.policiesList, rfl, fun he => by cases he⟩

end

section
variable {l : Lib} (C : Delim l) {x : XTime} {u : Units}
include C

theorem counter_exact : Exact (readCounter l) (fun m p => ∃ c, m = .counter c ∧ Metric l (.counter c) p) := by
  have h1 : ∀ id (k : Int), Exact (decodeVarint l >>= fun v => skip l k >>= fun _ => Pure.pure (Sample.counter { id := id, value := v })) _ := fun id k =>
    (varint_exact C).bind (fun v _ => (skip_exact C k).map (fun _ => Sample.counter { id := id, value := v })) fun v => last_stays C k _
  have h2 : ∀ k : Int, Exact (decodeID l >>= fun id => decodeVarint l >>= fun v => skip l k >>= fun _ => Pure.pure (Sample.counter { id := id, value := v })) _ := fun k =>
    (id_exact C).bind (fun id _ => h1 id k) fun id => (h1 id k).stays
  refine (object_exact C (α := Sample) (t := counterType) (F := fun m => match m with
      | .counter c => [Ident l c.id, As l.getInt c.value]
      | _ => [fun _ => False, fun _ => False]) (fun m => by cases m <;> rfl) (.pure _) (fun k => (h2 k).congr fun a p => ?_) fun k => (h2 k).stays).congr fun m p => ?_
  · constructor
    · rintro ⟨r, q, _, h3, ⟨t, q1, q2, h4, ⟨_, rfl, _, h5⟩, rfl⟩, rfl⟩
      exact ⟨q ++ q1, q2, ⟨q, q1, h3, seq_one.mpr h4, rfl⟩, h5, by simp⟩
    · rintro ⟨_, r, hs, h5, rfl⟩
      cases a with
      | counter c =>
        obtain ⟨q, q1, h3, h4, rfl⟩ := hs
        exact ⟨c.id, q, q1 ++ r, h3, ⟨c.value, q1, r, seq_one.mp h4, ⟨(), rfl, by omega, h5⟩, rfl⟩, by simp⟩
      | timer c => obtain ⟨_, _, hf, _⟩ := hs; exact hf.elim
      | gauge c => obtain ⟨_, _, hf, _⟩ := hs; exact hf.elim
  · constructor
    · intro h
      cases m with
      | counter c => exact ⟨c, rfl, h⟩
      | timer c => obtain ⟨_, _, _, _, _, ⟨_, _, hf, _⟩, _⟩ := h; exact hf.elim
      | gauge c => obtain ⟨_, _, _, _, _, ⟨_, _, hf, _⟩, _⟩ := h; exact hf.elim
    · rintro ⟨c, rfl, h⟩; exact h

theorem gauge_exact : Exact (readGauge l) (fun m p => ∃ c, m = .gauge c ∧ Metric l (.gauge c) p) := by
  have h1 : ∀ id (k : Int), Exact (decodeFloat64 l >>= fun v => skip l k >>= fun _ => Pure.pure (Sample.gauge { id := id, value := v })) _ := fun id k =>
    (float_exact C).bind (fun v _ => (skip_exact C k).map (fun _ => Sample.gauge { id := id, value := v })) fun v => last_stays C k _
  have h2 : ∀ k : Int, Exact (decodeID l >>= fun id => decodeFloat64 l >>= fun v => skip l k >>= fun _ => Pure.pure (Sample.gauge { id := id, value := v })) _ := fun k =>
    (id_exact C).bind (fun id _ => h1 id k) fun id => (h1 id k).stays
  refine (object_exact C (α := Sample) (t := gaugeType) (F := fun m => match m with
      | .gauge c => [Ident l c.id, As l.getF64 c.value]
      | _ => [fun _ => False, fun _ => False]) (fun m => by cases m <;> rfl) (.pure _) (fun k => (h2 k).congr fun a p => ?_) fun k => (h2 k).stays).congr fun m p => ?_
  · constructor
    · rintro ⟨r, q, _, h3, ⟨t, q1, q2, h4, ⟨_, rfl, _, h5⟩, rfl⟩, rfl⟩
      exact ⟨q ++ q1, q2, ⟨q, q1, h3, seq_one.mpr h4, rfl⟩, h5, by simp⟩
    · rintro ⟨_, r, hs, h5, rfl⟩
      cases a with
      | gauge c =>
        obtain ⟨q, q1, h3, h4, rfl⟩ := hs
        exact ⟨c.id, q, q1 ++ r, h3, ⟨c.value, q1, r, seq_one.mp h4, ⟨(), rfl, by omega, h5⟩, rfl⟩, by simp⟩
      | timer c => obtain ⟨_, _, hf, _⟩ := hs; exact hf.elim
      | counter c => obtain ⟨_, _, hf, _⟩ := hs; exact hf.elim
  · constructor
    · intro h
      cases m with
      | gauge c => exact ⟨c, rfl, h⟩
      | timer c => obtain ⟨_, _, _, _, _, ⟨_, _, hf, _⟩, _⟩ := h; exact hf.elim
      | counter c => obtain ⟨_, _, _, _, _, ⟨_, _, hf, _⟩, _⟩ := h; exact hf.elim
    · rintro ⟨c, rfl, h⟩; exact h

theorem timer_exact : Exact (readTimer l) (fun m p => ∃ c, m = .timer c ∧ Metric l (.timer c) p) := by
  have h1 : ∀ id (k : Int), Exact (decodeArrayLen l >>= fun n => repeatD (decodeFloat64 l) n.toNat >>= fun v => skip l k >>= fun _ => Pure.pure (Sample.timer { id := id, values := v })) _ := fun id k =>
    (elems_exact C (float_exact C)).bind (f := fun v => skip l k >>= fun _ => Pure.pure (Sample.timer { id := id, values := v }))
      (fun v _ => (skip_exact C k).map (fun _ => Sample.timer { id := id, values := v })) fun v => last_stays C k _
  have h2 : ∀ k : Int, Exact (decodeID l >>= fun id => decodeArrayLen l >>= fun n => repeatD (decodeFloat64 l) n.toNat >>= fun v => skip l k >>= fun _ => Pure.pure (Sample.timer { id := id, values := v })) _ := fun k =>
    (id_exact C).bind (fun id _ => h1 id k) fun id => (h1 id k).stays
  refine (object_exact C (α := Sample) (t := timerType) (F := fun m => match m with
      | .timer c => [Ident l c.id, Elems l (As l.getF64) c.values]
      | _ => [fun _ => False, fun _ => False]) (fun m => by cases m <;> rfl) (.pure _) (fun k => (h2 k).congr fun a p => ?_) fun k => (h2 k).stays).congr fun m p => ?_
  · constructor
    · rintro ⟨r, q, _, h3, ⟨t, q1, q2, h4, ⟨_, rfl, _, h5⟩, rfl⟩, rfl⟩
      exact ⟨q ++ q1, q2, ⟨q, q1, h3, seq_one.mpr h4, rfl⟩, h5, by simp⟩
    · rintro ⟨_, r, hs, h5, rfl⟩
      cases a with
      | timer c =>
        obtain ⟨q, q1, h3, h4, rfl⟩ := hs
        exact ⟨c.id, q, q1 ++ r, h3, ⟨c.values, q1, r, seq_one.mp h4, ⟨(), rfl, by omega, h5⟩, rfl⟩, by simp⟩
      | gauge c => obtain ⟨_, _, hf, _⟩ := hs; exact hf.elim
      | counter c => obtain ⟨_, _, hf, _⟩ := hs; exact hf.elim
  · constructor
    · intro h
      cases m with
      | timer c => exact ⟨c, rfl, h⟩
      | gauge c => obtain ⟨_, _, _, _, _, ⟨_, _, hf, _⟩, _⟩ := h; exact hf.elim
      | counter c => obtain ⟨_, _, _, _, _, ⟨_, _, hf, _⟩, _⟩ := h; exact hf.elim
    · rintro ⟨c, rfl, h⟩; exact h

theorem kind_exact (t : Int) (w : Bool) (ht : ∃ m, t = number m w) : Exact (readKind l t) (fun m p => t = number m w ∧ Metric l m p) := by
  obtain ⟨m0, rfl⟩ := ht
  cases m0 <;> cases w
  · refine (counter_exact C).congr fun m p => ?_
    constructor
    · rintro ⟨c, rfl, h⟩; exact ⟨rfl, h⟩
    · rintro ⟨h, h'⟩; cases m <;> first | exact ⟨_, rfl, h'⟩ | cases h
  · refine (counter_exact C).congr fun m p => ?_
    constructor
    · rintro ⟨c, rfl, h⟩; exact ⟨rfl, h⟩
    · rintro ⟨h, h'⟩; cases m <;> first | exact ⟨_, rfl, h'⟩ | cases h
  · refine (timer_exact C).congr fun m p => ?_
    constructor
    · rintro ⟨c, rfl, h⟩; exact ⟨rfl, h⟩
    · rintro ⟨h, h'⟩; cases m <;> first | exact ⟨_, rfl, h'⟩ | cases h
  · refine (timer_exact C).congr fun m p => ?_
    constructor
    · rintro ⟨c, rfl, h⟩; exact ⟨rfl, h⟩
    · rintro ⟨h, h'⟩; cases m <;> first | exact ⟨_, rfl, h'⟩ | cases h
  · refine (gauge_exact C).congr fun m p => ?_
    constructor
    · rintro ⟨c, rfl, h⟩; exact ⟨rfl, h⟩
    · rintro ⟨h, h'⟩; cases m <;> first | exact ⟨_, rfl, h'⟩ | cases h
  · refine (gauge_exact C).congr fun m p => ?_
    constructor
    · rintro ⟨c, rfl, h⟩; exact ⟨rfl, h⟩
    · rintro ⟨h, h'⟩; cases m <;> first | exact ⟨_, rfl, h'⟩ | cases h

theorem policies_exact : Exact (readPolicies l x u) (Policies l x u) := by
  have hbody : ∀ t (k : Int), Exact (if t = defaultPoliciesListType then (skip l k >>= fun _ => Pure.pure defaultPoliciesList)
    else if t = customPoliciesListType then
      (decodeArrayLen l >>= fun n => repeatD (decodeStagedPolicies l x u) n.toNat >>= fun pl => skip l k >>= fun _ => Pure.pure pl)
    else (setErr (some .other) >>= fun _ => skip l k >>= fun _ => Pure.pure []) : D Base (List StagedPolicies)) _ := fun t k =>
    .ite _ (fun _ => (skip_exact C k).map (fun _ => defaultPoliciesList)) fun _ =>
    .ite _ (fun _ => (elems_exact C (staged_exact C)).bind (f := fun pl => skip l k >>= fun _ => Pure.pure pl) (fun pl _ => (skip_exact C k).map (fun _ => pl)) fun pl => last_stays C k pl) fun _ =>
    .fail .other (fun _ => skip l k >>= fun _ => Pure.pure []) (last_stays C k [])
  refine (typed_exact C (F := fun t pl fs => (t = 10 ∧ pl = [{}] ∧ fs = []) ∨ (t = 11 ∧ fs = [Elems l (Staged l x u) pl])) ?_ (.pure _) ?_ ?_).congr fun pl p => ?_
  · rintro t a fs (⟨rfl, _, rfl⟩ | ⟨rfl, rfl⟩) <;> rfl
  · rintro ⟨t, k⟩; exact (hbody t k).stays
  · intro t k
    refine (hbody t k).congr fun pl p => ?_
    constructor
    · rintro (⟨rfl, _, rfl, _, h⟩ | ⟨_, ⟨rfl, v, q, q', h1, ⟨_, rfl, _, h2⟩, rfl⟩ | ⟨_, hf⟩⟩)
      · exact ⟨[], [], p, .inl ⟨rfl, rfl, rfl⟩, rfl, h, rfl⟩
      · exact ⟨_, q, q', .inr ⟨rfl, rfl⟩, seq_one.mpr h1, h2, rfl⟩
      · exact hf.elim
    · rintro ⟨_, c, r, ⟨rfl, rfl, rfl⟩ | ⟨rfl, rfl⟩, hc, hr, rfl⟩
      · cases hc
        exact .inl ⟨rfl, (), rfl, by omega, hr⟩
      · exact .inr ⟨by decide, .inl ⟨rfl, pl, c, r, seq_one.mp hc, ⟨(), rfl, by omega, hr⟩, rfl⟩⟩
  · constructor
    · rintro ⟨t, _, _, _, ⟨rfl, rfl, rfl⟩ | ⟨rfl, rfl⟩, h⟩
      · exact .inl ⟨rfl, h⟩
      · exact .inr h
    · rintro (⟨rfl, h⟩ | h)
      · exact ⟨10, _, by decide, by decide, .inl ⟨rfl, rfl, rfl⟩, h⟩
      · exact ⟨11, _, by decide, by decide, .inr ⟨rfl, rfl⟩, h⟩

theorem with_exact (t : Int) (ht : ∃ m, t = number m true) :
    Exact (readWith l x u t) (fun w p => t = number w.1 true ∧ Object l [Metric l w.1, Policies l x u w.2] p) := by
  have h1 : ∀ m (k : Int), Exact (readPolicies l x u >>= fun pl => skip l k >>= fun _ => Pure.pure ((m, pl) : Sample × List StagedPolicies)) _ := fun m k =>
    (policies_exact C).bind (fun pl _ => (skip_exact C k).map (fun _ => ((m, pl) : Sample × List StagedPolicies))) fun pl => last_stays C k _
  have h2 : ∀ k : Int, Exact (readKind l t >>= fun m => readPolicies l x u >>= fun pl => skip l k >>= fun _ => Pure.pure ((m, pl) : Sample × List StagedPolicies)) _ := fun k =>
    (kind_exact C t true ht).bind (fun m _ => h1 m k) fun m => (h1 m k).stays
  have hn : numFieldsForType t = 2 := by obtain ⟨m, rfl⟩ := ht; cases m <;> rfl
  refine (object_exact C (α := Sample × List StagedPolicies) (t := t) (F := fun w => [fun p => t = number w.1 true ∧ Metric l w.1 p, Policies l x u w.2]) (fun m => hn.symm) (.pure _)
    (fun k => (h2 k).congr fun a p => ?_) fun k => (h2 k).stays).congr fun w p => ?_
  · constructor
    · rintro ⟨m, q, _, h3, ⟨pl, q1, q2, h4, ⟨_, rfl, _, h5⟩, rfl⟩, rfl⟩
      exact ⟨q ++ q1, q2, ⟨q, q1, h3, seq_one.mpr h4, rfl⟩, h5, by simp⟩
    · rintro ⟨_, r, ⟨q, q1, h3, h4, rfl⟩, h5, rfl⟩
      exact ⟨a.1, q, q1 ++ r, h3, ⟨a.2, q1, r, seq_one.mp h4, ⟨(), rfl, by omega, h5⟩, rfl⟩, by simp⟩
  · constructor
    · rintro ⟨n, hn, c, d, h3, ⟨c1, d1, ⟨h4, h5⟩, h6, rfl⟩, rfl⟩
      exact ⟨h4, n, hn, c, _, h3, ⟨c1, d1, h5, h6, rfl⟩, rfl⟩
    · rintro ⟨h4, n, hn, c, d, h3, ⟨c1, d1, h5, h6, rfl⟩, rfl⟩
      exact ⟨n, hn, c, _, h3, ⟨c1, d1, ⟨h4, h5⟩, h6, rfl⟩, rfl⟩

/-- The forms of the two kinds of objects. -/
def ObjForm (l : Lib) (x : XTime) (u : Units) (m : Sample) : Option (List StagedPolicies) → Bytes → Prop
  | none => Metric l m
  | some pl => Object l [Metric l m, Policies l x u pl]

omit C in
theorem number_bare (m : Sample) : number m false = counterType ∨ number m false = timerType ∨ number m false = gaugeType := by
  cases m
  · exact .inl rfl
  · exact .inr (.inl rfl)
  · exact .inr (.inr rfl)

omit C in
theorem number_with (m : Sample) : ¬ (number m true = counterType ∨ number m true = timerType ∨ number m true = gaugeType) ∧
    (number m true = counterWithPoliciesListType ∨ number m true = batchTimerWithPoliciesListType ∨ number m true = gaugeWithPoliciesListType) := by
  cases m <;> simp [number, counterType, timerType, gaugeType, counterWithPoliciesListType, batchTimerWithPoliciesListType, gaugeWithPoliciesListType]

theorem object_any (t : Int) : Exact (readObject l x u t) (fun w p => t = number w.1 w.2.isSome ∧ ObjForm l x u w.1 w.2 p) := by
  unfold readObject
  refine (Exact.ite _ (R := fun (w : Sample × Option (List StagedPolicies)) p => w.2 = none ∧ t = number w.1 false ∧ Metric l w.1 p) ?_ fun _ => Exact.ite _ (R := fun (w : Sample × Option (List StagedPolicies)) p => ∃ pl, w.2 = some pl ∧ t = number w.1 true ∧ Object l [Metric l w.1, Policies l x u pl] p)
    ?_ fun _ => .fail .other (fun _ => Pure.pure (Sample.counter {}, none)) (.pure _)).congr fun w p => ?_
  · intro ht
    refine ((kind_exact C t false ?_).map (fun m => ((m, none) : Sample × Option (List StagedPolicies)))).congr fun w p => ?_
    · rcases ht with rfl | rfl | rfl
      · exact ⟨.counter {}, rfl⟩
      · exact ⟨.timer {}, rfl⟩
      · exact ⟨.gauge {}, rfl⟩
    · constructor
      · rintro ⟨m, rfl, h⟩; exact ⟨rfl, h⟩
      · rintro ⟨h1, h⟩; exact ⟨w.1, by rw [← h1], h⟩
  · intro ht
    refine ((with_exact C (x := x) (u := u) t ?_).map (fun w => ((w.1, some w.2) : Sample × Option (List StagedPolicies)))).congr fun w p => ?_
    · rcases ht with rfl | rfl | rfl
      · exact ⟨.counter {}, rfl⟩
      · exact ⟨.timer {}, rfl⟩
      · exact ⟨.gauge {}, rfl⟩
    · constructor
      · rintro ⟨m, rfl, h⟩; exact ⟨m.2, rfl, h⟩
      · rintro ⟨pl, h1, h⟩; exact ⟨(w.1, pl), by simp [← h1], h⟩
  · obtain ⟨m, o⟩ := w
    constructor
    · rintro (⟨_, h, h1, h2⟩ | ⟨_, ⟨_, pl, h, h1, h2⟩ | ⟨_, h⟩⟩)
      · simp only at h; subst h; exact ⟨h1, h2⟩
      · simp only at h; subst h; exact ⟨h1, h2⟩
      · exact h.elim
    · rintro ⟨h1, h2⟩
      cases o with
      | none => exact .inl ⟨h1 ▸ number_bare m, rfl, h1, h2⟩
      | some pl => exact .inr ⟨h1 ▸ (number_with m).1, .inl ⟨h1 ▸ (number_with m).2, pl, rfl, h1, h2⟩⟩

theorem body_exact : Exact (readBody l x u) (fun w p => Object l [As l.getInt (number w.1 w.2.isSome), ObjForm l x u w.1 w.2] p) := by
  have h1 : ∀ t (k : Int), Exact (readObject l x u t >>= fun m => skip l k >>= fun _ => Pure.pure m) _ := fun t k =>
    (object_any C t).bind (fun m _ => (skip_exact C k).map (fun _ => m)) fun m => last_stays C k m
  have h2 : ∀ t (k : Int), Exact (getErr >>= fun e => match e with
    | some _ => Pure.pure (.counter {}, none)
    | none => readObject l x u t >>= fun m => skip l k >>= fun _ => Pure.pure m : D Base (Sample × Option (List StagedPolicies))) _ := fun t k => .check (h1 t k) fun _ => .pure _
  have h3 : ∀ k : Int, Exact (decodeObjectType l >>= fun t => getErr >>= fun e => match e with
    | some _ => Pure.pure (.counter {}, none)
    | none => readObject l x u t >>= fun m => skip l k >>= fun _ => Pure.pure m : D Base (Sample × Option (List StagedPolicies))) _ := fun k =>
    (objectType_exact C).bind (fun t _ => h2 t k) fun t => (h2 t k).stays
  refine object_exact C (α := Sample × Option (List StagedPolicies)) (t := rootObjectType) (F := fun w => [As l.getInt (number w.1 w.2.isSome), ObjForm l x u w.1 w.2]) (fun _ => rfl) (.pure _)
    (fun k => (h3 k).congr fun a p => ?_) fun k => (h3 k).stays
  constructor
  · rintro ⟨t, q, _, ⟨_, _, h4⟩, ⟨w, q1, q2, ⟨rfl, h5⟩, ⟨_, rfl, _, h6⟩, rfl⟩, rfl⟩
    exact ⟨q ++ q1, q2, ⟨q, q1, h4, seq_one.mpr h5, rfl⟩, h6, by simp⟩
  · rintro ⟨_, r, ⟨q, q1, h4, h5, rfl⟩, h6, rfl⟩
    obtain ⟨m, o⟩ := a
    exact ⟨_, q, q1 ++ r, ⟨(number_range _ _).1, (number_range _ _).2, h4⟩, ⟨(m, o), q1, r, ⟨rfl, seq_one.mp h5⟩, ⟨(), rfl, by omega, h6⟩, rfl⟩, by simp⟩

omit C in
/-- An error in the middle is there in the end. -/
theorem stays_of {m : D Base α} (h : Stays m) (s : Base) (he : (m s).2.err = none) : s.err = none := by
  obtain ⟨d, e⟩ := s
  cases e with
  | none => rfl
  | some e => exact absurd he (h d e)

theorem with_sim (t : Int) (it : Iter) : ∃ met pl, decodeMetricWithPolicies l x u t it = ((), { it with base := (readWith l x u t it.base).2, metric := met, policiesList := pl }) ∧
    ((readWith l x u t it.base).2.err = none → met = store (readWith l x u t it.base).1.1 it.metric ∧ pl = (readWith l x u t it.base).1.2) := by
  rcases h : checkNumFields l t it.base with ⟨o, s⟩
  unfold decodeMetricWithPolicies readWith
  simp only [run_iter, bind_run, h]
  cases o with
  | none => exact ⟨it.metric, it.policiesList, rfl, fun he => absurd he (fields_none h)⟩
  | some k =>
    obtain ⟨met, h1, h1'⟩ := kind_sim (l := l) t { it with base := s }
    obtain ⟨pl, h2, h2'⟩ := policies_sim (l := l) (x := x) (u := u) { it with base := (readKind l t s).2, metric := met }
    have e1 : (decodeKind l t >>= fun _ => decodePoliciesList l x u >>= fun _ => onBase (skip l k)) { it with base := s } =
        ((), { it with base := (skip l k (readPolicies l x u (readKind l t s).2).2).2, metric := met, policiesList := pl }) := by
      show onBase (skip l k) (decodePoliciesList l x u (decodeKind l t { it with base := s }).2).2 = _
      rw [h1, h2]; rfl
    refine ⟨met, pl, e1, fun he => ?_⟩
    have he2 := stays_of (skip_exact C k).stays _ he
    have he1 := stays_of (policies_exact C (x := x) (u := u)).stays _ he2
    exact ⟨h1' he1, h2' he2⟩

theorem object_sim (t : Int) (it : Iter) : ∃ met pl,
    (if t = counterType ∨ t = timerType ∨ t = gaugeType then decodeKind l t
      else if t = counterWithPoliciesListType ∨ t = batchTimerWithPoliciesListType ∨ t = gaugeWithPoliciesListType then
        decodeMetricWithPolicies l x u t
      else onBase (setErr (some .other))) it = ((), { it with base := (readObject l x u t it.base).2, metric := met, policiesList := pl }) ∧
    ((readObject l x u t it.base).2.err = none → met = store (readObject l x u t it.base).1.1 it.metric ∧ pl = (readObject l x u t it.base).1.2.getD it.policiesList) := by
  unfold readObject
  by_cases h1 : t = counterType ∨ t = timerType ∨ t = gaugeType
  · simp only [if_pos h1]
    obtain ⟨met, h2, h3⟩ := kind_sim (l := l) t it
    exact ⟨met, it.policiesList, h2, fun he => ⟨h3 he, rfl⟩⟩
  · simp only [if_neg h1]
    by_cases h2 : t = counterWithPoliciesListType ∨ t = batchTimerWithPoliciesListType ∨ t = gaugeWithPoliciesListType
    · simp only [if_pos h2]
      obtain ⟨met, pl, h3, h4⟩ := with_sim C (x := x) (u := u) t it
      exact ⟨met, pl, h3, fun he => h4 he⟩
    · simp only [if_neg h2]
      exact ⟨it.metric, it.policiesList, rfl, fun he => by cases he⟩

omit C in
theorem decodeRest_eq (t k : Int) (it : Iter) : decodeRest l x u t k it = (onBase (skip l k) >>= fun _ => onBase getErr >>= fun e => Pure.pure e.isNone : D Iter Bool)
    ((if t = counterType ∨ t = timerType ∨ t = gaugeType then decodeKind l t
      else if t = counterWithPoliciesListType ∨ t = batchTimerWithPoliciesListType ∨ t = gaugeWithPoliciesListType then
        decodeMetricWithPolicies l x u t
      else onBase (setErr (some .other))) it).2 := by
  unfold decodeRest
  split
  · rfl
  split
  · rfl
  · rfl

theorem body_sim (it : Iter) : ∃ met pl b, decodeBody l x u it = (b, { it with base := (readBody l x u it.base).2, metric := met, policiesList := pl }) ∧
    (b = true ↔ (readBody l x u it.base).2.err = none) ∧
    ((readBody l x u it.base).2.err = none → met = store (readBody l x u it.base).1.1 it.metric ∧ pl = (readBody l x u it.base).1.2.getD it.policiesList) := by
  rcases h : checkNumFields l rootObjectType it.base with ⟨o, s⟩
  unfold decodeBody readBody
  simp only [run_iter, bind_run, h]
  cases o with
  | none => exact ⟨it.metric, it.policiesList, false, rfl, ⟨fun h => (by cases h), fun he => absurd he (fields_none h)⟩, fun he => absurd he (fields_none h)⟩
  | some k =>
    rcases h1 : decodeObjectType l s with ⟨t, d, e⟩
    simp only [run_iter, bind_run, h1]
    cases e with
    | some e => exact ⟨it.metric, it.policiesList, false, rfl, ⟨fun h => (by cases h), fun h => (by cases h)⟩, fun h => (by cases h)⟩
    | none =>
      obtain ⟨met, pl, h2, h3⟩ := object_sim C (x := x) (u := u) t { it with base := ⟨d, none⟩ }
      have e1 : decodeRest l x u t k { it with base := ⟨d, none⟩ } =
          ((skip l k (readObject l x u t ⟨d, none⟩).2).2.err.isNone, { it with base := (skip l k (readObject l x u t ⟨d, none⟩).2).2, metric := met, policiesList := pl }) := by
        rw [decodeRest_eq, h2]; rfl
      refine ⟨met, pl, _, e1, by simp; rfl, fun he => h3 (stays_of (skip_exact C k).stays _ he)⟩

omit C in
theorem message_iff {m : Sample} {pl : Option (List StagedPolicies)} {b : Bytes} :
    Message l x u m pl b ↔ ∃ v ≤ 1, ∃ c d, As l.getInt v c ∧ Object l [As l.getInt (number m pl.isSome), ObjForm l x u m pl] d ∧ b = c ++ d := by
  constructor
  · rintro ⟨v, hv, c, d, h1, h2, rfl⟩
    refine ⟨v, hv, c, d, h1, ?_, rfl⟩
    cases pl <;> exact seq_one.mp h2
  · rintro ⟨v, hv, c, d, h1, h2, rfl⟩
    refine ⟨v, hv, c, d, h1, ?_, rfl⟩
    cases pl <;> exact seq_one.mpr h2

omit C in
theorem loop_body (f : Nat) (it : Iter) (v : Int) (d : Bytes) (he : it.base.err = none) (hc : it.closed = false)
    (h : decodeVarint l it.base = (v, ⟨d, none⟩)) (hv : v ≤ 1) :
    nextLoop l x u (f + 1) it = decodeBody l x u { it with base := ⟨d, none⟩, metric := drop it.metric } := by
  obtain ⟨base, ig, cl, met, pl⟩ := it
  cases hc
  have hv' : ¬ v > 1 := by omega
  simp only at h he
  simp only [nextLoop, onBase, h, he, Option.isSome_none, Bool.or_self, if_false, hv', Bool.false_eq_true, drop]

omit C in
theorem loop_later (f : Nat) (it : Iter) (v : Int) (d : Bytes) (he : it.base.err = none) (hc : it.closed = false)
    (h : decodeVarint l it.base = (v, ⟨d, none⟩)) (hv : 1 < v) (hi : it.ignoreHigherVersion = true) :
    nextLoop l x u (f + 1) it = nextLoop l x u f { it with base := (skip l (decodeArrayLen l ⟨d, none⟩).1 (decodeArrayLen l ⟨d, none⟩).2).2, metric := drop it.metric } := by
  obtain ⟨base, ig, cl, met, pl⟩ := it
  cases hc
  cases hi
  have hv' : v > 1 := by omega
  simp only at h he
  simp only [nextLoop, onBase, h, he, Option.isSome_none, Bool.or_self, if_false, hv', if_true, Bool.false_eq_true, drop]

omit C in
theorem loop_reject (f : Nat) (it : Iter) (v : Int) (d : Bytes) (he : it.base.err = none) (hc : it.closed = false)
    (h : decodeVarint l it.base = (v, ⟨d, none⟩)) (hv : 1 < v) (hi : it.ignoreHigherVersion = false) :
    (nextLoop l x u (f + 1) it).1 = false := by
  obtain ⟨base, ig, cl, met, pl⟩ := it
  cases hc
  cases hi
  have hv' : v > 1 := by omega
  simp only at h he
  simp only [nextLoop, onBase, h, he, Option.isSome_none, Bool.or_self, if_false, hv', if_true, Bool.false_eq_true]

omit C in
theorem loop_err (f : Nat) (it : Iter) (v : Int) (d : Bytes) (e : Err) (h : decodeVarint l it.base = (v, ⟨d, some e⟩)) :
    (nextLoop l x u (f + 1) it).1 = false := by
  obtain ⟨base, ig, cl, met, pl⟩ := it
  simp only at h
  simp only [nextLoop, onBase, h, Option.isSome_some, if_true]
  split <;> rfl

omit C in
theorem loop_stopped (f : Nat) (it : Iter) (h : it.base.err ≠ none) : (nextLoop l x u f it).1 = false := by
  cases f with
  | zero => rfl
  | succ f =>
    have : it.base.err.isSome = true := by cases h' : it.base.err <;> simp_all
    simp only [nextLoop, this, Bool.true_or, if_true]

/-- A message that is delivered, after messages of higher versions. -/
def Delivered (l : Lib) (x : XTime) (u : Units) (it it' : Iter) : Prop :=
  ∃ h p r m pl, it.base.data = h ++ (p ++ r) ∧ Later l h ∧ (it.ignoreHigherVersion = false → h = []) ∧ Message l x u m pl p ∧
    it' = { it with base := ⟨r, none⟩, metric := store m (drop it.metric), policiesList := pl.getD it.policiesList }

theorem as_ne {v : Int} {b : Bytes} (h : As l.getInt v b) : b ≠ [] := by
  intro e
  subst e
  obtain ⟨p, hp, h2, _⟩ := C.int _ _ _ (h [])
  simp at h2
  exact hp h2

theorem loop_sound : ∀ f (it it' : Iter), it.base.err = none → it.closed = false → nextLoop l x u f it = (true, it') → Delivered l x u it it'
  | 0, it, it', _, _, h => by cases h
  | f + 1, it, it', he, hc, h => by
    rcases hd : decodeVarint l it.base with ⟨v, d, e⟩
    cases e with
    | some e =>
      have := loop_err (x := x) (u := u) f it v d e hd
      rw [h] at this; cases this
    | none =>
      rcases hb : it.base with ⟨data, err⟩
      rw [hb] at hd he
      simp only at he
      subst he
      obtain ⟨_, q, hq, hv⟩ := (varint_exact C _ _ _ _).mp hd
      by_cases hv1 : v ≤ 1
      · rw [loop_body f it v d (by rw [hb]) hc (by rw [hb]; exact hd) hv1] at h
        obtain ⟨met, pl, b, h1, h2, h3⟩ := body_sim C (x := x) (u := u) { it with base := ⟨d, none⟩, metric := drop it.metric }
        rw [h1] at h
        cases h
        have hn := h2.mp rfl
        rcases hr : readBody l x u ⟨d, none⟩ with ⟨w, r, o⟩
        simp only [hr] at hn h3
        subst hn
        obtain ⟨_, p, hp, hw⟩ := (body_exact C _ _ _ _).mp hr
        obtain ⟨hm, hpl⟩ := h3 rfl
        refine ⟨[], q ++ p, r, w.1, w.2, by simp only [hb, hq, hp]; simp, .none, fun _ => rfl, message_iff.mpr ⟨v, hv1, q, p, hv, hw, rfl⟩, ?_⟩
        rw [hm, hpl]
      · cases hi : it.ignoreHigherVersion with
        | false =>
          have := loop_reject (x := x) (u := u) f it v d (by rw [hb]) hc (by rw [hb]; exact hd) (by omega) hi
          rw [h] at this; cases this
        | true =>
          rw [loop_later f it v d (by rw [hb]) hc (by rw [hb]; exact hd) (by omega) hi] at h
          rcases ha : decodeArrayLen l ⟨d, none⟩ with ⟨n, s⟩
          rcases hs : skip l n s with ⟨_, d2, e2⟩
          rw [ha] at h
          simp only [hs] at h
          cases e2 with
          | some e2 =>
            have := loop_stopped (l := l) (x := x) (u := u) f { it with base := ⟨d2, some e2⟩, metric := drop it.metric } (by simp)
            rw [h] at this; cases this
          | none =>
            obtain ⟨d1, e1⟩ := s
            obtain ⟨rfl, q2, rfl, hn, hw⟩ := (skip_exact C n _ _ _ _).mp hs
            obtain ⟨_, q1, rfl, h1⟩ := (arrayLen_exact C _ _ _ _).mp ha
            obtain ⟨hh, p, r, m, pl, g1, g2, _, g4, rfl⟩ := loop_sound f { it with base := ⟨d2, none⟩, metric := drop it.metric } it' rfl hc h
            simp only at g1
            refine ⟨(q ++ (q1 ++ q2)) ++ hh, p, r, m, pl, by simp only [hb, hq, g1]; simp, .one v n.toNat _ _ (by omega) ?_ g2, fun h => (by simp [hi] at h), g4, rfl⟩
            rw [Int.toNat_of_nonneg hn]
            exact ⟨q, q1 ++ q2, hv, ⟨q1, q2, h1, seq_one.mpr hw, rfl⟩, rfl⟩

theorem loop_complete {h : Bytes} (hl : Later l h) : ∀ f (it : Iter) (p r : Bytes) (m : Sample) (pl : Option (List StagedPolicies)),
    it.base = ⟨h ++ (p ++ r), none⟩ → it.closed = false → h.length < f → (it.ignoreHigherVersion = false → h = []) → Message l x u m pl p →
    nextLoop l x u f it = (true, { it with base := ⟨r, none⟩, metric := store m (drop it.metric), policiesList := pl.getD it.policiesList }) := by
  induction hl with
  | none =>
    intro f it p r m pl hb hc hf _ hm
    obtain ⟨v, hv, c, d, h1, h2, rfl⟩ := message_iff.mp hm
    have hd := (varint_exact C (c ++ (d ++ r)) none v (d ++ r)).mpr ⟨rfl, c, rfl, h1⟩
    cases f with
    | zero => simp at hf
    | succ f =>
      rw [loop_body f it v (d ++ r) (by rw [hb]) hc (by rw [hb]; simpa using hd) hv]
      obtain ⟨met, pl', b, g1, g2, g3⟩ := body_sim C (x := x) (u := u) { it with base := ⟨d ++ r, none⟩, metric := drop it.metric }
      have hr := (body_exact C (x := x) (u := u) (d ++ r) none (m, pl) r).mpr ⟨rfl, d, rfl, h2⟩
      simp only [hr] at g1 g2 g3
      obtain ⟨rfl, rfl⟩ := g3 trivial
      rw [g1, g2.mpr trivial]
  | one v n b c hv hs _ ih =>
    intro f it p r m pl hb hc hf hi hm
    obtain ⟨q, _, h1, ⟨q1, q2, h2, h3, rfl⟩, rfl⟩ := hs
    have h3 := seq_one.mp h3
    have hq : q ≠ [] := as_ne C h1
    have hlen : 0 < q.length := List.length_pos_iff.mpr hq
    have hig : it.ignoreHigherVersion = true := by
      cases h : it.ignoreHigherVersion with
      | true => rfl
      | false => have := hi h; simp [hq] at this
    cases f with
    | zero => simp at hf
    | succ f =>
      have hd := (varint_exact C (q ++ (q1 ++ (q2 ++ (c ++ (p ++ r))))) none v _).mpr ⟨rfl, q, rfl, h1⟩
      have ha := (arrayLen_exact C (q1 ++ (q2 ++ (c ++ (p ++ r)))) none (n : Int) _).mpr ⟨rfl, q1, rfl, h2⟩
      have hk := (skip_exact C (n : Int) (q2 ++ (c ++ (p ++ r))) none () _).mpr ⟨rfl, q2, rfl, by omega, h3⟩
      rw [loop_later f it v _ (by rw [hb]) hc (by rw [hb]; simpa using hd) hv hig, ha]
      simp only [hk]
      exact ih f { it with base := ⟨c ++ (p ++ r), none⟩, metric := drop it.metric } p r m pl rfl hc (by simp at hf; omega) (fun h => by simp [hig] at h) hm

end
end Verif.MP
