import Verif.Spec.NsValidator
/- C67: namespace validators. -/
namespace Verif.NsVal
open Verif.Spec.NsVal

variable {V : Type} {parse : V → Option (List Bytes)}

theorem run_append (ss ss' : List (Step V)) : ∀ st : St V, st.run parse (ss ++ ss') = (st.run parse ss).bind fun st => st.run parse ss' := by
  induction ss with
  | nil => intro st; rfl
  | cons s ss ih =>
    intro st
    simp only [List.cons_append, St.run]
    cases st.step parse s with
    | none => rfl
    | some st' => exact ih st'

theorem published_snoc (s : Step V) : ∀ (ss : List (Step V)) (v : V), published v (ss ++ [s]) = match s with
    | .publish w => w
    | _ => published v ss
  | [], v => by cases s <;> rfl
  | e :: ss, v => by
    cases e <;> simp only [List.cons_append, published] <;> exact published_snoc s ss _

theorem reads_snoc (s : Step V) : ∀ (ss : List (Step V)) (v : V), reads v (ss ++ [s]) = match s with
    | .read => reads v ss ++ [published v ss]
    | _ => reads v ss
  | [], v => by cases s <;> rfl
  | e :: ss, v => by
    have := fun v => reads_snoc s ss v
    cases e <;> simp only [List.cons_append, reads, published, this] <;> cases s <;> rfl

theorem lastGood_snoc (v : V) : ∀ (vs : List V) (d : List Bytes), lastGood parse d (vs ++ [v]) = (parse v).getD (lastGood parse d vs)
  | [], d => rfl
  | w :: vs, d => by
    simp only [List.cons_append, lastGood]
    exact lastGood_snoc v vs _

/-- The facts that hold throughout. -/
structure Inv (parse : V → Option (List Bytes)) (d : List Bytes) (v0 : V) (p0 : Bool) (ss : List (Step V)) (st : St V) : Prop where
  value : st.value = published v0 ss
  inForce : (∀ names, st.phase ≠ .parsed names) → st.valid = lastGood parse d (reads v0 ss)
  inFlight : ∀ names, st.phase = .parsed names → ∃ vs v, reads v0 ss = vs ++ [v] ∧ parse v = some names ∧ st.valid = lastGood parse d vs
  /-- without a notification the last value read is the current one, or it is about to be read -/
  fresh : st.pending = false → Announced p0 ss → st.phase = .notified ∨ ∃ vs, reads v0 ss = vs ++ [st.value]
  closed : st.doneClosed = st.closed
  panicked : st.panicked = false
  waiting : st.closed = false → st.waiting = 0
  started : st.returned = false → st.closed = false
  ended : st.phase = .ended → st.closed = true
  running : st.phase = .idle ∨ st.phase = .ended → st.returned = true
  beyond : st.returned = true → st.phase ≠ .start

theorem init_inv (d : List Bytes) (v0 : V) (p0 : Bool) : Inv parse d v0 p0 [] (init d v0 p0) where
  value := rfl
  inForce _ := rfl
  inFlight _ h := by cases h
  fresh h ha := by
    rcases ha with ha | ⟨v, hv⟩
    · rw [show (init d v0 p0).pending = p0 from rfl, ha] at h; cases h
    · cases hv
  closed := rfl
  panicked := rfl
  waiting _ := rfl
  started _ := rfl
  ended h := by cases h
  running h := by rcases h with h | h <;> cases h
  beyond h := by cases h

theorem announced_snoc {p0 : Bool} {ss : List (Step V)} {s : Step V} (hs : ∀ v, s ≠ .publish v) (h : Announced p0 (ss ++ [s])) :
    Announced p0 ss := by
  rcases h with h | ⟨v, hv⟩
  · exact Or.inl h
  · rcases List.mem_append.mp hv with hv | hv
    · exact Or.inr ⟨v, hv⟩
    · exact absurd (List.mem_singleton.mp hv).symm (hs v)

theorem step_inv {d : List Bytes} {v0 : V} {p0 : Bool} {ss : List (Step V)} {st st' : St V} {s : Step V}
    (h : Inv parse d v0 p0 ss st) (hs : st.step parse s = some st') : Inv parse d v0 p0 (ss ++ [s]) st' := by
  have hp := published_snoc s ss v0
  have hr := reads_snoc s ss v0
  cases s with
  | publish v =>
    simp only [St.step, Option.some.injEq] at hs
    subst hs
    simp only at hp hr
    exact ⟨hp.symm, by rw [hr]; exact h.inForce, by rw [hr]; exact h.inFlight, fun hf => (by cases hf), h.closed, h.panicked,
      h.waiting, h.started, h.ended, h.running, h.beyond⟩
  | notify =>
    simp only [St.step] at hs
    split at hs
    · rename_i hc
      simp only [Option.some.injEq] at hs
      subst hs
      simp only at hp hr
      have hnp : ∀ names, st.phase ≠ .parsed names := by
        intro names hn
        rcases hc.1 with h1 | h1 <;> rw [h1] at hn <;> cases hn
      refine ⟨by rw [hp]; exact h.value, fun _ => by rw [hr]; exact h.inForce hnp, fun names hn => (by cases hn), 
        fun _ _ => Or.inl rfl, h.closed, h.panicked, h.waiting, h.started, (fun hn => by cases hn),
        (fun hn => by rcases hn with hn | hn <;> cases hn), fun _ hx => (by cases hx)⟩
    · cases hs
  | timeout =>
    simp only [St.step] at hs
    split at hs
    · rename_i hc
      simp only [Option.some.injEq] at hs
      subst hs
      simp only at hp hr
      refine ⟨by rw [hp]; exact h.value, fun _ => by rw [hr]; exact h.inForce (by rw [hc]; intro _ hn; cases hn),
        fun names hn => (by cases hn), fun hf ha => ?_, h.closed, h.panicked, h.waiting, (fun hn => by cases hn),
        (fun hn => by cases hn), fun _ => rfl, fun _ hx => (by cases hx)⟩
      rcases h.fresh hf (announced_snoc (by intro v hv; cases hv) ha) with h1 | h1
      · rw [hc] at h1; cases h1
      · rw [hr]; exact Or.inr h1
    · cases hs
  | read =>
    simp only [St.step] at hs
    split at hs
    · rename_i hc
      simp only at hp hr
      have hf0 := h.inForce (by rw [hc]; intro _ hn; cases hn)
      have hv : published v0 ss = st.value := h.value.symm
      split at hs
      · rename_i hn
        simp only [Option.some.injEq] at hs
        subst hs
        refine ⟨by rw [hp]; exact h.value, fun _ => ?_, fun names hn => (by cases hn), fun _ _ => ?_, h.closed, h.panicked,
          h.waiting, (fun hn => by cases hn), (fun hn => by cases hn), fun _ => rfl, fun _ hx => (by cases hx)⟩
        · rw [hr, lastGood_snoc, hv, hn]; exact hf0
        · rw [hr, hv]; exact Or.inr ⟨_, rfl⟩
      · rename_i names hn
        simp only [Option.some.injEq] at hs
        subst hs
        refine ⟨by rw [hp]; exact h.value, fun hc => absurd rfl (hc names), fun names' hn' => ?_, fun _ _ => ?_, h.closed,
          h.panicked, h.waiting, h.started, (fun hn => by cases hn), (fun hn => by rcases hn with hn | hn <;> cases hn), fun _ hx => (by cases hx)⟩
        · cases hn'
          exact ⟨reads v0 ss, published v0 ss, hr, by rw [hv]; exact hn, hf0⟩
        · rw [hr, hv]; exact Or.inr ⟨_, rfl⟩
    · cases hs
  | store =>
    simp only [St.step] at hs
    split at hs
    · rename_i names hc
      simp only [Option.some.injEq] at hs
      subst hs
      simp only at hp hr
      refine ⟨by rw [hp]; exact h.value, fun _ => ?_, fun names hn => (by cases hn), fun hf ha => ?_, h.closed, h.panicked,
        h.waiting, (fun hn => by cases hn), (fun hn => by cases hn), fun _ => rfl, fun _ hx => (by cases hx)⟩
      · obtain ⟨vs, v, h1, h2, _⟩ := h.inFlight names hc
        rw [hr, h1, lastGood_snoc, h2]; rfl
      · rcases h.fresh hf (announced_snoc (by intro v hv; cases hv) ha) with h1 | h1
        · rw [hc] at h1; cases h1
        · rw [hr]; exact Or.inr h1
    · cases hs
  | done =>
    simp only [St.step] at hs
    split at hs
    · rename_i hc
      simp only [Option.some.injEq] at hs
      subst hs
      simp only at hp hr
      refine ⟨by rw [hp]; exact h.value, fun _ => by rw [hr]; exact h.inForce (by rw [hc.1]; intro _ hn; cases hn),
        fun names hn => (by cases hn), fun hf ha => ?_, h.closed, h.panicked, h.waiting, h.started,
        fun _ => by rw [← h.closed]; exact hc.2, fun _ => h.running (Or.inl hc.1), fun _ hx => (by cases hx)⟩
      rcases h.fresh hf (announced_snoc (by intro v hv; cases hv) ha) with h1 | h1
      · rw [hc.1] at h1; cases h1
      · rw [hr]; exact Or.inr h1
    · cases hs
  | validate ns =>
    simp only [St.step] at hs
    split at hs
    · simp only [Option.some.injEq] at hs
      subst hs
      simp only at hp hr
      exact ⟨by rw [hp]; exact h.value, by rw [hr]; exact h.inForce, by rw [hr]; exact h.inFlight, fun hf ha => (by
        rw [hr]; exact h.fresh hf (announced_snoc (by intro v hv; cases hv) ha)), h.closed, h.panicked, h.waiting, h.started,
        h.ended, h.running, h.beyond⟩
    · cases hs
  | close =>
    simp only [St.step] at hs
    split at hs
    · rename_i hret
      split at hs
      · simp only [Option.some.injEq] at hs
        subst hs
        simp only at hp hr
        exact ⟨by rw [hp]; exact h.value, by rw [hr]; exact h.inForce, by rw [hr]; exact h.inFlight, fun hf ha => (by
          rw [hr]; exact h.fresh hf (announced_snoc (by intro v hv; cases hv) ha)), h.closed, h.panicked, h.waiting, h.started,
          h.ended, h.running, h.beyond⟩
      · rename_i hc
        simp only [Option.some.injEq] at hs
        subst hs
        simp only at hp hr
        have hd : st.doneClosed = false := by rw [h.closed]; simpa using hc
        refine ⟨by rw [hp]; exact h.value, by rw [hr]; exact h.inForce, by rw [hr]; exact h.inFlight, fun hf ha => (by
          rw [hr]; exact h.fresh hf (announced_snoc (by intro v hv; cases hv) ha)), rfl, by simp [h.panicked, hd],
          (fun hn => by cases hn), fun hn => (by simp only at hn; rw [hret] at hn; cases hn), fun _ => rfl, h.running, h.beyond⟩
    · cases hs
  | closeReturns =>
    simp only [St.step] at hs
    split at hs
    · rename_i hc
      simp only [Option.some.injEq] at hs
      subst hs
      simp only at hp hr
      exact ⟨by rw [hp]; exact h.value, by rw [hr]; exact h.inForce, by rw [hr]; exact h.inFlight, fun hf ha => (by
        rw [hr]; exact h.fresh hf (announced_snoc (by intro v hv; cases hv) ha)), h.closed, h.panicked,
        fun hn => (by simp only at hn ⊢; rw [h.waiting hn]), h.started, h.ended, h.running, h.beyond⟩
    · cases hs

theorem run_inv {d : List Bytes} {v0 : V} {p0 : Bool} (ss : List (Step V)) : ∀ (pre : List (Step V)) (st st' : St V),
    Inv parse d v0 p0 pre st → st.run parse ss = some st' → Inv parse d v0 p0 (pre ++ ss) st' := by
  induction ss with
  | nil => intro pre st st' h hr; cases hr; rw [List.append_nil]; exact h
  | cons s ss ih =>
    intro pre st st' h hr
    simp only [St.run] at hr
    cases hs : st.step parse s with
    | none => rw [hs] at hr; cases hr
    | some st1 =>
      rw [hs] at hr
      have := ih _ _ _ (step_inv h hs) hr
      rwa [List.append_assoc] at this

/-! ### The property -/

/-- C67: at any time until it is closed the validator accepts exactly the names of the last value it has read and could parse, or
else the defaults; a value that was read takes effect when it is stored. -/
theorem C67_in_force (d : List Bytes) (v0 : V) (p0 : Bool) (ss : List (Step V)) (st : St V)
    (h : (init d v0 p0).run parse ss = some st) (hc : st.closed = false) (ns : Bytes) :
    ((∀ names, st.phase ≠ .parsed names) → (st.validate ns = .ok ↔ ns ∈ lastGood parse d (reads v0 ss))) ∧
    (∀ names, st.phase = .parsed names → ∃ vs v, reads v0 ss = vs ++ [v] ∧ parse v = some names ∧
      (st.validate ns = .ok ↔ ns ∈ lastGood parse d vs)) ∧
    st.validate ns ≠ .closed := by
  have hi : Inv parse d v0 p0 ss st := run_inv ss [] _ _ (init_inv d v0 p0) h
  have hv : st.validate ns = .ok ↔ ns ∈ st.valid := by
    unfold St.validate
    rw [hc]
    simp
  refine ⟨fun hp => by rw [hv, hi.inForce hp], fun names hp => ?_, ?_⟩
  · obtain ⟨vs, v, h1, h2, h3⟩ := hi.inFlight names hp
    exact ⟨vs, v, h1, h2, by rw [hv, h3]⟩
  · unfold St.validate
    rw [hc]
    simp only [Bool.false_eq_true, if_false]
    split <;> simp

/-- C67: once the goroutine waits and no notification is pending, what was published last is in force, if it can be parsed. -/
theorem C67_follows (d : List Bytes) (v0 : V) (p0 : Bool) (ss : List (Step V)) (st : St V)
    (h : (init d v0 p0).run parse ss = some st) (hc : st.closed = false) (hi : st.phase = .idle) (hp : st.pending = false)
    (ha : Announced p0 ss) (names : List Bytes) (hn : parse (published v0 ss) = some names) (ns : Bytes) :
    st.validate ns = .ok ↔ ns ∈ names := by
  have hinv : Inv parse d v0 p0 ss st := run_inv ss [] _ _ (init_inv d v0 p0) h
  have h1 := (C67_in_force d v0 p0 ss st h hc ns).1 (by rw [hi]; intro _ hx; cases hx)
  rw [h1]
  rcases hinv.fresh hp ha with h2 | ⟨vs, h2⟩
  · rw [hi] at h2; cases h2
  · rw [h2, lastGood_snoc, hinv.value, hn]; rfl

/-- The steps of the goroutine. -/
def Step.own : Step V → Bool
  | .notify => true
  | .read => true
  | .store => true
  | .done => true
  | _ => false

theorem closed_stays {st st' : St V} {s : Step V} (h : st.step parse s = some st') (hc : st.closed = true) : st'.closed = true := by
  cases s <;> simp only [St.step] at h
  case publish => cases h; exact hc
  all_goals
    repeat' split at h
    all_goals first
      | (cases h; first | exact hc | rfl)
      | cases h

theorem run_closed (ss : List (Step V)) : ∀ st st' : St V, st.run parse ss = some st' → st.closed = true → st'.closed = true := by
  induction ss with
  | nil => intro st st' h hc; cases h; exact hc
  | cons s ss ih =>
    intro st st' h hc
    simp only [St.run] at h
    cases hs : st.step parse s with
    | none => rw [hs] at h; cases h
    | some st1 => rw [hs] at h; exact ih _ _ h (closed_stays hs hc)

/-- After a call of `Close` the validator is closed, and the facts hold. -/
theorem after_close {d : List Bytes} {v0 : V} {p0 : Bool} {ss ss' : List (Step V)} {st' : St V}
    (h : (init d v0 p0).run parse (ss ++ .close :: ss') = some st') :
    st'.closed = true ∧ st'.returned = true ∧ Inv parse d v0 p0 (ss ++ .close :: ss') st' := by
  have hi : Inv parse d v0 p0 (ss ++ .close :: ss') st' := run_inv _ [] _ _ (init_inv d v0 p0) h
  have hc : st'.closed = true := by
    rw [run_append] at h
    cases h1 : (init d v0 p0).run parse ss with
    | none => rw [h1] at h; cases h
    | some st1 =>
      rw [h1] at h
      simp only [Option.bind_some, St.run] at h
      cases h2 : st1.step parse .close with
      | none => rw [h2] at h; cases h
      | some st2 =>
        rw [h2] at h
        refine run_closed ss' st2 st' h ?_
        simp only [St.step] at h2
        split at h2
        · split at h2
          · rename_i hc; cases h2; exact hc
          · cases h2; rfl
        · cases h2
  refine ⟨hc, ?_, hi⟩
  cases hr : st'.returned with
  | true => rfl
  | false => rw [hi.started hr] at hc; cases hc

/-- C67: after the first `Close` every validation says so, whatever happens later; further calls change nothing; the channel is
never closed twice; the goroutine has ended when `Close` returns. -/
theorem C67_closed (d : List Bytes) (v0 : V) (p0 : Bool) (ss ss' : List (Step V)) (st' : St V)
    (h : (init d v0 p0).run parse (ss ++ .close :: ss') = some st') :
    (∀ ns, st'.validate ns = .closed) ∧ st'.step parse .close = some st' ∧ st'.panicked = false ∧
    (∀ st'', st'.step parse .closeReturns = some st'' → st''.phase = .ended) := by
  obtain ⟨hc, hr, hi⟩ := after_close h
  refine ⟨fun ns => by unfold St.validate; rw [if_pos hc], by simp only [St.step]; rw [if_pos hr, if_pos hc], hi.panicked, ?_⟩
  intro st'' hs
  simp only [St.step] at hs
  split at hs
  · rename_i hc; cases hs; exact hc.1
  · cases hs

/-- How many steps the goroutine may take by itself. -/
def St.left (st : St V) : Nat :=
  (match st.phase with
    | .start => 1
    | .notified => 3
    | .parsed _ => 2
    | .idle => 1
    | .ended => 0) + if st.pending then 3 else 0

theorem own_step {st st' : St V} {s : Step V} (hs : s.own = true) (h : st.step parse s = some st') : st'.left < st.left := by
  cases s <;> simp only [Step.own, Bool.false_eq_true] at hs <;> simp only [St.step] at h
  · split at h
    · rename_i hc
      cases h
      simp only [St.left, hc.2, if_true]
      rcases hc.1 with h1 | h1 <;> rw [h1] <;> simp
    · cases h
  · split at h
    · rename_i hc
      split at h <;> cases h <;> simp only [St.left, hc, St.goOn] <;> by_cases hp : st.pending = true <;> simp [hp]
    · cases h
  · split at h
    · rename_i hc
      cases h
      simp only [St.left, hc, St.goOn]
      by_cases hp : st.pending = true <;> simp [hp]
    · cases h
  · split at h
    · rename_i hc
      cases h
      simp [St.left, hc.1]
    · cases h

theorem own_run (ss : List (Step V)) : ∀ st st' : St V, (∀ s ∈ ss, s.own = true) → st.run parse ss = some st' →
    ss.length + st'.left ≤ st.left := by
  induction ss with
  | nil => intro st st' _ h; cases h; simp
  | cons s ss ih =>
    intro st st' ho h
    simp only [St.run] at h
    cases hs : st.step parse s with
    | none => rw [hs] at h; cases h
    | some st1 =>
      rw [hs] at h
      have h1 := own_step (ho s (by simp)) hs
      have h2 := ih _ _ (fun s' hs' => ho s' (by simp [hs'])) h
      simp only [List.length_cons]
      omega

/-- C67: a waiting `Close` returns: once closed, the goroutine can take a step by itself until it has ended, and takes at most six
when no more values are published.  It needs no step of the callers, which wait outside of the lock. -/
theorem C67_close_returns (d : List Bytes) (v0 : V) (p0 : Bool) (ss ss' : List (Step V)) (st' : St V)
    (h : (init d v0 p0).run parse (ss ++ .close :: ss') = some st') :
    (st'.phase = .ended ∨ ∃ s : Step V, s.own = true ∧ (st'.step parse s).isSome = true) ∧
    (∀ own st'', (∀ s ∈ own, s.own = true) → st'.run parse own = some st'' → own.length ≤ 6) := by
  obtain ⟨hc, hr, hi⟩ := after_close h
  constructor
  · cases hp : st'.phase with
    | ended => exact Or.inl rfl
    | idle => exact Or.inr ⟨.done, rfl, by simp only [St.step]; rw [if_pos ⟨hp, by rw [hi.closed]; exact hc⟩]; rfl⟩
    | parsed names => exact Or.inr ⟨.store, rfl, by simp only [St.step, hp]; rfl⟩
    | notified => exact Or.inr ⟨.read, rfl, by simp only [St.step]; rw [if_pos hp]; split <;> rfl⟩
    | start =>
      exact absurd hp (hi.beyond hr)
  · intro own st'' ho hrun
    have := own_run own _ _ ho hrun
    have hl : st'.left ≤ 6 := by
      unfold St.left
      cases st'.phase <;> cases st'.pending <;> simp
    omega

/-- Beside C67: two updates and one that cannot be parsed, then two calls of `Close`, one of which waits. -/
example :
    let parse : Nat → Option (List Bytes) := fun n => if n = 0 then none else some [bs "a", List.replicate n 98]
    let ss : List (Step Nat) := [.timeout, .publish 1, .notify, .publish 2, .read, .publish 0, .store]
    ((init [bs "d"] 0 false).run parse ss).map (fun st => (st.validate (bs "bb"), st.validate (bs "d"), reads 0 ss)) =
      some (.ok, .invalid, [2]) ∧
    (((init [bs "d"] 0 false).run parse (ss ++ [.close, .close, .notify, .read, .done, .closeReturns])).map fun st =>
      (st.validate (bs "bb"), st.waiting, st.panicked)) = some (.closed, 0, false) := by decide +kernel

/-- The static validator: everything or nothing. -/
theorem C67_static (s ns : Bytes) (r : Bytes) (h : staticParse s = some r) :
    (staticValidate r ns = none ↔ s = bs "valid") := by
  unfold staticParse at h
  split at h
  · rename_i hs
    cases h
    unfold staticValidate
    rcases hs with rfl | rfl <;> decide
  · cases h

end Verif.NsVal
