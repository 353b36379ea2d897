import Verif.Props.MsgpackWork
/-
C75 also where `Next` returns false: what an iterator holds beyond the bytes it read are zeros.
-/
namespace Verif.MP
open Verif.Policy Verif.Meta Verif.Wire Verif.Msg Verif.Spec.MP
open Verif.Spec.Msg (Int64)

/-- The values are as many as `n` read ones, and then zeros. -/
def ReadThenZeros (n : Nat) (vs : List F64) : Prop := ∃ (read : List F64) (k : Nat), vs = read ++ List.replicate k 0 ∧ read.length ≤ n

/-- With or without an error, nothing is put back. -/
def Shrinks (m : D Base α) : Prop := ∀ s, (m s).2.data.length ≤ s.data.length

theorem Shrinks.bind {m : D Base α} {f : α → D Base β} (h : Shrinks m) (h' : ∀ a, Shrinks (f a)) : Shrinks (m >>= f) :=
  fun s => Nat.le_trans (h' (m s).1 (m s).2) (h s)

theorem Shrinks.pure (a : α) : Shrinks (Pure.pure a : D Base α) := fun _ => Nat.le_refl _

theorem Shrinks.getErr : Shrinks getErr := fun _ => Nat.le_refl _

theorem Shrinks.setErr (e : Option Err) : Shrinks (setErr e) := fun _ => Nat.le_refl _

theorem Shrinks.call {g : Bytes → Except Err (α × Bytes)} (h : ∀ d v r, g d = .ok (v, r) → r.length < d.length) (z : α) :
    Shrinks (call g z) := by
  intro s
  unfold MP.call
  split
  · exact Nat.le_refl _
  · split
    · exact Nat.le_refl _
    · next a r e => exact Nat.le_of_lt (h _ _ _ e)

theorem Shrinks.repeat {m : D Base α} (h : Shrinks m) : ∀ n, Shrinks (repeatD m n)
  | 0 => .pure _
  | n + 1 => .bind h fun _ => .bind (Shrinks.repeat h n) fun _ => .pure _

section
variable {l : Lib} (C : Consuming l) {x : XTime} {u : Units}
include C

theorem skipLoop_shrinks : ∀ (n : Nat), Shrinks (skipLoop l n)
  | 0 => fun _ => Nat.le_refl _
  | n + 1 => by
    intro s
    unfold skipLoop
    split
    · exact Nat.le_refl _
    · next r e => exact Nat.le_trans (skipLoop_shrinks n _) (C.skip _ _ e)

theorem skip_shrinks (n : Int) : Shrinks (skip l n) := by
  intro s
  unfold MP.skip
  split
  · exact Nat.le_refl _
  · split
    · exact Nat.le_refl _
    · exact skipLoop_shrinks C _ s

omit C in
theorem expected_shrinks (t n : Int) : Shrinks (checkExpected t n) := by
  intro s
  unfold checkExpected
  split
  · exact Nat.le_refl _
  · split <;> exact Nat.le_refl _

theorem varint_shrinks : Shrinks (decodeVarint l) := .call C.int _
theorem bool_shrinks : Shrinks (decodeBool l) := .call C.bool _
theorem float_shrinks : Shrinks (decodeFloat64 l) := .call C.f64 _
theorem bytesLen_shrinks : Shrinks (decodeBytesLen l) := .call C.bytesLen _
theorem arrayLen_shrinks : Shrinks (decodeArrayLen l) := .call C.arrayLen _

theorem numFields_shrinks (t : Int) : Shrinks (checkNumFields l t) :=
  .bind (arrayLen_shrinks C) fun _ => .bind (expected_shrinks _ _) fun _ => .pure _

theorem objectType_shrinks : Shrinks (decodeObjectType l) := by
  refine .bind (varint_shrinks C) fun ot => .bind .getErr fun e => ?_
  cases e with
  | some e => exact .pure _
  | none =>
    show Shrinks (if _ then _ else _)
    split
    · exact .pure _
    · exact .bind (.setErr _) fun _ => .pure _

theorem typed_shrinks : Shrinks (decodeTyped l) :=
  .bind (arrayLen_shrinks C) fun _ => .bind (objectType_shrinks C) fun _ => .bind (expected_shrinks _ _) fun _ => .pure _

theorem aggID_shrinks : Shrinks (decodeAggID l) := by
  refine .bind (typed_shrinks C) fun o => ?_
  cases o with
  | none => exact .pure _
  | some p =>
    obtain ⟨t, extra⟩ := p
    show Shrinks (if _ then _ else _)
    split
    · exact .bind (skip_shrinks C _) fun _ => .pure _
    split
    · exact .bind (varint_shrinks C) fun _ => .bind (skip_shrinks C _) fun _ => .pure _
    split
    · refine .bind (arrayLen_shrinks C) fun n => ?_
      show Shrinks (if _ then _ else _)
      split
      · exact .bind (.setErr _) fun _ => .pure _
      · exact .bind (.repeat (varint_shrinks C) _) fun _ => .bind (skip_shrinks C _) fun _ => .pure _
    · exact .bind (.setErr _) fun _ => .pure _

theorem resolution_shrinks : Shrinks (decodeResolution l x u) := by
  refine .bind (typed_shrinks C) fun o => ?_
  cases o with
  | none => exact .pure _
  | some p =>
    obtain ⟨t, extra⟩ := p
    show Shrinks (if _ then _ else _)
    split
    · refine .bind (varint_shrinks C) fun v => ?_
      show Shrinks (match valueToResolution u v with | none => _ | some r => _)
      cases valueToResolution u v with
      | none => exact .bind (.setErr _) fun _ => .pure _
      | some r =>
        refine .bind (skip_shrinks C _) fun _ => .bind .getErr fun e => ?_
        cases e <;> exact .pure _
    split
    · refine .bind (varint_shrinks C) fun w => .bind (varint_shrinks C) fun p => .bind .getErr fun e => ?_
      cases e with
      | some e => exact .pure _
      | none =>
        show Shrinks (match x.unitValue (p % 256).toNat with | none => _ | some _ => _)
        cases x.unitValue (p % 256).toNat with
        | none => exact .bind (.setErr _) fun _ => .pure _
        | some r => exact .bind (skip_shrinks C _) fun _ => .pure _
    · exact .bind (.setErr _) fun _ => .pure _

theorem retention_shrinks : Shrinks (decodeRetention l) := by
  refine .bind (typed_shrinks C) fun o => ?_
  cases o with
  | none => exact .pure _
  | some p =>
    obtain ⟨t, extra⟩ := p
    show Shrinks (if _ then _ else _)
    split
    · refine .bind (varint_shrinks C) fun v => ?_
      show Shrinks (match valueToRetention v with | none => _ | some r => _)
      cases valueToRetention v with
      | none => exact .bind (.setErr _) fun _ => .pure _
      | some r =>
        refine .bind (skip_shrinks C _) fun _ => .bind .getErr fun e => ?_
        cases e <;> exact .pure _
    split
    · exact .bind (varint_shrinks C) fun _ => .bind (skip_shrinks C _) fun _ => .pure _
    · exact .bind (.setErr _) fun _ => .pure _

theorem storagePolicy_shrinks : Shrinks (decodeStoragePolicy l x u) := by
  refine .bind (numFields_shrinks C _) fun o => ?_
  cases o with
  | none => exact .pure _
  | some extra =>
    exact .bind (resolution_shrinks C) fun _ => .bind (retention_shrinks C) fun _ => .bind (skip_shrinks C _) fun _ => .pure _

theorem policy_shrinks : Shrinks (decodePolicy l x u) := by
  refine .bind (numFields_shrinks C _) fun o => ?_
  cases o with
  | none => exact .pure _
  | some extra =>
    exact .bind (storagePolicy_shrinks C) fun _ => .bind (aggID_shrinks C) fun _ => .bind (skip_shrinks C _) fun _ => .pure _

theorem staged_shrinks : Shrinks (decodeStagedPolicies l x u) := by
  refine .bind (numFields_shrinks C _) fun o => ?_
  cases o with
  | none => exact .pure _
  | some extra =>
    exact .bind (varint_shrinks C) fun _ => .bind (bool_shrinks C) fun _ => .bind (arrayLen_shrinks C) fun _ =>
      .bind (.repeat (policy_shrinks C) _) fun _ => .bind (skip_shrinks C _) fun _ => .pure _

theorem id_shrinks : Shrinks (decodeID l) := by
  intro s
  have hb := bytesLen_shrinks C s
  unfold decodeID
  generalize decodeBytesLen l s = w at hb ⊢
  obtain ⟨n, s'⟩ := w
  simp only at hb ⊢
  split
  · exact hb
  · split
    · exact hb
    · split
      · simp only [List.length_drop]; omega
      · simp

/-- The values of a timer: read ones, each of which took a byte, and then zeros. -/
theorem floats_zeros : ∀ (n : Nat) (s : Base), ∃ (read : List F64) (k : Nat),
    (repeatD (decodeFloat64 l) n s).1 = read ++ List.replicate k 0 ∧
      read.length + (repeatD (decodeFloat64 l) n s).2.data.length ≤ s.data.length ∧ (s.err.isSome = true → read = [])
  | 0, s => ⟨[], 0, rfl, by simp [repeatD, Pure.pure], fun _ => rfl⟩
  | n + 1, s => by
    have e1 : (repeatD (decodeFloat64 l) (n + 1) s).1 = (decodeFloat64 l s).1 :: (repeatD (decodeFloat64 l) n (decodeFloat64 l s).2).1 := rfl
    have e2 : (repeatD (decodeFloat64 l) (n + 1) s).2 = (repeatD (decodeFloat64 l) n (decodeFloat64 l s).2).2 := rfl
    rw [e1, e2]
    obtain ⟨read, k, h1, h2, h3⟩ := floats_zeros n (decodeFloat64 l s).2
    rw [h1]
    cases hs : s.err with
    | some e =>
      have hd : decodeFloat64 l s = (0, s) := by unfold decodeFloat64 MP.call; rw [hs]
      rw [hd] at h2 h3 ⊢
      have hr := h3 (by rw [hs]; rfl)
      subst hr
      exact ⟨[], k + 1, by simp [List.replicate_succ], by simpa using h2, fun _ => rfl⟩
    | none =>
      cases hg : l.getF64 s.data with
      | error e =>
        have hd : decodeFloat64 l s = (0, { s with err := some e }) := by unfold decodeFloat64 MP.call; rw [hs]; simp only [hg]
        rw [hd] at h2 h3 ⊢
        have hr := h3 rfl
        subst hr
        exact ⟨[], k + 1, by simp [List.replicate_succ], by simpa using h2, fun h => by cases h⟩
      | ok p =>
        obtain ⟨v, r⟩ := p
        have hd : decodeFloat64 l s = (v, { s with data := r }) := by unfold decodeFloat64 MP.call; rw [hs]; simp only [hg]
        rw [hd] at h2 h3 ⊢
        have := C.f64 _ _ _ hg
        refine ⟨v :: read, k, by simp, ?_, fun h => by cases h⟩
        simp only [List.length_cons] at h2 ⊢
        omega

/-- The iterator holds values that were read, each of them from a byte of the `N` that is not there any more, and zeros. -/
def Honest (N : Nat) (it : Iter) : Prop := ∃ (read : List F64) (k : Nat),
  it.metric.batchTimerVal = read ++ List.replicate k 0 ∧ read.length + it.base.data.length ≤ N

/-- What a function keeps. -/
def KeepsZ (P : Iter → Prop) (m : D Iter α) : Prop := ∀ it, P it → P (m it).2

omit C in
theorem KeepsZ.bind {P : Iter → Prop} {m : D Iter α} {f : α → D Iter β} (h : KeepsZ P m) (h' : ∀ a, KeepsZ P (f a)) : KeepsZ P (m >>= f) :=
  fun it hp => h' (m it).1 (m it).2 (h it hp)

omit C in
theorem KeepsZ.pure {P : Iter → Prop} (a : α) : KeepsZ P (Pure.pure a : D Iter α) := fun _ h => h

omit C in
theorem KeepsZ.base {N : Nat} {m : D Base α} (h : Shrinks m) : KeepsZ (Honest N) (onBase m) := by
  rintro it ⟨read, k, h1, h2⟩
  exact ⟨read, k, h1, Nat.le_trans (Nat.add_le_add_left (h it.base) _) h2⟩

omit C in
theorem KeepsZ.metric {N : Nat} (g : MetricUnion → MetricUnion) (h : ∀ m, (g m).batchTimerVal = m.batchTimerVal) :
    KeepsZ (Honest N) (setMetric g) := by
  rintro it ⟨read, k, h1, h2⟩
  exact ⟨read, k, (h _).trans h1, h2⟩

omit C in
theorem KeepsZ.policies {N : Nat} (pl : List StagedPolicies) : KeepsZ (Honest N) (setPolicies pl) := fun _ h => h

theorem keepsz_skip {N : Nat} (n : Int) : KeepsZ (Honest N) (onBase (skip l n)) := .base (skip_shrinks C n)

theorem keepsz_counter {N : Nat} : KeepsZ (Honest N) (decodeCounter l) := by
  refine .bind (.base (numFields_shrinks C _)) fun o => ?_
  cases o with
  | none => exact .pure _
  | some extra =>
    exact .bind (.metric _ fun _ => rfl) fun _ => .bind (.base (id_shrinks C)) fun _ => .bind (.metric _ fun _ => rfl) fun _ =>
      .bind (.base (varint_shrinks C)) fun _ => .bind (.metric _ fun _ => rfl) fun _ => keepsz_skip C _

theorem keepsz_gauge {N : Nat} : KeepsZ (Honest N) (decodeGauge l) := by
  refine .bind (.base (numFields_shrinks C _)) fun o => ?_
  cases o with
  | none => exact .pure _
  | some extra =>
    exact .bind (.metric _ fun _ => rfl) fun _ => .bind (.base (id_shrinks C)) fun _ => .bind (.metric _ fun _ => rfl) fun _ =>
      .bind (.base (float_shrinks C)) fun _ => .bind (.metric _ fun _ => rfl) fun _ => keepsz_skip C _

theorem keepsz_values {N : Nat} (n : Nat) (f : D Iter α) (hf : KeepsZ (Honest N) f) :
    KeepsZ (Honest N) (do let vs ← onBase (repeatD (decodeFloat64 l) n); setMetric (fun m => { m with batchTimerVal := vs }); f) := by
  rintro it ⟨_, _, _, h2⟩
  obtain ⟨read, k, g1, g2, _⟩ := floats_zeros C n it.base
  refine hf _ ?_
  refine ⟨read, k, g1, ?_⟩
  show read.length + (repeatD (decodeFloat64 l) n it.base).2.data.length ≤ N
  omega

theorem keepsz_timer {N : Nat} : KeepsZ (Honest N) (decodeBatchTimer l) := by
  refine .bind (.base (numFields_shrinks C _)) fun o => ?_
  cases o with
  | none => exact .pure _
  | some extra =>
    exact .bind (.metric _ fun _ => rfl) fun _ => .bind (.base (id_shrinks C)) fun _ => .bind (.metric _ fun _ => rfl) fun _ =>
      .bind (.base (arrayLen_shrinks C)) fun n => keepsz_values C n.toNat _ (keepsz_skip C _)

theorem keepsz_kind {N : Nat} (t : Int) : KeepsZ (Honest N) (decodeKind l t) := by
  unfold decodeKind
  split
  · exact keepsz_counter C
  split
  · exact keepsz_timer C
  · exact keepsz_gauge C

theorem keepsz_policies {N : Nat} : KeepsZ (Honest N) (decodePoliciesList l x u) := by
  refine .bind (.base (typed_shrinks C)) fun o => ?_
  cases o with
  | none => exact .pure _
  | some p =>
    obtain ⟨t, extra⟩ := p
    show KeepsZ _ (if _ then _ else _)
    split
    · exact .bind (.policies _) fun _ => keepsz_skip C _
    split
    · exact .bind (.base (arrayLen_shrinks C)) fun n => .bind (.base (.repeat (staged_shrinks C) _)) fun pl =>
        .bind (.policies pl) fun _ => keepsz_skip C _
    · exact .bind (.base (.setErr _)) fun _ => keepsz_skip C _

theorem keepsz_withPolicies {N : Nat} (t : Int) : KeepsZ (Honest N) (decodeMetricWithPolicies l x u t) := by
  refine .bind (.base (numFields_shrinks C _)) fun o => ?_
  cases o with
  | none => exact .pure _
  | some extra => exact .bind (keepsz_kind C t) fun _ => .bind (keepsz_policies C) fun _ => keepsz_skip C _

theorem keepsz_body {N : Nat} : KeepsZ (Honest N) (decodeBody l x u) := by
  refine .bind (.base (numFields_shrinks C _)) fun o => ?_
  cases o with
  | none => exact .pure _
  | some extra =>
    refine .bind (.base (objectType_shrinks C)) fun t => .bind (.base .getErr) fun e => ?_
    cases e with
    | some e => exact .pure _
    | none =>
      have rest : KeepsZ (Honest N) (do onBase (skip l extra); let e ← onBase getErr; return e.isNone) :=
        .bind (keepsz_skip C _) fun _ => .bind (.base .getErr) fun _ => .pure _
      show KeepsZ _ (if _ then _ else _)
      split
      · exact .bind (keepsz_kind C t) fun _ => rest
      split
      · exact .bind (keepsz_withPolicies C t) fun _ => rest
      · exact .bind (.base (.setErr _)) fun _ => rest

theorem nextLoop_honest {N : Nat} : ∀ (f : Nat), KeepsZ (Honest N) (nextLoop l x u f)
  | 0 => fun _ h => h
  | f + 1 => by
    intro it h
    unfold nextLoop
    by_cases hstop : (it.base.err.isSome || it.closed) = true
    · rw [if_pos hstop]; exact h
    rw [if_neg hstop]
    have h0 : Honest N { it with metric := { it.metric with batchTimerVal := [] } } := by
      obtain ⟨_, _, _, h2⟩ := h
      exact ⟨[], 0, rfl, by simp only [List.length_nil]; omega⟩
    have h1 := KeepsZ.base (N := N) (varint_shrinks C) _ h0
    simp only
    generalize onBase (decodeVarint l) { it with metric := { it.metric with batchTimerVal := [] } } = w at h1 ⊢
    obtain ⟨version, it1⟩ := w
    simp only at h1 ⊢
    split
    · exact h1
    · split
      · split
        · exact nextLoop_honest f _ (keepsz_skip C _ _ (KeepsZ.base (arrayLen_shrinks C) _ h1))
        · exact h1
      · exact keepsz_body C it1 h1

/-- **C75**, also where `Next` returns false (partial: it bounds what was read, not what is held): whatever the bytes, after `Next` the
timer values in the iterator are values read from the bytes that are gone, at most one for each of these, and after them only zeros; unless
the iterator had stopped or was closed before, and then nothing changes. -/
theorem C75_zeros_partial (it it' : Iter) (b : Bool) (h : next l x u it = (b, it')) :
    ReadThenZeros (it.base.data.length - it'.base.data.length) it'.metric.batchTimerVal ∨
      ((it.base.err.isSome || it.closed) = true ∧ it' = it) := by
  unfold next at h
  by_cases hstop : (it.base.err.isSome || it.closed) = true
  · refine Or.inr ⟨hstop, ?_⟩
    unfold nextLoop at h
    rw [if_pos hstop] at h
    exact (Prod.mk.inj h).2.symm
  · left
    have h0 : Honest it.base.data.length { it with metric := { it.metric with batchTimerVal := [] } } := ⟨[], 0, rfl, by simp⟩
    have hk := nextLoop_honest C (x := x) (u := u) (it.base.data.length + 2) _ h0
    have he : nextLoop l x u (it.base.data.length + 2) { it with metric := { it.metric with batchTimerVal := [] } } =
        nextLoop l x u (it.base.data.length + 2) it := by
      unfold nextLoop
      rw [if_neg hstop, if_neg (by exact hstop)]
    rw [he, h] at hk
    obtain ⟨read, k, h1, h2⟩ := hk
    exact ⟨read, k, h1, by simp only at h2; omega⟩

end

/-- The input of eleven bytes that announces 4294967295 values: all of them are zeros. -/
example : ∃ (d : Bytes) (it : Iter), d.length = 11 ∧ next std unitX exU (new d false) = (false, it) ∧
    it.metric.batchTimerVal.length = 4294967295 ∧ ReadThenZeros (11 - it.base.data.length) it.metric.batchTimerVal := by
  obtain ⟨d, it, h1, h2, h3, _⟩ := C75_violation
  refine ⟨d, it, h1, h2, h3, ?_⟩
  rcases C75_zeros_partial std_consuming (new d false) it false h2 with h | h
  · rw [← h1]; exact h
  · cases h.1

end Verif.MP
