import Verif.Lemmas.MsgpackLib
/- How much of the input the msgpack iterators read for what they decode. -/
namespace Verif.MP
open Verif.Policy Verif.Meta Verif.Wire Verif.Msg Verif.Spec.MP

/-- Reading a value takes at least a byte, skipping gives nothing back. -/
structure Consuming (l : Lib) : Prop where
  int : ∀ d v r, l.getInt d = .ok (v, r) → r.length < d.length
  bool : ∀ d v r, l.getBool d = .ok (v, r) → r.length < d.length
  f64 : ∀ d v r, l.getF64 d = .ok (v, r) → r.length < d.length
  bytesLen : ∀ d v r, l.getBytesLen d = .ok (v, r) → r.length < d.length
  arrayLen : ∀ d v r, l.getArrayLen d = .ok (v, r) → r.length < d.length
  skip : ∀ d r, l.skip d = .ok r → r.length ≤ d.length

/-! ### The library consumes -/

theorem takeN_length {d b r : Bytes} (h : takeN k d = .ok (b, r)) : r.length ≤ d.length := by
  unfold takeN at h
  split at h
  · cases h
  · simp only [Except.ok.injEq, Prod.mk.injEq] at h; rw [← h.2]; simp

theorem stdLen_length {d r : Bytes} {v : Int} (h : stdLen k d = .ok (v, r)) : r.length ≤ d.length := by
  unfold stdLen at h
  split at h
  · cases h
  · next hr => simp only [Except.ok.injEq, Prod.mk.injEq] at h; rw [← h.2]; exact readBE_length hr

theorem pass_length {d r : Bytes} {n : Nat} (h : pass k d = .ok (n, r)) : r.length ≤ d.length := by
  unfold pass at h
  split at h
  · cases h
  · next hr => simp only [Except.ok.injEq, Prod.mk.injEq] at h; rw [← h.2]; exact takeN_length hr

theorem passLen_length {d r : Bytes} {n : Nat} (h : passLen k d = .ok (n, r)) : r.length ≤ d.length := by
  unfold passLen at h
  split at h
  · cases h
  · next hr => have := readBE_length hr; have := pass_length h; omega

theorem inside_length {d r : Bytes} {n : Nat} (h : inside k m d = .ok (n, r)) : r.length ≤ d.length := by
  unfold inside at h
  split at h
  · cases h
  · next hr => simp only [Except.ok.injEq, Prod.mk.injEq] at h; rw [← h.2]; exact readBE_length hr

theorem ite_cases {c : Prop} [Decidable c] {a b y : α} {Q : Prop} (h : (if c then a else b) = y) (ha : a = y → Q) (hb : b = y → Q) : Q := by
  split at h
  · exact ha h
  · exact hb h

theorem header_length {d r : Bytes} {n : Nat} (h : header d = .ok (n, r)) : r.length ≤ d.length := by
  cases d with
  | nil => simp [header] at h
  | cons c d =>
    have done : ∀ {k : Nat}, (Except.ok (k, d) : Except Err (Nat × Bytes)) = .ok (n, r) → r.length ≤ d.length := by
      intro k h
      simp only [Except.ok.injEq, Prod.mk.injEq] at h
      rw [← h.2]
      exact Nat.le_refl _
    unfold header at h
    suffices r.length ≤ d.length by simp; omega
    refine ite_cases h done fun h => ite_cases h done fun h => ite_cases h done fun h => ite_cases h pass_length fun h =>
      ite_cases h passLen_length fun h => ite_cases h passLen_length fun h => ite_cases h passLen_length fun h =>
      ite_cases h pass_length fun h => ite_cases h pass_length fun h => ite_cases h pass_length fun h => ite_cases h pass_length fun h =>
      ite_cases h inside_length fun h => ite_cases h inside_length fun h => ite_cases h inside_length fun h =>
      ite_cases h inside_length fun h => ?_
    cases h

theorem skipN_length : ∀ (f n : Nat) (d r : Bytes), skipN f n d = .ok r → r.length ≤ d.length
  | 0, _, _, _, h => by simp [skipN] at h
  | f + 1, 0, d, r, h => by simp only [skipN, Except.ok.injEq] at h; rw [h]; exact Nat.le_refl _
  | f + 1, n + 1, d, r, h => by
    rw [skipN] at h
    split at h
    · cases h
    · next hr => have := header_length hr; have := skipN_length f _ _ _ h; omega

theorem std_consuming : Consuming std where
  int := std_intReads
  bool d v r h := by
    cases d with
    | nil => simp [std, stdGetBool] at h
    | cons c d =>
      simp only [std, stdGetBool] at h
      repeat' split at h
      all_goals first
        | (simp only [Except.ok.injEq, Prod.mk.injEq] at h; rw [← h.2]; exact Nat.lt_succ_self _)
        | cases h
  f64 d v r h := by
    cases d with
    | nil => simp [std, stdGetF64] at h
    | cons c d =>
      simp only [std, stdGetF64] at h
      split at h
      · split at h
        · cases h
        · next hr => simp only [Except.ok.injEq, Prod.mk.injEq] at h; rw [← h.2]; have := readBE_length hr; simp; omega
      · cases h
  bytesLen d v r h := by
    cases d with
    | nil => simp [std, stdGetBytesLen] at h
    | cons c d =>
      simp only [std, stdGetBytesLen] at h
      suffices r.length ≤ d.length by simp; omega
      repeat' split at h
      all_goals first
        | exact stdLen_length h
        | (simp only [Except.ok.injEq, Prod.mk.injEq] at h; rw [← h.2]; exact Nat.le_refl _)
        | cases h
  arrayLen d v r h := by
    cases d with
    | nil => simp [std, stdGetArrayLen] at h
    | cons c d =>
      simp only [std, stdGetArrayLen] at h
      suffices r.length ≤ d.length by simp; omega
      repeat' split at h
      all_goals first
        | exact stdLen_length h
        | (simp only [Except.ok.injEq, Prod.mk.injEq] at h; rw [← h.2]; exact Nat.le_refl _)
        | cases h
  skip d r h := skipN_length _ _ _ _ h

/-! ### Spending -/

/-- With credit `k`, unless there is an error in the end: there was none before, and what is left together with the weight of the
result is no more than what there was together with the credit. -/
def Spends (k : Nat) (m : D Base α) (w : α → Nat) : Prop :=
  ∀ s, (m s).2.err = none → s.err = none ∧ w (m s).1 + (m s).2.data.length ≤ k + s.data.length

theorem Spends.bind {m : D Base α} {f : α → D Base β} (h : Spends k m w) (h' : ∀ a, Spends (w a) (f a) w') : Spends k (m >>= f) w' := by
  intro s
  show (f (m s).1 (m s).2).2.err = none → s.err = none ∧ w' (f (m s).1 (m s).2).1 + (f (m s).1 (m s).2).2.data.length ≤ _
  intro he
  obtain ⟨e1, h1⟩ := h' _ _ he
  obtain ⟨e2, h2⟩ := h _ e1
  exact ⟨e2, by omega⟩

theorem Spends.pure (a : α) (h : w a ≤ k) : Spends k (Pure.pure a : D Base α) w := by
  intro s he
  exact ⟨he, by show w a + s.data.length ≤ k + s.data.length; omega⟩

theorem Spends.mono {m : D Base α} (h : Spends k m w) (hk : k ≤ k') (hw : ∀ a, w' a ≤ w a) : Spends k' m w' := by
  intro s he
  obtain ⟨e, h1⟩ := h s he
  have := hw (m s).1
  exact ⟨e, by omega⟩

theorem Spends.err : Spends k (setErr (some e)) w := fun _ he => by cases he

theorem Spends.getErr : Spends k getErr (fun _ => k) := fun _ he => ⟨he, Nat.le_refl _⟩

/-- More credit is kept. -/
theorem Spends.more {m : D Base α} (c : Nat) (h : Spends k m w) : Spends (c + k) m (fun a => c + w a) := by
  intro s he
  obtain ⟨e, h1⟩ := h s he
  exact ⟨e, by simp only; omega⟩

theorem Spends.call {g : Bytes → Except Err (α × Bytes)} {z : α} (h : ∀ d v r, g d = .ok (v, r) → r.length < d.length) :
    Spends k (call g z) (fun _ => k + 1) := by
  intro s he
  unfold MP.call at he ⊢
  cases hs : s.err with
  | some e => rw [hs] at he; rw [hs] at he; cases he
  | none =>
    rw [hs] at he
    simp only at he ⊢
    cases hg : g s.data with
    | error e => rw [hg] at he; cases he
    | ok x =>
      have := h _ _ _ hg
      simp only
      exact ⟨trivial, by omega⟩

theorem skipLoop_length {l : Lib} (C : Consuming l) : ∀ (n : Nat) (s : Base), (skipLoop l n s).2.err = none →
    (skipLoop l n s).2.data.length ≤ s.data.length
  | 0, s, _ => Nat.le_refl _
  | n + 1, s, he => by
    have e1 : skipLoop l (n + 1) s = (match l.skip s.data with
      | .error e => ((), { s with err := some e })
      | .ok r => skipLoop l n { s with data := r }) := rfl
    rw [e1] at he ⊢
    cases hk : l.skip s.data with
    | error e => rw [hk] at he; cases he
    | ok r =>
      rw [hk] at he
      have := skipLoop_length C n { s with data := r } he
      have := C.skip _ _ hk
      simp only at *
      omega

section
variable {l : Lib} (C : Consuming l) {x : XTime} {u : Units}
include C

theorem varint_spends : Spends k (decodeVarint l) (fun _ => k + 1) := .call C.int
theorem bool_spends : Spends k (decodeBool l) (fun _ => k + 1) := .call C.bool
theorem float_spends : Spends k (decodeFloat64 l) (fun _ => k + 1) := .call C.f64
theorem bytesLen_spends : Spends k (decodeBytesLen l) (fun _ => k + 1) := .call C.bytesLen
theorem arrayLen_spends : Spends k (decodeArrayLen l) (fun _ => k + 1) := .call C.arrayLen

theorem skip_spends (n : Int) : Spends k (skip l n) (fun _ => k) := by
  intro s he
  unfold skip at he ⊢
  cases hs : s.err with
  | some e => rw [hs] at he; rw [hs] at he; cases he
  | none =>
    rw [hs] at he
    simp only at he ⊢
    split at he
    · cases he
    · rename_i hn
      rw [if_neg hn]
      have := skipLoop_length C _ _ he
      exact ⟨trivial, by omega⟩

omit C in
theorem expected_spends (t n : Int) : Spends k (checkExpected t n) (fun _ => k) := by
  intro s he
  unfold checkExpected at he ⊢
  cases hs : s.err with
  | some e => rw [hs] at he; rw [hs] at he; cases he
  | none =>
    rw [hs] at he
    simp only at he ⊢
    split at he
    · cases he
    · rename_i hn
      rw [if_neg hn]
      exact ⟨trivial, Nat.le_refl _⟩

theorem numFields_spends (t : Int) : Spends k (checkNumFields l t) (fun _ => k + 1) :=
  .bind (arrayLen_spends C) fun _ => .bind (expected_spends _ _) fun _ => .pure _ (Nat.le_refl _)

theorem objectType_spends : Spends k (decodeObjectType l) (fun _ => k) := by
  refine .bind (varint_spends C) fun ot => .bind .getErr fun e => ?_
  cases e with
  | some e => exact .pure _ (by omega)
  | none =>
    show Spends _ (if _ then _ else _) _
    split
    · exact .pure _ (by omega)
    · exact .bind (w := fun _ => k) .err fun _ => .pure _ (Nat.le_refl _)

theorem typed_spends : Spends k (decodeTyped l) (fun _ => k + 1) :=
  .bind (arrayLen_spends C) fun _ => .bind (objectType_spends C) fun _ => .bind (expected_spends _ _) fun _ => .pure _ (Nat.le_refl _)

omit C in
theorem repeat_spends {m : D Base α} (h : Spends 0 m w) : ∀ n, Spends k (repeatD m n) (fun as => k + (as.map w).sum)
  | 0 => .pure _ (by simp)
  | n + 1 => .bind ((h.more k).mono (Nat.le_refl _) (fun _ => Nat.le_refl _)) fun a =>
      .bind (repeat_spends h n) fun as => .pure _ (by simp [Nat.add_assoc])

theorem aggID_spends : Spends k (decodeAggID l) (fun _ => k) := by
  refine .bind (typed_spends C) fun o => ?_
  cases o with
  | none => exact .pure _ (by omega)
  | some p =>
    obtain ⟨t, extra⟩ := p
    show Spends _ (if _ then _ else _) _
    split
    · exact .bind (skip_spends C _) fun _ => .pure _ (by omega)
    split
    · exact .bind (varint_spends C) fun _ => .bind (skip_spends C _) fun _ => .pure _ (by omega)
    split
    · refine .bind (arrayLen_spends C) fun n => ?_
      show Spends _ (if _ then _ else _) _
      split
      · exact .bind (w := fun _ => k) .err fun _ => .pure _ (Nat.le_refl _)
      · exact .bind (repeat_spends ((varint_spends C (k := 0)).mono (Nat.le_refl _) (w' := fun _ => 0) (fun _ => by omega)) _) fun _ =>
          .bind (skip_spends C _) fun _ => .pure _ (by omega)
    · exact .bind (w := fun _ => k) .err fun _ => .pure _ (Nat.le_refl _)

theorem resolution_spends : Spends k (decodeResolution l x u) (fun _ => k) := by
  refine .bind (typed_spends C) fun o => ?_
  cases o with
  | none => exact .pure _ (by omega)
  | some p =>
    obtain ⟨t, extra⟩ := p
    show Spends _ (if _ then _ else _) _
    split
    · refine .bind (varint_spends C) fun v => ?_
      show Spends _ (match valueToResolution u v with | none => _ | some r => _) _
      cases valueToResolution u v with
      | none => exact .bind (w := fun _ => k) .err fun _ => .pure _ (Nat.le_refl _)
      | some r =>
        refine .bind (skip_spends C _) fun _ => .bind .getErr fun e => ?_
        cases e <;> exact .pure _ (by omega)
    split
    · refine .bind (varint_spends C) fun w => .bind (varint_spends C) fun p => .bind .getErr fun e => ?_
      cases e with
      | some e => exact .pure _ (by omega)
      | none =>
        show Spends _ (match x.unitValue (p % 256).toNat with | none => _ | some _ => _) _
        cases x.unitValue (p % 256).toNat with
        | none => exact .bind (w := fun _ => k) .err fun _ => .pure _ (Nat.le_refl _)
        | some r => exact .bind (skip_spends C _) fun _ => .pure _ (by omega)
    · exact .bind (w := fun _ => k) .err fun _ => .pure _ (Nat.le_refl _)

theorem retention_spends : Spends k (decodeRetention l) (fun _ => k) := by
  refine .bind (typed_spends C) fun o => ?_
  cases o with
  | none => exact .pure _ (by omega)
  | some p =>
    obtain ⟨t, extra⟩ := p
    show Spends _ (if _ then _ else _) _
    split
    · refine .bind (varint_spends C) fun v => ?_
      show Spends _ (match valueToRetention v with | none => _ | some r => _) _
      cases valueToRetention v with
      | none => exact .bind (w := fun _ => k) .err fun _ => .pure _ (Nat.le_refl _)
      | some r =>
        refine .bind (skip_spends C _) fun _ => .bind .getErr fun e => ?_
        cases e <;> exact .pure _ (by omega)
    split
    · exact .bind (varint_spends C) fun w => .bind (skip_spends C _) fun _ => .pure _ (by omega)
    · exact .bind (w := fun _ => k) .err fun _ => .pure _ (Nat.le_refl _)

theorem storagePolicy_spends : Spends k (decodeStoragePolicy l x u) (fun _ => k) := by
  refine .bind (numFields_spends C _) fun o => ?_
  cases o with
  | none => exact .pure _ (by omega)
  | some extra =>
    exact .bind (resolution_spends C) fun _ => .bind (retention_spends C) fun _ => .bind (skip_spends C _) fun _ => .pure _ (by omega)

omit C in
theorem sum_ones (l : List α) : (l.map fun _ => 1).sum = l.length := by
  induction l with
  | nil => rfl
  | cons a l ih => simp only [List.map_cons, List.sum_cons, ih, List.length_cons]; omega

/-- A policy takes at least a byte. -/
theorem policy_spends : Spends 0 (decodePolicy l x u) (fun _ => 1) := by
  refine .bind (numFields_spends C _) fun o => ?_
  cases o with
  | none => exact .pure _ (by omega)
  | some extra =>
    exact .bind (storagePolicy_spends C) fun _ => .bind (aggID_spends C) fun _ => .bind (skip_spends C _) fun _ => .pure _ (by omega)

/-- Staged policies take at least a byte and one for every policy. -/
theorem staged_spends : Spends 0 (decodeStagedPolicies l x u) (fun p => 1 + p.policies.length) := by
  refine .bind (numFields_spends C _) fun o => ?_
  cases o with
  | none => exact .pure _ (Nat.le_refl _)
  | some extra =>
    refine .bind (varint_spends C) fun _ => .bind (bool_spends C) fun _ => .bind (arrayLen_spends C) fun _ =>
      .bind (repeat_spends (policy_spends C) _) fun ps => .bind (skip_spends C _) fun _ => .pure _ ?_
    have := sum_ones ps
    simp only [this]
    omega

theorem id_spends : Spends k (decodeID l) (fun _ => k) := by
  intro s he
  unfold decodeID at he ⊢
  have hb := bytesLen_spends C (k := k) s
  cases hd : decodeBytesLen l s with
  | mk n s' =>
    rw [hd] at he hb
    simp only at he hb ⊢
    cases hs : s'.err with
    | some e => rw [hs] at he; rw [hs] at he; cases he
    | none =>
      rw [hs] at he
      obtain ⟨h1, h2⟩ := hb hs
      simp only at he ⊢
      split at he
      · rename_i hn
        rw [if_pos hn]
        exact ⟨h1, by simp only; omega⟩
      rename_i hn
      rw [if_neg hn]
      split at he
      · rename_i hm
        rw [if_pos hm]
        exact ⟨h1, by simp only [List.length_drop]; omega⟩
      · cases he
end

end Verif.MP
