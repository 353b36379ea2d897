import Verif.Lemmas.MsgpackWork
/- What the msgpack iterators decode is told by the bytes they take, not by what comes after them. -/
namespace Verif.MP
open Verif.Policy Verif.Meta Verif.Wire Verif.Msg Verif.Spec.MP

/-- What is read is told by the bytes that are taken, at least one. -/
def Takes (g : Bytes → Except Err (α × Bytes)) : Prop :=
  ∀ d v r, g d = .ok (v, r) → ∃ p, p ≠ [] ∧ d = p ++ r ∧ ∀ t, g (p ++ t) = .ok (v, t)

/-- The functions of a library do this. -/
structure Delim (l : Lib) : Prop where
  int : Takes l.getInt
  bool : Takes l.getBool
  f64 : Takes l.getF64
  bytes : Takes l.getBytes
  bytesLen : Takes l.getBytesLen
  arrayLen : Takes l.getArrayLen
  skip : ∀ d r, l.skip d = .ok r → ∃ p, p ≠ [] ∧ d = p ++ r ∧ ∀ t, l.skip (p ++ t) = .ok t

/-! ### The library -/

/-- As `Takes`, for what comes after the first byte. -/
def Takes0 (g : Bytes → Except Err (α × Bytes)) : Prop :=
  ∀ d v r, g d = .ok (v, r) → ∃ p, d = p ++ r ∧ ∀ t, g (p ++ t) = .ok (v, t)

theorem takeN_takes (k : Nat) : Takes0 (takeN k) := by
  intro d b r h
  unfold takeN at h
  split at h
  · cases h
  · next hk =>
    simp only [Except.ok.injEq, Prod.mk.injEq] at h
    obtain ⟨rfl, rfl⟩ := h
    refine ⟨d.take k, (List.take_append_drop k d).symm, fun t => ?_⟩
    have hl : (d.take k).length = k := by simp; omega
    unfold takeN
    rw [if_neg (by simp; omega), List.take_append_of_le_length (by omega), List.take_of_length_le (by omega),
      List.drop_append_of_le_length (by omega), List.drop_of_length_le (by omega), List.nil_append]

/-- Further work on what was read. -/
theorem Takes0.next {g : Bytes → Except Err (α × Bytes)} {k : α → Bytes → Except Err (β × Bytes)} {f : Bytes → Except Err (β × Bytes)}
    (h : Takes0 g) (h' : ∀ a, Takes0 (k a)) (h0 : ∀ d e, g d = .error e → f d = .error e) (h1 : ∀ d a r, g d = .ok (a, r) → f d = k a r) :
    Takes0 f := by
  intro d v r hd
  cases hg : g d with
  | error e => rw [h0 _ _ hg] at hd; cases hd
  | ok x =>
    obtain ⟨a, r'⟩ := x
    rw [h1 _ _ _ hg] at hd
    obtain ⟨p, hp, hp'⟩ := h _ _ _ hg
    obtain ⟨q, hq, hq'⟩ := h' _ _ _ _ hd
    refine ⟨p ++ q, by rw [hp, hq, List.append_assoc], fun t => ?_⟩
    rw [List.append_assoc, h1 _ _ _ (hp' _), hq']

theorem Takes0.ret (f : α → β) (a : α) : Takes0 (fun r => (.ok (f a, r) : Except Err (β × Bytes))) := by
  intro d v r h
  simp only [Except.ok.injEq, Prod.mk.injEq] at h
  obtain ⟨rfl, rfl⟩ := h
  exact ⟨[], rfl, fun _ => rfl⟩

theorem Takes0.err (e : Err) : Takes0 (fun _ => (.error e : Except Err (β × Bytes))) := by
  intro d v r h
  cases h

theorem Takes0.ite (c : Prop) [Decidable c] {g k : Bytes → Except Err (β × Bytes)} (h : Takes0 g) (h' : Takes0 k) :
    Takes0 (fun d => if c then g d else k d) := by
  by_cases hc : c
  · simpa only [if_pos hc] using h
  · simpa only [if_neg hc] using h'

theorem readBE_takes (k : Nat) : Takes0 (readBE k) := 
  (takeN_takes k).next (fun a => .ret getBE a) (fun _ _ h => by unfold readBE; rw [h]) (fun _ _ _ h => by unfold readBE; rw [h])
theorem stdUint_takes (k : Nat) : Takes0 (stdUint k) := 
  (readBE_takes k).next (fun a => .ret toI64 a) (fun _ _ h => by unfold stdUint; rw [h]) (fun _ _ _ h => by unfold stdUint; rw [h])
theorem stdSint_takes (k : Nat) : Takes0 (stdSint k) := 
  (readBE_takes k).next (fun a => .ret (signed (8 * k)) a) (fun _ _ h => by unfold stdSint; rw [h]) (fun _ _ _ h => by unfold stdSint; rw [h])
theorem stdLen_takes (k : Nat) : Takes0 (stdLen k) := 
  (readBE_takes k).next (fun a => .ret (fun n : Nat => (n : Int)) a) (fun _ _ h => by unfold stdLen; rw [h]) (fun _ _ _ h => by unfold stdLen; rw [h])
theorem pass_takes (k : Nat) : Takes0 (pass k) := 
  (takeN_takes k).next (fun a => .ret (fun _ => 0) a) (fun _ _ h => by unfold pass; rw [h]) (fun _ _ _ h => by unfold pass; rw [h])
theorem passLen_takes (k : Nat) : Takes0 (passLen k) := 
  (readBE_takes k).next (fun a => pass_takes a) (fun _ _ h => by unfold passLen; rw [h]) (fun _ _ _ h => by unfold passLen; rw [h])
theorem inside_takes (k m : Nat) : Takes0 (inside k m) := 
  (readBE_takes k).next (fun a => .ret (fun n => m * n) a) (fun _ _ h => by unfold inside; rw [h]) (fun _ _ _ h => by unfold inside; rw [h])

/-- A first byte, and what it says. -/
theorem takes_first {g : Bytes → Except Err (α × Bytes)} {k : UInt8 → Bytes → Except Err (α × Bytes)} {e : Err}
    (h0 : g [] = .error e) (h1 : ∀ c r, g (c :: r) = k c r) (h : ∀ c, Takes0 (k c)) : Takes g := by
  intro d v r hd
  cases d with
  | nil => rw [h0] at hd; cases hd
  | cons c d =>
    rw [h1] at hd
    obtain ⟨p, hp, hp'⟩ := h c _ _ _ hd
    refine ⟨c :: p, by simp, by rw [hp]; rfl, fun t => ?_⟩
    rw [List.cons_append, h1, hp']

theorem int_takes : Takes stdGetInt :=
  takes_first rfl (fun _ _ => rfl) fun _ =>
    .ite _ (.ret (fun v => v) _) <| .ite _ (.ret (fun v => v) _) <| .ite _ (.ret (fun v => v) _) <|
    .ite _ (stdUint_takes 1) <| .ite _ (stdUint_takes 2) <| .ite _ (stdUint_takes 4) <| .ite _ (stdUint_takes 8) <|
    .ite _ (stdSint_takes 1) <| .ite _ (stdSint_takes 2) <| .ite _ (stdSint_takes 4) <| .ite _ (stdSint_takes 8) (.err _)

theorem bool_takes : Takes stdGetBool :=
  takes_first rfl (fun _ _ => rfl) fun _ => .ite _ (.ret (fun v => v) _) <| .ite _ (.ret (fun v => v) _) (.err _)

theorem f64_takes : Takes stdGetF64 :=
  takes_first rfl (fun _ _ => rfl) fun _ => .ite _ ((readBE_takes 8).next (fun a => .ret (BitVec.ofNat 64) a) (fun _ _ h => by rw [h]) (fun _ _ _ h => by rw [h])) (.err _)

theorem bytesLen_takes : Takes stdGetBytesLen :=
  takes_first rfl (fun _ _ => rfl) fun _ =>
    .ite _ (.ret (fun v => v) _) <| .ite _ (.ret (fun v => v) _) <| .ite _ (stdLen_takes 1) <| .ite _ (stdLen_takes 2) <|
    .ite _ (stdLen_takes 4) (.err _)

theorem arrayLen_takes : Takes stdGetArrayLen :=
  takes_first rfl (fun _ _ => rfl) fun _ =>
    .ite _ (.ret (fun v => v) _) <| .ite _ (.ret (fun v => v) _) <| .ite _ (stdLen_takes 2) <| .ite _ (stdLen_takes 4) (.err _)

theorem bytes_takes : Takes stdGetBytes := by
  intro d v r hd
  unfold stdGetBytes at hd
  cases hg : stdGetBytesLen d with
  | error e => rw [hg] at hd; cases hd
  | ok x =>
    obtain ⟨n, r'⟩ := x
    rw [hg] at hd
    obtain ⟨p, hn, hp, hp'⟩ := bytesLen_takes _ _ _ hg
    have h : Takes0 (fun r => if n = -1 then .ok ([], r) else takeN n.toNat r) := .ite _ (.ret (fun v => v) _) (takeN_takes _)
    obtain ⟨q, hq, hq'⟩ := h _ _ _ hd
    refine ⟨p ++ q, by simp [hn], by rw [hp, hq, List.append_assoc], fun t => ?_⟩
    unfold stdGetBytes
    rw [List.append_assoc, hp']
    exact hq' t

theorem header_takes : Takes header :=
  takes_first rfl (fun _ _ => rfl) fun _ =>
    .ite _ (.ret (fun v => v) _) <| .ite _ (.ret (fun v => v) _) <| .ite _ (.ret (fun v => v) _) <| .ite _ (pass_takes _) <|
    .ite _ (passLen_takes 1) <| .ite _ (passLen_takes 2) <| .ite _ (passLen_takes 4) <|
    .ite _ (pass_takes 1) <| .ite _ (pass_takes 2) <| .ite _ (pass_takes 4) <| .ite _ (pass_takes 8) <|
    .ite _ (inside_takes 2 1) <| .ite _ (inside_takes 4 1) <| .ite _ (inside_takes 2 2) <| .ite _ (inside_takes 4 2) (.err _)

/-- Skipping takes bytes, and with as much fuel as bytes it does the same with other bytes after them. -/
theorem skipN_takes : ∀ (f n : Nat) (d r : Bytes), skipN f n d = .ok r →
    ∃ p, d = p ++ r ∧ n ≤ p.length ∧ ∀ t f', p.length < f' → skipN f' n (p ++ t) = .ok t
  | 0, _, _, _, h => by simp [skipN] at h
  | f + 1, 0, d, r, h => by
    simp only [skipN, Except.ok.injEq] at h
    refine ⟨[], by simp [h], Nat.le_refl _, fun t f' hf => ?_⟩
    cases f' with
    | zero => cases hf
    | succ f' => rfl
  | f + 1, n + 1, d, r, h => by
    rw [skipN] at h
    split at h
    · cases h
    · next k r' hr =>
      obtain ⟨p, hn, hp, hp'⟩ := header_takes _ _ _ hr
      obtain ⟨q, hq, hl, hq'⟩ := skipN_takes f _ _ _ h
      have hpl : 0 < p.length := List.length_pos_iff.mpr hn
      refine ⟨p ++ q, by rw [hp, hq, List.append_assoc], by simp; omega, fun t f' hf => ?_⟩
      cases f' with
      | zero => cases hf
      | succ f' =>
        rw [skipN, List.append_assoc, hp']
        exact hq' t f' (by simp at hf; omega)

theorem std_delim : Delim std where
  int := int_takes
  bool := bool_takes
  f64 := f64_takes
  bytes := bytes_takes
  bytesLen := bytesLen_takes
  arrayLen := arrayLen_takes
  skip d r h := by
    obtain ⟨p, hp, hl, hp'⟩ := skipN_takes _ _ _ _ h
    exact ⟨p, by rintro rfl; simp at hl, hp, fun t => hp' t _ (by simp; omega)⟩

/-! ### Iterators -/

/-- What the two iterators have in common, and the base iterator itself. -/
class St (σ : Type) where
  base : σ → Base
  withBase : σ → Base → σ
  closed : σ → Bool
  ignore : σ → Bool
  base_with : ∀ s b, base (withBase s b) = b
  with_with : ∀ s b c, withBase (withBase s b) c = withBase s c
  with_base : ∀ s, withBase s (base s) = s
  closed_with : ∀ s b, closed (withBase s b) = closed s
  ignore_with : ∀ s b, ignore (withBase s b) = ignore s

instance : St Base := ⟨fun s => s, fun _ b => b, fun _ => false, fun _ => false, fun _ _ => rfl, fun _ _ _ => rfl, fun _ => rfl,
  fun _ _ => rfl, fun _ _ => rfl⟩
instance : St Iter := ⟨(·.base), fun s b => { s with base := b }, (·.closed), (·.ignoreHigherVersion), fun _ _ => rfl, fun _ _ _ => rfl,
  fun _ => rfl, fun _ _ => rfl, fun _ _ => rfl⟩

/-- The state with other bytes to read. -/
def put [St σ] (s : σ) (d : Bytes) : σ := St.withBase s ⟨d, (St.base s).err⟩

/-- Use of the base iterator. -/
def onS [St σ] (m : D Base α) : D σ α := fun s => match m (St.base s) with
  | (a, b) => (a, St.withBase s b)

section
variable {σ : Type} [St σ]

theorem put_base (s : σ) (d : Bytes) : St.base (put s d) = ⟨d, (St.base s).err⟩ := St.base_with _ _

theorem put_put (s : σ) (d e : Bytes) : put (put s d) e = put s e := by
  unfold put
  rw [St.with_with, St.base_with]

theorem put_self (s : σ) : put s (St.base s).data = s := by
  unfold put
  exact St.with_base s

theorem put_with (s : σ) (b : Base) (d : Bytes) : put (St.withBase s b) d = St.withBase s ⟨d, b.err⟩ := by
  unfold put
  rw [St.with_with, St.base_with]

/-- Unless there is an error in the end, there was none before, and what happens is told by the bytes that are taken. -/
def Cuts (m : D σ α) : Prop :=
  ∀ s, (St.base (m s).2).err = none → (St.base s).err = none ∧
    ∃ p, (St.base s).data = p ++ (St.base (m s).2).data ∧ ∀ t, m (put s (p ++ t)) = ((m s).1, put (m s).2 t)

theorem Cuts.bind {m : D σ α} {f : α → D σ β} (h : Cuts m) (h' : ∀ a, Cuts (f a)) : Cuts (m >>= f) := by
  intro s
  show (St.base (f (m s).1 (m s).2).2).err = none → (St.base s).err = none ∧
    ∃ p, (St.base s).data = p ++ (St.base (f (m s).1 (m s).2).2).data ∧
      ∀ t, f (m (put s (p ++ t))).1 (m (put s (p ++ t))).2 = ((f (m s).1 (m s).2).1, put (f (m s).1 (m s).2).2 t)
  intro he
  obtain ⟨e1, q, hq, hq'⟩ := h' _ _ he
  obtain ⟨e2, p, hp, hp'⟩ := h _ e1
  refine ⟨e2, p ++ q, by rw [hp, hq, List.append_assoc], fun t => ?_⟩
  rw [List.append_assoc, hp', hq']

theorem Cuts.pure (a : α) : Cuts (Pure.pure a : D σ α) := fun _ he => ⟨he, [], rfl, fun _ => rfl⟩

theorem Cuts.on {m : D Base α} (h : Cuts m) : Cuts (onS m : D σ α) := by
  intro s
  show (St.base (St.withBase s (m (St.base s)).2)).err = none → _
  rw [St.base_with]
  intro he
  obtain ⟨e, p, hp, hp'⟩ := h (St.base s) he
  refine ⟨e, p, ?_, fun t => ?_⟩
  · show _ = p ++ (St.base (St.withBase s (m (St.base s)).2)).data
    rw [St.base_with]
    exact hp
  · have := hp' t
    unfold onS
    rw [put_base]
    simp only
    have e1 : m ⟨p ++ t, (St.base s).err⟩ = ((m (St.base s)).1, ⟨t, (m (St.base s)).2.err⟩) := this
    rw [e1]
    simp only
    rw [put_with]
    unfold put
    rw [St.with_with]

/-- The stretches that are not of the base iterator: nothing is read. -/
theorem Cuts.set (g : σ → σ) (hb : ∀ s, St.base (g s) = St.base s) (hw : ∀ s b, g (St.withBase s b) = St.withBase (g s) b) :
    Cuts (fun s => ((), g s) : D σ Unit) := by
  intro s he
  simp only [hb] at he ⊢
  refine ⟨he, [], rfl, fun t => ?_⟩
  unfold put
  simp only [hw, hb, List.nil_append]

theorem Cuts.err {e : Err} : Cuts (setErr (some e)) := fun _ he => by cases he
theorem Cuts.getErr : Cuts getErr := fun _ he => ⟨he, [], rfl, fun _ => rfl⟩

theorem Cuts.call {g : Bytes → Except Err (α × Bytes)} {z : α} (h : Takes g) : Cuts (call g z) := by
  intro s he
  obtain ⟨d, e⟩ := s
  cases e with
  | some e => cases he
  | none =>
    cases hg : g d with
    | error e =>
      have e1 : MP.call g z ⟨d, none⟩ = (z, ⟨d, some e⟩) := by unfold MP.call; simp only [hg]
      rw [e1] at he
      cases he
    | ok x =>
      obtain ⟨a, r⟩ := x
      obtain ⟨p, _, hp, hp'⟩ := h _ _ _ hg
      have e1 : ∀ d' a r, g d' = .ok (a, r) → MP.call g z ⟨d', none⟩ = (a, ⟨r, none⟩) := by
        intro d' a r h; unfold MP.call; simp only [h]
      rw [e1 _ _ _ hg]
      exact ⟨rfl, p, hp, fun t => e1 _ _ _ (hp' t)⟩

theorem Cuts.repeat {m : D σ α} (h : Cuts m) : ∀ n, Cuts (repeatD m n)
  | 0 => .pure _
  | n + 1 => .bind h fun _ => .bind (Cuts.repeat h n) fun _ => .pure _

/-- What was read to the end with more bytes is not read with fewer. -/
theorem Cuts.short {m : D σ α} (h : Cuts m) (s : σ) (q t r : Bytes) (ht : t ≠ []) (h1 : (St.base (m (put s (q ++ (t ++ r)))).2).data = r) :
    (St.base (m (put s q)).2).err ≠ none := by
  intro he
  obtain ⟨_, p, hp, hp'⟩ := h _ he
  rw [put_base] at hp
  simp only at hp
  generalize hm : (St.base (m (put s q)).2).data = rest at hp
  have := hp' (rest ++ (t ++ r))
  rw [put_put, ← List.append_assoc, ← hp] at this
  rw [this] at h1
  simp only [put_base] at h1
  have hl := congrArg List.length h1
  simp at hl
  have : 0 < t.length := List.length_pos_iff.mpr ht
  omega
end

section
variable {l : Lib} (C : Delim l) {x : XTime} {u : Units}
include C

theorem skipLoop_cuts : ∀ n, Cuts (skipLoop l n)
  | 0 => fun _ he => ⟨he, [], rfl, fun _ => rfl⟩
  | n + 1 => by
    intro s he
    obtain ⟨d, e⟩ := s
    cases hk : l.skip d with
    | error e' =>
      have e1 : skipLoop l (n + 1) ⟨d, e⟩ = ((), ⟨d, some e'⟩) := by unfold skipLoop; simp only [hk]
      rw [e1] at he
      cases he
    | ok r =>
      obtain ⟨p, _, hp, hp'⟩ := C.skip _ _ hk
      have e1 : ∀ d' r, l.skip d' = .ok r → skipLoop l (n + 1) ⟨d', e⟩ = skipLoop l n ⟨r, e⟩ := by
        intro d' r h
        show (match l.skip d' with | .error e' => ((), _) | .ok r => skipLoop l n ⟨r, e⟩) = _
        rw [h]
      rw [e1 _ _ hk] at he ⊢
      obtain ⟨h1, q, hq, hq'⟩ := skipLoop_cuts n _ he
      refine ⟨h1, p ++ q, ?_, fun t => ?_⟩
      · show d = _
        rw [hp, List.append_assoc]
        exact congrArg (p ++ ·) hq
      · show skipLoop l (n + 1) ⟨(p ++ q) ++ t, e⟩ = _
        rw [List.append_assoc, e1 _ _ (hp' _)]
        exact hq' t

theorem skip_cuts (n : Int) : Cuts (skip l n) := by
  intro s he
  obtain ⟨d, e⟩ := s
  cases e with
  | some e => cases he
  | none =>
    by_cases hn : n < 0
    · have e1 : skip l n ⟨d, none⟩ = ((), ⟨d, some .other⟩) := by unfold skip; simp only [if_pos hn]
      rw [e1] at he
      cases he
    · have e1 : ∀ d', skip l n ⟨d', none⟩ = skipLoop l n.toNat ⟨d', none⟩ := by intro d'; unfold skip; simp only [if_neg hn]
      rw [e1] at he ⊢
      obtain ⟨h1, q, hq, hq'⟩ := skipLoop_cuts C _ _ he
      exact ⟨h1, q, hq, fun t => (e1 _).trans (hq' t)⟩

theorem varint_cuts : Cuts (decodeVarint l) := .call C.int
theorem bool_cuts : Cuts (decodeBool l) := .call C.bool
theorem float_cuts : Cuts (decodeFloat64 l) := .call C.f64
theorem bytesD_cuts : Cuts (decodeBytes l) := .call C.bytes
theorem bytesLenD_cuts : Cuts (decodeBytesLen l) := .call C.bytesLen
theorem arrayLenD_cuts : Cuts (decodeArrayLen l) := .call C.arrayLen

omit C in
theorem expected_cuts (t n : Int) : Cuts (checkExpected t n) := by
  intro s he
  obtain ⟨d, e⟩ := s
  cases e with
  | some e => cases he
  | none =>
    have h : ∀ d', checkExpected t n ⟨d', none⟩ = if (numFieldsForType t : Int) > n then (none, ⟨d', some .other⟩)
        else (some (numFieldsForType t : Int), ⟨d', none⟩) := fun d' => rfl
    rw [h] at he ⊢
    split at he
    · cases he
    · next hn =>
      rw [if_neg hn]
      exact ⟨rfl, [], rfl, fun t' => by show checkExpected t n ⟨_, none⟩ = _; rw [h, if_neg hn]; rfl⟩

theorem numFields_cuts (t : Int) : Cuts (checkNumFields l t) :=
  .bind (arrayLenD_cuts C) fun _ => .bind (expected_cuts _ _) fun _ => .pure _

theorem objectType_cuts : Cuts (decodeObjectType l) := by
  refine .bind (varint_cuts C) fun ot => .bind .getErr fun e => ?_
  cases e with
  | some e => exact .pure _
  | none =>
    show Cuts (if _ then _ else _)
    split
    · exact .pure _
    · exact .bind .err fun _ => .pure _

theorem typed_cuts : Cuts (decodeTyped l) :=
  .bind (arrayLenD_cuts C) fun _ => .bind (objectType_cuts C) fun _ => .bind (expected_cuts _ _) fun _ => .pure _

theorem aggID_cuts : Cuts (decodeAggID l) := by
  refine .bind (typed_cuts C) fun o => ?_
  cases o with
  | none => exact .pure _
  | some p =>
    obtain ⟨t, extra⟩ := p
    show Cuts (if _ then _ else _)
    split
    · exact .bind (skip_cuts C _) fun _ => .pure _
    split
    · exact .bind (varint_cuts C) fun _ => .bind (skip_cuts C _) fun _ => .pure _
    split
    · refine .bind (arrayLenD_cuts C) fun n => ?_
      show Cuts (if _ then _ else _)
      split
      · exact .bind .err fun _ => .pure _
      · exact .bind (.repeat (varint_cuts C) _) fun _ => .bind (skip_cuts C _) fun _ => .pure _
    · exact .bind .err fun _ => .pure _

theorem resolution_cuts : Cuts (decodeResolution l x u) := by
  refine .bind (typed_cuts C) fun o => ?_
  cases o with
  | none => exact .pure _
  | some p =>
    obtain ⟨t, extra⟩ := p
    show Cuts (if _ then _ else _)
    split
    · refine .bind (varint_cuts C) fun v => ?_
      show Cuts (match valueToResolution u v with | none => _ | some r => _)
      cases valueToResolution u v with
      | none => exact .bind .err fun _ => .pure _
      | some r =>
        refine .bind (skip_cuts C _) fun _ => .bind .getErr fun e => ?_
        cases e <;> exact .pure _
    split
    · refine .bind (varint_cuts C) fun w => .bind (varint_cuts C) fun p => .bind .getErr fun e => ?_
      cases e with
      | some e => exact .pure _
      | none =>
        show Cuts (match x.unitValue (p % 256).toNat with | none => _ | some _ => _)
        cases x.unitValue (p % 256).toNat with
        | none => exact .bind .err fun _ => .pure _
        | some r => exact .bind (skip_cuts C _) fun _ => .pure _
    · exact .bind .err fun _ => .pure _

theorem retention_cuts : Cuts (decodeRetention l) := by
  refine .bind (typed_cuts C) fun o => ?_
  cases o with
  | none => exact .pure _
  | some p =>
    obtain ⟨t, extra⟩ := p
    show Cuts (if _ then _ else _)
    split
    · refine .bind (varint_cuts C) fun v => ?_
      show Cuts (match valueToRetention v with | none => _ | some r => _)
      cases valueToRetention v with
      | none => exact .bind .err fun _ => .pure _
      | some r =>
        refine .bind (skip_cuts C _) fun _ => .bind .getErr fun e => ?_
        cases e <;> exact .pure _
    split
    · exact .bind (varint_cuts C) fun w => .bind (skip_cuts C _) fun _ => .pure _
    · exact .bind .err fun _ => .pure _

theorem storagePolicy_cuts : Cuts (decodeStoragePolicy l x u) := by
  refine .bind (numFields_cuts C _) fun o => ?_
  cases o with
  | none => exact .pure _
  | some extra =>
    exact .bind (resolution_cuts C) fun _ => .bind (retention_cuts C) fun _ => .bind (skip_cuts C _) fun _ => .pure _

theorem policy_cuts : Cuts (decodePolicy l x u) := by
  refine .bind (numFields_cuts C _) fun o => ?_
  cases o with
  | none => exact .pure _
  | some extra =>
    exact .bind (storagePolicy_cuts C) fun _ => .bind (aggID_cuts C) fun _ => .bind (skip_cuts C _) fun _ => .pure _

theorem staged_cuts : Cuts (decodeStagedPolicies l x u) := by
  refine .bind (numFields_cuts C _) fun o => ?_
  cases o with
  | none => exact .pure _
  | some extra =>
    exact .bind (varint_cuts C) fun _ => .bind (bool_cuts C) fun _ => .bind (arrayLenD_cuts C) fun _ =>
      .bind (.repeat (policy_cuts C) _) fun ps => .bind (skip_cuts C _) fun _ => .pure _

/-- The identifier after its length. -/
def idBody (n : Int) : D Base Bytes := fun s => match s.err with
  | some _ => ([], s)
  | none =>
    if n = -1 then ([], s)
    else if n.toNat ≤ s.data.length then (s.data.take n.toNat, { s with data := s.data.drop n.toNat })
    else ([], { s with data := [], err := some (if s.data.isEmpty then .eof else .other) })

omit C in
theorem idBody_cuts (n : Int) : Cuts (idBody n) := by
  intro s he
  obtain ⟨d, e⟩ := s
  cases e with
  | some e => cases he
  | none =>
    have h : ∀ d', idBody n ⟨d', none⟩ = if n = -1 then ([], ⟨d', none⟩)
        else if n.toNat ≤ d'.length then (d'.take n.toNat, ⟨d'.drop n.toNat, none⟩)
        else ([], ⟨[], some (if d'.isEmpty then .eof else .other)⟩) := fun d' => rfl
    rw [h] at he ⊢
    split at he
    · next h1 =>
      rw [if_pos h1]
      exact ⟨rfl, [], rfl, fun t => by show idBody n ⟨_, none⟩ = _; rw [h, if_pos h1]; rfl⟩
    next h1 =>
    rw [if_neg h1]
    split at he
    · next h2 =>
      rw [if_pos h2]
      refine ⟨rfl, d.take n.toNat, (List.take_append_drop _ _).symm, fun t => ?_⟩
      show idBody n ⟨_, none⟩ = _
      have hl : (d.take n.toNat).length = n.toNat := by simp; omega
      rw [h, if_neg h1, if_pos (by simp; omega), List.take_append_of_le_length (by omega), List.take_of_length_le (by omega),
        List.drop_append_of_le_length (by omega), List.drop_of_length_le (by omega), List.nil_append]
      rfl
    · cases he

theorem id_cuts : Cuts (decodeID l) := by
  have h : decodeID l = (decodeBytesLen l >>= fun n => idBody n) := rfl
  rw [h]
  exact .bind (bytesLenD_cuts C) fun n => idBody_cuts n

omit C in
theorem metric_cuts (g : MetricUnion → MetricUnion) : Cuts (setMetric g) :=
  Cuts.set (fun it : Iter => { it with metric := g it.metric }) (fun _ => rfl) (fun _ _ => rfl)

omit C in
theorem policies_cuts (pl : List StagedPolicies) : Cuts (setPolicies pl) :=
  Cuts.set (fun it : Iter => { it with policiesList := pl }) (fun _ => rfl) (fun _ _ => rfl)

omit C in
theorem Cuts.base {m : D Base α} (h : Cuts m) : Cuts (onBase m) := Cuts.on (σ := Iter) h

theorem counter_cuts : Cuts (decodeCounter l) := by
  refine .bind (.base (numFields_cuts C _)) fun o => ?_
  cases o with
  | none => exact .pure _
  | some extra =>
    exact .bind (metric_cuts _) fun _ => .bind (.base (id_cuts C)) fun _ => .bind (metric_cuts _) fun _ =>
      .bind (.base (varint_cuts C)) fun _ => .bind (metric_cuts _) fun _ => .base (skip_cuts C _)

theorem gauge_cuts : Cuts (decodeGauge l) := by
  refine .bind (.base (numFields_cuts C _)) fun o => ?_
  cases o with
  | none => exact .pure _
  | some extra =>
    exact .bind (metric_cuts _) fun _ => .bind (.base (id_cuts C)) fun _ => .bind (metric_cuts _) fun _ =>
      .bind (.base (float_cuts C)) fun _ => .bind (metric_cuts _) fun _ => .base (skip_cuts C _)

theorem timer_cuts : Cuts (decodeBatchTimer l) := by
  refine .bind (.base (numFields_cuts C _)) fun o => ?_
  cases o with
  | none => exact .pure _
  | some extra =>
    exact .bind (metric_cuts _) fun _ => .bind (.base (id_cuts C)) fun _ => .bind (metric_cuts _) fun _ =>
      .bind (.base (arrayLenD_cuts C)) fun _ => .bind (.base (.repeat (float_cuts C) _)) fun _ => .bind (metric_cuts _) fun _ =>
      .base (skip_cuts C _)

theorem policiesList_cuts : Cuts (decodePoliciesList l x u) := by
  refine .bind (.base (typed_cuts C)) fun o => ?_
  cases o with
  | none => exact .pure _
  | some p =>
    obtain ⟨t, extra⟩ := p
    show Cuts (if _ then _ else _)
    split
    · exact .bind (policies_cuts _) fun _ => .base (skip_cuts C _)
    split
    · exact .bind (.base (arrayLenD_cuts C)) fun _ => .bind (.base (.repeat (staged_cuts C) _)) fun _ =>
        .bind (policies_cuts _) fun _ => .base (skip_cuts C _)
    · exact .bind (.base .err) fun _ => .base (skip_cuts C _)

theorem kind_cuts (t : Int) : Cuts (decodeKind l t) := by
  unfold decodeKind
  split
  · exact counter_cuts C
  split
  · exact timer_cuts C
  · exact gauge_cuts C

theorem withPolicies_cuts (t : Int) : Cuts (decodeMetricWithPolicies l x u t) := by
  refine .bind (.base (numFields_cuts C _)) fun o => ?_
  cases o with
  | none => exact .pure _
  | some extra =>
    exact .bind (kind_cuts C _) fun _ => .bind (policiesList_cuts C) fun _ => .base (skip_cuts C _)

theorem body_cuts : Cuts (decodeBody l x u) := by
  refine .bind (.base (numFields_cuts C _)) fun o => ?_
  cases o with
  | none => exact .pure _
  | some extra =>
    refine .bind (.base (objectType_cuts C)) fun t => .bind (.base .getErr) fun e => ?_
    cases e with
    | some e => exact .pure _
    | none =>
      have rest : Cuts (do onBase (skip l extra); let e ← onBase getErr; return e.isNone : D Iter Bool) :=
        .bind (.base (skip_cuts C _)) fun _ => .bind (.base .getErr) fun _ => .pure _
      show Cuts (if _ then _ else _)
      split
      · exact .bind (kind_cuts C _) fun _ => rest
      split
      · exact .bind (withPolicies_cuts C _) fun _ => rest
      · exact .bind (.base .err) fun _ => rest
end

end Verif.MP
