import Verif.Spec.MsgpackForm
import Verif.Lemmas.MsgpackDelim
import Verif.Lemmas.Msgpack
/- Exactly which bytes the decoders of the base iterator read, and as what. -/
namespace Verif.MP
open Verif.Policy Verif.Meta Verif.Wire Verif.Msg Verif.Spec.MP

/-- Without an error in the end, `m` reads bytes of the form `R`, and of each form it reads them. -/
def Exact (m : D Base α) (R : α → Bytes → Prop) : Prop :=
  ∀ d e a r, m ⟨d, e⟩ = (a, ⟨r, none⟩) ↔ e = none ∧ ∃ p, d = p ++ r ∧ R a p

/-- An error stays. -/
def Stays (m : D Base α) : Prop := ∀ d e, (m ⟨d, some e⟩).2.err ≠ none

theorem Exact.stays {m : D Base α} {R : α → Bytes → Prop} (h : Exact m R) : Stays m := by
  intro d e h'
  have := (h d (some e) (m ⟨d, some e⟩).1 (m ⟨d, some e⟩).2.data).mp (by
    rcases hm : m ⟨d, some e⟩ with ⟨a, r, o⟩
    rw [hm] at h'
    simp only at h'
    subst h'
    rfl)
  cases this.1

theorem Exact.congr {m : D Base α} {R Q : α → Bytes → Prop} (h : Exact m R) (e : ∀ a p, R a p ↔ Q a p) : Exact m Q := by
  intro d x a r
  rw [h]
  simp only [e]

theorem bind_run (m : D Base α) (f : α → D Base β) (s : Base) : (m >>= f) s = f (m s).1 (m s).2 := rfl

theorem Exact.bind {m : D Base α} {f : α → D Base β} {R : α → Bytes → Prop} {Q : α → β → Bytes → Prop} (h : Exact m R)
    (h' : ∀ a, (∃ p, R a p) → Exact (f a) (Q a)) (hs : ∀ a, Stays (f a)) :
    Exact (m >>= f) (fun b p => ∃ a q q', R a q ∧ Q a b q' ∧ p = q ++ q') := by
  intro d e b r
  rw [bind_run]
  constructor
  · intro hr
    rcases hm : m ⟨d, e⟩ with ⟨a, d', o⟩
    rw [hm] at hr
    cases o with
    | some o =>
      have := hs a d' o
      simp only at hr
      rw [hr] at this
      exact absurd rfl this
    | none =>
      obtain ⟨rfl, p, rfl, hp⟩ := (h _ _ _ _).mp hm
      obtain ⟨_, q, rfl, hq⟩ := (h' a ⟨p, hp⟩ _ _ _ _).mp hr
      exact ⟨rfl, p ++ q, by simp, a, p, q, hp, hq, rfl⟩
  · rintro ⟨rfl, p, rfl, a, q, q', hq, hq', rfl⟩
    have hm := (h (q ++ (q' ++ r)) none a (q' ++ r)).mpr ⟨rfl, q, rfl, hq⟩
    rw [List.append_assoc, hm]
    exact (h' a ⟨q, hq⟩ _ _ _ _).mpr ⟨rfl, q', rfl, hq'⟩

theorem Exact.pure (a : α) : Exact (Pure.pure a : D Base α) (fun b p => b = a ∧ p = []) := by
  intro d e b r
  show ((a, (⟨d, e⟩ : Base)) = (b, ⟨r, none⟩)) ↔ _
  constructor
  · intro h
    simp only [Prod.mk.injEq, Base.mk.injEq] at h
    obtain ⟨rfl, rfl, rfl⟩ := h
    exact ⟨rfl, [], rfl, rfl, rfl⟩
  · rintro ⟨rfl, p, rfl, rfl, rfl⟩
    rfl

theorem Stays.pure (a : α) : Stays (Pure.pure a : D Base α) := fun _ _ h => by cases h

/-- A value made of what is read. -/
theorem Exact.map {m : D Base α} {R : α → Bytes → Prop} (h : Exact m R) (f : α → β) :
    Exact (m >>= fun a => Pure.pure (f a)) (fun b p => ∃ a, b = f a ∧ R a p) := by
  refine (h.bind (fun a _ => .pure (f a)) fun a => .pure (f a)).congr fun b p => ?_
  constructor
  · rintro ⟨a, q, q', hr, ⟨rfl, rfl⟩, rfl⟩
    exact ⟨a, rfl, by simpa using hr⟩
  · rintro ⟨a, rfl, hr⟩
    exact ⟨a, p, [], hr, ⟨rfl, rfl⟩, by simp⟩

theorem Exact.fail (e : Err) (f : Unit → D Base α) (hf : Stays (f ())) : Exact (setErr (some e) >>= f) (fun _ _ => False) := by
  intro d x a r
  constructor
  · intro h
    have := hf d e
    have h2 : f () ⟨d, some e⟩ = (a, ⟨r, none⟩) := h
    rw [h2] at this
    exact absurd rfl this
  · rintro ⟨_, _, _, h⟩
    exact h.elim

theorem Exact.ite (c : Prop) [Decidable c] {m m' : D Base α} {R Q : α → Bytes → Prop} (h : c → Exact m R) (h' : ¬ c → Exact m' Q) :
    Exact (if c then m else m') (fun a p => (c ∧ R a p) ∨ (¬ c ∧ Q a p)) := by
  by_cases hc : c
  · rw [if_pos hc]; exact (h hc).congr fun a p => by simp [hc]
  · rw [if_neg hc]; exact (h' hc).congr fun a p => by simp [hc]

theorem Exact.check {f : Option Err → D Base α} {R : α → Bytes → Prop} (h : Exact (f none) R) (hs : ∀ e, Stays (f (some e))) :
    Exact (getErr >>= f) R := by
  intro d e a r
  show f e ⟨d, e⟩ = _ ↔ _
  cases e with
  | none => exact h d none a r
  | some e =>
    constructor
    · intro h2
      have := hs e d e
      rw [h2] at this
      exact absurd rfl this
    · rintro ⟨h2, _⟩
      cases h2

theorem Exact.call {g : Bytes → Except Err (α × Bytes)} {z : α} (h : Takes g) : Exact (call g z) (As g) := by
  intro d e a r
  cases e with
  | some e =>
    constructor
    · intro h2
      have e1 : MP.call g z ⟨d, some e⟩ = (z, ⟨d, some e⟩) := rfl
      rw [e1] at h2
      cases h2
    · rintro ⟨h2, _⟩
      cases h2
  | none =>
    have e1 : MP.call g z ⟨d, none⟩ = match g d with | .error e => (z, ⟨d, some e⟩) | .ok (a, r) => (a, ⟨r, none⟩) := rfl
    rw [e1]
    constructor
    · intro h2
      cases hg : g d with
      | error x => rw [hg] at h2; cases h2
      | ok v =>
        obtain ⟨a', r'⟩ := v
        rw [hg] at h2
        cases h2
        obtain ⟨p, _, hp, hp'⟩ := h _ _ _ hg
        exact ⟨rfl, p, hp, hp'⟩
    · rintro ⟨_, p, rfl, hp⟩
      rw [hp r]

theorem Exact.repeat {m : D Base α} {R : α → Bytes → Prop} (h : Exact m R) : ∀ n, Exact (repeatD m n) (fun as p => as.length = n ∧ WList R as p)
  | 0 => (Exact.pure []).congr fun as p => by
    constructor
    · rintro ⟨rfl, rfl⟩; exact ⟨rfl, rfl⟩
    · rintro ⟨h1, h2⟩
      rw [List.eq_nil_of_length_eq_zero h1] at h2 ⊢
      exact ⟨rfl, h2⟩
  | n + 1 => by
    have ih := Exact.repeat h n
    refine (h.bind (fun a _ => ih.map (fun r => a :: r)) fun a => (ih.map (fun r => a :: r)).stays).congr fun as p => ?_
    constructor
    · rintro ⟨a, q, q', ha, ⟨r, rfl, hl, hr⟩, rfl⟩
      exact ⟨by simp [hl], q, q', ha, hr, rfl⟩
    · rintro ⟨hl, hr⟩
      cases as with
      | nil => simp at hl
      | cons a as =>
        obtain ⟨q, q', ha, hq, rfl⟩ := hr
        exact ⟨a, q, q', ha, ⟨as, rfl, by simpa using hl, hq⟩, rfl⟩

section
variable {l : Lib} (C : Delim l) {x : XTime} {u : Units}
include C

theorem skipLoop_exact : ∀ n d a r, skipLoop l n ⟨d, none⟩ = (a, ⟨r, none⟩) ↔ ∃ p, d = p ++ r ∧ Wholes l n p
  | 0, d, a, r => by
    have e1 : skipLoop l 0 ⟨d, none⟩ = ((), ⟨d, none⟩) := rfl
    rw [e1]
    constructor
    · intro h; cases h; exact ⟨[], rfl, rfl⟩
    · rintro ⟨p, rfl, rfl⟩; rfl
  | n + 1, d, a, r => by
    have e1 : skipLoop l (n + 1) ⟨d, none⟩ = match l.skip d with | .error e => ((), ⟨d, some e⟩) | .ok r => skipLoop l n ⟨r, none⟩ := rfl
    rw [e1]
    constructor
    · intro h
      cases hk : l.skip d with
      | error e => rw [hk] at h; cases h
      | ok r' =>
        rw [hk] at h
        obtain ⟨p, _, rfl, hp⟩ := C.skip _ _ hk
        obtain ⟨q, rfl, hq⟩ := (skipLoop_exact n _ _ _).mp h
        exact ⟨p ++ q, by simp, p, q, hp, hq, rfl⟩
    · rintro ⟨_, rfl, c, d', hc, hd, rfl⟩
      rw [List.append_assoc, hc]
      exact (skipLoop_exact n _ _ _).mpr ⟨d', rfl, hd⟩

theorem skip_exact (n : Int) : Exact (skip l n) (fun _ p => 0 ≤ n ∧ Wholes l n.toNat p) := by
  intro d e a r
  cases e with
  | some e =>
    have e1 : skip l n ⟨d, some e⟩ = ((), ⟨d, some e⟩) := rfl
    rw [e1]
    constructor
    · intro h; cases h
    · rintro ⟨h, _⟩; cases h
  | none =>
    have e1 : skip l n ⟨d, none⟩ = if n < 0 then ((), ⟨d, some .other⟩) else skipLoop l n.toNat ⟨d, none⟩ := rfl
    rw [e1]
    split
    · constructor
      · intro h; cases h
      · rintro ⟨_, p, _, h, _⟩; omega
    · rw [skipLoop_exact C]
      constructor
      · rintro ⟨p, rfl, h⟩; exact ⟨rfl, p, rfl, by omega, h⟩
      · rintro ⟨_, p, rfl, _, h⟩; exact ⟨p, rfl, h⟩

theorem varint_exact : Exact (decodeVarint l) (As l.getInt) := .call C.int
theorem bool_exact : Exact (decodeBool l) (As l.getBool) := .call C.bool
theorem float_exact : Exact (decodeFloat64 l) (As l.getF64) := .call C.f64
theorem bytes_exact : Exact (decodeBytes l) (As l.getBytes) := .call C.bytes
theorem bytesLen_exact : Exact (decodeBytesLen l) (As l.getBytesLen) := .call C.bytesLen
theorem arrayLen_exact : Exact (decodeArrayLen l) (As l.getArrayLen) := .call C.arrayLen

omit C in
theorem expected_exact (t n : Int) : Exact (checkExpected t n) (fun o p => (numFieldsForType t : Int) ≤ n ∧ o = some (numFieldsForType t : Int) ∧ p = []) := by
  intro d e a r
  cases e with
  | some e =>
    have e1 : checkExpected t n ⟨d, some e⟩ = (none, ⟨d, some e⟩) := rfl
    rw [e1]
    constructor
    · intro h; cases h
    · rintro ⟨h, _⟩; cases h
  | none =>
    have e1 : checkExpected t n ⟨d, none⟩ = if (numFieldsForType t : Int) > n then (none, ⟨d, some .other⟩)
        else (some (numFieldsForType t : Int), ⟨d, none⟩) := rfl
    rw [e1]
    split
    · constructor
      · intro h; cases h
      · rintro ⟨_, p, _, h, _⟩; omega
    · constructor
      · intro h; cases h; exact ⟨rfl, [], rfl, by omega, rfl, rfl⟩
      · rintro ⟨_, p, rfl, _, rfl, rfl⟩; rfl

theorem numFields_exact (t : Int) : Exact (checkNumFields l t)
    (fun o p => ∃ n : Nat, numFieldsForType t ≤ n ∧ o = some ((n : Int) - numFieldsForType t) ∧ As l.getArrayLen (n : Int) p) := by
  have hs : ∀ n, Exact (checkExpected t n >>= fun o => Pure.pure (o.map fun e => n - e)) _ := fun n => (expected_exact t n).map (fun o => o.map fun e => n - e)
  refine ((arrayLen_exact C).bind (fun n _ => hs n) fun n => (hs n).stays).congr fun o p => ?_
  constructor
  · rintro ⟨n, q, q', hn, ⟨o', rfl, h1, rfl, rfl⟩, rfl⟩
    refine ⟨n.toNat, by omega, ?_, ?_⟩
    · rw [Int.toNat_of_nonneg (by omega)]; rfl
    · rw [Int.toNat_of_nonneg (by omega), List.append_nil]; exact hn
  · rintro ⟨n, h1, rfl, h2⟩
    exact ⟨n, p, [], h2, ⟨some _, rfl, by omega, rfl, rfl⟩, by simp⟩

theorem objectType_exact : Exact (decodeObjectType l) (fun t p => 0 < t ∧ t ≤ 22 ∧ As l.getInt t p) := by
  have hc : ∀ ot : Int, Exact (getErr >>= fun e => match e with
      | some _ => Pure.pure 0
      | none => if ot > 0 ∧ ot ≤ numObjectTypes then Pure.pure ot else (setErr (some .other) >>= fun _ => Pure.pure 0) : D Base Int)
      (fun t p => (0 < ot ∧ ot ≤ 22) ∧ t = ot ∧ p = []) := by
    intro ot
    refine .check ?_ fun e => .pure _
    refine (Exact.ite (ot > 0 ∧ ot ≤ numObjectTypes) (fun _ => .pure ot) fun _ => .fail _ _ (.pure _)).congr fun t p => ?_
    have : numObjectTypes = 22 := rfl
    rw [this]
    constructor
    · rintro (h | h)
      · exact h
      · exact h.2.elim
    · exact Or.inl
  refine ((varint_exact C).bind (fun ot _ => hc ot) fun ot => (hc ot).stays).congr fun t p => ?_
  constructor
  · rintro ⟨ot, q, q', h1, ⟨h2, rfl, rfl⟩, rfl⟩
    exact ⟨h2.1, h2.2, by simpa using h1⟩
  · rintro ⟨h1, h2, h3⟩
    exact ⟨t, p, [], h3, ⟨⟨h1, h2⟩, rfl, rfl⟩, by simp⟩

omit C in
theorem seq_append {fs : List (Bytes → Prop)} {g : Bytes → Prop} : ∀ {b}, Seq (fs ++ [g]) b ↔ ∃ c d, Seq fs c ∧ g d ∧ b = c ++ d := by
  induction fs with
  | nil =>
    intro b
    constructor
    · rintro ⟨c, d, hc, rfl, rfl⟩; exact ⟨[], c, rfl, hc, by simp⟩
    · rintro ⟨c, d, h, hd, rfl⟩; cases h; exact ⟨d, [], hd, rfl, by simp⟩
  | cons f fs ih =>
    intro b
    constructor
    · rintro ⟨c, d, hc, hd, rfl⟩
      obtain ⟨c', d', hc', hd', rfl⟩ := ih.mp hd
      exact ⟨c ++ c', d', ⟨c, c', hc, hc', rfl⟩, hd', by simp⟩
    · rintro ⟨_, d, ⟨c, c', hc, hc', rfl⟩, hd, rfl⟩
      exact ⟨c, c' ++ d, hc, ih.mpr ⟨c', d, hc', hd, rfl⟩, by simp⟩

omit C in
/-- An object as the number of its fields and the rest. -/
theorem object_iff {fs : List (Bytes → Prop)} {b : Bytes} :
    Object l fs b ↔ ∃ n : Nat, fs.length ≤ n ∧ ∃ h f r, As l.getArrayLen (n : Int) h ∧ Seq fs f ∧ Wholes l (n - fs.length) r ∧ b = h ++ (f ++ r) := by
  unfold Object
  constructor
  · rintro ⟨n, hn, h, d, h1, h2, rfl⟩
    obtain ⟨f, r, h3, h4, rfl⟩ := seq_append.mp h2
    exact ⟨n, hn, h, f, r, h1, h3, h4, rfl⟩
  · rintro ⟨n, hn, h, f, r, h1, h3, h4, rfl⟩
    exact ⟨n, hn, h, f ++ r, h1, seq_append.mpr ⟨f, r, h3, h4, rfl⟩, rfl⟩

/-- An object whose type is known beforehand. -/
theorem object_exact {t : Int} {f : Option Int → D Base α} {F : α → List (Bytes → Prop)} (hl : ∀ a, (F a).length = numFieldsForType t)
    (hn : Stays (f none))
    (hf : ∀ k : Nat, Exact (f (some (k : Int))) (fun a p => ∃ c r, Seq (F a) c ∧ Wholes l k r ∧ p = c ++ r)) (hs : ∀ k, Stays (f (some k))) :
    Exact (checkNumFields l t >>= f) (fun a p => Object l (F a) p) := by
  refine ((numFields_exact C t).bind (Q := fun o a p => ∃ k : Nat, o = some (k : Int) ∧ ∃ c r, Seq (F a) c ∧ Wholes l k r ∧ p = c ++ r) ?_ ?_).congr fun a p => ?_
  · rintro o ⟨p, n, h1, rfl, h2⟩
    have e : (n : Int) - numFieldsForType t = ((n - numFieldsForType t : Nat) : Int) := by omega
    rw [e]
    refine (hf _).congr fun a p => ?_
    constructor
    · intro h; exact ⟨_, rfl, h⟩
    · rintro ⟨k, hk, h⟩
      simp only [Option.some.injEq, Int.natCast_inj] at hk
      rw [hk]; exact h
  · intro o
    cases o with
    | none => exact hn
    | some k => exact hs k
  · rw [object_iff, hl]
    constructor
    · rintro ⟨o, q, q', ⟨n, h1, rfl, h2⟩, ⟨k, hk, c, r, h3, h4, rfl⟩, rfl⟩
      have e : k = n - numFieldsForType t := by simp only [Option.some.injEq] at hk; omega
      subst e
      exact ⟨n, h1, q, c, r, h2, h3, h4, rfl⟩
    · rintro ⟨n, h1, h, c, r, h2, h3, h4, rfl⟩
      exact ⟨_, h, c ++ r, ⟨n, h1, rfl, h2⟩, ⟨n - numFieldsForType t, by congr 1; omega, c, r, h3, h4, rfl⟩, rfl⟩

/-- An object whose first field is its type. -/
theorem typed_exact {f : Option (Int × Int) → D Base α} {F : Int → α → List (Bytes → Prop) → Prop} (hl : ∀ t a fs, F t a fs → fs.length + 1 = numFieldsForType t)
    (hn : Stays (f none)) (hs : ∀ k, Stays (f (some k)))
    (hf : ∀ t (k : Nat), Exact (f (some (t, (k : Int)))) (fun a p => ∃ fs c r, F t a fs ∧ Seq fs c ∧ Wholes l k r ∧ p = c ++ r)) :
    Exact (decodeTyped l >>= f) (fun a p => ∃ t fs, 0 < t ∧ t ≤ 22 ∧ F t a fs ∧ Object l (As l.getInt t :: fs) p) := by
  have h1 : ∀ n t, Exact (checkExpected t n >>= fun o => Pure.pure (o.map fun e => (t, n - e))) _ := fun n t =>
    (expected_exact t n).map (fun o => o.map fun e => (t, n - e))
  have h2 : ∀ n, Exact (decodeObjectType l >>= fun t => checkExpected t n >>= fun o => Pure.pure (o.map fun e => (t, n - e))) _ := fun n =>
    (objectType_exact C).bind (fun t _ => h1 n t) fun t => (h1 n t).stays
  have h3 : Exact (decodeTyped l) _ := (arrayLen_exact C).bind (fun n _ => h2 n) fun n => (h2 n).stays
  have h4 : Exact (decodeTyped l) (fun o p => ∃ n : Nat, ∃ t, 0 < t ∧ t ≤ 22 ∧ numFieldsForType t ≤ n ∧ o = some (t, ((n - numFieldsForType t : Nat) : Int)) ∧
      ∃ h c, As l.getArrayLen (n : Int) h ∧ As l.getInt t c ∧ p = h ++ c) := by
    refine h3.congr fun o p => ?_
    constructor
    · rintro ⟨n, h, _, hh, ⟨t, c, _, ⟨t1, t2, hc⟩, ⟨_, rfl, hn, rfl, rfl⟩, rfl⟩, rfl⟩
      refine ⟨n.toNat, t, t1, t2, by omega, ?_, h, c, ?_, hc, by simp⟩
      · show some (t, n - (numFieldsForType t : Int)) = _
        congr 2; omega
      · rw [Int.toNat_of_nonneg (by omega)]; exact hh
    · rintro ⟨n, t, t1, t2, hn, rfl, h, c, hh, hc, rfl⟩
      refine ⟨n, h, c, hh, ⟨t, c, [], ⟨t1, t2, hc⟩, ⟨_, ?_, by omega, rfl, rfl⟩, by simp⟩, rfl⟩
      show _ = some (t, (n : Int) - (numFieldsForType t : Int))
      congr 2; omega
  refine (h4.bind (Q := fun o a p => ∃ t, ∃ k : Nat, o = some (t, (k : Int)) ∧ ∃ fs c r, F t a fs ∧ Seq fs c ∧ Wholes l k r ∧ p = c ++ r) ?_ ?_).congr fun a p => ?_
  · rintro o ⟨p, n, t, t1, t2, h1, rfl, h2⟩
    refine (hf _ _).congr fun a p => ?_
    constructor
    · intro h; exact ⟨_, _, rfl, h⟩
    · rintro ⟨t', k, hk, h⟩
      simp only [Option.some.injEq, Prod.mk.injEq, Int.natCast_inj] at hk
      obtain ⟨rfl, rfl⟩ := hk
      exact h
  · intro o
    cases o with
    | none => exact hn
    | some k => exact hs k
  · constructor
    · rintro ⟨o, q, q', ⟨n, t, t1, t2, h1, rfl, h, c, h2, h3, rfl⟩, ⟨t', k, hk, fs, c', r, hF, h4, h5, rfl⟩, rfl⟩
      simp only [Option.some.injEq, Prod.mk.injEq, Int.natCast_inj] at hk
      obtain ⟨rfl, rfl⟩ := hk
      have hl := hl _ _ _ hF
      refine ⟨t, fs, t1, t2, hF, object_iff.mpr ⟨n, by simp; omega, h, c ++ c', r, h2, ⟨c, c', h3, h4, rfl⟩, ?_, by simp⟩⟩
      rw [List.length_cons, hl]; exact h5
    · rintro ⟨t, fs, t1, t2, hF, ho⟩
      have hl := hl _ _ _ hF
      obtain ⟨n, hn, h, _, r, h2, ⟨c, c', h3, h4, rfl⟩, h5, rfl⟩ := object_iff.mp ho
      rw [List.length_cons, hl] at hn h5
      exact ⟨_, h ++ c, c' ++ r, ⟨n, t, t1, t2, hn, rfl, h, c, h2, h3, rfl⟩, ⟨t, _, rfl, fs, c', r, hF, h4, h5, rfl⟩, by simp⟩

/-- The end of an object: the further fields, and the value. -/
theorem last_exact (k : Nat) (a : α) : Exact (skip l (k : Int) >>= fun _ => Pure.pure a) (fun b p => b = a ∧ Wholes l k p) := by
  refine ((skip_exact C k).map (fun _ => a)).congr fun b p => ?_
  constructor
  · rintro ⟨_, rfl, _, h⟩; exact ⟨rfl, h⟩
  · rintro ⟨rfl, h⟩; exact ⟨(), rfl, by omega, h⟩

theorem last_stays (k : Int) (a : α) : Stays (skip l k >>= fun _ => Pure.pure a) := ((skip_exact C k).map (fun _ => a)).stays

omit C in
theorem seq_one {f : Bytes → Prop} {b : Bytes} : Seq [f] b ↔ f b := by
  constructor
  · rintro ⟨c, d, h, rfl, rfl⟩; simpa using h
  · intro h; exact ⟨b, [], h, rfl, by simp⟩

omit C in
theorem seq_cons {f : Bytes → Prop} {fs : List (Bytes → Prop)} {b : Bytes} : Seq (f :: fs) b ↔ ∃ c d, f c ∧ Seq fs d ∧ b = c ++ d := Iff.rfl

omit C in
theorem seq_nil {b : Bytes} : Seq [] b ↔ b = [] := Iff.rfl

theorem aggID_exact : Exact (decodeAggID l) (AggID l) := by
  have hlong : ∀ n : Int, ∀ k, Exact (if n > 1 then (setErr (some .other) >>= fun _ => Pure.pure 0)
      else (repeatD (decodeVarint l) n.toNat >>= fun vs => skip l k >>= fun _ => Pure.pure (BitVec.ofInt 64 (vs.headD 0)) : D Base Agg.ID)) _ := fun n k =>
    .ite (n > 1) (fun _ => .fail _ _ (.pure _)) fun _ => ((varint_exact C).repeat n.toNat).bind (fun vs _ => (skip_exact C k).map (fun _ => BitVec.ofInt 64 (vs.headD 0)))
      fun vs => ((skip_exact C k).map (fun _ => BitVec.ofInt 64 (vs.headD 0))).stays
  have hbody : ∀ t (k : Int), Exact (if t = defaultAggregationID then (skip l k >>= fun _ => Pure.pure 0)
    else if t = shortAggregationID then (decodeVarint l >>= fun v => skip l k >>= fun _ => Pure.pure (BitVec.ofInt 64 v))
    else if t = longAggregationID then (decodeArrayLen l >>= fun n => if n > 1 then (setErr (some .other) >>= fun _ => Pure.pure 0)
      else (repeatD (decodeVarint l) n.toNat >>= fun vs => skip l k >>= fun _ => Pure.pure (BitVec.ofInt 64 (vs.headD 0))))
    else (setErr (some .other) >>= fun _ => Pure.pure 0) : D Base Agg.ID) _ := fun t k =>
    .ite _ (fun _ => (skip_exact C k).map (fun _ => (0 : Agg.ID))) fun _ =>
    .ite _ (fun _ => (varint_exact C).bind (fun v _ => (skip_exact C k).map (fun _ => BitVec.ofInt 64 v)) fun v => last_stays C k _) fun _ =>
    .ite _ (fun _ => (arrayLen_exact C).bind (fun n _ => hlong n k) fun n => (hlong n k).stays) fun _ => .fail _ _ (.pure _)
  refine (typed_exact C (F := fun t id fs => (t = 18 ∧ id = 0 ∧ fs = []) ∨ (∃ v, t = 19 ∧ id = BitVec.ofInt 64 v ∧ fs = [As l.getInt v]) ∨
      ∃ vs : List Int, t = 20 ∧ vs.length ≤ 1 ∧ id = BitVec.ofInt 64 (vs.headD 0) ∧ fs = [Elems l (As l.getInt) vs]) ?_ (.pure _) ?_ ?_).congr fun id p => ?_
  · rintro t a fs (⟨rfl, _, rfl⟩ | ⟨v, rfl, _, rfl⟩ | ⟨vs, rfl, _, _, rfl⟩) <;> rfl
  · rintro ⟨t, k⟩; exact (hbody t k).stays
  · intro t k
    refine (hbody t k).congr fun id p => ?_
    constructor
    · rintro (⟨rfl, _, rfl, _, h⟩ | ⟨_, ⟨rfl, v, q, q', h1, ⟨_, rfl, _, h2⟩, rfl⟩ | ⟨_, ⟨rfl, n, q, q', h1, ⟨_, hf⟩ | ⟨hn, vs, c, d, ⟨h2, h3⟩, ⟨_, rfl, _, h4⟩, rfl⟩, rfl⟩ | ⟨_, hf⟩⟩⟩)
      · exact ⟨[], [], p, .inl ⟨rfl, rfl, rfl⟩, rfl, h, rfl⟩
      · exact ⟨_, q, q', .inr (.inl ⟨v, rfl, rfl, rfl⟩), seq_one.mpr h1, h2, rfl⟩
      · exact hf.elim
      · exact ⟨_, q ++ c, d, .inr (.inr ⟨vs, rfl, by omega, rfl, rfl⟩), seq_one.mpr ⟨n, h2.symm, q, c, h1, seq_one.mpr h3, rfl⟩, h4, by simp⟩
      · exact hf.elim
    · rintro ⟨_, c, r, ⟨rfl, rfl, rfl⟩ | ⟨v, rfl, rfl, rfl⟩ | ⟨vs, rfl, h1, rfl, rfl⟩, hc, hr, rfl⟩
      · cases hc
        exact .inl ⟨rfl, (), rfl, by omega, hr⟩
      · exact .inr ⟨by decide, .inl ⟨rfl, v, c, r, seq_one.mp hc, ⟨(), rfl, by omega, hr⟩, rfl⟩⟩
      · obtain ⟨n, h2, q, c', h3, h4, rfl⟩ := seq_one.mp hc
        exact .inr ⟨by decide, .inr ⟨by decide, .inl ⟨rfl, n, q, c' ++ r, h3, .inr ⟨by omega, vs, c', r, ⟨h2.symm, seq_one.mp h4⟩, ⟨(), rfl, by omega, hr⟩, rfl⟩, by simp⟩⟩⟩
  · constructor
    · rintro ⟨t, _, _, _, ⟨rfl, rfl, rfl⟩ | ⟨v, rfl, rfl, rfl⟩ | ⟨vs, rfl, h1, rfl, rfl⟩, h⟩
      · exact .inl ⟨rfl, h⟩
      · exact .inr (.inl ⟨v, rfl, h⟩)
      · exact .inr (.inr ⟨vs, h1, rfl, h⟩)
    · rintro (⟨rfl, h⟩ | ⟨v, rfl, h⟩ | ⟨vs, h1, rfl, h⟩)
      · exact ⟨18, _, by decide, by decide, .inl ⟨rfl, rfl, rfl⟩, h⟩
      · exact ⟨19, _, by decide, by decide, .inr (.inl ⟨v, rfl, rfl, rfl⟩), h⟩
      · exact ⟨20, _, by decide, by decide, .inr (.inr ⟨vs, rfl, h1, rfl, rfl⟩), h⟩

omit C in
theorem knownResolution_iff (v : Int) (r : Resolution) : valueToResolution u v = some r ↔ (v, r) ∈ KnownResolution u := by
  constructor
  · intro h
    unfold valueToResolution at h
    split at h
    · next e => cases h; subst e; simp [KnownResolution, oneSecond]
    split at h
    · next e => cases h; subst e; simp [KnownResolution, oneSecond]
    split at h
    · next e => cases h; subst e; simp [KnownResolution, oneMinute, oneSecond]
    split at h
    · next e => cases h; subst e; simp [KnownResolution, oneMinute, oneSecond]
    split at h
    · next e => cases h; subst e; simp [KnownResolution, oneMinute, oneSecond]
    · cases h
  · exact fun h => (knownResolution_value h).1

omit C in
theorem knownRetention_iff (v : Int) (r : Int) : valueToRetention v = some r ↔ ∃ h, (v, h) ∈ KnownRetention ∧ r = h * 3600000000000 := by
  constructor
  · intro h
    unfold valueToRetention at h
    repeat' split at h
    all_goals first
      | cases h
      | skip
    all_goals
      next e =>
        subst e
        simp only [KnownRetention, oneHour]
        first
          | exact ⟨1, by simp, by decide⟩ | exact ⟨6, by simp, by decide⟩ | exact ⟨12, by simp, by decide⟩ | exact ⟨24, by simp, by decide⟩
          | exact ⟨48, by simp, by decide⟩ | exact ⟨168, by simp, by decide⟩ | exact ⟨336, by simp, by decide⟩ | exact ⟨720, by simp, by decide⟩
          | exact ⟨1080, by simp, by decide⟩
  · rintro ⟨h, h1, rfl⟩
    exact (knownRetention_value h1).1

omit C in
theorem Stays.fail (e : Err) (f : Unit → D Base α) (hf : Stays (f ())) : Stays (setErr (some e) >>= f) := (Exact.fail e f hf).stays

theorem resolution_exact : Exact (decodeResolution l x u) (Resol l x u) := by
  have hend : ∀ (k : Int) (r : Resolution), Exact (skip l k >>= fun _ => getErr >>= fun e => match e with
      | some _ => Pure.pure ⟨0, 0⟩
      | none => Pure.pure r : D Base Resolution) (fun b p => b = r ∧ 0 ≤ k ∧ Wholes l k.toNat p) := by
    intro k r
    have h1 : Exact (getErr >>= fun e => match e with
      | some _ => Pure.pure ⟨0, 0⟩
      | none => Pure.pure r : D Base Resolution) (fun b p => b = r ∧ p = []) := .check (.pure r) fun _ => .pure _
    refine ((skip_exact C k).bind (fun _ _ => h1) fun _ => h1.stays).congr fun b p => ?_
    constructor
    · rintro ⟨_, q, q', h2, ⟨rfl, rfl⟩, rfl⟩; exact ⟨rfl, by simpa using h2⟩
    · rintro ⟨rfl, h⟩; exact ⟨(), p, [], h, ⟨rfl, rfl⟩, by simp⟩
  have hknown : ∀ (v k : Int), Exact (match valueToResolution u v with
      | none => (setErr (some .other) >>= fun _ => Pure.pure ⟨0, 0⟩)
      | some r => (skip l k >>= fun _ => getErr >>= fun e => match e with
        | some _ => Pure.pure ⟨0, 0⟩
        | none => Pure.pure r) : D Base Resolution) (fun r p => (v, r) ∈ KnownResolution u ∧ 0 ≤ k ∧ Wholes l k.toNat p) := by
    intro v k
    cases hv : valueToResolution u v with
    | none =>
      refine (Exact.fail (α := Resolution) .other (fun _ => Pure.pure ⟨0, 0⟩) (.pure _)).congr fun r p => ?_
      rw [← knownResolution_iff, hv]
      simp
    | some r =>
      refine (hend k r).congr fun r' p => ?_
      rw [← knownResolution_iff, hv, Option.some.injEq, eq_comm]
  have hunknown : ∀ (w p k : Int), Exact (getErr >>= fun e => match e with
      | some _ => Pure.pure ⟨0, 0⟩
      | none => match x.unitValue (p % 256).toNat with
        | none => (setErr (some .other) >>= fun _ => Pure.pure ⟨0, 0⟩)
        | some _ => (skip l k >>= fun _ => Pure.pure ⟨w, (p % 256).toNat⟩) : D Base Resolution)
      (fun r b => (x.unitValue (p % 256).toNat).isSome ∧ r = ⟨w, (p % 256).toNat⟩ ∧ 0 ≤ k ∧ Wholes l k.toNat b) := by
    intro w p k
    refine .check ?_ fun _ => .pure _
    simp only
    cases hx : x.unitValue (p % 256).toNat with
    | none => exact (Exact.fail (α := Resolution) .other (fun _ => Pure.pure ⟨0, 0⟩) (.pure _)).congr fun r b => by simp
    | some d =>
      refine ((skip_exact C k).map (fun _ => (⟨w, (p % 256).toNat⟩ : Resolution))).congr fun r b => ?_
      constructor
      · rintro ⟨_, rfl, h⟩; exact ⟨rfl, rfl, h⟩
      · rintro ⟨_, rfl, h⟩; exact ⟨(), rfl, h⟩
  have hbody : ∀ t (k : Int), Exact (if t = knownResolutionType then (decodeVarint l >>= fun v => match valueToResolution u v with
      | none => (setErr (some .other) >>= fun _ => Pure.pure ⟨0, 0⟩)
      | some r => (skip l k >>= fun _ => getErr >>= fun e => match e with
        | some _ => Pure.pure ⟨0, 0⟩
        | none => Pure.pure r))
    else if t = unknownResolutionType then (decodeVarint l >>= fun w => decodeVarint l >>= fun p => getErr >>= fun e => match e with
      | some _ => Pure.pure ⟨0, 0⟩
      | none => match x.unitValue (p % 256).toNat with
        | none => (setErr (some .other) >>= fun _ => Pure.pure ⟨0, 0⟩)
        | some _ => (skip l k >>= fun _ => Pure.pure ⟨w, (p % 256).toNat⟩))
    else (setErr (some .other) >>= fun _ => Pure.pure ⟨0, 0⟩) : D Base Resolution) _ := fun t k =>
    .ite _ (fun _ => (varint_exact C).bind (fun v _ => hknown v k) fun v => (hknown v k).stays) fun _ =>
    .ite _ (fun _ => (varint_exact C).bind (fun w _ => (varint_exact C).bind (fun p _ => hunknown w p k) fun p => (hunknown w p k).stays)
      fun w => ((varint_exact C).bind (fun p _ => hunknown w p k) fun p => (hunknown w p k).stays).stays) fun _ =>
    .fail _ _ (.pure _)
  refine (typed_exact C (F := fun t r fs => (∃ v, t = 14 ∧ (v, r) ∈ KnownResolution u ∧ fs = [As l.getInt v]) ∨
      ∃ p, t = 15 ∧ r.precision = (p % 256).toNat ∧ (x.unitValue r.precision).isSome ∧ fs = [As l.getInt r.window, As l.getInt p]) ?_ (.pure _) ?_ ?_).congr fun r p => ?_
  · rintro t a fs (⟨v, rfl, _, rfl⟩ | ⟨v, rfl, _, _, rfl⟩) <;> rfl
  · rintro ⟨t, k⟩; exact (hbody t k).stays
  · intro t k
    refine (hbody t k).congr fun r p => ?_
    constructor
    · rintro (⟨rfl, v, q, q', h1, ⟨h2, _, h3⟩, rfl⟩ | ⟨_, ⟨rfl, w, q, q', h1, ⟨p, q2, q3, h2, ⟨h3, rfl, _, h4⟩, rfl⟩, rfl⟩ | ⟨_, hf⟩⟩)
      · exact ⟨_, q, q', .inl ⟨v, rfl, h2, rfl⟩, seq_one.mpr h1, h3, rfl⟩
      · exact ⟨_, q ++ q2, q3, .inr ⟨p, rfl, rfl, h3, rfl⟩, ⟨q, q2, h1, seq_one.mpr h2, rfl⟩, h4, by simp⟩
      · exact hf.elim
    · rintro ⟨_, c, b, ⟨v, rfl, h1, rfl⟩ | ⟨v, rfl, h1, h2, rfl⟩, hc, hb, rfl⟩
      · exact .inl ⟨rfl, v, c, b, seq_one.mp hc, ⟨h1, by omega, hb⟩, rfl⟩
      · obtain ⟨q, q2, h3, h4, rfl⟩ := hc
        refine .inr ⟨by decide, .inl ⟨rfl, r.window, q, q2 ++ b, h3, ⟨v, q2, b, seq_one.mp h4, ⟨by rw [← h1]; exact h2, ?_, by omega, hb⟩, rfl⟩, by simp⟩⟩
        rw [← h1]
  · constructor
    · rintro ⟨t, _, _, _, ⟨v, rfl, h1, rfl⟩ | ⟨v, rfl, h1, h2, rfl⟩, h⟩
      · exact .inl ⟨v, h1, h⟩
      · exact .inr ⟨v, h1, h2, h⟩
    · rintro (⟨v, h1, h⟩ | ⟨v, h1, h2, h⟩)
      · exact ⟨14, _, by decide, by decide, .inl ⟨v, rfl, h1, rfl⟩, h⟩
      · exact ⟨15, _, by decide, by decide, .inr ⟨v, rfl, h1, h2, rfl⟩, h⟩

theorem retention_exact : Exact (decodeRetention l) (Retent l) := by
  have hend : ∀ (k r : Int), Exact (skip l k >>= fun _ => getErr >>= fun e => match e with
      | some _ => Pure.pure 0
      | none => Pure.pure r : D Base Int) (fun b p => b = r ∧ 0 ≤ k ∧ Wholes l k.toNat p) := by
    intro k r
    have h1 : Exact (getErr >>= fun e => match e with
      | some _ => Pure.pure 0
      | none => Pure.pure r : D Base Int) (fun b p => b = r ∧ p = []) := .check (.pure r) fun _ => .pure _
    refine ((skip_exact C k).bind (fun _ _ => h1) fun _ => h1.stays).congr fun b p => ?_
    constructor
    · rintro ⟨_, q, q', h2, ⟨rfl, rfl⟩, rfl⟩; exact ⟨rfl, by simpa using h2⟩
    · rintro ⟨rfl, h⟩; exact ⟨(), p, [], h, ⟨rfl, rfl⟩, by simp⟩
  have hknown : ∀ (v k : Int), Exact (match valueToRetention v with
      | none => (setErr (some .other) >>= fun _ => Pure.pure 0)
      | some r => (skip l k >>= fun _ => getErr >>= fun e => match e with
        | some _ => Pure.pure 0
        | none => Pure.pure r) : D Base Int) (fun r p => (∃ h, (v, h) ∈ KnownRetention ∧ r = h * 3600000000000) ∧ 0 ≤ k ∧ Wholes l k.toNat p) := by
    intro v k
    cases hv : valueToRetention v with
    | none =>
      refine (Exact.fail (α := Int) .other (fun _ => Pure.pure 0) (.pure _)).congr fun r p => ?_
      rw [← knownRetention_iff, hv]
      simp
    | some r =>
      refine (hend k r).congr fun r' p => ?_
      rw [← knownRetention_iff, hv, Option.some.injEq, eq_comm]
  have hbody : ∀ t (k : Int), Exact (if t = knownRetentionType then (decodeVarint l >>= fun v => match valueToRetention v with
      | none => (setErr (some .other) >>= fun _ => Pure.pure 0)
      | some r => (skip l k >>= fun _ => getErr >>= fun e => match e with
        | some _ => Pure.pure 0
        | none => Pure.pure r))
    else if t = unknownRetentionType then (decodeVarint l >>= fun r => skip l k >>= fun _ => Pure.pure r)
    else (setErr (some .other) >>= fun _ => Pure.pure 0) : D Base Int) _ := fun t k =>
    .ite _ (fun _ => (varint_exact C).bind (fun v _ => hknown v k) fun v => (hknown v k).stays) fun _ =>
    .ite _ (fun _ => (varint_exact C).bind (fun r _ => (skip_exact C k).map (fun _ => r)) fun r => last_stays C k r) fun _ =>
    .fail _ _ (.pure _)
  refine (typed_exact C (F := fun t r fs => (∃ v h, t = 16 ∧ (v, h) ∈ KnownRetention ∧ r = h * 3600000000000 ∧ fs = [As l.getInt v]) ∨
      (t = 17 ∧ fs = [As l.getInt r])) ?_ (.pure _) ?_ ?_).congr fun r p => ?_
  · rintro t a fs (⟨v, h, rfl, _, _, rfl⟩ | ⟨rfl, rfl⟩) <;> rfl
  · rintro ⟨t, k⟩; exact (hbody t k).stays
  · intro t k
    refine (hbody t k).congr fun r p => ?_
    constructor
    · rintro (⟨rfl, v, q, q', h1, ⟨⟨h, h2, rfl⟩, _, h3⟩, rfl⟩ | ⟨_, ⟨rfl, w, q, q', h1, ⟨_, rfl, _, h2⟩, rfl⟩ | ⟨_, hf⟩⟩)
      · exact ⟨_, q, q', .inl ⟨v, h, rfl, h2, rfl, rfl⟩, seq_one.mpr h1, h3, rfl⟩
      · exact ⟨_, q, q', .inr ⟨rfl, rfl⟩, seq_one.mpr h1, h2, rfl⟩
      · exact hf.elim
    · rintro ⟨_, c, b, ⟨v, h, rfl, h1, rfl, rfl⟩ | ⟨rfl, rfl⟩, hc, hb, rfl⟩
      · exact .inl ⟨rfl, v, c, b, seq_one.mp hc, ⟨⟨h, h1, rfl⟩, by omega, hb⟩, rfl⟩
      · exact .inr ⟨by decide, .inl ⟨rfl, r, c, b, seq_one.mp hc, ⟨(), rfl, by omega, hb⟩, rfl⟩⟩
  · constructor
    · rintro ⟨t, _, _, _, ⟨v, h, rfl, h1, rfl, rfl⟩ | ⟨rfl, rfl⟩, ho⟩
      · exact .inl ⟨v, h, h1, rfl, ho⟩
      · exact .inr ho
    · rintro (⟨v, h, h1, rfl, ho⟩ | ho)
      · exact ⟨16, _, by decide, by decide, .inl ⟨v, h, rfl, h1, rfl, rfl⟩, ho⟩
      · exact ⟨17, _, by decide, by decide, .inr ⟨rfl, rfl⟩, ho⟩

theorem storage_exact : Exact (decodeStoragePolicy l x u) (Storage l x u) := by
  have h1 : ∀ r (k : Int), Exact (decodeRetention l >>= fun t => skip l k >>= fun _ => Pure.pure (⟨r, t⟩ : StoragePolicy)) _ := fun r k =>
    (retention_exact C).bind (fun t _ => (skip_exact C k).map (fun _ => (⟨r, t⟩ : StoragePolicy))) fun t => last_stays C k _
  have h2 : ∀ k : Int, Exact (decodeResolution l x u >>= fun r => decodeRetention l >>= fun t => skip l k >>= fun _ => Pure.pure (⟨r, t⟩ : StoragePolicy)) _ := fun k =>
    (resolution_exact C).bind (fun r _ => h1 r k) fun r => (h1 r k).stays
  refine object_exact C (α := StoragePolicy) (t := storagePolicyType) (f := fun o => match o with
    | none => Pure.pure EmptyStoragePolicy
    | some extra => decodeResolution l x u >>= fun r => decodeRetention l >>= fun t => skip l extra >>= fun _ => Pure.pure (⟨r, t⟩ : StoragePolicy))
    (F := fun p => [Resol l x u p.resolution, Retent l p.retention]) (fun _ => rfl) (.pure _) (fun k => (h2 k).congr fun a p => ?_) fun k => (h2 k).stays
  constructor
  · rintro ⟨r, q, _, h3, ⟨t, q1, q2, h4, ⟨_, rfl, _, h5⟩, rfl⟩, rfl⟩
    exact ⟨q ++ q1, q2, ⟨q, q1, h3, seq_one.mpr h4, rfl⟩, h5, by simp⟩
  · rintro ⟨_, r, ⟨q, q1, h3, h4, rfl⟩, h5, rfl⟩
    exact ⟨a.resolution, q, q1 ++ r, h3, ⟨a.retention, q1, r, seq_one.mp h4, ⟨(), rfl, by omega, h5⟩, rfl⟩, by simp⟩

theorem policy_exact : Exact (decodePolicy l x u) (APolicy l x u) := by
  have h1 : ∀ r (k : Int), Exact (decodeAggID l >>= fun t => skip l k >>= fun _ => Pure.pure (⟨r, t⟩ : Policy)) _ := fun r k =>
    (aggID_exact C).bind (fun t _ => (skip_exact C k).map (fun _ => (⟨r, t⟩ : Policy))) fun t => last_stays C k _
  have h2 : ∀ k : Int, Exact (decodeStoragePolicy l x u >>= fun r => decodeAggID l >>= fun t => skip l k >>= fun _ => Pure.pure (⟨r, t⟩ : Policy)) _ := fun k =>
    (storage_exact C).bind (fun r _ => h1 r k) fun r => (h1 r k).stays
  refine object_exact C (α := Policy) (t := policyType) (f := fun o => match o with
    | none => Pure.pure ⟨EmptyStoragePolicy, 0⟩
    | some extra => decodeStoragePolicy l x u >>= fun r => decodeAggID l >>= fun t => skip l extra >>= fun _ => Pure.pure (⟨r, t⟩ : Policy))
    (F := fun p => [Storage l x u p.sp, AggID l p.aggID]) (fun _ => rfl) (.pure _) (fun k => (h2 k).congr fun a p => ?_) fun k => (h2 k).stays
  constructor
  · rintro ⟨r, q, _, h3, ⟨t, q1, q2, h4, ⟨_, rfl, _, h5⟩, rfl⟩, rfl⟩
    exact ⟨q ++ q1, q2, ⟨q, q1, h3, seq_one.mpr h4, rfl⟩, h5, by simp⟩
  · rintro ⟨_, r, ⟨q, q1, h3, h4, rfl⟩, h5, rfl⟩
    exact ⟨a.sp, q, q1 ++ r, h3, ⟨a.aggID, q1, r, seq_one.mp h4, ⟨(), rfl, by omega, h5⟩, rfl⟩, by simp⟩

/-- An array: the length and the elements. -/
theorem elems_exact {m : D Base α} {R : α → Bytes → Prop} (h : Exact m R) : Exact (decodeArrayLen l >>= fun n => repeatD m n.toNat) (Elems l R) := by
  refine ((arrayLen_exact C).bind (fun n _ => h.repeat n.toNat) fun n => (h.repeat n.toNat).stays).congr fun as p => ?_
  constructor
  · rintro ⟨n, q, q', h1, ⟨h2, h3⟩, rfl⟩; exact ⟨n, h2.symm, q, q', h1, seq_one.mpr h3, rfl⟩
  · rintro ⟨n, h2, q, q', h1, h3, rfl⟩; exact ⟨n, q, q', h1, ⟨h2.symm, seq_one.mp h3⟩, rfl⟩

omit C in
theorem bind_assoc (m : D σ α) (f : α → D σ β) (g : β → D σ γ) : (m >>= fun a => f a >>= g) = ((m >>= f) >>= g) := rfl

theorem staged_exact : Exact (decodeStagedPolicies l x u) (Staged l x u) := by
  have h0 : ∀ c b (k : Int), Exact (decodeArrayLen l >>= fun n => repeatD (decodePolicy l x u) n.toNat >>= fun ps => skip l k >>= fun _ =>
      Pure.pure ({ cutoverNanos := c, tombstoned := b, policies := ps } : StagedPolicies)) _ := fun c b k =>
    (elems_exact C (policy_exact C)).bind (f := fun ps => skip l k >>= fun _ => Pure.pure ({ cutoverNanos := c, tombstoned := b, policies := ps } : StagedPolicies))
      (fun ps _ => (skip_exact C k).map (fun _ => ({ cutoverNanos := c, tombstoned := b, policies := ps } : StagedPolicies))) fun ps => last_stays C k _
  have h1 : ∀ c (k : Int), Exact (decodeBool l >>= fun b => decodeArrayLen l >>= fun n => repeatD (decodePolicy l x u) n.toNat >>= fun ps => skip l k >>= fun _ =>
      Pure.pure ({ cutoverNanos := c, tombstoned := b, policies := ps } : StagedPolicies)) _ := fun c k =>
    (bool_exact C).bind (fun b _ => h0 c b k) fun b => (h0 c b k).stays
  have h2 : ∀ (k : Int), Exact (decodeVarint l >>= fun c => decodeBool l >>= fun b => decodeArrayLen l >>= fun n => repeatD (decodePolicy l x u) n.toNat >>= fun ps => skip l k >>= fun _ =>
      Pure.pure ({ cutoverNanos := c, tombstoned := b, policies := ps } : StagedPolicies)) _ := fun k =>
    (varint_exact C).bind (fun c _ => h1 c k) fun c => (h1 c k).stays
  refine object_exact C (α := StagedPolicies) (t := stagedPoliciesType) (f := fun o => match o with
    | none => Pure.pure {}
    | some k => decodeVarint l >>= fun c => decodeBool l >>= fun b => decodeArrayLen l >>= fun n => repeatD (decodePolicy l x u) n.toNat >>= fun ps => skip l k >>= fun _ =>
      Pure.pure ({ cutoverNanos := c, tombstoned := b, policies := ps } : StagedPolicies))
    (F := fun p => [As l.getInt p.cutoverNanos, As l.getBool p.tombstoned, Elems l (APolicy l x u) p.policies]) (fun _ => rfl) (.pure _)
    (fun k => (h2 k).congr fun a p => ?_) fun k => (h2 k).stays
  constructor
  · rintro ⟨c, q, _, h3, ⟨b, q1, _, h4, ⟨ps, q2, q3, h5, ⟨_, rfl, _, h6⟩, rfl⟩, rfl⟩, rfl⟩
    exact ⟨q ++ (q1 ++ q2), q3, ⟨q, q1 ++ q2, h3, ⟨q1, q2, h4, seq_one.mpr h5, rfl⟩, rfl⟩, h6, by simp⟩
  · rintro ⟨_, r, ⟨q, _, h3, ⟨q1, q2, h4, h5, rfl⟩, rfl⟩, h6, rfl⟩
    exact ⟨a.cutoverNanos, q, q1 ++ (q2 ++ r), h3, ⟨a.tombstoned, q1, q2 ++ r, h4, ⟨a.policies, q2, r, seq_one.mp h5, ⟨(), rfl, by omega, h6⟩, rfl⟩, rfl⟩, by simp⟩

omit C in
theorem idBody_exact (n : Int) : Exact (idBody n) (fun id p => n.toNat = id.length ∧ p = id) := by
  intro d e a r
  cases e with
  | some e =>
    have e1 : idBody n ⟨d, some e⟩ = ([], ⟨d, some e⟩) := rfl
    rw [e1]
    constructor
    · intro h; cases h
    · rintro ⟨h, _⟩; cases h
  | none =>
    have e1 : idBody n ⟨d, none⟩ = if n = -1 then ([], ⟨d, none⟩)
        else if n.toNat ≤ d.length then (d.take n.toNat, ⟨d.drop n.toNat, none⟩)
        else ([], ⟨[], some (if d.isEmpty then .eof else .other)⟩) := rfl
    rw [e1]
    split
    · next h1 =>
      subst h1
      constructor
      · intro h; cases h; exact ⟨rfl, [], rfl, rfl, rfl⟩
      · rintro ⟨_, p, rfl, h, rfl⟩
        rw [List.eq_nil_of_length_eq_zero h.symm]; rfl
    split
    · next h2 =>
      constructor
      · intro h; cases h; exact ⟨rfl, d.take n.toNat, by simp, by simp; omega, rfl⟩
      · rintro ⟨_, p, rfl, h, rfl⟩
        rw [h, List.take_left, List.drop_left]
    · next h2 =>
      constructor
      · intro h; cases h
      · rintro ⟨_, p, rfl, h, rfl⟩
        simp at h2; omega

theorem id_exact : Exact (decodeID l) (Ident l) := by
  have h : decodeID l = (decodeBytesLen l >>= fun n => idBody n) := rfl
  rw [h]
  refine ((bytesLen_exact C).bind (fun n _ => idBody_exact n) fun n => (idBody_exact n).stays).congr fun id p => ?_
  constructor
  · rintro ⟨n, q, q', h1, ⟨h2, rfl⟩, rfl⟩; exact ⟨n, h2, q, _, h1, seq_one.mpr rfl, rfl⟩
  · rintro ⟨n, h2, q, q', h1, h3, rfl⟩; exact ⟨n, q, q', h1, ⟨h2, (seq_one (f := (· = id))).mp h3⟩, rfl⟩

end
end Verif.MP
