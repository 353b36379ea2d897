import Verif.Lemmas.SchemaRead
import Verif.Lemmas.WireRobust
import Verif.Spec.SchemaAccept
/- The template of the generated code takes exactly these bytes. -/
namespace Verif.Wire.Accept
open Verif.Spec.WireFormat Verif.Spec.Schema

/-! ### Varints -/

theorem readVarint_low {n : Nat} {d : Bytes} (h : Low n d) (tail : Bytes) : readVarint (d ++ tail) = some (n, tail) := by
  obtain ⟨v, hv, rfl⟩ := h
  have := readLoop_varint hv.1 0 0 tail (by have := hv.2; omega)
  rw [Nat.mul_zero] at this
  unfold readVarint
  rw [this, Nat.pow_zero, Nat.mul_one, Nat.zero_add]

theorem low_of_read {d : Bytes} {n : Nat} {r : Bytes} (h : readVarint d = some (n, r)) : ∃ g, d = g ++ r ∧ Low n g := by
  obtain ⟨v, g, h1, h2, h3⟩ := num_of_readVarint h
  exact ⟨g, h2, v, h1, by simpa using h3⟩

theorem Low.num {n : Nat} {d : Bytes} (h : Low n d) : ∃ v, Num v d := ⟨h.choose, h.choose_spec.1⟩

theorem Num.low {v : Nat} {d : Bytes} (h : Num v d) : Low (v % 2 ^ 64) d := ⟨v, h, rfl⟩

theorem Low.pos {n : Nat} {d : Bytes} (h : Low n d) : 0 < d.length := varint_ne h.choose_spec.1.1

theorem Key.pos {n w : Nat} {d : Bytes} (h : Key n w d) : 0 < d.length := by
  obtain ⟨t, h, _⟩ := h
  exact Low.pos h

theorem passed_pos {o : Option Nat} {d : Bytes} (h : Passed o d) : 0 < d.length := by
  induction h with
  | varint _ _ _ _ hk => have := Key.pos hk; simp only [List.length_append]; omega
  | fixed64 _ _ _ hk => have := Key.pos hk; simp only [List.length_append]; omega
  | bytes _ _ _ _ hk => have := Key.pos hk; simp only [List.length_append]; omega
  | group _ _ _ hk => have := Key.pos hk; simp only [List.length_append]; omega
  | fixed32 _ _ _ hk => have := Key.pos hk; simp only [List.length_append]; omega
  | close _ _ hk => exact Key.pos hk
  | cons _ _ _ _ _ h => simp only [List.length_append]; omega

/-! ### Passing over -/

theorem passed_key {n : Nat} {d : Bytes} (h : Passed (some n) d) (tail : Bytes) :
    ∃ t rest, readVarint (d ++ tail) = some (t, rest) ∧ t % 8 ≠ 4 ∧ t / 8 % 2 ^ 32 = n := by
  cases h with
  | varint _ v k x hk _ =>
    obtain ⟨t, h1, h2, h3⟩ := hk
    exact ⟨t, _, by rw [List.append_assoc]; exact readVarint_low h1 _, by omega, by omega⟩
  | fixed64 _ k x hk _ =>
    obtain ⟨t, h1, h2, h3⟩ := hk
    exact ⟨t, _, by rw [List.append_assoc]; exact readVarint_low h1 _, by omega, by omega⟩
  | bytes _ k y x hk _ =>
    obtain ⟨t, h1, h2, h3⟩ := hk
    exact ⟨t, _, by rw [List.append_assoc]; exact readVarint_low h1 _, by omega, by omega⟩
  | group _ k x hk _ =>
    obtain ⟨t, h1, h2, h3⟩ := hk
    exact ⟨t, _, by rw [List.append_assoc]; exact readVarint_low h1 _, by omega, by omega⟩
  | fixed32 _ k x hk _ =>
    obtain ⟨t, h1, h2, h3⟩ := hk
    exact ⟨t, _, by rw [List.append_assoc]; exact readVarint_low h1 _, by omega, by omega⟩

theorem skip_passed {o : Option Nat} {d : Bytes} (h : Passed o d) :
    (∀ n, o = some n → ∀ (f : Nat) (tail : Bytes), d.length ≤ f → (d ++ tail).length < 9223372036854775808 →
      skip f (d ++ tail) = .ok (d.length : Int)) ∧
    (o = none → ∀ (f l : Nat) (tail : Bytes), d.length ≤ f → (d ++ tail).length ≤ l → l < 9223372036854775808 →
      skipGroup f l (d ++ tail) = .ok (((l - tail.length : Nat)) : Int)) := by
  have start : ∀ {n w : Nat} {k : Bytes} (f : Nat) (rest : Bytes), Key n w k → k.length ≤ f →
      ∃ f' t, f = f' + 1 ∧ readVarint (k ++ rest) = some (t, rest) ∧ t % 8 = w ∧ 0 < k.length := by
    intro n w k f rest hk hf
    have hp := Key.pos hk
    obtain ⟨t, h1, h2, h3⟩ := hk
    exact ⟨f - 1, t, by omega, readVarint_low h1 rest, h2.symm, hp⟩
  induction h with
  | varint n v k x hk hv =>
    refine ⟨?_, fun h => by cases h⟩
    intro _ _ f tail hf hl
    have hv' := readVarint_low (Num.low hv) tail
    rw [List.length_append] at hf
    obtain ⟨f', t, rfl, hr, ht, hp⟩ := start f (x ++ tail) hk (by omega)
    rw [List.append_assoc, skip_key hr, if_pos (by omega), hv']
    simp only [List.length_append]
    congr 2; omega
  | fixed64 n k x hk hx =>
    refine ⟨?_, fun h => by cases h⟩
    intro _ _ f tail hf hl
    rw [List.length_append] at hf
    obtain ⟨f', t, rfl, hr, ht, hp⟩ := start f (x ++ tail) hk (by omega)
    rw [List.append_assoc, skip_key hr, if_neg (by omega), if_pos (by omega)]
    simp only [List.length_append]
    congr 2; omega
  | bytes n k y x hk hy =>
    refine ⟨?_, fun h => by cases h⟩
    intro _ _ f tail hf hl
    simp only [List.length_append] at hf hl
    obtain ⟨f', t, rfl, hr, ht, hp⟩ := start f (y ++ (x ++ tail)) hk (by omega)
    have hy' := readVarint_low hy (x ++ tail)
    rw [List.append_assoc, List.append_assoc, skip_key hr, if_neg (by omega), if_neg (by omega), if_pos (by omega), hy']
    simp only [List.length_append]
    rw [if_neg (by omega)]
    unfold wrap
    rw [if_neg (by omega)]
    congr 2; omega
  | group n k x hk _ ih =>
    refine ⟨?_, fun h => by cases h⟩
    intro _ _ f tail hf hl
    simp only [List.length_append] at hf hl
    obtain ⟨f', t, rfl, hr, ht, hp⟩ := start f (x ++ tail) hk (by omega)
    rw [List.append_assoc, skip_key hr, if_neg (by omega), if_neg (by omega), if_neg (by omega), if_pos (by omega),
      ih.2 rfl f' _ tail (by omega) (by simp only [List.length_append]; omega)
        (by simp only [List.length_append]; omega)]
    simp only [List.length_append]
    congr 2; omega
  | fixed32 n k x hk hx =>
    refine ⟨?_, fun h => by cases h⟩
    intro _ _ f tail hf hl
    rw [List.length_append] at hf
    obtain ⟨f', t, rfl, hr, ht, hp⟩ := start f (x ++ tail) hk (by omega)
    rw [List.append_assoc, skip_key hr, if_neg (by omega), if_neg (by omega), if_neg (by omega), if_neg (by omega),
      if_neg (by omega), if_pos (by omega)]
    simp only [List.length_append]
    congr 2; omega
  | close n e he =>
    refine ⟨fun _ h => (by cases h), ?_⟩
    intro _ f l tail hf hll hl
    obtain ⟨f', t, rfl, hr, ht, hp⟩ := start f tail he hf
    rw [skipGroup, hr]
    simp only [ht, if_true]
  | cons m d r hd hr ihd ihr =>
    refine ⟨fun _ h => (by cases h), ?_⟩
    intro _ f l tail hf hll hl
    have hpos := passed_pos hd
    have hpos' := passed_pos hr
    simp only [List.length_append] at hf hll
    obtain ⟨f', rfl⟩ : ∃ f', f = f' + 1 := ⟨f - 1, by omega⟩
    have hsk := ihd.1 m rfl f' (r ++ tail) (by omega) (by simp only [List.length_append]; omega)
    obtain ⟨w, rest, hw, hw4, _⟩ := passed_key hd (r ++ tail)
    rw [List.append_assoc, skipGroup]
    simp only [hw, if_neg hw4, hsk, List.length_append]
    rw [if_neg (by omega)]
    have : (d ++ (r ++ tail)).drop (d.length : Int).toNat = r ++ tail := by simp
    rw [this]
    exact ihr.2 rfl f' l tail (by omega) (by simp only [List.length_append]; omega) hl

theorem take_drop_of {d : Bytes} {k r : Bytes} (e : d = k ++ r) {n : Nat} (h : n ≤ r.length) :
    d = (k ++ r.take n) ++ r.drop n := by rw [List.append_assoc, List.take_append_drop, e]

theorem passed_of_skip : ∀ (f : Nat),
    (∀ (d : Bytes) (x : Int), skip f d = .ok x → 0 ≤ x → x ≤ d.length → (∀ t r, readVarint d = some (t, r) → t % 8 ≠ 4) →
      ∃ t r p r', readVarint d = some (t, r) ∧ d = p ++ r' ∧ x = p.length ∧ Passed (some (t / 8 % 2 ^ 32)) p) ∧
    (∀ (l : Nat) (r : Bytes) (x : Int), skipGroup f l r = .ok x → r.length ≤ l →
      ∃ p r', r = p ++ r' ∧ x = ((l - r'.length : Nat) : Int) ∧ Passed none p)
  | 0 => ⟨fun d x h => by simp [skip] at h, fun l r x h => by simp [skipGroup] at h⟩
  | f + 1 => by
    obtain ⟨ih1, ih2⟩ := passed_of_skip f
    constructor
    · intro d x h h0 hx h4
      cases hr : readVarint d with
      | none => cases d <;> simp [skip, hr] at h
      | some y =>
        obtain ⟨t, r⟩ := y
        have h4 := h4 t r hr
        rw [skip_key hr] at h
        obtain ⟨k, e, hk⟩ := low_of_read hr
        have hk : ∀ w, t % 8 = w → Key (t / 8 % 2 ^ 32) w k := fun w hw => ⟨t, hk, hw.symm, rfl⟩
        have hlen : d.length = k.length + r.length := by rw [e, List.length_append]
        refine ⟨t, r, ?_⟩
        by_cases w0 : t % 8 = 0
        · rw [if_pos w0] at h
          cases hv : readVarint r with
          | none => rw [hv] at h; cases h
          | some z =>
            obtain ⟨n, r'⟩ := z
            rw [hv] at h
            simp only [Out.ok.injEq] at h
            obtain ⟨g, e', hg⟩ := low_of_read hv
            obtain ⟨v, hg⟩ := Low.num hg
            refine ⟨k ++ g, r', rfl, by rw [e, e', List.append_assoc], ?_, .varint _ v k g (hk 0 w0) hg⟩
            rw [← h, hlen, e']
            simp only [List.length_append]
            omega
        rw [if_neg w0] at h
        by_cases w1 : t % 8 = 1
        · rw [if_pos w1] at h
          simp only [Out.ok.injEq] at h
          refine ⟨_, _, rfl, take_drop_of e (n := 8) (by omega), ?_, .fixed64 _ k _ (hk 1 w1) (by rw [List.length_take]; omega)⟩
          rw [List.length_append, List.length_take]
          omega
        rw [if_neg w1] at h
        by_cases w2 : t % 8 = 2
        · rw [if_pos w2] at h
          cases hv : readVarint r with
          | none => rw [hv] at h; cases h
          | some z =>
            obtain ⟨n, r'⟩ := z
            rw [hv] at h
            simp only at h
            obtain ⟨g, e', hg⟩ := low_of_read hv
            have hlen' : r.length = g.length + r'.length := by rw [e', List.length_append]
            split at h
            · cases h
            simp only [Out.ok.injEq, wrap] at h
            split at h
            · omega
            have hn : n ≤ r'.length := by omega
            refine ⟨_, r'.drop n, rfl, ?_, ?_, .bytes _ k g (r'.take n) (hk 2 w2) ?_⟩
            · rw [e, e', List.append_assoc, List.append_assoc, List.take_append_drop]
            · rw [List.length_append, List.length_append, List.length_take]; omega
            · rw [List.length_take, Nat.min_eq_left hn]; exact hg
        rw [if_neg w2] at h
        by_cases w3 : t % 8 = 3
        · rw [if_pos w3] at h
          obtain ⟨p, r', e', hx', hp⟩ := ih2 d.length r x h (by omega)
          refine ⟨k ++ p, r', rfl, by rw [e, e', List.append_assoc], ?_, .group _ k p (hk 3 w3) hp⟩
          rw [hx', hlen, e']
          simp only [List.length_append]
          omega
        rw [if_neg w3, if_neg h4] at h
        by_cases w5 : t % 8 = 5
        · rw [if_pos w5] at h
          simp only [Out.ok.injEq] at h
          refine ⟨_, _, rfl, take_drop_of e (n := 4) (by omega), ?_, .fixed32 _ k _ (hk 5 w5) (by rw [List.length_take]; omega)⟩
          rw [List.length_append, List.length_take]
          omega
        · rw [if_neg w5] at h; cases h
    · intro l r x h hl
      rw [skipGroup] at h
      cases hr : readVarint r with
      | none => rw [hr] at h; cases h
      | some y =>
        obtain ⟨t, r1⟩ := y
        rw [hr] at h
        simp only at h
        by_cases w4 : t % 8 = 4
        · rw [if_pos w4] at h
          simp only [Out.ok.injEq] at h
          obtain ⟨k, e, hk⟩ := low_of_read hr
          exact ⟨k, r1, e, h.symm, .close (t / 8 % 2 ^ 32) k ⟨t, hk, w4.symm, rfl⟩⟩
        rw [if_neg w4] at h
        cases hs : skip f r with
        | err => rw [hs] at h; cases h
        | panic => rw [hs] at h; cases h
        | ok next =>
          rw [hs] at h
          simp only at h
          split at h
          · cases h
          rename_i hb
          have hle : next ≤ r.length := by
            apply Classical.byContradiction
            intro hc
            rw [List.drop_eq_nil_of_le (by omega)] at h
            cases f <;> simp [skipGroup, readVarint, readLoop] at h
          obtain ⟨t', r2, p, r', _, e, hx', hp⟩ := ih1 r next hs (by omega) hle (fun t' r2 e => by
            rw [hr] at e; injection e with e; injection e with e1 e2; rw [← e1]; exact w4)
          have hd : r.drop next.toNat = r' := by rw [hx', e]; simp
          rw [hd] at h
          obtain ⟨q, r'', e', hx'', hq⟩ := ih2 l r' x h (by rw [e, List.length_append] at hl; omega)
          exact ⟨p ++ q, r'', by rw [e, e', List.append_assoc], hx'', .cons _ p q hp hq⟩

/-! ### One round of the loop -/

theorem toI32_pos {n : Nat} : 0 < toI32 n ↔ 0 < n % 2 ^ 32 ∧ n % 2 ^ 32 < 2 ^ 31 := by
  unfold toI32; split <;> omega

theorem toI32_eq {n : Nat} (h : 0 < toI32 n) : toI32 n = ((n % 2 ^ 32 : Nat) : Int) := by
  have := toI32_pos.mp h
  unfold toI32; rw [if_pos (by omega)]

theorem one_some {b : UInt8} {x : Bytes} {t : Nat} {r : Bytes} {P : Nat → Bytes → Prop} :
    (b :: x = [] ∨ ∃ t' r', some (t, r) = some (t', r') ∧ P t' r') ↔ P t r := by
  constructor
  · rintro (h | ⟨t', r', h, hp⟩)
    · cases h
    · injection h with h
      injection h with h1 h2
      rw [h1, h2]
      exact hp
  · intro h
    exact .inr ⟨t, r, rfl, h⟩

/-- When the rest `d` of a message is taken. -/
theorem run_ok_iff {c : Codec M} (hc : c.OK) (l : Nat) (hl : l < 9223372036854775808) (d : Bytes) (hd : d.length ≤ l) (m : M) :
    (∃ m', run c.fields l d m = .ok m') ↔ d = [] ∨ ∃ t r, readVarint d = some (t, r) ∧ t % 8 ≠ 4 ∧ 0 < t / 8 % 2 ^ 32 ∧
      t / 8 % 2 ^ 32 < 2 ^ 31 ∧
      ((∃ fd ∈ c.fields, fd.num = t / 8 % 2 ^ 32 ∧ ∃ m1 r', fd.unmarshal l (t % 8) r m = .ok (m1, r') ∧
          ∃ m', run c.fields l r' m1 = .ok m') ∨
        (t / 8 % 2 ^ 32 ∉ c.fields.map (·.num) ∧ ∃ x : Int, skip (d.length + 1) d = .ok x ∧ 0 ≤ x ∧ x ≤ d.length ∧
          ∃ m', run c.fields l (d.drop x.toNat) m = .ok m')) := by
  have hsuf : ∀ fd ∈ c.fields, fd.Suffix := fun fd h => (hc.fields fd h).suffix
  cases d with
  | nil => exact ⟨fun _ => .inl rfl, fun _ => ⟨m, rfl⟩⟩
  | cons b x =>
    conv => lhs; unfold run; rw [unmarshalLoop]
    cases hr : readVarint (b :: x) with
    | none => simp
    | some y =>
      obtain ⟨t, r⟩ := y
      have hlen := (readVarint_suffix hr).2
      rw [one_some]
      simp only
      by_cases w4 : t % 8 = 4
      · simp [w4]
      rw [if_neg w4]
      by_cases hp : toI32 (t / 8) ≤ 0
      · rw [if_pos hp]
        have : ¬ (0 < t / 8 % 2 ^ 32 ∧ t / 8 % 2 ^ 32 < 2 ^ 31) := fun h => by have := toI32_pos.mpr h; omega
        constructor
        · rintro ⟨_, h⟩; cases h
        · rintro ⟨_, h1, h2, _⟩; exact absurd ⟨h1, h2⟩ this
      rw [if_neg hp]
      have hpos := toI32_pos.mp (by omega : 0 < toI32 (t / 8))
      have he := toI32_eq (by omega : 0 < toI32 (t / 8))
      rw [he]
      cases hf : c.fields.find? (fun fd => (fd.num : Int) == ((t / 8 % 2 ^ 32 : Nat) : Int)) with
      | some fd =>
        have hmem := List.mem_of_find?_eq_some hf
        have hnum : fd.num = t / 8 % 2 ^ 32 := by have := List.find?_some hf; simp at this; omega
        simp only
        have huniq : ∀ fd' ∈ c.fields, fd'.num = t / 8 % 2 ^ 32 → fd' = fd := by
          intro fd' h' hn'
          have := find_num hc.nodup h'
          rw [hn', hf] at this
          exact (Option.some.inj this).symm
        constructor
        · rintro ⟨m', h⟩
          cases hu : fd.unmarshal l (t % 8) r m with
          | err => rw [hu] at h; cases h
          | panic => rw [hu] at h; cases h
          | ok z =>
            obtain ⟨m1, r'⟩ := z
            rw [hu] at h
            have := (hsuf fd hmem _ _ _ _ _ _ hu).length_le
            refine ⟨w4, hpos.1, hpos.2, .inl ⟨fd, hmem, hnum, m1, r', hu, m', ?_⟩⟩
            rw [← h]
            exact loop_fuel hsuf l _ r' m1 _ (by omega) (by omega)
        · rintro ⟨_, _, _, ⟨fd', h', hn', m1, r', hu, m', h⟩ | ⟨hn, _⟩⟩
          · rw [huniq fd' h' hn'] at hu
            have := (hsuf fd hmem _ _ _ _ _ _ hu).length_le
            refine ⟨m', ?_⟩
            rw [hu, ← h]
            exact loop_fuel hsuf l _ r' m1 _ (by omega) (by omega)
          · exact absurd (hnum ▸ List.mem_map_of_mem hmem) hn
      | none =>
        have hn : t / 8 % 2 ^ 32 ∉ c.fields.map (·.num) := by
          intro h
          obtain ⟨fd, h1, h2⟩ := List.mem_map.mp h
          have := List.find?_eq_none.mp hf fd h1
          simp at this
          omega
        simp only
        constructor
        · rintro ⟨m', h⟩
          cases hk : skip ((b :: x).length + 1) (b :: x) with
          | err => rw [hk] at h; cases h
          | panic => rw [hk] at h; cases h
          | ok z =>
            rw [hk] at h
            simp only at h
            split at h
            · cases h
            split at h
            · cases h
            split at h
            · cases h
            rename_i h1 h2 h3
            have h0 := skip_ne_zero hk
            refine ⟨w4, hpos.1, hpos.2, .inr ⟨hn, z, rfl, by omega, by omega, m', ?_⟩⟩
            rw [← h]
            exact loop_fuel hsuf l _ _ m _ (by omega) (by rw [List.length_drop]; omega)
        · rintro ⟨_, _, _, ⟨fd', h', hn', _⟩ | ⟨_, z, hk, h1, h2, m', h⟩⟩
          · exact absurd (hn' ▸ List.mem_map_of_mem h') hn
          · have h0 := skip_ne_zero hk
            refine ⟨m', ?_⟩
            rw [hk]
            simp only
            rw [if_neg (by omega), if_neg (by omega), if_neg (by omega), ← h]
            exact loop_fuel hsuf l _ _ m _ (by rw [List.length_drop]; omega) (by omega)

/-! ### One field -/

/-- What comes after the key of a declared field, and before `tail`. -/
inductive Rec (x : Decl) (l : Nat) : Nat → Bytes → Bytes → Prop
  | number {v : Nat} {d tail : Bytes} : x.ty.wire = 0 → Num v d → Rec x l 0 d tail
  | double {d tail : Bytes} : x.ty.wire = 1 → d.length = 8 → Rec x l 1 d tail
  | bytes {s d tail : Bytes} : x.ty = .bytes ∨ x.ty = .string → Low d.length s → Rec x l 2 (s ++ d) tail
  | message {sub : Message} {s d tail : Bytes} : x.ty = .msg sub → Low d.length s → Accepted sub d.length d → Rec x l 2 (s ++ d) tail
  | packed {n : Nat} {s d tail : Bytes} : x.rep = true → x.ty.packed = true → Low n s → n ≤ (d ++ tail).length → Pack x.ty.wire n d →
      Rec x l 2 (s ++ d) tail
  | overflow {n : Nat} {s tail : Bytes} : x.rep = true → x.ty.packed = true → Low n s → n < 2 ^ 63 → 2 ^ 63 ≤ l - tail.length + n →
      Rec x l 2 s tail

/-- The field takes exactly this. -/
def Takes (f : Field M) (x : Decl) : Prop :=
  f.num = x.num ∧ ∀ (l w : Nat) (r : Bytes) (m : M) (r' : Bytes), r.length ≤ l → l < 9223372036854775808 →
    ((∃ m', f.unmarshal l w r m = .ok (m', r')) ↔ ∃ p, r = p ++ r' ∧ Rec x l w p r')

/-- The message takes exactly the bytes of this message. -/
def CTakes (c : Codec M) (msg : Message) : Prop :=
  ∀ (d : Bytes) (m : M), d.length < 9223372036854775808 → ((∃ m', c.unmarshal d m = .ok m') ↔ Acceptable msg d)

theorem varint_takes {num : Nat} {put : A → Nat} {take : Nat → A} {get : M → A} {set : M → A → M} {ty : Ty} {name : String}
    (hw : ty.wire = 0) : Takes (varintField num put take get set) (single ty name num) := by
  refine ⟨rfl, fun l w r m r' hr hl => ?_⟩
  simp only [varintField]
  constructor
  · rintro ⟨m', h⟩
    split at h
    · cases h
    rename_i h0
    cases hv : readVarint r with
    | none => rw [hv] at h; cases h
    | some y =>
      obtain ⟨n, r1⟩ := y
      rw [hv] at h
      simp only [Out.ok.injEq, Prod.mk.injEq] at h
      obtain ⟨g, e, hg⟩ := low_of_read hv
      obtain ⟨v, hg⟩ := Low.num hg
      obtain rfl : w = 0 := by omega
      exact ⟨g, by rw [e, h.2], .number hw hg⟩
  · rintro ⟨p, rfl, h⟩
    cases h with
    | number _ hv =>
      rw [if_neg (by omega), readVarint_low (Num.low hv)]
      exact ⟨_, rfl⟩
    | double h => exact absurd (hw.symm.trans h) (by decide)
    | bytes h =>
      rcases h with h | h <;> (change ty = _ at h; rw [h] at hw; exact absurd hw (by decide))
    | message h => change ty = _ at h; rw [h] at hw; exact absurd hw (by simp [Ty.wire])
    | packed h => cases h
    | overflow h => cases h

theorem readF64_exact {r r' : Bytes} : (∃ v, readF64 r = some (v, r')) ↔ ∃ d, r = d ++ r' ∧ d.length = 8 := by
  unfold readF64
  constructor
  · rintro ⟨v, h⟩
    split at h
    · cases h
    · simp only [Option.some.injEq, Prod.mk.injEq] at h
      exact ⟨r.take 8, by rw [← h.2, List.take_append_drop], by rw [List.length_take]; omega⟩
  · rintro ⟨d, rfl, h⟩
    rw [if_neg (by rw [List.length_append]; omega), List.drop_left' h]
    exact ⟨_, rfl⟩

theorem double_takes {num : Nat} {get : M → F64} {set : M → F64 → M} {name : String} :
    Takes (doubleField num get set) (single .double name num) := by
  refine ⟨rfl, fun l w r m r' hr hl => ?_⟩
  simp only [doubleField]
  constructor
  · rintro ⟨m', h⟩
    split at h
    · cases h
    rename_i h0
    cases hv : readF64 r with
    | none => rw [hv] at h; cases h
    | some y =>
      obtain ⟨n, r1⟩ := y
      rw [hv] at h
      simp only [Out.ok.injEq, Prod.mk.injEq] at h
      obtain ⟨g, e, hg⟩ := readF64_exact.mp ⟨n, hv⟩
      obtain rfl : w = 1 := by omega
      exact ⟨g, by rw [e, h.2], .double rfl hg⟩
  · rintro ⟨p, rfl, h⟩
    cases h with
    | number h => cases h
    | double _ h =>
      obtain ⟨v, hv⟩ := readF64_exact.mpr ⟨p, rfl, h⟩
      rw [if_neg (by omega), hv]
      exact ⟨_, rfl⟩
    | bytes h => rcases h with h | h <;> cases h
    | message h => cases h
    | packed h => cases h
    | overflow h => cases h

theorem readLen_exact {r r' : Bytes} {n : Nat} :
    readLen r = some (n, r') ↔ ∃ s, r = s ++ r' ∧ Low n s ∧ n < 9223372036854775808 := by
  unfold readLen
  constructor
  · intro h
    cases hv : readVarint r with
    | none => rw [hv] at h; cases h
    | some y =>
      obtain ⟨v, r1⟩ := y
      rw [hv] at h
      simp only at h
      split at h
      · cases h
      · injection h with h
        injection h with h1 h2
        subst h1 h2
        obtain ⟨g, e, hg⟩ := low_of_read hv
        exact ⟨g, e, hg, by omega⟩
  · rintro ⟨s, rfl, h, hn⟩
    rw [readVarint_low h]
    simp only
    rw [if_neg (by omega)]

theorem readSlice_exact {l : Nat} {r d r' : Bytes} (hr : r.length ≤ l) (hl : l < 9223372036854775808) :
    readSlice l r = .ok (d, r') ↔ ∃ s, r = s ++ (d ++ r') ∧ Low d.length s := by
  unfold readSlice
  constructor
  · intro h
    cases hv : readLen r with
    | none => rw [hv] at h; cases h
    | some y =>
      obtain ⟨n, r1⟩ := y
      rw [hv] at h
      simp only [slice] at h
      obtain ⟨s, e, hs, _⟩ := readLen_exact.mp hv
      split at h
      · cases h
      split at h
      · cases h
      simp only [Out.ok.injEq, Prod.mk.injEq] at h
      refine ⟨s, by rw [e, ← h.1, ← h.2, List.take_append_drop], ?_⟩
      rw [← h.1, List.length_take, Nat.min_eq_left (by omega)]
      exact hs
  · rintro ⟨s, rfl, h⟩
    simp only [List.length_append] at hr
    rw [readLen_exact.mpr ⟨s, rfl, h, by omega⟩]
    simp only [slice, List.length_append]
    rw [if_neg (by omega), if_neg (by omega), List.take_left, List.drop_left]

/-- Fields that are a size and that many bytes, from which something is made or not. -/
theorem sized_takes {f : Field M} {x : Decl} (hnum : f.num = x.num)
    (h2 : ∀ l w r m m' r', f.unmarshal l w r m = .ok (m', r') → w = 2)
    {P : Bytes → Prop}
    (hf : ∀ l r m r', r.length ≤ l → l < 9223372036854775808 → ((∃ m', f.unmarshal l 2 r m = .ok (m', r')) ↔
      ∃ d, readSlice l r = .ok (d, r') ∧ P d))
    (hin : ∀ l s d tail, Low d.length s → P d → Rec x l 2 (s ++ d) tail)
    (hout : ∀ l w p tail, Rec x l w p tail → w = 2 ∧ ∃ s d, p = s ++ d ∧ Low d.length s ∧ P d) : Takes f x := by
  refine ⟨hnum, fun l w r m r' hr hl => ⟨?_, ?_⟩⟩
  · rintro ⟨m', h⟩
    obtain rfl := h2 _ _ _ _ _ _ h
    obtain ⟨d, h1, hp⟩ := (hf l r m r' hr hl).mp ⟨m', h⟩
    obtain ⟨s, e, hs⟩ := (readSlice_exact hr hl).mp h1
    exact ⟨s ++ d, by rw [e, List.append_assoc], hin l s d r' hs hp⟩
  · rintro ⟨p, rfl, h⟩
    obtain ⟨rfl, s, d, rfl, hs, hp⟩ := hout _ _ _ _ h
    exact (hf l _ m r' hr hl).mpr ⟨d, (readSlice_exact hr hl).mpr ⟨s, by rw [List.append_assoc], hs⟩, hp⟩

theorem bytes_out {x : Decl} (hx : x.ty = .bytes ∨ x.ty = .string) (l w : Nat) (p tail : Bytes) (h : Rec x l w p tail) :
    w = 2 ∧ ∃ s d, p = s ++ d ∧ Low d.length s ∧ True := by
  cases h with
  | number h => rcases hx with e | e <;> rw [e] at h <;> cases h
  | double h => rcases hx with e | e <;> rw [e] at h <;> cases h
  | bytes _ h => exact ⟨rfl, _, _, rfl, h, trivial⟩
  | message h => rcases hx with e | e <;> rw [e] at h <;> cases h
  | packed _ h => rcases hx with e | e <;> rw [e] at h <;> cases h
  | overflow _ h => rcases hx with e | e <;> rw [e] at h <;> cases h

theorem bytes_takes {num : Nat} {get : M → Bytes} {set : M → Bytes → M} {ty : Ty} {name : String} (ht : ty = .bytes ∨ ty = .string) :
    Takes (bytesField num get set) (single ty name num) := by
  refine sized_takes (P := fun _ => True) rfl ?_ ?_ (fun l s d tail h _ => .bytes ht h) (bytes_out ht)
  · intro l w r m m' r' h
    simp only [bytesField] at h
    split at h
    · cases h
    · omega
  · intro l r m r' _ _
    simp only [bytesField, ne_eq, not_true_eq_false, if_false]
    cases readSlice l r with
    | err => simp
    | panic => simp
    | ok y =>
      obtain ⟨y1, y2⟩ := y
      simp

theorem strings_takes {num : Nat} {get : M → List Bytes} {set : M → List Bytes → M} {name : String} :
    Takes (strsField num get set) (repeated .string name num) := by
  refine sized_takes (P := fun _ => True) rfl ?_ ?_ (fun l s d tail h _ => .bytes (.inr rfl) h) (bytes_out (.inr rfl))
  · intro l w r m m' r' h
    simp only [strsField] at h
    split at h
    · cases h
    · omega
  · intro l r m r' _ _
    simp only [strsField, ne_eq, not_true_eq_false, if_false]
    cases readSlice l r with
    | err => simp
    | panic => simp
    | ok y =>
      obtain ⟨y1, y2⟩ := y
      simp

theorem msg_out {x : Decl} {sub : Message} (hx : x.ty = .msg sub) (l w : Nat) (p tail : Bytes) (h : Rec x l w p tail) :
    w = 2 ∧ ∃ s d, p = s ++ d ∧ Low d.length s ∧ (d.length < 9223372036854775808 → Acceptable sub d) := by
  cases h with
  | number h => rw [hx] at h; cases h
  | double h => rw [hx] at h; cases h
  | bytes h => rw [hx] at h; rcases h with h | h <;> cases h
  | message h1 h2 h3 => rw [hx] at h1; cases h1; exact ⟨rfl, _, _, rfl, h2, fun _ => h3⟩
  | packed _ h => rw [hx] at h; cases h
  | overflow _ h => rw [hx] at h; cases h

theorem low_lt {n : Nat} {s : Bytes} (h : Low n s) : n < 2 ^ 64 := by
  obtain ⟨v, _, rfl⟩ := h
  exact Nat.mod_lt _ (by decide)

theorem unmarshalMsg_exact {b : Codec A} {sub : Message} (hb : CTakes b sub) {l : Nat} {r r' : Bytes} {a : A} (hr : r.length ≤ l)
    (hl : l < 9223372036854775808) :
    (∃ a', unmarshalMsg b l r a = .ok (a', r')) ↔ ∃ d, readSlice l r = .ok (d, r') ∧ Acceptable sub d := by
  unfold unmarshalMsg
  cases h : readSlice l r with
  | err => simp
  | panic => simp
  | ok y =>
    obtain ⟨d, r1⟩ := y
    obtain ⟨s, e, _⟩ := (readSlice_exact hr hl).mp h
    have hd : d.length < 9223372036854775808 := by rw [e] at hr; simp only [List.length_append] at hr; omega
    have hb := hb d a hd
    simp only [Out.ok.injEq, Prod.mk.injEq]
    cases hu : b.unmarshal d a with
    | err =>
      rw [hu] at hb
      constructor
      · rintro ⟨_, h⟩; cases h
      · rintro ⟨d', ⟨rfl, _⟩, ha⟩; obtain ⟨_, h⟩ := hb.mpr ha; cases h
    | panic =>
      rw [hu] at hb
      constructor
      · rintro ⟨_, h⟩; cases h
      · rintro ⟨d', ⟨rfl, _⟩, ha⟩; obtain ⟨_, h⟩ := hb.mpr ha; cases h
    | ok a' =>
      have ha := hb.mp ⟨a', hu⟩
      simp only [Out.ok.injEq, Prod.mk.injEq]
      constructor
      · rintro ⟨_, _, rfl⟩; exact ⟨d, ⟨rfl, rfl⟩, ha⟩
      · rintro ⟨_, ⟨_, rfl⟩, _⟩; exact ⟨a', rfl, rfl⟩

/-- Fields for embedded messages. -/
theorem embed_takes {f : Field M} {x : Decl} {sub : Message} {b : Codec A} (hb : CTakes b sub) (hnum : f.num = x.num)
    (hx : x.ty = .msg sub) (h2 : ∀ l w r m m' r', f.unmarshal l w r m = .ok (m', r') → w = 2)
    (hf : ∀ l r m, ∃ a, ∀ r', (∃ m', f.unmarshal l 2 r m = .ok (m', r')) ↔ ∃ a', unmarshalMsg b l r a = .ok (a', r')) : Takes f x := by
  refine ⟨hnum, fun l w r m r' hr hl => ⟨?_, ?_⟩⟩
  · rintro ⟨m', h⟩
    obtain rfl := h2 _ _ _ _ _ _ h
    obtain ⟨a, ha⟩ := hf l r m
    obtain ⟨d, h1, hp⟩ := (unmarshalMsg_exact hb hr hl).mp ((ha r').mp ⟨m', h⟩)
    obtain ⟨s, e, hs⟩ := (readSlice_exact hr hl).mp h1
    exact ⟨s ++ d, by rw [e, List.append_assoc], .message hx hs hp⟩
  · rintro ⟨p, rfl, h⟩
    obtain ⟨rfl, s, d, rfl, hs, hp⟩ := msg_out hx _ _ _ _ h
    obtain ⟨a, ha⟩ := hf l (s ++ d ++ r') m
    refine (ha r').mpr ((unmarshalMsg_exact hb hr hl).mpr ⟨d, (readSlice_exact hr hl).mpr ⟨s, by rw [List.append_assoc], hs⟩, hp ?_⟩)
    simp only [List.length_append] at hr
    omega

theorem msg_takes {b : Codec A} {sub : Message} (hb : CTakes b sub) {num : Nat} {get : M → A} {set : M → A → M} {name : String} :
    Takes (msgField num b get set) (single (.msg sub) name num) := by
  refine embed_takes hb rfl rfl ?_ fun l r m => ⟨get m, fun r' => ?_⟩
  · intro l w r m m' r' h
    simp only [msgField] at h
    split at h
    · cases h
    · omega
  · simp only [msgField, ne_eq, not_true_eq_false, if_false]
    cases unmarshalMsg b l r (get m) with
    | err => simp
    | panic => simp
    | ok y =>
      obtain ⟨y1, y2⟩ := y
      simp

theorem opt_takes {b : Codec A} {sub : Message} (hb : CTakes b sub) {num : Nat} {get : M → Option A} {set : M → Option A → M}
    {name : String} : Takes (optField num b get set) (single (.msg sub) name num) := by
  refine embed_takes hb rfl rfl ?_ fun l r m => ⟨(get m).getD b.zero, fun r' => ?_⟩
  · intro l w r m m' r' h
    simp only [optField] at h
    split at h
    · cases h
    · omega
  · simp only [optField, ne_eq, not_true_eq_false, if_false]
    cases unmarshalMsg b l r ((get m).getD b.zero) with
    | err => simp
    | panic => simp
    | ok y =>
      obtain ⟨y1, y2⟩ := y
      simp

theorem rep_takes {b : Codec A} {sub : Message} (hb : CTakes b sub) {num : Nat} {get : M → List A} {set : M → List A → M}
    {name : String} : Takes (repField num b get set) (repeated (.msg sub) name num) := by
  refine embed_takes hb rfl rfl ?_ fun l r m => ⟨b.zero, fun r' => ?_⟩
  · intro l w r m m' r' h
    simp only [repField] at h
    split at h
    · cases h
    · omega
  · simp only [repField, ne_eq, not_true_eq_false, if_false]
    cases unmarshalMsg b l r b.zero with
    | err => simp
    | panic => simp
    | ok y =>
      obtain ⟨y1, y2⟩ := y
      simp

theorem ptrs_takes {b : Codec A} {sub : Message} (hb : CTakes b sub) {num : Nat} {get : M → List (Option A)}
    {set : M → List (Option A) → M} {name : String} : Takes (ptrsField num b get set) (repeated (.msg sub) name num) := rep_takes hb

/-! ### Packed numbers -/

theorem packedLoop_exact : ∀ (f n : Nat) (r : Bytes) (acc : List F64) (r' : Bytes), n < f →
    ((∃ vs, packedLoop f n r acc = some (vs, r')) ↔ ∃ d, r = d ++ r' ∧ Pack 1 n d)
  | 0, _, _, _, _, h => absurd h (by omega)
  | f + 1, n, r, acc, r', h => by
    rw [packedLoop]
    by_cases hn : n = 0
    · subst hn
      simp only [if_true, Option.some.injEq, Prod.mk.injEq, exists_and_right, exists_eq', true_and]
      constructor
      · rintro rfl; exact ⟨[], rfl, .nil⟩
      · rintro ⟨d, rfl, hd⟩
        cases hd with
        | nil => rfl
        | number _ _ _ _ h => cases h
        | double _ _ _ _ h => omega
    · rw [if_neg hn]
      constructor
      · rintro ⟨vs, hv⟩
        cases hr : readF64 r with
        | none => rw [hr] at hv; cases hv
        | some y =>
          obtain ⟨v, r1⟩ := y
          rw [hr] at hv
          obtain ⟨d, e, hd⟩ := readF64_exact.mp ⟨v, hr⟩
          obtain ⟨d', e', hp⟩ := (packedLoop_exact f (n - 8) r1 _ r' (by omega)).mp ⟨vs, hv⟩
          exact ⟨d ++ d', by rw [e, e', List.append_assoc], .double n d d' rfl (by omega) hd hp⟩
      · rintro ⟨p, rfl, hp⟩
        cases hp with
        | nil => exact absurd rfl hn
        | number _ _ _ _ h => cases h
        | double _ d d' _ _ hd hp =>
          obtain ⟨v, hv⟩ := readF64_exact.mpr ⟨d, List.append_assoc d d' r', hd⟩
          rw [hv]
          exact (packedLoop_exact f (n - 8) _ _ r' (by omega)).mpr ⟨d', rfl, hp⟩

theorem enumsLoop_exact : ∀ (f n : Nat) (r : Bytes) (acc : List Int) (r' : Bytes), n < f →
    ((∃ vs, enumsLoop f n r acc = some (vs, r')) ↔ ∃ d, r = d ++ r' ∧ Pack 0 n d)
  | 0, _, _, _, _, h => absurd h (by omega)
  | f + 1, n, r, acc, r', h => by
    rw [enumsLoop]
    by_cases hn : n = 0
    · subst hn
      simp only [if_true, Option.some.injEq, Prod.mk.injEq, exists_and_right, exists_eq', true_and]
      constructor
      · rintro rfl; exact ⟨[], rfl, .nil⟩
      · rintro ⟨d, rfl, hd⟩
        cases hd with
        | nil => rfl
        | number _ _ _ _ _ h => omega
        | double _ _ _ h => cases h
    · rw [if_neg hn]
      constructor
      · rintro ⟨vs, hv⟩
        cases hr : readVarint r with
        | none => rw [hr] at hv; cases hv
        | some y =>
          obtain ⟨v, r1⟩ := y
          rw [hr] at hv
          obtain ⟨d, e, hd⟩ := low_of_read hr
          have hpos := Low.pos hd
          obtain ⟨v', hd⟩ := Low.num hd
          have hlen : r.length - r1.length = d.length := by rw [e, List.length_append]; omega
          simp only [hlen] at hv
          obtain ⟨d', e', hp⟩ := (enumsLoop_exact f (n - d.length) r1 _ r' (by omega)).mp ⟨vs, hv⟩
          exact ⟨d ++ d', by rw [e, e', List.append_assoc], .number n v' d d' rfl (by omega) hd hp⟩
      · rintro ⟨p, rfl, hp⟩
        cases hp with
        | nil => exact absurd rfl hn
        | number _ v d d' _ _ hd hp =>
          have hpos := varint_ne hd.1
          rw [List.append_assoc, readVarint_low (Num.low hd)]
          have hlen : (d ++ (d' ++ r')).length - (d' ++ r').length = d.length := by rw [List.length_append]; omega
          simp only [hlen]
          exact (enumsLoop_exact f (n - d.length) _ _ r' (by omega)).mpr ⟨d', rfl, hp⟩
        | double _ _ _ h => cases h

/-- Fields for packed numbers: a size and a loop. -/
theorem packed_takes {f : Field M} {x : Decl} (hnum : f.num = x.num) (hrep : x.rep = true) (hpk : x.ty.packed = true)
    {w1 : Nat} (hw : w1 < 2) (hx : x.ty.wire = w1)
    (h1 : ∀ l r m r', (∃ m', f.unmarshal l w1 r m = .ok (m', r')) ↔ ∃ p, r = p ++ r' ∧ Rec x l w1 p r')
    (h2 : ∀ l r m r', (∃ m', f.unmarshal l 2 r m = .ok (m', r')) ↔ ∃ n r1, readLen r = some (n, r1) ∧
      ((9223372036854775808 ≤ l - r1.length + n ∧ r1 = r') ∨
        (l - r1.length + n < 9223372036854775808 ∧ n ≤ r1.length ∧ ∃ d, r1 = d ++ r' ∧ Pack w1 n d)))
    (h3 : ∀ l w r m m' r', f.unmarshal l w r m = .ok (m', r') → w = w1 ∨ w = 2) : Takes f x := by
  refine ⟨hnum, fun l w r m r' hr hl => ⟨?_, ?_⟩⟩
  · rintro ⟨m', h⟩
    rcases h3 _ _ _ _ _ _ h with rfl | rfl
    · exact (h1 l r m r').mp ⟨m', h⟩
    · obtain ⟨n, r1, hlen, hc⟩ := (h2 l r m r').mp ⟨m', h⟩
      obtain ⟨s, e, hs, hn⟩ := readLen_exact.mp hlen
      rcases hc with ⟨ho, rfl⟩ | ⟨_, hn', d, rfl, hp⟩
      · exact ⟨s, e, .overflow hrep hpk hs (by omega) (by omega)⟩
      · exact ⟨s ++ d, by rw [e, List.append_assoc], .packed hrep hpk hs hn' (by rw [hx]; exact hp)⟩
  · rintro ⟨p, e, h⟩
    by_cases hw' : w = w1
    · subst hw'
      exact (h1 l r m r').mpr ⟨p, e, h⟩
    · subst e
      cases h with
      | number h => exact absurd (h.symm.trans hx) hw'
      | double h => exact absurd (h.symm.trans hx) hw'
      | bytes h => rcases h with h | h <;> rw [h] at hpk <;> cases hpk
      | message h => rw [h] at hpk; cases hpk
      | @packed n s d _ _ _ hs hn hp =>
        simp only [List.length_append] at hr hn
        refine (h2 l _ m r').mpr ⟨n, d ++ r', readLen_exact.mpr ⟨s, by rw [List.append_assoc], hs, by omega⟩, .inr ⟨?_, ?_, d, rfl, ?_⟩⟩
        · rw [List.length_append]; omega
        · rw [List.length_append]; omega
        · rw [← hx]; exact hp
      | @overflow n _ _ _ _ hs hn ho =>
        exact (h2 l _ m r').mpr ⟨n, r', readLen_exact.mpr ⟨p, rfl, hs, by omega⟩, .inl ⟨by omega, rfl⟩⟩

theorem one_out {x : Decl} {l w : Nat} (hw : w < 2) {p tail : Bytes} (h : Rec x l w p tail) :
    (w = 0 ∧ ∃ v, Num v p) ∨ (w = 1 ∧ p.length = 8) := by
  cases h with
  | number _ h => exact .inl ⟨rfl, _, h⟩
  | double _ h => exact .inr ⟨rfl, h⟩
  | _ => omega

theorem doubles_takes {num : Nat} {get : M → List F64} {set : M → List F64 → M} {name : String} :
    Takes (doublesField num get set) (repeated .double name num) := by
  refine packed_takes rfl rfl rfl (w1 := 1) (by decide) rfl ?_ ?_ ?_
  · intro l r m r'
    simp only [doublesField, if_true]
    constructor
    · rintro ⟨m', h⟩
      cases hv : readF64 r with
      | none => rw [hv] at h; cases h
      | some y =>
        obtain ⟨v, r1⟩ := y
        rw [hv] at h
        simp only [Out.ok.injEq, Prod.mk.injEq] at h
        obtain ⟨d, e, hd⟩ := readF64_exact.mp ⟨v, hv⟩
        exact ⟨d, by rw [e, h.2], .double rfl hd⟩
    · rintro ⟨p, rfl, h⟩
      rcases one_out (by decide) h with ⟨h, _⟩ | ⟨_, h⟩
      · cases h
      · obtain ⟨v, hv⟩ := readF64_exact.mpr ⟨p, rfl, h⟩
        rw [hv]
        exact ⟨_, rfl⟩
  · intro l r m r'
    simp only [doublesField, show ¬ (2 : Nat) = 1 by decide, if_false, if_true]
    constructor
    · rintro ⟨m', h⟩
      cases hv : readLen r with
      | none => rw [hv] at h; cases h
      | some y =>
        obtain ⟨n, r1⟩ := y
        rw [hv] at h
        simp only at h
        refine ⟨n, r1, rfl, ?_⟩
        split at h
        · simp only [Out.ok.injEq, Prod.mk.injEq] at h
          exact .inl ⟨by omega, h.2⟩
        split at h
        · cases h
        cases hp : packedLoop (n + 1) n r1 (get m) with
        | none => rw [hp] at h; cases h
        | some z =>
          obtain ⟨vs, r2⟩ := z
          rw [hp] at h
          simp only [Out.ok.injEq, Prod.mk.injEq] at h
          rw [h.2] at hp
          exact .inr ⟨by omega, by omega, (packedLoop_exact _ n r1 _ r' (by omega)).mp ⟨vs, hp⟩⟩
    · rintro ⟨n, r1, hv, ⟨h, rfl⟩ | ⟨h, hn, hd⟩⟩
      · rw [hv]
        simp only
        rw [if_pos h]
        exact ⟨_, rfl⟩
      · obtain ⟨vs, hp⟩ := (packedLoop_exact (n + 1) n r1 (get m) r' (by omega)).mpr hd
        rw [hv]
        simp only
        rw [if_neg (by omega), if_neg (by omega), hp]
        exact ⟨_, rfl⟩
  · intro l w r m m' r' h
    simp only [doublesField] at h
    split at h
    · exact .inl ‹_›
    split at h
    · exact .inr ‹_›
    · cases h

theorem enums_takes {num : Nat} {get : M → List Int} {set : M → List Int → M} {name : String} {e : Enum} :
    Takes (enumsField num get set) (repeated (.enum e) name num) := by
  refine packed_takes rfl rfl rfl (w1 := 0) (by decide) rfl ?_ ?_ ?_
  · intro l r m r'
    simp only [enumsField, if_true]
    constructor
    · rintro ⟨m', h⟩
      cases hv : readVarint r with
      | none => rw [hv] at h; cases h
      | some y =>
        obtain ⟨v, r1⟩ := y
        rw [hv] at h
        simp only [Out.ok.injEq, Prod.mk.injEq] at h
        obtain ⟨d, e, hd⟩ := low_of_read hv
        obtain ⟨v', hd⟩ := Low.num hd
        exact ⟨d, by rw [e, h.2], .number rfl hd⟩
    · rintro ⟨p, rfl, h⟩
      rcases one_out (by decide) h with ⟨_, v, h⟩ | ⟨h, _⟩
      · rw [readVarint_low (Num.low h)]
        exact ⟨_, rfl⟩
      · cases h
  · intro l r m r'
    simp only [enumsField, show ¬ (2 : Nat) = 0 by decide, if_false, if_true]
    constructor
    · rintro ⟨m', h⟩
      cases hv : readLen r with
      | none => rw [hv] at h; cases h
      | some y =>
        obtain ⟨n, r1⟩ := y
        rw [hv] at h
        simp only at h
        refine ⟨n, r1, rfl, ?_⟩
        split at h
        · simp only [Out.ok.injEq, Prod.mk.injEq] at h
          exact .inl ⟨by omega, h.2⟩
        split at h
        · cases h
        cases hp : enumsLoop (n + 1) n r1 (get m) with
        | none => rw [hp] at h; cases h
        | some z =>
          obtain ⟨vs, r2⟩ := z
          rw [hp] at h
          simp only [Out.ok.injEq, Prod.mk.injEq] at h
          rw [h.2] at hp
          exact .inr ⟨by omega, by omega, (enumsLoop_exact _ n r1 _ r' (by omega)).mp ⟨vs, hp⟩⟩
    · rintro ⟨n, r1, hv, ⟨h, rfl⟩ | ⟨h, hn, hd⟩⟩
      · rw [hv]
        simp only
        rw [if_pos h]
        exact ⟨_, rfl⟩
      · obtain ⟨vs, hp⟩ := (enumsLoop_exact (n + 1) n r1 (get m) r' (by omega)).mpr hd
        rw [hv]
        simp only
        rw [if_neg (by omega), if_neg (by omega), hp]
        exact ⟨_, rfl⟩
  · intro l w r m m' r' h
    simp only [enumsField] at h
    split at h
    · exact .inl ‹_›
    split at h
    · exact .inr ‹_›
    · cases h

/-! ### All fields -/

/-- All fields take what is declared. -/
inductive Takers : List (Field M) → List Decl → Prop
  | nil : Takers [] []
  | cons {f : Field M} {fs : List (Field M)} {d : Decl} {ds : List Decl} : Takes f d → Takers fs ds → Takers (f :: fs) (d :: ds)

theorem Takers.field {fs : List (Field M)} {ds : List Decl} (h : Takers fs ds) {d : Decl} (hd : d ∈ ds) : ∃ f ∈ fs, Takes f d := by
  induction h with
  | nil => cases hd
  | cons hf _ ih =>
    rcases List.mem_cons.mp hd with rfl | hd
    · exact ⟨_, by simp, hf⟩
    · obtain ⟨f, h1, h2⟩ := ih hd
      exact ⟨f, by simp [h1], h2⟩

theorem Takers.decl {fs : List (Field M)} {ds : List Decl} (h : Takers fs ds) {f : Field M} (hf : f ∈ fs) : ∃ d ∈ ds, Takes f d := by
  induction h with
  | nil => cases hf
  | cons hd _ ih =>
    rcases List.mem_cons.mp hf with rfl | hf
    · exact ⟨_, by simp, hd⟩
    · obtain ⟨d, h1, h2⟩ := ih hf
      exact ⟨d, by simp [h1], h2⟩

theorem Takers.nums {fs : List (Field M)} {ds : List Decl} (h : Takers fs ds) : fs.map (·.num) = ds.map (·.num) := by
  induction h with
  | nil => rfl
  | cons hf _ ih => simp [ih, hf.1]

theorem record_accepted {msg : Message} {l w : Nat} {x : Decl} {k p r : Bytes} (hx : x ∈ msg.fields) (hk : Key x.num w k)
    (h : Rec x l w p r) (hr : Accepted msg l r) : Accepted msg l (k ++ (p ++ r)) := by
  cases h with
  | number h1 h2 => exact .number msg l x _ k p r hx h1 hk h2 hr
  | double h1 h2 => exact .double msg l x k p r hx h1 hk h2 hr
  | bytes h1 h2 => rw [List.append_assoc]; exact .bytes msg l x k _ _ r hx h1 hk h2 hr
  | message h1 h2 h3 => rw [List.append_assoc]; exact .message msg l x _ k _ _ r hx h1 hk h2 h3 hr
  | packed h1 h2 h3 h4 h5 => rw [List.append_assoc]; exact .packed msg l x _ k _ _ r hx h1 h2 hk h3 h4 h5 hr
  | overflow h1 h2 h3 h4 h5 => exact .overflow msg l x _ k p r hx h1 h2 hk h3 h4 h5 hr

theorem run_exact {c : Codec M} (hc : c.OK) {msg : Message} (ht : Takers c.fields msg.fields) (l : Nat) (hl : l < 9223372036854775808) :
    ∀ (n : Nat) (d : Bytes) (m : M), d.length < n → d.length ≤ l → ((∃ m', run c.fields l d m = .ok m') ↔ Accepted msg l d)
  | 0, _, _, h, _ => absurd h (by omega)
  | n + 1, d, m, hn, hd => by
    rw [run_ok_iff hc l hl d hd m]
    constructor
    · rintro (rfl | ⟨t, r, hr, h4, h0, h31, ⟨fd, hfd, hnum, m1, r', hu, hrun⟩ | ⟨hnum, x, hs, hx0, hxl, hrun⟩⟩)
      · exact .done msg l
      · obtain ⟨k, e, hk⟩ := low_of_read hr
        have hkp := Low.pos hk
        obtain ⟨x, hx, hxn, htk⟩ := ht.decl hfd
        have hlen : d.length = k.length + r.length := by rw [e, List.length_append]
        obtain ⟨p, e', hrec⟩ := (htk l (t % 8) r m r' (by omega) hl).mp ⟨m1, hu⟩
        have hlen' : r.length = p.length + r'.length := by rw [e', List.length_append]
        have := (run_exact hc ht l hl n r' m1 (by omega) (by omega)).mp hrun
        rw [e, e']
        exact record_accepted hx ⟨t, hk, rfl, by omega⟩ hrec this
      · obtain ⟨t', r2, p, r', hr', e, hx, hp⟩ := (passed_of_skip _).1 d x hs hx0 hxl (fun t' r2 e => by
          rw [hr] at e; injection e with e; injection e with e1 e2; rw [← e1]; exact h4)
        rw [hr] at hr'
        injection hr' with hr'
        injection hr' with hr1 hr2
        subst hr1 hr2
        have hpp := passed_pos hp
        have hlen : d.length = p.length + r'.length := by rw [e, List.length_append]
        have hdrop : d.drop x.toNat = r' := by rw [hx, e]; simp
        rw [hdrop] at hrun
        have := (run_exact hc ht l hl n r' m (by omega) (by omega)).mp hrun
        rw [e]
        exact .unknown msg l _ p r' h0 h31 (by rw [← ht.nums]; exact hnum) hp this
    · intro h
      have step : ∀ (x : Decl) (w : Nat) (k p r : Bytes), x ∈ msg.fields → w < 8 → w ≠ 4 → Key x.num w k → Rec x l w p r →
          d = k ++ (p ++ r) → Accepted msg l r →
          d = [] ∨ ∃ t r, readVarint d = some (t, r) ∧ t % 8 ≠ 4 ∧ 0 < t / 8 % 2 ^ 32 ∧ t / 8 % 2 ^ 32 < 2 ^ 31 ∧
            ((∃ fd ∈ c.fields, fd.num = t / 8 % 2 ^ 32 ∧ ∃ m1 r', fd.unmarshal l (t % 8) r m = .ok (m1, r') ∧
                ∃ m', run c.fields l r' m1 = .ok m') ∨
              (t / 8 % 2 ^ 32 ∉ c.fields.map (·.num) ∧ ∃ x : Int, skip (d.length + 1) d = .ok x ∧ 0 ≤ x ∧ x ≤ d.length ∧
                ∃ m', run c.fields l (d.drop x.toNat) m = .ok m')) := by
        intro x w k p r hx hw hw4 hk hp e hr
        obtain ⟨fd, hfd, hnum, htk⟩ := ht.field hx
        have hok := hc.fields fd hfd
        have h0 := hok.num_pos
        have h16 := hok.num_lt
        obtain ⟨t, hk, hkw, hkn⟩ := hk
        have hkp := Low.pos hk
        have hlen : d.length = k.length + (p.length + r.length) := by rw [e]; simp
        obtain ⟨m1, hu⟩ := (htk l w (p ++ r) m r (by rw [List.length_append]; omega) hl).mpr ⟨p, rfl, hp⟩
        refine .inr ⟨t, p ++ r, by rw [e]; exact readVarint_low hk _, by omega, by omega, by omega,
          .inl ⟨fd, hfd, by omega, m1, r, by rw [← hkw]; exact hu, ?_⟩⟩
        exact (run_exact hc ht l hl n r m1 (by omega) (by omega)).mpr hr
      cases h with
      | done => exact .inl rfl
      | number _ _ x v k p r hx hw hk hv hr => exact step x 0 k p r hx (by decide) (by decide) hk (.number hw hv) rfl hr
      | double _ _ x k p r hx hw hk hv hr => exact step x 1 k p r hx (by decide) (by decide) hk (.double hw hv) rfl hr
      | bytes _ _ x k s p r hx hw hk hv hr =>
        exact step x 2 k (s ++ p) r hx (by decide) (by decide) hk (.bytes hw hv) (by simp) hr
      | message _ _ x sub k s p r hx hw hk hv ha hr =>
        exact step x 2 k (s ++ p) r hx (by decide) (by decide) hk (.message hw hv ha) (by simp) hr
      | packed _ _ x _ k s p r hx h1 h2 hk hs hns hp hr =>
        exact step x 2 k (s ++ p) r hx (by decide) (by decide) hk (.packed h1 h2 hs hns hp) (by simp) hr
      | overflow _ _ x _ k s r hx h1 h2 hk hs hns hp hr =>
        exact step x 2 k s r hx (by decide) (by decide) hk (.overflow h1 h2 hs hns hp) rfl hr
      | unknown _ _ num p r h0 h31 hnum hp hr =>
        have hpp := passed_pos hp
        simp only [List.length_append] at hn hd
        obtain ⟨t, rest, h1, h2, h3⟩ := passed_key hp r
        have hs := (skip_passed hp).1 num rfl ((p ++ r).length + 1) r (by rw [List.length_append]; omega) (by rw [List.length_append]; omega)
        refine .inr ⟨t, rest, h1, h2, by omega, by omega, .inr ⟨by rw [h3, ht.nums]; exact hnum, p.length, hs, by omega,
          by rw [List.length_append]; omega, ?_⟩⟩
        rw [Int.toNat_natCast, List.drop_left]
        exact (run_exact hc ht l hl n r m (by omega) (by omega)).mpr hr

theorem codec_takes {c : Codec M} (hc : c.OK) {msg : Message} (ht : Takers c.fields msg.fields) : CTakes c msg :=
  fun d m hd => run_exact hc ht d.length hd (d.length + 1) d m (by omega) (Nat.le_refl _)

end Verif.Wire.Accept
