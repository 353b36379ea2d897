import Verif.Lemmas.WireRobust
import Verif.Spec.WireFormat
/- Reading is local: what was read is read again when something follows, and at a later position. -/
namespace Verif.Wire
open Verif.Spec.WireFormat

/-! ### Varints -/

theorem readLoop_append : ∀ (d : Bytes) (shift acc n : Nat) (r tail : Bytes), readLoop shift acc d = some (n, r) →
    readLoop shift acc (d ++ tail) = some (n, r ++ tail)
  | [], _, _, _, _, _, h => by simp [readLoop] at h
  | b :: d, shift, acc, n, r, tail, h => by
    rw [readLoop] at h
    rw [List.cons_append, readLoop]
    split at h
    · cases h
    · rename_i hs
      rw [if_neg hs]
      simp only at h ⊢
      split at h
      · rename_i hb
        simp only [Option.some.injEq, Prod.mk.injEq] at h
        rw [if_pos hb, h.1, h.2]
      · rename_i hb
        rw [if_neg hb]
        exact readLoop_append d _ _ n r tail h

theorem readVarint_append {d : Bytes} {n : Nat} {r : Bytes} (h : readVarint d = some (n, r)) (tail : Bytes) :
    readVarint (d ++ tail) = some (n, r ++ tail) := readLoop_append d 0 0 n r tail h

theorem readLoop_varint {n : Nat} {d : Bytes} (h : Varint n d) : ∀ (k acc : Nat) (tail : Bytes), k + d.length ≤ 10 →
    readLoop (7 * k) acc (d ++ tail) = some ((acc + n * 2 ^ (7 * k)) % 18446744073709551616, tail) := by
  induction h with
  | last b hb =>
    intro k acc tail hk
    simp only [List.length_cons, List.length_nil] at hk
    rw [List.cons_append, readLoop, if_neg (by omega)]
    simp only
    rw [if_pos hb, Nat.mod_eq_of_lt hb]
    rfl
  | more b n r hb _ ih =>
    intro k acc tail hk
    simp only [List.length_cons] at hk
    rw [List.cons_append, readLoop, if_neg (by omega)]
    simp only
    rw [if_neg (by omega), show 7 * k + 7 = 7 * (k + 1) by omega, ih (k + 1) _ tail (by omega)]
    have hbb := b.toNat_lt
    have e1 : b.toNat % 128 = b.toNat - 128 := by omega
    have e2 : 2 ^ (7 * (k + 1)) = 2 ^ (7 * k) * 128 := by rw [Nat.mul_add, Nat.pow_add]
    rw [e1, e2, Nat.mod_add_mod]
    congr 2
    rw [Nat.add_mul, Nat.add_assoc, Nat.mul_comm 128 n, Nat.mul_assoc n 128, Nat.mul_comm 128 (2 ^ (7 * k))]

theorem readVarint_num {n : Nat} {d : Bytes} (h : Num n d) (hn : n < 18446744073709551616) (tail : Bytes) :
    readVarint (d ++ tail) = some (n, tail) := by
  have := readLoop_varint h.1 0 0 tail (by have := h.2; omega)
  rw [Nat.mul_zero] at this
  unfold readVarint
  rw [this, Nat.pow_zero, Nat.mul_one, Nat.zero_add, Nat.mod_eq_of_lt hn]

theorem readVarint_any {n : Nat} {d : Bytes} (h : Num n d) (tail : Bytes) :
    ∃ v, readVarint (d ++ tail) = some (v, tail) :=
  ⟨_, readLoop_varint h.1 0 0 tail (by have := h.2; omega)⟩

theorem varint_ne {n : Nat} {d : Bytes} (h : Varint n d) : 0 < d.length := by cases h <;> simp

theorem chunk_pos {n : Nat} {d : Bytes} (h : Chunk (some n) d) : 0 < d.length := by
  cases h with
  | varint _ _ _ _ _ hk _ => have := varint_ne hk.1; rw [List.length_append]; omega
  | fixed64 _ _ _ _ hk _ => have := varint_ne hk.1; rw [List.length_append]; omega
  | bytes _ _ _ _ _ hk _ => have := varint_ne hk.1; rw [List.length_append]; omega
  | group _ _ _ _ _ hk _ _ => have := varint_ne hk.1; rw [List.length_append]; omega
  | fixed32 _ _ _ _ hk _ => have := varint_ne hk.1; rw [List.length_append]; omega

theorem skip_key {d rest : Bytes} {wire : Nat} (hr : readVarint d = some (wire, rest)) (f : Nat) : skip (f + 1) d =
    if wire % 8 = 0 then match readVarint rest with
      | none => .err
      | some (_, r') => .ok ((d.length - r'.length : Nat) : Int)
    else if wire % 8 = 1 then .ok ((d.length - rest.length + 8 : Nat) : Int)
    else if wire % 8 = 2 then match readVarint rest with
      | none => .err
      | some (n, r') => if n ≥ 9223372036854775808 then .err else .ok (wrap ((d.length - r'.length + n : Nat) : Int))
    else if wire % 8 = 3 then skipGroup f d.length rest
    else if wire % 8 = 4 then .ok ((d.length - rest.length : Nat) : Int)
    else if wire % 8 = 5 then .ok ((d.length - rest.length + 4 : Nat) : Int)
    else .err := by
  cases d with
  | nil => simp [readVarint, readLoop] at hr
  | cons b d => rw [skip, hr]; rfl

/-! ### Skipping a field -/

theorem chunk_key {n : Nat} {d : Bytes} (h : Chunk (some n) d) (tail : Bytes) :
    ∃ w rest, readVarint (d ++ tail) = some (w, rest) ∧ w % 8 ≠ 4 ∧ w / 8 = n ∧ FieldNumber n := by
  cases h with
  | varint _ v k x hn' hk hv =>
    exact ⟨_, _, by rw [List.append_assoc]; exact readVarint_num hk (by have := hn'.2; omega) _, by omega, by omega, hn'⟩
  | fixed64 _ k x hn' hk hx =>
    exact ⟨_, _, by rw [List.append_assoc]; exact readVarint_num hk (by have := hn'.2; omega) _, by omega, by omega, hn'⟩
  | bytes _ k y x hn' hk hy =>
    exact ⟨_, _, by rw [List.append_assoc]; exact readVarint_num hk (by have := hn'.2; omega) _, by omega, by omega, hn'⟩
  | group _ k x e hn' hk _ he =>
    exact ⟨_, _, by rw [List.append_assoc]; exact readVarint_num hk (by have := hn'.2; omega) _, by omega, by omega, hn'⟩
  | fixed32 _ k x hn' hk hx =>
    exact ⟨_, _, by rw [List.append_assoc]; exact readVarint_num hk (by have := hn'.2; omega) _, by omega, by omega, hn'⟩

/-- Skipping a field gives its length; skipping the contents of a group and its end gives the position after it. -/
theorem skip_chunk {o : Option Nat} {d : Bytes} (h : Chunk o d) :
    (∀ n, o = some n → ∀ (f : Nat) (tail : Bytes), d.length ≤ f → (d ++ tail).length < 9223372036854775808 →
      skip f (d ++ tail) = .ok (d.length : Int)) ∧
    (o = none → ∀ (f l n : Nat) (e tail : Bytes), FieldNumber n → Num (n * 8 + 4) e → (d ++ e).length ≤ f →
      (d ++ (e ++ tail)).length ≤ l → l < 9223372036854775808 →
      skipGroup f l (d ++ (e ++ tail)) = .ok (((l - tail.length : Nat)) : Int)) := by
  have start : ∀ {n w : Nat} {k : Bytes} (f : Nat) (rest : Bytes), FieldNumber n → Num (n * 8 + w) k → w < 8 → k.length ≤ f →
      ∃ f', f = f' + 1 ∧ readVarint (k ++ rest) = some (n * 8 + w, rest) ∧ 0 < k.length := by
    intro n w k f rest hn hk hw hf
    have hp := varint_ne hk.1
    exact ⟨f - 1, by omega, readVarint_num hk (by have := hn.2; omega) rest, hp⟩
  induction h with
  | varint n v k x hn hk hv =>
    refine ⟨?_, fun h => by cases h⟩
    intro _ _ f tail hf hl
    obtain ⟨v', hv'⟩ := readVarint_any hv tail
    rw [List.length_append] at hf
    obtain ⟨f', rfl, hr, hp⟩ := start f (x ++ tail) hn (w := 0) hk (by omega) (by omega)
    rw [List.append_assoc, skip_key hr, if_pos (by omega), hv']
    simp only [List.length_append]
    congr 2; omega
  | fixed64 n k x hn hk hx =>
    refine ⟨?_, fun h => by cases h⟩
    intro _ _ f tail hf hl
    rw [List.length_append] at hf
    obtain ⟨f', rfl, hr, hp⟩ := start f (x ++ tail) hn hk (by omega) (by omega)
    rw [List.append_assoc, skip_key hr, if_neg (by omega), if_pos (by omega)]
    simp only [List.length_append]
    congr 2; omega
  | bytes n k y x hn hk hy =>
    refine ⟨?_, fun h => by cases h⟩
    intro _ _ f tail hf hl
    simp only [List.length_append] at hf hl
    obtain ⟨f', rfl, hr, hp⟩ := start f (y ++ (x ++ tail)) hn hk (by omega) (by omega)
    have hy' := readVarint_num hy (by omega) (x ++ tail)
    rw [List.append_assoc, List.append_assoc, skip_key hr, if_neg (by omega), if_neg (by omega), if_pos (by omega), hy']
    simp only [List.length_append]
    rw [if_neg (by omega)]
    unfold wrap
    rw [if_neg (by omega)]
    congr 2; omega
  | group n k x e hn hk _ he ih =>
    refine ⟨?_, fun h => by cases h⟩
    intro _ _ f tail hf hl
    simp only [List.length_append] at hf hl
    obtain ⟨f', rfl, hr, hp⟩ := start f (x ++ (e ++ tail)) hn hk (by omega) (by omega)
    rw [List.append_assoc, List.append_assoc, skip_key hr, if_neg (by omega), if_neg (by omega), if_neg (by omega), if_pos (by omega),
      ih.2 rfl f' _ n e tail hn he (by rw [List.length_append]; omega) (by simp only [List.length_append]; omega)
        (by simp only [List.length_append]; omega)]
    simp only [List.length_append]
    congr 2; omega
  | fixed32 n k x hn hk hx =>
    refine ⟨?_, fun h => by cases h⟩
    intro _ _ f tail hf hl
    rw [List.length_append] at hf
    obtain ⟨f', rfl, hr, hp⟩ := start f (x ++ tail) hn hk (by omega) (by omega)
    rw [List.append_assoc, skip_key hr, if_neg (by omega), if_neg (by omega), if_neg (by omega), if_neg (by omega),
      if_neg (by omega), if_pos (by omega)]
    simp only [List.length_append]
    congr 2; omega
  | nil =>
    refine ⟨fun _ h => (by cases h), ?_⟩
    intro _ f l n e tail hn he hf hll hl
    rw [List.nil_append] at *
    obtain ⟨f', rfl, hr, hp⟩ := start f tail hn he (by omega) hf
    rw [skipGroup, hr]
    simp only [show (n * 8 + 4) % 8 = 4 by omega]
    rfl
  | cons m d r hd _ ihd ihr =>
    refine ⟨fun _ h => (by cases h), ?_⟩
    intro _ f l n e tail hn he hf hll hl
    have hpos := chunk_pos hd
    have hep := varint_ne he.1
    simp only [List.length_append] at hf hll
    obtain ⟨f', rfl⟩ : ∃ f', f = f' + 1 := ⟨f - 1, by omega⟩
    have hsk := ihd.1 m rfl f' (r ++ (e ++ tail)) (by omega) (by simp only [List.length_append]; omega)
    obtain ⟨w, rest, hw, hw4, _⟩ := chunk_key hd (r ++ (e ++ tail))
    rw [List.append_assoc, skipGroup]
    simp only [hw, if_neg hw4, hsk, List.length_append]
    rw [if_neg (by omega)]
    have : (d ++ (r ++ (e ++ tail))).drop (d.length : Int).toNat = r ++ (e ++ tail) := by simp
    rw [this]
    exact ihr.2 rfl f' l n e tail hn he (by rw [List.length_append]; omega) (by simp only [List.length_append]; omega) hl

/-- An unknown field is passed over. -/
theorem run_chunk {fs : List (Field M)} (hs : ∀ fd ∈ fs, fd.Suffix) {n : Nat} {d : Bytes} (h : Chunk (some n) d)
    (hn : n ∉ fs.map (·.num)) (l : Nat) (tail : Bytes) (m : M) (hll : (d ++ tail).length ≤ l) (hl : l < 9223372036854775808) :
    run fs l (d ++ tail) m = run fs l tail m := by
  have hpos := chunk_pos h
  have hsk := (skip_chunk h).1 n rfl ((d ++ tail).length + 1) tail (by rw [List.length_append]; omega) (by omega)
  obtain ⟨w, rest, hw, hw4, hwn, hfn⟩ := chunk_key h tail
  have hi32 : toI32 (w / 8) = n := by
    rw [hwn]; unfold toI32
    have := hfn.2
    rw [Nat.mod_eq_of_lt (by omega), if_pos (by omega)]
  have hnone : fs.find? (fun fd => (fd.num : Int) == toI32 (w / 8)) = none := by
    rw [List.find?_eq_none]
    intro fd hfd
    rw [hi32]
    have : fd.num ≠ n := fun e => hn (e ▸ List.mem_map_of_mem hfd)
    simp; omega
  unfold run
  cases hd : d ++ tail with
  | nil => rw [List.append_eq_nil_iff] at hd; rw [hd.1] at hpos; simp at hpos
  | cons b x =>
    rw [unmarshalLoop]
    rw [hd] at hsk hw hll
    simp only [hw, if_neg hw4, hnone, hsk]
    have hfp := hfn.1
    have hlen : (b :: x).length = d.length + tail.length := by rw [← hd, List.length_append]
    rw [if_neg (by rw [hi32]; omega), if_neg (by omega), if_neg (by omega)]
    rw [if_neg (by omega)]
    have : (b :: x).drop (d.length : Int).toNat = tail := by rw [← hd]; simp
    rw [this]
    exact loop_fuel hs l _ tail m _ (by omega) (by omega)

theorem run_unknown {fs : List (Field M)} (hs : ∀ fd ∈ fs, fd.Suffix) {u : Bytes} (h : Unknown (fs.map (·.num)) u)
    (l : Nat) (tail : Bytes) (m : M) (hll : (u ++ tail).length ≤ l) (hl : l < 9223372036854775808) :
    run fs l (u ++ tail) m = run fs l tail m := by
  induction h with
  | nil => rfl
  | cons n d r hn hd _ ih =>
    rw [List.append_assoc, run_chunk hs hd hn l (r ++ tail) m (by rw [← List.append_assoc]; exact hll) hl]
    exact ih (by simp only [List.length_append] at hll ⊢; omega)

/-! ### Reading at a later position, with something following -/

theorem skip_append : ∀ (f : Nat),
    (∀ (d : Bytes) (n : Int) (f' : Nat) (tail : Bytes), skip f d = .ok n → f ≤ f' → skip f' (d ++ tail) = .ok n) ∧
    (∀ (l : Nat) (r : Bytes) (n : Int) (f' : Nat) (tail : Bytes), skipGroup f l r = .ok n → r.length ≤ l → f ≤ f' →
      skipGroup f' (l + tail.length) (r ++ tail) = .ok n)
  | 0 => ⟨by intro d n f' tail h; simp [skip] at h, by intro l r n f' tail h; simp [skipGroup] at h⟩
  | f + 1 => by
    obtain ⟨ih1, ih2⟩ := skip_append f
    constructor
    · intro d n f' tail h hf
      obtain ⟨g, rfl⟩ : ∃ g, f' = g + 1 := ⟨f' - 1, by omega⟩
      cases d with
      | nil => simp [skip] at h
      | cons b d =>
        rw [skip] at h
        simp only at h
        rw [List.cons_append, skip]
        simp only
        cases hv : readVarint (b :: d) with
        | none => rw [hv] at h; cases h
        | some x =>
          obtain ⟨wire, r⟩ := x
          have hv' := readVarint_append hv tail
          have hsl := (readVarint_suffix hv).2
          rw [List.cons_append] at hv'
          rw [hv] at h
          rw [hv']
          simp only [List.length_cons, List.length_append] at h hsl ⊢
          have hsub : d.length + tail.length + 1 - (r.length + tail.length) = d.length + 1 - r.length := by omega
          rw [hsub]
          split at h
          · rename_i h0
            rw [if_pos h0]
            cases hr : readVarint r with
            | none => rw [hr] at h; cases h
            | some y =>
              have hs2 := (readVarint_suffix hr).2
              rw [hr] at h
              rw [readVarint_append hr]
              simp only [List.length_append] at h ⊢
              rw [← h]; congr 1; omega
          rename_i h0
          rw [if_neg h0]
          split at h
          · rename_i h1; rw [if_pos h1]; exact h
          rename_i h1
          rw [if_neg h1]
          split at h
          · rename_i h2
            rw [if_pos h2]
            cases hr : readVarint r with
            | none => rw [hr] at h; cases h
            | some y =>
              have hs2 := (readVarint_suffix hr).2
              rw [hr] at h
              rw [readVarint_append hr]
              simp only [List.length_append] at h ⊢
              split at h
              · cases h
              · rename_i h3
                rw [if_neg h3, ← h, show d.length + tail.length + 1 - (y.2.length + tail.length) = d.length + 1 - y.2.length by omega]
          rename_i h2
          rw [if_neg h2]
          split at h
          · rename_i h3
            rw [if_pos h3, show d.length + tail.length + 1 = d.length + 1 + tail.length by omega]
            exact ih2 (d.length + 1) r n g tail h (by omega) (by omega)
          rename_i h3
          rw [if_neg h3]
          split at h
          · rename_i h4; rw [if_pos h4]; exact h
          rename_i h4
          rw [if_neg h4]
          exact h
    · intro l r n f' tail h hl hf
      obtain ⟨g, rfl⟩ : ∃ g, f' = g + 1 := ⟨f' - 1, by omega⟩
      rw [skipGroup] at h ⊢
      cases hv : readVarint r with
      | none => rw [hv] at h; cases h
      | some x =>
        obtain ⟨wire, r'⟩ := x
        have hs2 := (readVarint_suffix hv).2
        rw [hv] at h
        rw [readVarint_append hv]
        simp only [List.length_append] at h ⊢
        split at h
        · rename_i h4
          rw [if_pos h4, ← h]
          congr 1; omega
        rename_i h4
        rw [if_neg h4]
        cases hk : skip f r with
        | err => rw [hk] at h; cases h
        | panic => rw [hk] at h; cases h
        | ok next =>
          rw [hk] at h
          rw [ih1 r next g tail hk (by omega)]
          simp only at h ⊢
          rw [show l + tail.length - (r.length + tail.length) = l - r.length by omega]
          split at h
          · cases h
          · rename_i hn
            rw [if_neg hn]
            by_cases hle : next.toNat ≤ r.length
            · rw [List.drop_append_of_le_length hle]
              exact ih2 l _ n g tail h (by rw [List.length_drop]; omega) (by omega)
            · rw [List.drop_of_length_le (by omega)] at h
              exfalso
              cases f with
              | zero => simp [skipGroup] at h
              | succ f => simp [skipGroup, readVarint, readLoop] at h

/-- Reading a field gives the same at a later position, with something following. -/
def Field.Steady (fd : Field M) : Prop :=
  ∀ l wt r m m' r' l' tail, fd.unmarshal l wt r m = .ok (m', r') → r.length ≤ l → l ≤ l' - tail.length →
    l' < 9223372036854775808 → fd.unmarshal l' wt (r ++ tail) m = .ok (m', r' ++ tail)

theorem loop_steady {fs : List (Field M)} (hs : ∀ fd ∈ fs, fd.Suffix) (hc : ∀ fd ∈ fs, fd.Steady) (l l' : Nat) (tail : Bytes)
    (hll : l + tail.length ≤ l') (hl : l' < 9223372036854775808) :
    ∀ (f : Nat) (d : Bytes) (m m' : M), unmarshalLoop fs l f d m = .ok m' → d.length < f → d.length ≤ l →
      run fs l' (d ++ tail) m = run fs l' tail m'
  | 0, _, _, _, h, _, _ => by simp [unmarshalLoop] at h
  | f + 1, [], m, m', h, _, _ => by
    simp only [unmarshalLoop, Out.ok.injEq] at h
    rw [h]; rfl
  | f + 1, b :: d, m, m', h, hf, hd => by
    rw [unmarshalLoop] at h
    try simp only at h
    unfold run
    rw [List.cons_append, unmarshalLoop]
    try simp only
    cases hv : readVarint (b :: d) with
    | none => rw [hv] at h; cases h
    | some x =>
      obtain ⟨wire, r⟩ := x
      obtain ⟨hsf, hlt⟩ := readVarint_suffix hv
      have hv' := readVarint_append hv tail
      rw [List.cons_append] at hv'
      rw [hv] at h
      rw [hv']
      simp only at h ⊢
      split at h
      · cases h
      rename_i h4
      rw [if_neg h4]
      split at h
      · cases h
      rename_i h0
      rw [if_neg h0]
      cases hfi : fs.find? (fun fd => (fd.num : Int) == toI32 (wire / 8)) with
      | some fd =>
        have hm := List.mem_of_find?_eq_some hfi
        rw [hfi] at h
        simp only at h ⊢
        cases hu : fd.unmarshal l (wire % 8) r m with
        | err => rw [hu] at h; cases h
        | panic => rw [hu] at h; cases h
        | ok y =>
          obtain ⟨m1, r1⟩ := y
          rw [hu] at h
          simp only at h
          have h2 := (hs fd hm _ _ _ _ _ _ hu).length_le
          rw [hc fd hm l (wire % 8) r m m1 r1 l' tail hu (by omega) (by omega) hl]
          simp only
          have := loop_steady hs hc l l' tail hll hl f r1 m1 m' h (by omega) (by omega)
          refine Eq.trans ?_ this
          exact loop_fuel hs l' _ _ _ _ (by simp only [List.length_append, List.length_cons] at *; omega)
            (by simp only [List.length_append, List.length_cons] at *; omega)
      | none =>
        rw [hfi] at h
        simp only at h ⊢
        cases hk : skip ((b :: d).length + 1) (b :: d) with
        | err => rw [hk] at h; cases h
        | panic => rw [hk] at h; cases h
        | ok n =>
          rw [hk] at h
          have hk' := (skip_append ((b :: d).length + 1)).1 (b :: d) n ((b :: (d ++ tail)).length + 1) tail hk
            (by simp only [List.length_cons, List.length_append]; omega)
          rw [List.cons_append] at hk'
          rw [hk']
          simp only at h ⊢
          have hnz := skip_ne_zero hk
          split at h
          · cases h
          rename_i h1
          rw [if_neg h1]
          split at h
          · cases h
          split at h
          · cases h
          rename_i h2 h3
          simp only [List.length_cons, List.length_append] at h2 h3 hd hf hlt ⊢
          rw [if_neg (by omega), if_neg (by omega)]
          have hdr : (b :: (d ++ tail)).drop n.toNat = (b :: d).drop n.toNat ++ tail := by
            rw [← List.cons_append, List.drop_append_of_le_length (by rw [List.length_cons]; omega)]
          rw [hdr]
          have := loop_steady hs hc l l' tail hll hl f ((b :: d).drop n.toNat) m m' h
            (by rw [List.length_drop, List.length_cons]; omega) (by rw [List.length_drop, List.length_cons]; omega)
          refine Eq.trans ?_ this
          exact loop_fuel hs l' _ _ _ _ (by rw [List.length_append, List.length_drop, List.length_cons]; omega) (by omega)

/-- A message of such fields. -/
structure Codec.Steady (c : Codec M) : Prop where
  suffix : ∀ fd ∈ c.fields, fd.Suffix
  steady : ∀ fd ∈ c.fields, fd.Steady

theorem Codec.OK.steady {c : Codec M} (h : c.OK) (hc : ∀ fd ∈ c.fields, fd.Steady) : c.Steady :=
  ⟨fun fd hfd => (h.fields fd hfd).suffix, hc⟩

theorem varintField_steady (num : Nat) (put : A → Nat) (take : Nat → A) (get : M → A) (set : M → A → M) :
    (varintField num put take get set).Steady := by
  intro l wt r m m' r' l' tail h _ _ _
  simp only [varintField] at h ⊢
  split at h
  · cases h
  rename_i hw
  rw [if_neg hw]
  cases hr : readVarint r with
  | none => rw [hr] at h; cases h
  | some x =>
    rw [hr] at h
    simp only [Out.ok.injEq, Prod.mk.injEq] at h
    rw [readVarint_append hr]
    simp only [h.1, h.2]

theorem readF64_append {r : Bytes} {v : F64} {r' : Bytes} (h : readF64 r = some (v, r')) (tail : Bytes) :
    readF64 (r ++ tail) = some (v, r' ++ tail) := by
  unfold readF64 at h ⊢
  split at h
  · cases h
  · rename_i hl
    simp only [Option.some.injEq, Prod.mk.injEq] at h
    rw [if_neg (by rw [List.length_append]; omega), List.take_append_of_le_length (by omega),
      List.drop_append_of_le_length (by omega), h.1, h.2]

theorem doubleField_steady (num : Nat) (get : M → F64) (set : M → F64 → M) : (doubleField num get set).Steady := by
  intro l wt r m m' r' l' tail h _ _ _
  simp only [doubleField] at h ⊢
  split at h
  · cases h
  rename_i hw
  rw [if_neg hw]
  cases hr : readF64 r with
  | none => rw [hr] at h; cases h
  | some x =>
    rw [hr] at h
    simp only [Out.ok.injEq, Prod.mk.injEq] at h
    rw [readF64_append hr]
    simp only [h.1, h.2]

theorem readLen_append {r : Bytes} {n : Nat} {r' : Bytes} (h : readLen r = some (n, r')) (tail : Bytes) :
    readLen (r ++ tail) = some (n, r' ++ tail) := by
  unfold readLen at h ⊢
  cases hr : readVarint r with
  | none => rw [hr] at h; cases h
  | some x =>
    rw [hr] at h
    rw [readVarint_append hr]
    simp only at h ⊢
    split at h
    · cases h
    · rename_i hn
      simp only [Option.some.injEq, Prod.mk.injEq] at h
      rw [if_neg hn, h.1, h.2]

theorem readSlice_append {l : Nat} {r x r' : Bytes} (h : readSlice l r = .ok (x, r')) {l' : Nat} (tail : Bytes) (hr : r.length ≤ l)
    (hl' : l ≤ l' - tail.length) (hl : l' < 9223372036854775808) : readSlice l' (r ++ tail) = .ok (x, r' ++ tail) := by
  unfold readSlice at h ⊢
  cases hn : readLen r with
  | none => rw [hn] at h; cases h
  | some y =>
    obtain ⟨n, r1⟩ := y
    have hs := (readLen_suffix hn).length_le
    rw [hn] at h
    rw [readLen_append hn]
    simp only [slice, List.length_append] at h ⊢
    split at h
    · cases h
    split at h
    · cases h
    rename_i h1 h2
    simp only [Out.ok.injEq, Prod.mk.injEq] at h
    rw [if_neg (by omega), if_neg (by omega), List.take_append_of_le_length (by omega),
      List.drop_append_of_le_length (by omega), h.1, h.2]

theorem bytesField_steady (num : Nat) (get : M → Bytes) (set : M → Bytes → M) : (bytesField num get set).Steady := by
  intro l wt r m m' r' l' tail h hr hl' hl
  simp only [bytesField] at h ⊢
  split at h
  · cases h
  rename_i hw
  rw [if_neg hw]
  cases hs : readSlice l r with
  | err => rw [hs] at h; cases h
  | panic => rw [hs] at h; cases h
  | ok x =>
    obtain ⟨x, r1⟩ := x
    rw [hs] at h
    rw [readSlice_append hs tail hr hl' hl]
    simp only [Out.ok.injEq, Prod.mk.injEq] at h ⊢
    rw [h.1, h.2]; exact ⟨rfl, rfl⟩

theorem packedLoop_append : ∀ (f n : Nat) (r : Bytes) (acc vs : List F64) (r' tail : Bytes),
    packedLoop f n r acc = some (vs, r') → packedLoop f n (r ++ tail) acc = some (vs, r' ++ tail)
  | 0, _, _, _, _, _, _, h => by simp [packedLoop] at h
  | f + 1, n, r, acc, vs, r', tail, h => by
    rw [packedLoop] at h ⊢
    split at h
    · rename_i hn
      simp only [Option.some.injEq, Prod.mk.injEq] at h
      rw [if_pos hn, h.1, h.2]
    · rename_i hn
      rw [if_neg hn]
      cases hr : readF64 r with
      | none => rw [hr] at h; cases h
      | some x =>
        rw [hr] at h
        rw [readF64_append hr]
        exact packedLoop_append f (n - 8) x.2 _ vs r' tail h

theorem doublesField_steady (num : Nat) (get : M → List F64) (set : M → List F64 → M) : (doublesField num get set).Steady := by
  intro l wt r m m' r' l' tail h hr hl' hl
  simp only [doublesField] at h ⊢
  split at h
  · rename_i hw
    rw [if_pos hw]
    cases hf : readF64 r with
    | none => rw [hf] at h; cases h
    | some x =>
      rw [hf] at h
      simp only [Out.ok.injEq, Prod.mk.injEq] at h
      rw [readF64_append hf]
      simp only [h.1, h.2]
  rename_i hw
  rw [if_neg hw]
  split at h
  · rename_i hw2
    rw [if_pos hw2]
    cases hn : readLen r with
    | none => rw [hn] at h; cases h
    | some x =>
      obtain ⟨n, r1⟩ := x
      have hs := (readLen_suffix hn).length_le
      rw [hn] at h
      rw [readLen_append hn]
      simp only [List.length_append] at h ⊢
      split at h
      · simp only [Out.ok.injEq, Prod.mk.injEq] at h
        rw [if_pos (by omega), h.1, h.2]
      split at h
      · cases h
      rename_i h1 h2
      rw [if_neg (by omega), if_neg (by omega)]
      cases hp : packedLoop (n + 1) n r1 (get m) with
      | none => rw [hp] at h; cases h
      | some y =>
        obtain ⟨vs, r2⟩ := y
        rw [hp] at h
        rw [packedLoop_append _ _ _ _ _ _ tail hp]
        simp only [Out.ok.injEq, Prod.mk.injEq] at h ⊢
        rw [h.1, h.2]; exact ⟨rfl, rfl⟩
  · cases h

theorem unmarshalMsg_append {c : Codec A} {l : Nat} {r : Bytes} {a a' : A} {r' : Bytes} (h : unmarshalMsg c l r a = .ok (a', r'))
    {l' : Nat} (tail : Bytes) (hr : r.length ≤ l) (hl' : l ≤ l' - tail.length) (hl : l' < 9223372036854775808) :
    unmarshalMsg c l' (r ++ tail) a = .ok (a', r' ++ tail) := by
  unfold unmarshalMsg at h ⊢
  cases hs : readSlice l r with
  | err => rw [hs] at h; cases h
  | panic => rw [hs] at h; cases h
  | ok x =>
    obtain ⟨x, r1⟩ := x
    rw [hs] at h
    rw [readSlice_append hs tail hr hl' hl]
    simp only at h ⊢
    cases hu : c.unmarshal x a with
    | err => rw [hu] at h; cases h
    | panic => rw [hu] at h; cases h
    | ok y =>
      rw [hu] at h
      simp only [Out.ok.injEq, Prod.mk.injEq] at h ⊢
      rw [h.1, h.2]; exact ⟨rfl, rfl⟩

theorem msgField_steady (num : Nat) (c : Codec A) (get : M → A) (set : M → A → M) : (msgField num c get set).Steady := by
  intro l wt r m m' r' l' tail h hr hl' hl
  simp only [msgField] at h ⊢
  split at h
  · cases h
  rename_i hw
  rw [if_neg hw]
  cases hu : unmarshalMsg c l r (get m) with
  | err => rw [hu] at h; cases h
  | panic => rw [hu] at h; cases h
  | ok y =>
    obtain ⟨y, r1⟩ := y
    rw [hu] at h
    rw [unmarshalMsg_append hu tail hr hl' hl]
    simp only [Out.ok.injEq, Prod.mk.injEq] at h ⊢
    rw [h.1, h.2]; exact ⟨rfl, rfl⟩

theorem optField_steady (num : Nat) (c : Codec A) (get : M → Option A) (set : M → Option A → M) : (optField num c get set).Steady := by
  intro l wt r m m' r' l' tail h hr hl' hl
  simp only [optField] at h ⊢
  split at h
  · cases h
  rename_i hw
  rw [if_neg hw]
  cases hu : unmarshalMsg c l r ((get m).getD c.zero) with
  | err => rw [hu] at h; cases h
  | panic => rw [hu] at h; cases h
  | ok y =>
    obtain ⟨y, r1⟩ := y
    rw [hu] at h
    rw [unmarshalMsg_append hu tail hr hl' hl]
    simp only [Out.ok.injEq, Prod.mk.injEq] at h ⊢
    rw [h.1, h.2]; exact ⟨rfl, rfl⟩

theorem repField_steady (num : Nat) (c : Codec A) (get : M → List A) (set : M → List A → M) : (repField num c get set).Steady := by
  intro l wt r m m' r' l' tail h hr hl' hl
  simp only [repField] at h ⊢
  split at h
  · cases h
  rename_i hw
  rw [if_neg hw]
  cases hu : unmarshalMsg c l r c.zero with
  | err => rw [hu] at h; cases h
  | panic => rw [hu] at h; cases h
  | ok y =>
    obtain ⟨y, r1⟩ := y
    rw [hu] at h
    rw [unmarshalMsg_append hu tail hr hl' hl]
    simp only [Out.ok.injEq, Prod.mk.injEq] at h ⊢
    rw [h.1, h.2]; exact ⟨rfl, rfl⟩

end Verif.Wire
