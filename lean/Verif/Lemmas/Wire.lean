import Verif.Model.WireMessages
/-
Lemmas on the generated protobuf code: varints, sizes, and what `Unmarshal` does with what `MarshalTo` wrote.
-/
namespace Verif.Wire

/-! ### Varints -/

theorem toNat_ofNat {n : Nat} (h : n < 256) : (UInt8.ofNat n).toNat = n := by
  rw [UInt8.toNat_ofNat']; exact Nat.mod_eq_of_lt h

theorem readLoop_enc : ∀ (f k acc v : Nat) (tail : Bytes), v < 128 ^ f → 0 < f → 7 * k < 64 → acc < 2 ^ (7 * k) →
    v * 2 ^ (7 * k) < 2 ^ 64 → readLoop (7 * k) acc (encLoop f v ++ tail) = some (acc + v * 2 ^ (7 * k), tail)
  | 0, _, _, _, _, _, h, _, _, _ => absurd h (by omega)
  | f + 1, k, acc, v, tail, hv, _, hk, hacc, hmul => by
    have hp : 0 < 2 ^ (7 * k) := Nat.two_pow_pos _
    unfold encLoop
    by_cases h : v ≥ 128
    · rw [if_pos h, List.cons_append]
      unfold readLoop
      have hb : (UInt8.ofNat (v % 128 + 128)).toNat = v % 128 + 128 := toNat_ofNat (by omega)
      rw [hb, if_neg (by omega : ¬ 7 * k ≥ 64), if_neg (by omega : ¬ v % 128 + 128 < 128)]
      have e1 : (v % 128 + 128) % 128 = v % 128 := by omega
      have hpow : 2 ^ (7 * (k + 1)) = 128 * 2 ^ (7 * k) := by
        rw [Nat.mul_add, Nat.pow_add]; simp [Nat.mul_comm]
      have hdiv : v = 128 * (v / 128) + v % 128 := by omega
      have hsum : v * 2 ^ (7 * k) = v / 128 * 2 ^ (7 * (k + 1)) + v % 128 * 2 ^ (7 * k) := by
        rw [hpow, ← Nat.mul_assoc, ← Nat.add_mul, Nat.mul_comm (v / 128) 128, ← hdiv]
      have hlow : acc + v % 128 * 2 ^ (7 * k) < 2 ^ (7 * (k + 1)) := by
        rw [hpow]
        have : v % 128 * 2 ^ (7 * k) ≤ 127 * 2 ^ (7 * k) := Nat.mul_le_mul_right _ (by omega)
        omega
      have hge : 2 ^ (7 * (k + 1)) ≤ v * 2 ^ (7 * k) := by
        rw [hpow]; exact Nat.mul_le_mul_right _ h
      have hk1 : 7 * (k + 1) < 64 := by
        refine Classical.byContradiction fun hc => ?_
        have : 2 ^ 64 ≤ 2 ^ (7 * (k + 1)) := Nat.pow_le_pow_right (by omega) (by omega)
        omega
      have hmod : (acc + (v % 128 + 128) % 128 * 2 ^ (7 * k)) % 18446744073709551616 = acc + v % 128 * 2 ^ (7 * k) := by
        rw [e1]
        have : (2 : Nat) ^ (7 * (k + 1)) < 2 ^ 64 := Nat.pow_lt_pow_right (by omega) hk1
        exact Nat.mod_eq_of_lt (by omega)
      show readLoop (7 * k + 7) _ _ = _
      rw [hmod, show 7 * k + 7 = 7 * (k + 1) by omega, readLoop_enc f (k + 1) _ _ tail ?_ ?_ hk1 hlow ?_]
      · rw [hsum]; simp only [Option.some.injEq, Prod.mk.injEq, and_true]; omega
      · rw [Nat.div_lt_iff_lt_mul (by omega)]; rw [Nat.pow_succ] at hv; exact hv
      · refine Nat.pos_of_ne_zero fun hf => ?_
        subst hf
        simp at hv; omega
      · omega
    · rw [if_neg h]
      simp only [List.cons_append, List.nil_append]
      unfold readLoop
      have hb : (UInt8.ofNat v).toNat = v := toNat_ofNat (by omega)
      rw [hb, if_neg (by omega : ¬ 7 * k ≥ 64), if_pos (by omega : v < 128), Nat.mod_eq_of_lt (by omega : v < 128)]
      have hlow : acc + v * 2 ^ (7 * k) < 18446744073709551616 := by
        -- both parts lie below 2^64 and do not overlap
        have h1 : v * 2 ^ (7 * k) + 2 ^ (7 * k) ≤ 2 ^ 64 := by
          have hd : 2 ^ (7 * k) ∣ 2 ^ 64 := Nat.pow_dvd_pow 2 (by omega)
          obtain ⟨c, hc⟩ := hd
          rw [hc, Nat.mul_comm v] at hmul
          have hvc : v < c := Nat.lt_of_mul_lt_mul_left hmul
          rw [hc, Nat.mul_comm v]
          calc 2 ^ (7 * k) * v + 2 ^ (7 * k) = 2 ^ (7 * k) * (v + 1) := by rw [Nat.mul_add, Nat.mul_one]
            _ ≤ 2 ^ (7 * k) * c := Nat.mul_le_mul_left _ hvc
        omega
      simp only [Nat.mod_eq_of_lt hlow]

/-- A varint is read back. -/
theorem readVarint_encode (v : Nat) (h : v < 18446744073709551616) (tail : Bytes) :
    readVarint (encodeVarint v ++ tail) = some (v, tail) := by
  have := readLoop_enc 10 0 0 v tail (by omega) (by omega) (by omega) (by omega) (by omega)
  simpa [readVarint, encodeVarint] using this

theorem sovLoop_eq : ∀ (f x : Nat), sovLoop f x = (encLoop f x).length
  | 0, _ => rfl
  | f + 1, x => by
    unfold sovLoop encLoop
    by_cases h : x ≥ 128
    · rw [if_neg (by omega), if_pos h, List.length_cons, sovLoop_eq f]; omega
    · rw [if_pos (by omega), if_neg h]; rfl

/-- `sov` is the length of the varint. -/
theorem sov_eq (x : Nat) : sov x = (encodeVarint x).length := sovLoop_eq 10 x

/-- Where a varint ends: after bytes with the high bit set, one without; the value is bounded by their number. -/
theorem readLoop_shape : ∀ (d : Bytes) (shift acc n : Nat) (r : Bytes), readLoop shift acc d = some (n, r) →
    ∃ p b, d = p ++ b :: r ∧ (∀ x ∈ p, 128 ≤ x.toNat) ∧ b.toNat < 128 ∧ n < 18446744073709551616 ∧
      (acc < 2 ^ shift → n < 2 ^ (shift + 7 * (p.length + 1)))
  | [], _, _, _, _, h => by simp [readLoop] at h
  | b :: d, shift, acc, n, r, h => by
    unfold readLoop at h
    by_cases hs : shift ≥ 64
    · simp [hs] at h
    rw [if_neg hs] at h
    have hle : (acc + b.toNat % 128 * 2 ^ shift) % 18446744073709551616 ≤ acc + b.toNat % 128 * 2 ^ shift := Nat.mod_le _ _
    have hstep : acc < 2 ^ shift → acc + b.toNat % 128 * 2 ^ shift < 2 ^ (shift + 7) := by
      intro ha
      have h1 : b.toNat % 128 * 2 ^ shift ≤ 127 * 2 ^ shift := Nat.mul_le_mul_right _ (by omega)
      rw [Nat.pow_add]
      omega
    by_cases hb : b.toNat < 128
    · simp only [hb, if_true, Option.some.injEq, Prod.mk.injEq] at h
      obtain ⟨h1, h2⟩ := h
      refine ⟨[], b, by simp [h2], by simp, hb, ?_, ?_⟩
      · rw [← h1]; exact Nat.mod_lt _ (by omega)
      · intro ha
        rw [← h1]
        have := hstep ha
        simp only [List.length_nil, Nat.zero_add, Nat.mul_one]
        omega
    · simp only [hb, if_false] at h
      obtain ⟨p, c, h1, h2, h3, h4, h5⟩ := readLoop_shape d _ _ n r h
      refine ⟨b :: p, c, by simp [h1], ?_, h3, h4, ?_⟩
      · intro x hx
        rcases List.mem_cons.mp hx with rfl | hx
        · omega
        · exact h2 x hx
      · intro ha
        have := h5 (Nat.lt_of_le_of_lt hle (hstep ha))
        rw [List.length_cons]
        rw [show shift + 7 * (p.length + 1 + 1) = shift + 7 + 7 * (p.length + 1) by omega]
        exact this

theorem readVarint_shape {d : Bytes} {n : Nat} {r : Bytes} (h : readVarint d = some (n, r)) :
    ∃ p b, d = p ++ b :: r ∧ (∀ x ∈ p, 128 ≤ x.toNat) ∧ b.toNat < 128 ∧ n < 18446744073709551616 ∧
      n < 2 ^ (7 * (p.length + 1)) := by
  obtain ⟨p, b, h1, h2, h3, h4, h5⟩ := readLoop_shape d 0 0 n r h
  refine ⟨p, b, h1, h2, h3, h4, ?_⟩
  simpa using h5 (by simp)

theorem readVarint_suffix {d : Bytes} {n : Nat} {r : Bytes} (h : readVarint d = some (n, r)) :
    r <:+ d ∧ r.length < d.length := by
  obtain ⟨p, b, h1, _⟩ := readVarint_shape h
  subst h1
  exact ⟨⟨p ++ [b], by simp⟩, by simp; omega⟩

theorem readVarint_byte (b : UInt8) (h : b.toNat < 128) (r : Bytes) : readVarint (b :: r) = some (b.toNat, r) := by
  unfold readVarint readLoop
  rw [if_neg (by omega), if_pos h]
  simp only [Nat.zero_add, Nat.pow_zero, Nat.mul_one]
  rw [Nat.mod_eq_of_lt (by omega : b.toNat % 128 < 18446744073709551616), Nat.mod_eq_of_lt h]

/-! ### Little endian -/

theorem putLE_length : ∀ (k v : Nat), (putLE k v).length = k
  | 0, _ => rfl
  | k + 1, v => by rw [putLE, List.length_cons, putLE_length k]

theorem getLE_putLE : ∀ (k v : Nat), v < 256 ^ k → getLE (putLE k v) = v
  | 0, v, h => by simp at h; simp [putLE, getLE, h]
  | k + 1, v, h => by
    rw [putLE, getLE, toNat_ofNat (by omega), getLE_putLE k]
    · omega
    · rw [Nat.pow_succ] at h
      rw [Nat.div_lt_iff_lt_mul (by omega)]; exact h

theorem readF64_put (v : F64) (tail : Bytes) : readF64 (putLE 8 v.toNat ++ tail) = some (v, tail) := by
  unfold readF64
  rw [if_neg (by rw [List.length_append, putLE_length]; omega)]
  have h1 : (putLE 8 v.toNat ++ tail).take 8 = putLE 8 v.toNat := by
    rw [List.take_append_of_le_length (by rw [putLE_length]; omega)]
    exact List.take_of_length_le (by rw [putLE_length]; omega)
  have h2 : (putLE 8 v.toNat ++ tail).drop 8 = tail := by
    rw [List.drop_append_of_le_length (by rw [putLE_length]; omega), List.drop_eq_nil_of_le (by rw [putLE_length]; omega)]
    rfl
  rw [h1, h2, getLE_putLE 8 _ (by have := v.isLt; omega)]
  simp

theorem readF64_suffix {r : Bytes} {v : F64} {r' : Bytes} (h : readF64 r = some (v, r')) : r' <:+ r ∧ r'.length < r.length := by
  unfold readF64 at h
  split at h
  · cases h
  · simp only [Option.some.injEq, Prod.mk.injEq] at h
    rw [← h.2]
    exact ⟨List.drop_suffix _ _, by rw [List.length_drop]; omega⟩

/-! ### The loop of `Unmarshal` -/

/-- What a field leaves is a suffix of what it got. -/
def Field.Suffix (fd : Field M) : Prop :=
  ∀ l wt r m m' r', fd.unmarshal l wt r m = .ok (m', r') → r' <:+ r

theorem skipGroup_pos : ∀ (f l : Nat) (r : Bytes) (n : Int), r.length ≤ l → skipGroup f l r = .ok n → 0 < n
  | 0, _, _, _, _, h => by simp [skipGroup] at h
  | f + 1, l, r, n, hl, h => by
    unfold skipGroup at h
    cases hr : readVarint r with
    | none => rw [hr] at h; cases h
    | some x =>
      obtain ⟨wire, r'⟩ := x
      have hlen := (readVarint_suffix hr).2
      rw [hr] at h
      simp only at h
      split at h
      · simp only [Out.ok.injEq] at h; omega
      · cases hk : skip f r with
        | err => rw [hk] at h; cases h
        | panic => rw [hk] at h; cases h
        | ok next =>
          rw [hk] at h
          simp only at h
          split at h
          · cases h
          · exact skipGroup_pos f l _ n (by rw [List.length_drop]; omega) h

theorem skip_ne_zero {f : Nat} {d : Bytes} {n : Int} (h : skip f d = .ok n) : n ≠ 0 := by
  cases f with
  | zero => simp [skip] at h
  | succ f =>
    cases d with
    | nil => simp [skip] at h
    | cons b d =>
      unfold skip at h
      cases hr : readVarint (b :: d) with
      | none => rw [hr] at h; cases h
      | some x =>
        obtain ⟨wire, r⟩ := x
        have hlen := (readVarint_suffix hr).2
        rw [hr] at h
        simp only at h
        split at h
        · cases hv : readVarint r with
          | none => rw [hv] at h; cases h
          | some y =>
            have := (readVarint_suffix (show readVarint r = some (y.1, y.2) from hv)).2
            rw [hv] at h
            simp only [Out.ok.injEq] at h; omega
        split at h
        · simp only [Out.ok.injEq] at h; omega
        split at h
        · cases hv : readVarint r with
          | none => rw [hv] at h; cases h
          | some y =>
            have hy := (readVarint_suffix (show readVarint r = some (y.1, y.2) from hv)).2
            rw [hv] at h
            simp only at h
            split at h
            · cases h
            · simp only [Out.ok.injEq, wrap] at h
              split at h <;> omega
        split at h
        · have := skipGroup_pos f _ r n (by omega) h; omega
        split at h
        · simp only [Out.ok.injEq] at h; omega
        split at h
        · simp only [Out.ok.injEq] at h; omega
        · cases h

/-- The loop with the fuel it needs. -/
def run (fs : List (Field M)) (l : Nat) (d : Bytes) (m : M) : Out M := unmarshalLoop fs l (d.length + 1) d m

theorem loop_fuel {fs : List (Field M)} (hs : ∀ fd ∈ fs, fd.Suffix) (l : Nat) :
    ∀ (f : Nat) (d : Bytes) (m : M) (f' : Nat), d.length < f → d.length < f' →
      unmarshalLoop fs l f d m = unmarshalLoop fs l f' d m
  | 0, _, _, _, h, _ => absurd h (by omega)
  | _ + 1, _, _, 0, _, h => absurd h (by omega)
  | f + 1, d, m, f' + 1, h, h' => by
    cases d with
    | nil => rfl
    | cons b d =>
      simp only [unmarshalLoop]
      cases hr : readVarint (b :: d) with
      | none => rfl
      | some x =>
        obtain ⟨wire, r⟩ := x
        simp only
        have hlen := (readVarint_suffix hr).2
        split
        · rfl
        split
        · rfl
        cases hf : fs.find? (fun fd => (fd.num : Int) == toI32 (wire / 8)) with
        | some fd =>
          simp only
          cases hu : fd.unmarshal l (wire % 8) r m with
          | err => rfl
          | panic => rfl
          | ok y =>
            obtain ⟨m', r'⟩ := y
            have := (hs fd (List.mem_of_find?_eq_some hf) _ _ _ _ _ _ hu).length_le
            exact loop_fuel hs l f r' m' f' (by omega) (by omega)
        | none =>
          simp only
          cases hk : skip ((b :: d).length + 1) (b :: d) with
          | err => rfl
          | panic => rfl
          | ok n =>
            simp only
            split
            · rfl
            split
            · rfl
            split
            · rfl
            rename_i h1 h2 h3
            have h0 := skip_ne_zero hk
            · exact loop_fuel hs l f _ m f' (by rw [List.length_drop]; omega) (by rw [List.length_drop]; omega)

/-! ### Fields and messages that are well formed -/

/-- What holds of every field the generator writes. -/
structure Field.OK (fd : Field M) : Prop where
  suffix : fd.Suffix
  sized : ∀ m, fd.size m = (fd.marshal m).length
  num_pos : 0 < fd.num
  num_lt : fd.num < 16

/-- A message of such fields, with different numbers. -/
structure Codec.OK (c : Codec M) : Prop where
  fields : ∀ fd ∈ c.fields, fd.OK
  nodup : (c.fields.map (·.num)).Nodup

theorem Codec.OK.sized {c : Codec M} (h : c.OK) (m : M) : c.size m = (c.marshal m).length := by
  unfold Codec.size Codec.marshal
  rw [List.length_flatMap]
  congr 1
  exact List.map_congr_left fun fd hfd => (h.fields fd hfd).sized m

theorem Codec.unmarshal_eq (c : Codec M) (d : Bytes) (m : M) : c.unmarshal d m = run c.fields d.length d m := rfl

theorem run_nil (fs : List (Field M)) (l : Nat) (m : M) : run fs l [] m = .ok m := rfl

theorem tag_toNat {num wt : Nat} (h : num < 16) (hw : wt < 8) : (tag num wt).toNat = num * 8 + wt := toNat_ofNat (by omega)

theorem find_num {fs : List (Field M)} (hn : (fs.map (·.num)).Nodup) {fd : Field M} (h : fd ∈ fs) :
    fs.find? (fun x => (x.num : Int) == (fd.num : Int)) = some fd := by
  induction fs with
  | nil => cases h
  | cons a fs ih =>
    rw [List.map_cons, List.nodup_cons] at hn
    rw [List.find?_cons]
    rcases List.mem_cons.mp h with rfl | h
    · simp
    · have : a.num ≠ fd.num := fun e => hn.1 (e ▸ List.mem_map_of_mem h)
      rw [show ((a.num : Int) == (fd.num : Int)) = false by simp; omega]
      exact ih hn.2 h

/-- A field that is present is handed to its case. -/
theorem run_field {c : Codec M} (hc : c.OK) {fd : Field M} (h : fd ∈ c.fields) (l wt : Nat) (hw : wt < 8) (h4 : wt ≠ 4)
    (r : Bytes) (m : M) :
    run c.fields l (tag fd.num wt :: r) m = match fd.unmarshal l wt r m with
      | .err => .err
      | .panic => .panic
      | .ok (m', r') => run c.fields l r' m' := by
  have hk := hc.fields fd h
  have ht := tag_toNat hk.num_lt hw
  have hsuf : ∀ x ∈ c.fields, x.Suffix := fun x hx => (hc.fields x hx).suffix
  have hnp := hk.num_pos
  have hnl := hk.num_lt
  unfold run
  simp only [unmarshalLoop, readVarint_byte _ (show (tag fd.num wt).toNat < 128 by omega) r]
  have e1 : (tag fd.num wt).toNat % 8 = wt := by omega
  have e2 : toI32 ((tag fd.num wt).toNat / 8) = fd.num := by
    have : (tag fd.num wt).toNat / 8 = fd.num := by omega
    rw [this]
    unfold toI32
    rw [Nat.mod_eq_of_lt (by omega), if_pos (by omega)]
  rw [e1, e2, if_neg h4, if_neg (by omega), find_num hc.nodup h]
  simp only
  cases hu : fd.unmarshal l wt r m with
  | err => rfl
  | panic => rfl
  | ok y =>
    obtain ⟨m', r'⟩ := y
    have := (hk.suffix _ _ _ _ _ _ hu).length_le
    exact loop_fuel hsuf l (tag fd.num wt :: r).length r' m' (r'.length + 1) (by rw [List.length_cons]; omega) (by omega)

/-- The field of `src` is written, and read into `acc` gives `res`, whatever follows. -/
def Writes (c : Codec M) (fd : Field M) (src acc res : M) : Prop :=
  ∀ (l : Nat) (tail : Bytes), l < 9223372036854775808 → (fd.marshal src ++ tail).length ≤ l →
    run c.fields l (fd.marshal src ++ tail) acc = run c.fields l tail res

/-! ### Numbers -/

theorem varintField_ok (num : Nat) (h0 : 0 < num) (h16 : num < 16) (put : A → Nat) (take : Nat → A) (get : M → A) (set : M → A → M) :
    (varintField num put take get set).OK where
  suffix := by
    intro l wt r m m' r' h
    simp only [varintField] at h
    split at h
    · cases h
    · cases hr : readVarint r with
      | none => rw [hr] at h; cases h
      | some x =>
        rw [hr] at h
        simp only [Out.ok.injEq, Prod.mk.injEq] at h
        rw [← h.2]
        exact (readVarint_suffix (show readVarint r = some (x.1, x.2) from hr)).1
  sized := by
    intro m
    simp only [varintField]
    split
    · rw [List.length_cons, sov_eq]; omega
    · rfl
  num_pos := h0
  num_lt := h16

theorem varintField_writes {c : Codec M} (hc : c.OK) {num : Nat} {put : A → Nat} {take : Nat → A} {get : M → A} {set : M → A → M}
    (hm : varintField num put take get set ∈ c.fields) (src acc : M)
    (hp : put (get src) < 18446744073709551616) (ht : take (put (get src)) = get src)
    (hz : put (get src) = 0 → set acc (get src) = acc) :
    Writes c (varintField num put take get set) src acc (set acc (get src)) := by
  intro l tail hl hlen
  by_cases h : put (get src) = 0
  · rw [hz h]
    simp [varintField, h]
  · have e : (varintField num put take get set).marshal src ++ tail = tag num 0 :: (encodeVarint (put (get src)) ++ tail) := by
      simp [varintField, h]
    rw [e]
    have := run_field hc hm l 0 (by omega) (by omega) (encodeVarint (put (get src)) ++ tail) acc
    rw [show (varintField num put take get set).num = num from rfl] at this
    rw [this]
    simp only [varintField, ne_eq, not_true_eq_false, if_false, readVarint_encode _ hp, ht]

/-! ### Floats -/

theorem doubleField_ok (num : Nat) (h0 : 0 < num) (h16 : num < 16) (get : M → F64) (set : M → F64 → M) :
    (doubleField num get set).OK where
  suffix := by
    intro l wt r m m' r' h
    simp only [doubleField] at h
    split at h
    · cases h
    · cases hr : readF64 r with
      | none => rw [hr] at h; cases h
      | some x =>
        rw [hr] at h
        simp only [Out.ok.injEq, Prod.mk.injEq] at h
        rw [← h.2]
        exact (readF64_suffix (show readF64 r = some (x.1, x.2) from hr)).1
  sized := by
    intro m
    simp only [doubleField]
    split
    · rfl
    · rw [List.length_cons, putLE_length]
  num_pos := h0
  num_lt := h16

/-- What is left of a float that is not written if it is a zero. -/
def F64.norm (v : F64) : F64 := if v = 0x8000000000000000 then 0 else v

theorem norm_zero {v : F64} (h : v.isZero = true) : v.norm = 0 := by
  simp only [F64.isZero, Bool.or_eq_true, beq_iff_eq] at h
  unfold F64.norm
  rcases h with rfl | rfl <;> simp

theorem norm_other {v : F64} (h : ¬ v.isZero = true) : v.norm = v := by
  simp only [F64.isZero, Bool.or_eq_true, beq_iff_eq, not_or] at h
  rw [F64.norm, if_neg h.2]

theorem doubleField_writes {c : Codec M} (hc : c.OK) {num : Nat} {get : M → F64} {set : M → F64 → M}
    (hm : doubleField num get set ∈ c.fields) (src acc : M) (hz : set acc 0 = acc) :
    Writes c (doubleField num get set) src acc (set acc (get src).norm) := by
  intro l tail hl hlen
  by_cases h : (get src).isZero
  · simp only [doubleField, h, norm_zero h, if_true, hz, List.nil_append]
  · have e : (doubleField num get set).marshal src ++ tail = tag num 1 :: (putLE 8 (get src).toNat ++ tail) := by
      simp [doubleField, h]
    rw [e]
    have := run_field hc hm l 1 (by omega) (by omega) (putLE 8 (get src).toNat ++ tail) acc
    rw [show (doubleField num get set).num = num from rfl] at this
    rw [this]
    simp only [doubleField, ne_eq, not_true_eq_false, if_false, readF64_put, norm_other h]

/-! ### Bytes, packed floats and messages -/

theorem readLen_encode (n : Nat) (h : n < 9223372036854775808) (tail : Bytes) :
    readLen (encodeVarint n ++ tail) = some (n, tail) := by
  unfold readLen
  rw [readVarint_encode n (by omega)]
  simp only
  rw [if_neg (by omega)]

theorem readLen_suffix {r : Bytes} {n : Nat} {r' : Bytes} (h : readLen r = some (n, r')) : r' <:+ r := by
  unfold readLen at h
  cases hr : readVarint r with
  | none => rw [hr] at h; cases h
  | some x =>
    rw [hr] at h
    simp only at h
    split at h
    · cases h
    · simp only [Option.some.injEq, Prod.mk.injEq] at h
      rw [← h.2]
      exact (readVarint_suffix (show readVarint r = some (x.1, x.2) from hr)).1

theorem readSlice_encode (l : Nat) (x tail : Bytes) (hl : l < 9223372036854775808)
    (hlen : (encodeVarint x.length ++ x ++ tail).length ≤ l) :
    readSlice l (encodeVarint x.length ++ (x ++ tail)) = .ok (x, tail) := by
  simp only [List.length_append] at hlen
  unfold readSlice
  rw [readLen_encode _ (by omega)]
  simp only [slice, List.length_append]
  rw [if_neg (by omega), if_neg (by omega)]
  simp

theorem readSlice_suffix {l : Nat} {r x r' : Bytes} (h : readSlice l r = .ok (x, r')) : r' <:+ r ∧ x <:+: r := by
  unfold readSlice at h
  cases hr : readLen r with
  | none => rw [hr] at h; cases h
  | some y =>
    obtain ⟨n, r1⟩ := y
    have hs := readLen_suffix hr
    rw [hr] at h
    simp only [slice] at h
    split at h
    · cases h
    split at h
    · cases h
    simp only [Out.ok.injEq, Prod.mk.injEq] at h
    rw [← h.1, ← h.2]
    exact ⟨(List.drop_suffix _ _).trans hs, (List.take_prefix _ _).isInfix.trans hs.isInfix⟩

theorem bytesField_ok (num : Nat) (h0 : 0 < num) (h16 : num < 16) (get : M → Bytes) (set : M → Bytes → M) :
    (bytesField num get set).OK where
  suffix := by
    intro l wt r m m' r' h
    simp only [bytesField] at h
    split at h
    · cases h
    · cases hr : readSlice l r with
      | err => rw [hr] at h; cases h
      | panic => rw [hr] at h; cases h
      | ok x =>
        rw [hr] at h
        simp only [Out.ok.injEq, Prod.mk.injEq] at h
        rw [← h.2]
        exact (readSlice_suffix (show readSlice l r = .ok (x.1, x.2) from hr)).1
  sized := by
    intro m
    simp only [bytesField]
    split
    · simp only [List.length_append, List.length_cons, sov_eq]; omega
    · rfl
  num_pos := h0
  num_lt := h16

theorem bytesField_writes {c : Codec M} (hc : c.OK) {num : Nat} {get : M → Bytes} {set : M → Bytes → M}
    (hm : bytesField num get set ∈ c.fields) (src acc : M) (hz : set acc [] = acc) :
    Writes c (bytesField num get set) src acc (set acc (get src)) := by
  intro l tail hl hlen
  by_cases h : (get src).length = 0
  · have h' := List.length_eq_zero_iff.mp h
    simp [bytesField, h', hz]
  · have e : (bytesField num get set).marshal src ++ tail = tag num 2 :: (encodeVarint (get src).length ++ (get src ++ tail)) := by
      simp only [bytesField]
      rw [if_pos (by omega)]; simp
    rw [e] at hlen ⊢
    have := run_field hc hm l 2 (by omega) (by omega) (encodeVarint (get src).length ++ (get src ++ tail)) acc
    rw [show (bytesField num get set).num = num from rfl] at this
    rw [this]
    simp only [bytesField, ne_eq, not_true_eq_false, if_false]
    rw [readSlice_encode l (get src) tail hl (by simp at hlen ⊢; omega)]

theorem packedLoop_suffix : ∀ (f n : Nat) (r : Bytes) (acc vs : List F64) (r' : Bytes),
    packedLoop f n r acc = some (vs, r') → r' <:+ r
  | 0, _, _, _, _, _, h => by simp [packedLoop] at h
  | f + 1, n, r, acc, vs, r', h => by
    unfold packedLoop at h
    split at h
    · simp only [Option.some.injEq, Prod.mk.injEq] at h
      rw [h.2]; exact List.suffix_refl _
    · cases hr : readF64 r with
      | none => rw [hr] at h; cases h
      | some x =>
        rw [hr] at h
        exact (packedLoop_suffix f _ _ _ _ _ h).trans (readF64_suffix (show readF64 r = some (x.1, x.2) from hr)).1

theorem packedLoop_put : ∀ (vs : List F64) (f : Nat) (acc : List F64) (tail : Bytes), vs.length * 8 < f →
    packedLoop f (vs.length * 8) (vs.flatMap (fun v => putLE 8 v.toNat) ++ tail) acc = some (acc ++ vs, tail)
  | [], f, acc, tail, h => by
    cases f with
    | zero => exact absurd h (by omega)
    | succ f => simp [packedLoop]
  | v :: vs, f, acc, tail, h => by
    cases f with
    | zero => exact absurd h (by omega)
    | succ f =>
      unfold packedLoop
      rw [if_neg (by simp), List.flatMap_cons, List.append_assoc, readF64_put]
      simp only
      rw [show (v :: vs).length * 8 - 8 = vs.length * 8 by simp; omega,
        packedLoop_put vs f (acc ++ [v]) tail (by simp at h; omega)]
      simp

theorem flat_length (vs : List F64) : (vs.flatMap (fun v => putLE 8 v.toNat)).length = vs.length * 8 := by
  induction vs with
  | nil => rfl
  | cons v vs ih => rw [List.flatMap_cons, List.length_append, ih, putLE_length, List.length_cons]; omega

theorem doublesField_ok (num : Nat) (h0 : 0 < num) (h16 : num < 16) (get : M → List F64) (set : M → List F64 → M) :
    (doublesField num get set).OK where
  suffix := by
    intro l wt r m m' r' h
    simp only [doublesField] at h
    split at h
    · cases hr : readF64 r with
      | none => rw [hr] at h; cases h
      | some x =>
        rw [hr] at h
        simp only [Out.ok.injEq, Prod.mk.injEq] at h
        rw [← h.2]
        exact (readF64_suffix (show readF64 r = some (x.1, x.2) from hr)).1
    split at h
    · cases hr : readLen r with
      | none => rw [hr] at h; cases h
      | some x =>
        obtain ⟨n, r1⟩ := x
        have hs := readLen_suffix hr
        rw [hr] at h
        simp only at h
        split at h
        · simp only [Out.ok.injEq, Prod.mk.injEq] at h
          rw [← h.2]; exact hs
        split at h
        · cases h
        · cases hp : packedLoop (n + 1) n r1 (get m) with
          | none => rw [hp] at h; cases h
          | some y =>
            rw [hp] at h
            simp only [Out.ok.injEq, Prod.mk.injEq] at h
            rw [← h.2]
            exact (packedLoop_suffix _ _ _ _ _ _ (show _ = some (y.1, y.2) from hp)).trans hs
    · cases h
  sized := by
    intro m
    simp only [doublesField]
    split
    · simp only [List.length_append, List.length_cons, sov_eq, flat_length]; omega
    · rfl
  num_pos := h0
  num_lt := h16

theorem doublesField_writes {c : Codec M} (hc : c.OK) {num : Nat} {get : M → List F64} {set : M → List F64 → M}
    (hm : doublesField num get set ∈ c.fields) (src acc : M) (hz : set acc (get acc) = acc) :
    Writes c (doublesField num get set) src acc (set acc (get acc ++ get src)) := by
  intro l tail hl hlen
  by_cases h : (get src).length = 0
  · have h' := List.length_eq_zero_iff.mp h
    simp [doublesField, h', hz]
  · have e : (doublesField num get set).marshal src ++ tail =
        tag num 2 :: (encodeVarint ((get src).length * 8) ++ ((get src).flatMap (fun v => putLE 8 v.toNat) ++ tail)) := by
      simp only [doublesField]
      rw [if_pos (by omega)]; simp
    rw [e] at hlen ⊢
    have hr := run_field hc hm l 2 (by omega) (by omega)
      (encodeVarint ((get src).length * 8) ++ ((get src).flatMap (fun v => putLE 8 v.toNat) ++ tail)) acc
    rw [show (doublesField num get set).num = num from rfl] at hr
    rw [hr]
    simp only [List.length_cons, List.length_append, flat_length] at hlen
    have h1 : (2 : Nat) ≠ 1 := by omega
    simp only [doublesField, if_neg h1, if_true]
    rw [readLen_encode _ (by omega)]
    simp only [List.length_append, flat_length]
    rw [if_neg (by omega), if_neg (by omega), packedLoop_put _ _ _ _ (by omega)]

/-! ### Embedded messages -/

theorem marshalMsg_length (num : Nat) {c : Codec A} (hc : c.OK) (a : A) : sizeMsg c a = (marshalMsg num c a).length := by
  simp only [sizeMsg, marshalMsg, List.length_append, List.length_cons, sov_eq, hc.sized]; omega

theorem unmarshalMsg_suffix {c : Codec A} {l : Nat} {r : Bytes} {a a' : A} {r' : Bytes}
    (h : unmarshalMsg c l r a = .ok (a', r')) : r' <:+ r := by
  unfold unmarshalMsg at h
  cases hr : readSlice l r with
  | err => rw [hr] at h; cases h
  | panic => rw [hr] at h; cases h
  | ok x =>
    rw [hr] at h
    simp only at h
    cases hu : c.unmarshal x.1 a with
    | err => rw [hu] at h; cases h
    | panic => rw [hu] at h; cases h
    | ok y =>
      rw [hu] at h
      simp only [Out.ok.injEq, Prod.mk.injEq] at h
      rw [← h.2]
      exact (readSlice_suffix (show readSlice l r = .ok (x.1, x.2) from hr)).1

/-- An embedded message that was written is read. -/
theorem unmarshalMsg_marshal {c : Codec A} (hc : c.OK) (num l : Nat) (src acc res : A) (tail : Bytes)
    (hl : l < 9223372036854775808) (hlen : (marshalMsg num c src ++ tail).length ≤ l)
    (h : (c.marshal src).length < 9223372036854775808 → c.unmarshal (c.marshal src) acc = .ok res) :
    unmarshalMsg c l (encodeVarint (c.size src) ++ (c.marshal src ++ tail)) acc = .ok (res, tail) := by
  simp only [marshalMsg, List.length_append, List.length_cons, hc.sized] at hlen
  unfold unmarshalMsg
  rw [hc.sized, readSlice_encode l _ tail hl (by simp only [List.length_append]; omega)]
  simp only
  rw [h (by omega)]

theorem msgField_ok (num : Nat) (h0 : 0 < num) (h16 : num < 16) {c : Codec A} (hc : c.OK) (get : M → A) (set : M → A → M) :
    (msgField num c get set).OK where
  suffix := by
    intro l wt r m m' r' h
    simp only [msgField] at h
    split at h
    · cases h
    · cases hr : unmarshalMsg c l r (get m) with
      | err => rw [hr] at h; cases h
      | panic => rw [hr] at h; cases h
      | ok x =>
        rw [hr] at h
        simp only [Out.ok.injEq, Prod.mk.injEq] at h
        rw [← h.2]
        exact unmarshalMsg_suffix (show unmarshalMsg c l r (get m) = .ok (x.1, x.2) from hr)
  sized := fun m => marshalMsg_length num hc (get m)
  num_pos := h0
  num_lt := h16

theorem msgField_writes {c : Codec M} (hc : c.OK) {num : Nat} {b : Codec A} (hb : b.OK) {get : M → A} {set : M → A → M}
    (hm : msgField num b get set ∈ c.fields) (src acc : M) (res : A)
    (h : (b.marshal (get src)).length < 9223372036854775808 → b.unmarshal (b.marshal (get src)) (get acc) = .ok res) :
    Writes c (msgField num b get set) src acc (set acc res) := by
  intro l tail hl hlen
  have e : (msgField num b get set).marshal src ++ tail =
      tag num 2 :: (encodeVarint (b.size (get src)) ++ (b.marshal (get src) ++ tail)) := by
    simp [msgField, marshalMsg]
  have hu := unmarshalMsg_marshal hb num l (get src) (get acc) res tail hl hlen h
  rw [e]
  have := run_field hc hm l 2 (by omega) (by omega) (encodeVarint (b.size (get src)) ++ (b.marshal (get src) ++ tail)) acc
  rw [show (msgField num b get set).num = num from rfl] at this
  rw [this]
  simp only [msgField, ne_eq, not_true_eq_false, if_false, hu]

theorem optField_ok (num : Nat) (h0 : 0 < num) (h16 : num < 16) {c : Codec A} (hc : c.OK) (get : M → Option A)
    (set : M → Option A → M) : (optField num c get set).OK where
  suffix := by
    intro l wt r m m' r' h
    simp only [optField] at h
    split at h
    · cases h
    · cases hr : unmarshalMsg c l r ((get m).getD c.zero) with
      | err => rw [hr] at h; cases h
      | panic => rw [hr] at h; cases h
      | ok x =>
        rw [hr] at h
        simp only [Out.ok.injEq, Prod.mk.injEq] at h
        rw [← h.2]
        exact unmarshalMsg_suffix (show unmarshalMsg c l r _ = .ok (x.1, x.2) from hr)
  sized := by
    intro m
    simp only [optField]
    cases get m with
    | none => rfl
    | some a => exact marshalMsg_length num hc a
  num_pos := h0
  num_lt := h16

theorem optField_writes_some {c : Codec M} (hc : c.OK) {num : Nat} {b : Codec A} (hb : b.OK) {get : M → Option A}
    {set : M → Option A → M} (hm : optField num b get set ∈ c.fields) (src acc : M) (a res : A) (ha : get src = some a)
    (h : (b.marshal a).length < 9223372036854775808 → b.unmarshal (b.marshal a) ((get acc).getD b.zero) = .ok res) :
    Writes c (optField num b get set) src acc (set acc (some res)) := by
  intro l tail hl hlen
  have e0 : (optField num b get set).marshal src = marshalMsg num b a := by simp only [optField, ha]
  have e : (optField num b get set).marshal src ++ tail =
      tag num 2 :: (encodeVarint (b.size a) ++ (b.marshal a ++ tail)) := by
    rw [e0]; simp [marshalMsg]
  rw [e0] at hlen
  have hu := unmarshalMsg_marshal hb num l a ((get acc).getD b.zero) res tail hl hlen h
  rw [e]
  have := run_field hc hm l 2 (by omega) (by omega) (encodeVarint (b.size a) ++ (b.marshal a ++ tail)) acc
  rw [show (optField num b get set).num = num from rfl] at this
  rw [this]
  simp only [optField, ne_eq, not_true_eq_false, if_false, hu]

theorem optField_writes_none {c : Codec M} {num : Nat} {b : Codec A} {get : M → Option A}
    {set : M → Option A → M} (src acc : M) (ha : get src = none) :
    Writes c (optField num b get set) src acc acc := by
  intro l tail hl hlen
  simp [optField, ha]

theorem repField_ok (num : Nat) (h0 : 0 < num) (h16 : num < 16) {c : Codec A} (hc : c.OK) (get : M → List A)
    (set : M → List A → M) : (repField num c get set).OK where
  suffix := by
    intro l wt r m m' r' h
    simp only [repField] at h
    split at h
    · cases h
    · cases hr : unmarshalMsg c l r c.zero with
      | err => rw [hr] at h; cases h
      | panic => rw [hr] at h; cases h
      | ok x =>
        rw [hr] at h
        simp only [Out.ok.injEq, Prod.mk.injEq] at h
        rw [← h.2]
        exact unmarshalMsg_suffix (show unmarshalMsg c l r _ = .ok (x.1, x.2) from hr)
  sized := by
    intro m
    simp only [repField, List.length_flatMap]
    congr 1
    exact List.map_congr_left fun a _ => marshalMsg_length num hc a
  num_pos := h0
  num_lt := h16

theorem repField_loop {c : Codec M} (hc : c.OK) {num : Nat} {b : Codec A} (hb : b.OK) {get : M → List A}
    {set : M → List A → M} (hm : repField num b get set ∈ c.fields) (hgs : ∀ m v, get (set m v) = v)
    (hss : ∀ m v w, set (set m v) w = set m w) (norm : A → A) (l : Nat) (hl : l < 9223372036854775808) (tail : Bytes) :
    ∀ (as : List A) (acc : M), set acc (get acc) = acc →
    (∀ a ∈ as, (b.marshal a).length < 9223372036854775808 → b.unmarshal (b.marshal a) b.zero = .ok (norm a)) →
    (as.flatMap (marshalMsg num b) ++ tail).length ≤ l →
    run c.fields l (as.flatMap (marshalMsg num b) ++ tail) acc = run c.fields l tail (set acc (get acc ++ as.map norm))
  | [], acc, hz, _, _ => by simp [hz]
  | a :: as, acc, hz, h, hlen => by
    have e : (a :: as).flatMap (marshalMsg num b) ++ tail =
        tag num 2 :: (encodeVarint (b.size a) ++ (b.marshal a ++ (as.flatMap (marshalMsg num b) ++ tail))) := by
      simp [marshalMsg]
    have hlen' : (marshalMsg num b a ++ (as.flatMap (marshalMsg num b) ++ tail)).length ≤ l := by
      rw [List.flatMap_cons, List.append_assoc] at hlen; exact hlen
    have hu := unmarshalMsg_marshal hb num l a b.zero (norm a) _ hl hlen' (h a (by simp))
    rw [e]
    have := run_field hc hm l 2 (by omega) (by omega)
      (encodeVarint (b.size a) ++ (b.marshal a ++ (as.flatMap (marshalMsg num b) ++ tail))) acc
    rw [show (repField num b get set).num = num from rfl] at this
    rw [this]
    simp only [repField, ne_eq, not_true_eq_false, if_false, hu]
    have ih := repField_loop hc hb hm hgs hss norm l hl tail as (set acc (get acc ++ [norm a])) (by rw [hgs, hss])
      (fun x hx => h x (by simp [hx])) (by rw [List.length_append] at hlen'; omega)
    rw [ih, hgs, hss]
    simp

theorem repField_writes {c : Codec M} (hc : c.OK) {num : Nat} {b : Codec A} (hb : b.OK) {get : M → List A}
    {set : M → List A → M} (hm : repField num b get set ∈ c.fields) (hgs : ∀ m v, get (set m v) = v)
    (hss : ∀ m v w, set (set m v) w = set m w) (norm : A → A) (src acc : M) (hz : set acc (get acc) = acc)
    (h : ∀ a ∈ get src, (b.marshal a).length < 9223372036854775808 → b.unmarshal (b.marshal a) b.zero = .ok (norm a)) :
    Writes c (repField num b get set) src acc (set acc (get acc ++ (get src).map norm)) := by
  intro l tail hl hlen
  exact repField_loop hc hb hm hgs hss norm l hl tail (get src) acc hz h hlen

/-- The fields are written and read one after the other. -/
inductive Chain (c : Codec M) (src : M) : List (Field M) → M → M → Prop
  | nil (acc : M) : Chain c src [] acc acc
  | cons {fd : Field M} {fs : List (Field M)} {acc mid res : M} :
      Writes c fd src acc mid → Chain c src fs mid res → Chain c src (fd :: fs) acc res

theorem Chain.run {c : Codec M} {src acc res : M} {fs : List (Field M)} (h : Chain c src fs acc res) (l : Nat)
    (hl : l < 9223372036854775808) (hlen : (fs.flatMap (fun f => f.marshal src)).length ≤ l) :
    run c.fields l (fs.flatMap (fun f => f.marshal src)) acc = .ok res := by
  induction h with
  | nil acc => rfl
  | cons hw _ ih =>
    rw [List.flatMap_cons] at hlen ⊢
    rw [hw l _ hl hlen]
    exact ih (by rw [List.length_append] at hlen; omega)

theorem Chain.unmarshal {c : Codec M} {src acc res : M} (h : Chain c src c.fields acc res)
    (hlen : (c.marshal src).length < 9223372036854775808) : c.unmarshal (c.marshal src) acc = .ok res := by
  rw [Codec.unmarshal_eq]
  exact h.run _ hlen (Nat.le_refl _)

end Verif.Wire
