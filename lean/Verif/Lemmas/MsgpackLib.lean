import Verif.Model.MsgpackLib
import Verif.Spec.Msgpack
import Verif.Lemmas.Wire
/- The library of Verif.Model.MsgpackLib satisfies the laws. -/
namespace Verif.MP
open Verif.Wire Verif.Spec.MP
open Verif.Spec.Msg (Int64)

theorem takeN_append (b r : Bytes) (h : b.length = k) : takeN k (b ++ r) = .ok (b, r) := by
  subst h
  simp [takeN]

theorem putBE_length (k v : Nat) : (putBE k v).length = k := by simp [putBE, putLE_length]

theorem readBE_put (k v : Nat) (r : Bytes) (h : v < 256 ^ k) : readBE k (putBE k v ++ r) = .ok (v, r) := by
  unfold readBE
  rw [takeN_append _ _ (putBE_length k v)]
  simp [getBE, putBE, getLE_putLE k v h]

theorem readBE_length {d r : Bytes} {n : Nat} (h : readBE k d = .ok (n, r)) : r.length ≤ d.length := by
  unfold readBE takeN at h
  split at h
  · simp at h
  · next b r' hb =>
    split at hb
    · simp at hb
    · simp only [Except.ok.injEq, Prod.mk.injEq] at h hb
      rw [← h.2, ← hb.2]; simp

theorem uint_put (k v : Nat) (r : Bytes) (h : v < 256 ^ k) (h' : v < 9223372036854775808) :
    stdUint k (putBE k v ++ r) = .ok ((v : Int), r) := by
  unfold stdUint
  rw [readBE_put k v r h]
  have : toI64 v = v := by unfold toI64; rw [if_pos (by omega)]; omega
  simp [this]

theorem sint_put (k v : Nat) (r : Bytes) (h : v < 256 ^ k) (h' : ¬ v < 2 ^ (8 * k - 1)) :
    stdSint k (putBE k v ++ r) = .ok ((v : Int) - 2 ^ (8 * k), r) := by
  unfold stdSint
  rw [readBE_put k v r h]
  simp only [signed, h', if_false]

theorem std_int (v : Int) (r : Bytes) (h : Int64 v) : stdGetInt (stdPutInt v ++ r) = .ok (v, r) := by
  obtain ⟨h1, h2⟩ := h
  unfold stdPutInt
  split
  · next h0 =>
    split
    · simp only [List.cons_append, List.nil_append, stdGetInt]
      rw [toNat_ofNat (by omega), if_pos (by omega)]
      rw [Int.toNat_of_nonneg h0]
    split
    · show stdUint 1 (putBE 1 v.toNat ++ r) = _
      rw [uint_put 1 _ _ (by omega) (by omega), Int.toNat_of_nonneg h0]
    split
    · show stdUint 2 (putBE 2 v.toNat ++ r) = _
      rw [uint_put 2 _ _ (by omega) (by omega), Int.toNat_of_nonneg h0]
    split
    · show stdUint 4 (putBE 4 v.toNat ++ r) = _
      rw [uint_put 4 _ _ (by omega) (by omega), Int.toNat_of_nonneg h0]
    · show stdUint 8 (putBE 8 v.toNat ++ r) = _
      rw [uint_put 8 _ _ (by omega) (by omega), Int.toNat_of_nonneg h0]
  · next h0 =>
    split
    · simp only [List.cons_append, List.nil_append, stdGetInt]
      rw [toNat_ofNat (by omega), if_neg (by omega), if_pos (by omega)]
      congr 2; omega
    split
    · show stdSint 1 (putBE 1 (v + 256).toNat ++ r) = _
      rw [sint_put 1 _ _ (by omega) (by omega)]
      congr 2; omega
    split
    · show stdSint 2 (putBE 2 (v + 65536).toNat ++ r) = _
      rw [sint_put 2 _ _ (by omega) (by omega)]
      congr 2; omega
    split
    · show stdSint 4 (putBE 4 (v + 4294967296).toNat ++ r) = _
      rw [sint_put 4 _ _ (by omega) (by omega)]
      congr 2; omega
    · show stdSint 8 (putBE 8 (v + 18446744073709551616).toNat ++ r) = _
      rw [sint_put 8 _ _ (by omega) (by omega)]
      congr 2; omega

theorem std_f64 (v : F64) (r : Bytes) : stdGetF64 (0xcb :: putBE 8 v.toNat ++ r) = .ok (v, r) := by
  have := v.isLt
  have e := readBE_put 8 v.toNat r (by omega)
  simp only [stdGetF64, List.cons_append, if_true, e]
  simp

theorem len_put (k v : Nat) (r : Bytes) (h : v < 256 ^ k) : stdLen k (putBE k v ++ r) = .ok ((v : Int), r) := by
  unfold stdLen
  rw [readBE_put k v r h]

theorem std_bytesLen (n : Nat) (r : Bytes) (h : Len n) : stdGetBytesLen (stdPutBytesLen n ++ r) = .ok ((n : Int), r) := by
  unfold Len at h
  unfold stdPutBytesLen
  split
  · show stdLen 1 (putBE 1 n ++ r) = _
    exact len_put 1 _ _ (by omega)
  split
  · show stdLen 2 (putBE 2 n ++ r) = _
    exact len_put 2 _ _ (by omega)
  · show stdLen 4 (putBE 4 n ++ r) = _
    exact len_put 4 _ _ (by omega)

theorem std_arrayLen (n : Nat) (r : Bytes) (h : Len n) : stdGetArrayLen (stdPutArrayLen n ++ r) = .ok ((n : Int), r) := by
  unfold Len at h
  unfold stdPutArrayLen
  split
  · simp only [List.cons_append, List.nil_append, stdGetArrayLen]
    rw [toNat_ofNat (by omega), if_neg (by omega), if_pos (by omega)]
    congr 2; omega
  split
  · show stdLen 2 (putBE 2 n ++ r) = _
    exact len_put 2 _ _ (by omega)
  · show stdLen 4 (putBE 4 n ++ r) = _
    exact len_put 4 _ _ (by omega)

theorem pass_append (b r : Bytes) (h : b.length = k) : pass k (b ++ r) = .ok (0, r) := by
  unfold pass; rw [takeN_append _ _ h]

theorem header_int (v : Int) (r : Bytes) (h : Int64 v) : header (stdPutInt v ++ r) = .ok (0, r) := by
  obtain ⟨h1, h2⟩ := h
  unfold stdPutInt
  split
  · next h0 =>
    split
    · simp only [List.cons_append, List.nil_append, header]
      rw [toNat_ofNat (by omega), if_pos (by omega)]
    split
    · exact pass_append (k := 1) _ _ (putBE_length _ _)
    split
    · exact pass_append (k := 2) _ _ (putBE_length _ _)
    split
    · exact pass_append (k := 4) _ _ (putBE_length _ _)
    · exact pass_append (k := 8) _ _ (putBE_length _ _)
  · next h0 =>
    split
    · simp only [List.cons_append, List.nil_append, header]
      rw [toNat_ofNat (by omega), if_pos (by omega)]
    split
    · exact pass_append (k := 1) _ _ (putBE_length _ _)
    split
    · exact pass_append (k := 2) _ _ (putBE_length _ _)
    split
    · exact pass_append (k := 4) _ _ (putBE_length _ _)
    · exact pass_append (k := 8) _ _ (putBE_length _ _)

theorem passLen_put (k : Nat) (b r : Bytes) (h : b.length < 256 ^ k) : passLen k (putBE k b.length ++ (b ++ r)) = .ok (0, r) := by
  unfold passLen
  rw [readBE_put k _ _ h]
  exact pass_append _ _ rfl

theorem header_bytes (b r : Bytes) (h : Len b.length) : header (stdPutBytesLen b.length ++ (b ++ r)) = .ok (0, r) := by
  unfold Len at h
  unfold stdPutBytesLen
  split
  · exact passLen_put 1 b r (by omega)
  split
  · exact passLen_put 2 b r (by omega)
  · exact passLen_put 4 b r (by omega)

theorem inside_put (k n : Nat) (r : Bytes) (h : n < 256 ^ k) : inside k 1 (putBE k n ++ r) = .ok (n, r) := by
  unfold inside
  rw [readBE_put k _ _ h]
  simp

theorem header_array (n : Nat) (r : Bytes) (h : Len n) : header (stdPutArrayLen n ++ r) = .ok (n, r) := by
  unfold Len at h
  unfold stdPutArrayLen
  split
  · simp only [List.cons_append, List.nil_append, header]
    rw [toNat_ofNat (by omega), if_neg (by omega), if_neg (by omega), if_pos (by omega), show 144 + n - 144 = n by omega]
  split
  · exact inside_put 2 n r (by omega)
  · exact inside_put 4 n r (by omega)

theorem stdPutArrayLen_pos (n : Nat) : 0 < (stdPutArrayLen n).length := by
  unfold stdPutArrayLen; repeat' split
  all_goals simp

theorem stdPutBytesLen_pos (n : Nat) : 0 < (stdPutBytesLen n).length := by
  unfold stdPutBytesLen; repeat' split
  all_goals simp

theorem stdPutInt_pos (n : Int) : 0 < (stdPutInt n).length := by
  unfold stdPutInt; repeat' split
  all_goals simp

/-- One value with nothing inside. -/
theorem skip_leaf {b : Bytes} (hb : 0 < b.length) (h : ∀ r, header (b ++ r) = .ok (0, r)) (n : Nat) (r : Bytes) :
    ∃ c, c ≤ b.length ∧ ∀ f, skipN (f + c) (n + 1) (b ++ r) = skipN f n r :=
  ⟨1, hb, fun f => by simp [skipN, h]⟩

theorem skip_value {b : Bytes} (h : Value std b) : ∀ (n : Nat) (r : Bytes),
    ∃ c, c ≤ b.length ∧ ∀ f, skipN (f + c) (n + 1) (b ++ r) = skipN f n r := by
  refine Value.rec (l := std)
    (motive_1 := fun b _ => ∀ n r, ∃ c, c ≤ b.length ∧ ∀ f, skipN (f + c) (n + 1) (b ++ r) = skipN f n r)
    (motive_2 := fun k b _ => ∀ n r, ∃ c, c ≤ b.length ∧ ∀ f, skipN (f + c) (n + k) (b ++ r) = skipN f n r)
    ?_ ?_ ?_ ?_ ?_ ?_ ?_ ?_ h
  · exact fun v h n r => skip_leaf (stdPutInt_pos v) (fun r => header_int v r h) n r
  · exact fun v n r => by cases v <;> exact skip_leaf (by simp [std]) (fun r => rfl) n r
  · intro v n r
    refine skip_leaf (by simp [std]) (fun r => ?_) n r
    show pass 8 (putBE 8 v.toNat ++ r) = _
    exact pass_append (k := 8) _ _ (putBE_length _ _)
  · intro v h n r
    cases v with
    | none => exact skip_leaf (by simp [std, stdPutBytes]) (fun r => rfl) n r
    | some b =>
      refine skip_leaf ?_ (fun r => ?_) n r
      · have := stdPutBytesLen_pos b.length; simp [std, stdPutBytes]; omega
      · show header ((stdPutBytesLen b.length ++ b) ++ r) = _
        rw [List.append_assoc]; exact header_bytes b r (h b rfl)
  · intro b h n r
    refine skip_leaf ?_ (fun r => ?_) n r
    · have := stdPutBytesLen_pos b.length; simp [std]; omega
    · rw [List.append_assoc]; exact header_bytes b r h
  · intro k b h _ hv n r
    obtain ⟨c, hc, hs⟩ := hv n r
    have := stdPutArrayLen_pos k
    refine ⟨c + 1, by simp [std]; omega, fun f => ?_⟩
    rw [← Nat.add_assoc, skipN, List.append_assoc, show std.putArrayLen = stdPutArrayLen from rfl, header_array k _ h]
    exact hs f
  · exact fun n r => ⟨0, by simp, fun f => rfl⟩
  · intro k b c _ _ hb hc n r
    obtain ⟨c1, h1, e1⟩ := hb (n + k) (c ++ r)
    obtain ⟨c2, h2, e2⟩ := hc n r
    refine ⟨c2 + c1, by simp; omega, fun f => ?_⟩
    rw [← Nat.add_assoc f, List.append_assoc, ← Nat.add_assoc n, e1, e2]

/-- The codes of numbers: nil counts as zero, the others are fixed, unsigned and signed ones. -/
example : stdGetInt [0xc0, 7] = .ok (0, [7]) ∧ stdGetInt [0x7f] = .ok (127, []) ∧ stdGetInt [0xe0] = .ok (-32, []) ∧
    stdGetInt [0xcc, 0xff] = .ok (255, []) ∧ stdGetInt [0xcd, 1, 0] = .ok (256, []) ∧ stdGetInt [0xce, 0, 1, 0, 0] = .ok (65536, []) ∧
    stdGetInt [0xd0, 0xff] = .ok (-1, []) ∧ stdGetInt [0xd1, 0xff, 0] = .ok (-256, []) ∧ stdGetInt [0xd2, 0xff, 0xff, 0, 0] = .ok (-65536, []) ∧
    stdGetInt [0xcf, 0xff, 0xff, 0xff, 0xff, 0xff, 0xff, 0xff, 0xff] = .ok (-1, []) ∧ stdGetInt [0xc1] = .error .other ∧
    stdGetInt [] = .error .eof := by refine ⟨rfl, rfl, rfl, rfl, rfl, rfl, rfl, rfl, rfl, rfl, rfl, rfl⟩

theorem std_intReads (d : Bytes) (v : Int) (r : Bytes) (h : stdGetInt d = .ok (v, r)) : r.length < d.length := by
  have hu : ∀ k r', stdUint k r' = .ok (v, r) → r.length ≤ r'.length := by
    intro k r' h
    unfold stdUint at h
    split at h
    · simp at h
    · next hr => simp only [Except.ok.injEq, Prod.mk.injEq] at h; rw [← h.2]; exact readBE_length hr
  have hs : ∀ k r', stdSint k r' = .ok (v, r) → r.length ≤ r'.length := by
    intro k r' h
    unfold stdSint at h
    split at h
    · simp at h
    · next hr => simp only [Except.ok.injEq, Prod.mk.injEq] at h; rw [← h.2]; exact readBE_length hr
  cases d with
  | nil => simp [stdGetInt] at h
  | cons c d =>
    simp only [stdGetInt] at h
    suffices r.length ≤ d.length by simp; omega
    repeat' split at h
    all_goals first
      | exact hu _ _ h
      | exact hs _ _ h
      | (simp only [Except.ok.injEq, Prod.mk.injEq] at h; rw [← h.2]; exact Nat.le_refl _)
      | simp at h

theorem std_intSmall (n : Nat) (h : n < 128) : stdPutInt (n : Int) = [UInt8.ofNat n] := by
  unfold stdPutInt
  rw [if_pos (by omega), if_pos (by omega), Int.toNat_natCast]

set_option maxRecDepth 2000 in
/-- The laws hold of the library. -/
theorem std_laws : Laws std where
  int := std_int
  bool v r := by cases v <;> rfl
  f64 := std_f64
  bytes b r h := by
    show stdGetBytes ((stdPutBytesLen b.length ++ b) ++ r) = _
    unfold stdGetBytes
    rw [List.append_assoc, std_bytesLen _ _ h]
    have : ¬ ((b.length : Int) = -1) := by omega
    simp [this, takeN_append]
  bytesForm b h := rfl
  nilLen r := rfl
  chunkedLen := std_bytesLen
  arrayLen := std_arrayLen
  intEnd := rfl
  intSmall := std_intSmall
  intReads := std_intReads
  skip b r h := by
    obtain ⟨c, hc, e⟩ := skip_value h 0 r
    show skipN ((b ++ r).length + 2) 1 (b ++ r) = _
    have : (b ++ r).length + 2 = ((b ++ r).length + 1 - c) + 1 + c := by simp; omega
    rw [this, e]
    rfl

end Verif.MP
