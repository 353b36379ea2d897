import Verif.Lemmas.Schema
import Verif.Lemmas.WireAppend
import Verif.Spec.SchemaRead
/- The template of the generated code reads fields as the encoding documentation says. -/
namespace Verif.Wire
open Verif.Spec.WireFormat Verif.Spec.Schema

theorem values_put (c : Contents) (name name' : String) (vs : List Val) :
    values (put c name vs) name' = if name = name' then vs else values c name' := by
  induction c with
  | nil => simp [put, values]
  | cons f c ih =>
    unfold put
    by_cases h : f.1 = name
    · rw [if_pos h]
      simp only [values]
      by_cases h2 : name = name'
      · rw [if_pos h2, if_pos h2]
      · rw [if_neg h2, if_neg h2, if_neg (h ▸ h2)]
    · rw [if_neg h]
      simp only [values, ih]
      by_cases h2 : f.1 = name'
      · rw [if_pos h2, if_pos h2, if_neg (fun e => h (h2.trans e.symm))]
      · rw [if_neg h2, if_neg h2]

/-! ### One field -/

/-- What comes after the key of a declared field, and the values the field has then. -/
inductive Record (decl : Decl) (c : Contents) : List Val → Nat → Bytes → Prop
  | scalar {v : Val} {w : Nat} {d : Bytes} : decl.rep = false → Scalar decl.ty v w d → Record decl c [v] w d
  | cast {n : Nat} {v : Val} {d : Bytes} : decl.rep = false → n < 2 ^ 64 → Num n d → Cast decl.ty n v → Record decl c [v] 0 d
  | message {sub : Message} {new : Contents} {l d : Bytes} : decl.rep = false → decl.ty = .msg sub → values c decl.name = [] →
      Num d.length l → Reads sub sub.empty d new → Record decl c [.msg new] 2 (l ++ d)
  | merge {sub : Message} {old new : Contents} {l d : Bytes} : decl.rep = false → decl.ty = .msg sub → values c decl.name = [.msg old] →
      Num d.length l → Reads sub old d new → Record decl c [.msg new] 2 (l ++ d)
  | one {v : Val} {w : Nat} {d : Bytes} : decl.rep = true → Scalar decl.ty v w d → Record decl c (values c decl.name ++ [v]) w d
  | packed {vs : List Val} {l d : Bytes} : decl.rep = true → decl.ty.packed = true → Num d.length l → Packed decl.ty vs d →
      Record decl c (values c decl.name ++ vs) 2 (l ++ d)
  | element {sub : Message} {new : Contents} {l d : Bytes} : decl.rep = true → decl.ty = .msg sub →
      Num d.length l → Reads sub sub.empty d new → Record decl c (values c decl.name ++ [.msg new]) 2 (l ++ d)

/-- The field reads it, into the message `dec` makes of the contents. -/
def Field.Takes (f : Field M) (decl : Decl) (dec : Contents → M) : Prop :=
  f.num = decl.num ∧ ∀ c vs w p, Record decl c vs w p → ∀ l tail, (p ++ tail).length ≤ l → l < 9223372036854775808 →
    f.unmarshal l w (p ++ tail) (dec c) = .ok (dec (put c decl.name vs), tail)

/-- All fields do. -/
inductive Takers (dec : Contents → M) : List (Field M) → List Decl → Prop
  | nil : Takers dec [] []
  | cons {f : Field M} {fs : List (Field M)} {d : Decl} {ds : List Decl} : f.Takes d dec → Takers dec fs ds → Takers dec (f :: fs) (d :: ds)

theorem Takers.find {dec : Contents → M} {fs : List (Field M)} {ds : List Decl} (h : Takers dec fs ds) {d : Decl} (hd : d ∈ ds) :
    ∃ f ∈ fs, f.Takes d dec := by
  induction h with
  | nil => cases hd
  | cons hf _ ih =>
    rcases List.mem_cons.mp hd with rfl | hd
    · exact ⟨_, by simp, hf⟩
    · obtain ⟨f, h1, h2⟩ := ih hd
      exact ⟨f, by simp [h1], h2⟩

theorem Takers.nums {dec : Contents → M} {fs : List (Field M)} {ds : List Decl} (h : Takers dec fs ds) :
    fs.map (·.num) = ds.map (·.num) := by
  induction h with
  | nil => rfl
  | cons hf _ ih => simp [ih, hf.1]

/-- What is read into the message of some contents makes it the message of the contents after it. -/
structure Codec.ReadsAs (b : Codec M) (msg : Message) (dec : Contents → M) : Prop where
  zero : dec msg.empty = b.zero
  reads : ∀ c d c', Reads msg c d c' → Small d → b.unmarshal d (dec c) = .ok (dec c')

theorem run_key {c : Codec M} (hc : c.OK) {fd : Field M} (h : fd ∈ c.fields) (l wt : Nat) (hw : wt < 8) (h4 : wt ≠ 4)
    {k : Bytes} (hk : Num (fd.num * 8 + wt) k) (r : Bytes) (m : M) :
    run c.fields l (k ++ r) m = match fd.unmarshal l wt r m with
      | .err => .err
      | .panic => .panic
      | .ok (m', r') => run c.fields l r' m' := by
  have ho := hc.fields fd h
  have hsuf : ∀ x ∈ c.fields, x.Suffix := fun x hx => (hc.fields x hx).suffix
  have hnp := ho.num_pos
  have hnl := ho.num_lt
  have hr := readVarint_num hk (by omega) r
  have hpos := varint_ne hk.1
  unfold run
  cases hd : k ++ r with
  | nil => rw [List.append_eq_nil_iff] at hd; rw [hd.1] at hpos; simp at hpos
  | cons b x =>
    have hlen : (b :: x).length = k.length + r.length := by rw [← hd, List.length_append]
    rw [hd] at hr
    rw [unmarshalLoop]
    have e1 : (fd.num * 8 + wt) % 8 = wt := by omega
    have e2 : toI32 ((fd.num * 8 + wt) / 8) = fd.num := by
      have : (fd.num * 8 + wt) / 8 = fd.num := by omega
      rw [this]
      unfold toI32
      rw [Nat.mod_eq_of_lt (by omega), if_pos (by omega)]
    simp only [hr]
    rw [e1, e2, if_neg h4, if_neg (by omega), find_num hc.nodup h]
    simp only
    cases hu : fd.unmarshal l wt r m with
    | err => rfl
    | panic => rfl
    | ok y =>
      obtain ⟨m', r'⟩ := y
      have := (ho.suffix _ _ _ _ _ _ hu).length_le
      exact loop_fuel hsuf l (b :: x).length r' m' (r'.length + 1) (by omega) (by omega)

theorem scalar_wire {ty : Ty} {v : Val} {w : Nat} {d : Bytes} (h : Scalar ty v w d) : w < 3 := by cases h <;> decide

theorem run_reads {b : Codec M} (hb : b.OK) {msg : Message} {dec : Contents → M} (ht : Takers dec b.fields msg.fields) (l : Nat)
    (hl : l < 9223372036854775808) : ∀ (n : Nat) (c : Contents) (d : Bytes) (c' : Contents), d.length < n → Reads msg c d c' →
      d.length ≤ l → run b.fields l d (dec c) = .ok (dec c')
  | 0, _, _, _, h, _, _ => absurd h (by omega)
  | n + 1, c, d, c', hn, h, hd => by
    have step : ∀ (decl : Decl) (vs : List Val) (w : Nat) (k p r : Bytes), decl ∈ msg.fields → w < 3 → Num (decl.num * 8 + w) k →
        Record decl c vs w p → d = k ++ (p ++ r) → Reads msg (put c decl.name vs) r c' →
        run b.fields l d (dec c) = .ok (dec c') := by
      intro decl vs w k p r hm hw hk hp e hr
      obtain ⟨f, hf, hn', htk⟩ := ht.find hm
      have hpos := varint_ne hk.1
      rw [e] at hd hn ⊢
      simp only [List.length_append] at hd hn
      rw [run_key hb hf l w (by omega) (by omega) (by rw [hn']; exact hk),
        htk c vs w p hp l r (by simp only [List.length_append]; omega) hl]
      exact run_reads hb ht l hl n _ r c' (by omega) hr (by omega)
    cases h with
    | done => rfl
    | scalar _ _ ty name num v w k p r _ hm hk hs hr =>
      exact step _ [v] w k p r hm (scalar_wire hs) hk (.scalar rfl hs) rfl hr
    | cast _ _ ty name num x v k p r _ hm hk hx hnum hv hr =>
      exact step _ [v] 0 k p r hm (by omega) hk (.cast rfl hx hnum hv) rfl hr
    | message _ _ sub name num new k s p r _ hm hv hk hs hp hr =>
      exact step _ [.msg new] 2 k (s ++ p) r hm (by omega) hk (.message rfl rfl hv hs hp) (by simp) hr
    | merge _ _ sub name num old new k s p r _ hm hv hk hs hp hr =>
      exact step _ [.msg new] 2 k (s ++ p) r hm (by omega) hk (.merge rfl rfl hv hs hp) (by simp) hr
    | one _ _ ty name num v w k p r _ hm hk hs hr =>
      exact step _ _ w k p r hm (scalar_wire hs) hk (.one rfl hs) rfl hr
    | packed _ _ ty name num vs k s p r _ hm hp hk hs hv hr =>
      exact step _ _ 2 k (s ++ p) r hm (by omega) hk (.packed rfl hp hs hv) (by simp) hr
    | element _ _ sub name num new k s p r _ hm hk hs hp hr =>
      exact step _ _ 2 k (s ++ p) r hm (by omega) hk (.element rfl rfl hs hp) (by simp) hr
    | unknown _ _ n' p r _ hm hp hr =>
      have hpos := chunk_pos hp
      simp only [List.length_append] at hd hn
      rw [run_chunk (fun fd hfd => (hb.fields fd hfd).suffix) hp (by rw [ht.nums]; exact hm) l r _ (by
        simp only [List.length_append]; omega) hl]
      exact run_reads hb ht l hl n c r c' (by omega) hr (by omega)

theorem codec_reads {b : Codec M} (hb : b.OK) {msg : Message} {dec : Contents → M} (hz : dec msg.empty = b.zero)
    (ht : Takers dec b.fields msg.fields) : b.ReadsAs msg dec :=
  ⟨hz, fun c d c' h hs => run_reads hb ht d.length hs (d.length + 1) c d c' (by omega) h (Nat.le_refl _)⟩

/-! ### Values -/

def asInt : List Val → Int
  | [.int v] => v
  | _ => 0

def asBool : List Val → Bool
  | [.bool b] => b
  | _ => false

def dblOf : Val → F64
  | .dbl v => v
  | _ => 0

def asDbl : List Val → F64
  | [v] => dblOf v
  | _ => 0

def bytesOf : Val → Bytes
  | .bytes b => b
  | _ => []

def asBytes : List Val → Bytes
  | [v] => bytesOf v
  | _ => []

def enumOf (e : Enum) : Val → Int
  | .label l => ((e.values.lookup l).getD 0 : Nat)
  | _ => 0

def asEnum (e : Enum) : List Val → Int
  | [v] => enumOf e v
  | _ => 0

def msgOf (b : Codec A) (dec : Contents → A) : Val → A
  | .msg c => dec c
  | _ => b.zero

def asMsg (b : Codec A) (dec : Contents → A) : List Val → A
  | [v] => msgOf b dec v
  | _ => b.zero

def asOpt (b : Codec A) (dec : Contents → A) : List Val → Option A
  | [v] => some (msgOf b dec v)
  | _ => none

/-! ### Numbers -/

theorem varint_takes {dec : Contents → M} {pt : A → Nat} {take : Nat → A} {get : M → A} {set : M → A → M} {as : List Val → A}
    {ty : Ty} {name : String} {num : Nat} (hset : ∀ c vs, dec (put c name vs) = set (dec c) (as vs)) (hm : ∀ sub, ty ≠ .msg sub)
    (hs : ∀ v w d, Scalar ty v w d → w = 0 ∧ ∃ n, n < 18446744073709551616 ∧ Num n d ∧ take n = as [v])
    (hv : ∀ n v, Cast ty n v → take n = as [v] := by intro n v h; cases h) :
    (varintField num pt take get set).Takes (single ty name num) dec := by
  refine ⟨rfl, fun c vs w p hp l tail _ _ => ?_⟩
  cases hp with
  | scalar _ h =>
    obtain ⟨rfl, n, hn, hd, e⟩ := hs _ _ _ h
    rw [show (single ty name num).name = name from rfl, hset]
    simp only [varintField, ne_eq, not_true_eq_false, if_false, readVarint_num hd hn, e]
  | cast _ hn hd h =>
    rw [show (single ty name num).name = name from rfl, hset]
    simp only [varintField, ne_eq, not_true_eq_false, if_false, readVarint_num hd hn, hv _ _ h]
  | message _ e => exact absurd e (hm _)
  | merge _ e => exact absurd e (hm _)
  | one h => cases h
  | packed h => cases h
  | element h => cases h

theorem toI64_mod {v : Int} (h1 : -2 ^ 63 ≤ v) (h2 : v < 2 ^ 63) : toI64 (v % 2 ^ 64).toNat = v := by
  unfold toI64; split <;> omega

theorem toI32_mod {v : Int} (h1 : -2 ^ 31 ≤ v) (h2 : v < 2 ^ 31) : toI32 (v % 2 ^ 64).toNat = v := by
  unfold toI32; split <;> omega

theorem toI32_cast (n : Nat) : toI32 n = asInt [.int ((n : Int).bmod (2 ^ 32))] := by
  have h : ∀ k : Int, asInt [.int k] = k := fun _ => rfl
  rw [h]
  unfold toI32
  rw [Int.bmod_def, show ((n : Int) % ((2 ^ 32 : Nat) : Int)) = ((n % 4294967296 : Nat) : Int) by omega]
  split <;> split <;> omega

theorem uint32_cast (n : Nat) : BitVec.ofNat 32 n = BitVec.ofNat 32 (asInt [.int (n % 2 ^ 32 : Nat)]).toNat := by
  have h : ∀ k : Nat, (asInt [.int (k : Int)]).toNat = k := fun _ => rfl
  rw [h]
  apply BitVec.eq_of_toNat_eq
  rw [BitVec.toNat_ofNat, BitVec.toNat_ofNat, Nat.mod_mod]

theorem int64_takes {dec : Contents → M} {get : M → Int} {set : M → Int → M} {name : String} {num : Nat}
    (hset : ∀ c vs, dec (put c name vs) = set (dec c) (asInt vs)) : (int64Field num get set).Takes (single .int64 name num) dec :=
  varint_takes (as := asInt) hset (fun _ => nofun) fun v w d h => by
    cases h with
    | int64 v d h1 h2 hn => exact ⟨rfl, _, by omega, hn, toI64_mod h1 h2⟩

theorem int32_takes {dec : Contents → M} {get : M → Int} {set : M → Int → M} {name : String} {num : Nat}
    (hset : ∀ c vs, dec (put c name vs) = set (dec c) (asInt vs)) : (int32Field num get set).Takes (single .int32 name num) dec :=
  varint_takes (as := asInt) hset (fun _ => nofun) (fun v w d h => by
    cases h with
    | int32 v d h1 h2 hn => exact ⟨rfl, _, by omega, hn, toI32_mod h1 h2⟩)
  (by intro n v h; cases h; exact toI32_cast n)

theorem enum_value {e : Enum} {l : String} {n : Nat} (h : (l, n) ∈ e.values) : e.values.lookup l = some n ∧ n < 100 := by
  have : ∀ v ∈ e.values, e.values.lookup v.1 = some v.2 ∧ v.2 < 100 := by cases e <;> decide
  exact this _ h

theorem enum_takes {dec : Contents → M} {get : M → Int} {set : M → Int → M} {name : String} {num : Nat} {e : Enum}
    (hset : ∀ c vs, dec (put c name vs) = set (dec c) (asEnum e vs)) : (int32Field num get set).Takes (single (.enum e) name num) dec :=
  varint_takes (as := asEnum e) hset (fun _ => nofun) fun v w d h => by
    cases h with
    | enum _ l n d hm hn =>
      obtain ⟨h1, h2⟩ := enum_value hm
      refine ⟨rfl, n, by omega, hn, ?_⟩
      simp only [asEnum, enumOf, h1, Option.getD_some]
      unfold toI32; split <;> omega

theorem uint64_takes {dec : Contents → M} {get : M → BitVec 64} {set : M → BitVec 64 → M} {name : String} {num : Nat}
    (hset : ∀ c vs, dec (put c name vs) = set (dec c) (BitVec.ofNat 64 (asInt vs).toNat)) :
    (uint64Field num get set).Takes (single .uint64 name num) dec :=
  varint_takes (as := fun vs => BitVec.ofNat 64 (asInt vs).toNat) hset (fun _ => nofun) fun v w d h => by
    cases h with
    | uint64 n d h1 hn => exact ⟨rfl, n, by omega, hn, rfl⟩

theorem uint32_takes {dec : Contents → M} {get : M → BitVec 32} {set : M → BitVec 32 → M} {name : String} {num : Nat}
    (hset : ∀ c vs, dec (put c name vs) = set (dec c) (BitVec.ofNat 32 (asInt vs).toNat)) :
    (uint32Field num get set).Takes (single .uint32 name num) dec :=
  varint_takes (as := fun vs => BitVec.ofNat 32 (asInt vs).toNat) hset (fun _ => nofun) (fun v w d h => by
    cases h with
    | uint32 n d h1 hn => exact ⟨rfl, n, by omega, hn, rfl⟩)
  (by intro n v h; cases h; exact uint32_cast n)

theorem bool_takes {dec : Contents → M} {get : M → Bool} {set : M → Bool → M} {name : String} {num : Nat}
    (hset : ∀ c vs, dec (put c name vs) = set (dec c) (asBool vs)) : (boolField num get set).Takes (single .bool name num) dec :=
  varint_takes (as := asBool) hset (fun _ => nofun) (fun v w d h => by
    cases h with
    | bool b d hn => exact ⟨rfl, b.toNat, by cases b <;> decide, hn, by cases b <;> rfl⟩)
  (by intro n v h; cases h; rfl)

theorem getLE_eq : ∀ d : Bytes, getLE d = littleEndian d
  | [] => rfl
  | b :: r => by simp [getLE, littleEndian, getLE_eq r]

theorem readF64_scalar {v : BitVec 64} {d : Bytes} (h : d.length = 8) (e : littleEndian d = v.toNat) (tail : Bytes) :
    readF64 (d ++ tail) = some (v, tail) := by
  unfold readF64
  rw [if_neg (by simp only [List.length_append]; omega), List.take_left' h, List.drop_left' h, getLE_eq, e]
  simp

theorem double_takes {dec : Contents → M} {get : M → F64} {set : M → F64 → M} {name : String} {num : Nat}
    (hset : ∀ c vs, dec (put c name vs) = set (dec c) (asDbl vs)) : (doubleField num get set).Takes (single .double name num) dec := by
  refine ⟨rfl, fun c vs w p hp l tail _ _ => ?_⟩
  cases hp with
  | scalar _ h =>
    change Scalar .double _ _ _ at h
    cases h with
    | double v d h1 h2 =>
      rw [show (single .double name num).name = name from rfl, hset]
      simp only [doubleField, ne_eq, not_true_eq_false, if_false, readF64_scalar h1 h2, asDbl, dblOf]
  | cast _ _ _ h => cases h
  | message _ e => cases e
  | merge _ e => cases e
  | one h => cases h
  | packed h => cases h
  | element h => cases h

/-! ### Bytes -/

theorem readLen_num {n : Nat} {l : Bytes} (h : Num n l) (hn : n < 9223372036854775808) (tail : Bytes) :
    readLen (l ++ tail) = some (n, tail) := by
  unfold readLen
  rw [readVarint_num h (by omega)]
  simp only
  rw [if_neg (by omega)]

theorem readSlice_takes {d s : Bytes} (h : Num d.length s) {l : Nat} (tail : Bytes) (hl : l < 9223372036854775808)
    (hlen : (s ++ d ++ tail).length ≤ l) : readSlice l (s ++ d ++ tail) = .ok (d, tail) := by
  simp only [List.length_append] at hlen
  unfold readSlice
  rw [List.append_assoc, readLen_num h (by omega)]
  simp only [slice]
  rw [if_neg (by simp only [List.length_append]; omega), if_neg (by simp only [List.length_append]; omega)]
  simp

theorem bytesField_takes {dec : Contents → M} {get : M → Bytes} {set : M → Bytes → M} {ty : Ty} {name : String} {num : Nat}
    (hset : ∀ c vs, dec (put c name vs) = set (dec c) (asBytes vs)) (hm : ∀ sub, ty ≠ .msg sub)
    (hs : ∀ v w d, Scalar ty v w d → w = 2 ∧ ∃ b s, v = .bytes b ∧ d = s ++ b ∧ Num b.length s)
    (hv : ∀ n v, ¬ Cast ty n v := by intro n v h; cases h) :
    (bytesField num get set).Takes (single ty name num) dec := by
  refine ⟨rfl, fun c vs w p hp l tail hlen hl => ?_⟩
  cases hp with
  | scalar _ h =>
    obtain ⟨rfl, b, s, rfl, rfl, hn⟩ := hs _ _ _ h
    rw [show (single ty name num).name = name from rfl, hset]
    simp only [bytesField, ne_eq, not_true_eq_false, if_false, readSlice_takes hn tail hl hlen, asBytes, bytesOf]
  | cast _ _ _ h => exact (hv _ _ h).elim
  | message _ e => exact absurd e (hm _)
  | merge _ e => exact absurd e (hm _)
  | one h => cases h
  | packed h => cases h
  | element h => cases h

theorem bytes_takes {dec : Contents → M} {get : M → Bytes} {set : M → Bytes → M} {name : String} {num : Nat}
    (hset : ∀ c vs, dec (put c name vs) = set (dec c) (asBytes vs)) : (bytesField num get set).Takes (single .bytes name num) dec :=
  bytesField_takes hset (fun _ => nofun) fun v w d h => by
    cases h with
    | bytes b s hn => exact ⟨rfl, b, s, rfl, rfl, hn⟩

theorem string_takes {dec : Contents → M} {get : M → Bytes} {set : M → Bytes → M} {name : String} {num : Nat}
    (hset : ∀ c vs, dec (put c name vs) = set (dec c) (asBytes vs)) : (bytesField num get set).Takes (single .string name num) dec :=
  bytesField_takes hset (fun _ => nofun) fun v w d h => by
    cases h with
    | string b s hn => exact ⟨rfl, b, s, rfl, rfl, hn⟩

/-! ### Repeated numbers and strings -/

theorem strings_takes {dec : Contents → M} {get : M → List Bytes} {set : M → List Bytes → M} {name : String} {num : Nat}
    (hset : ∀ c vs, dec (put c name vs) = set (dec c) (vs.map bytesOf)) (hget : ∀ c, get (dec c) = (values c name).map bytesOf) :
    (strsField num get set).Takes (repeated .string name num) dec := by
  refine ⟨rfl, fun c vs w p hp l tail hlen hl => ?_⟩
  cases hp with
  | scalar h => cases h
  | cast h => cases h
  | message h => cases h
  | merge h => cases h
  | one _ h =>
    change Scalar .string _ _ _ at h
    cases h with
    | string b s hn =>
      rw [show (repeated .string name num).name = name from rfl, hset]
      simp only [strsField, ne_eq, not_true_eq_false, if_false, readSlice_takes hn tail hl hlen, List.map_append, hget, List.map_cons,
        List.map_nil, bytesOf]
  | packed _ h => cases h
  | element _ e => cases e

theorem packedLoop_takes {vs : List Val} {d : Bytes} (h : Packed .double vs d) : ∀ (f : Nat) (acc : List F64) (tail : Bytes),
    d.length < f → packedLoop f d.length (d ++ tail) acc = some (acc ++ vs.map dblOf, tail) := by
  induction h with
  | nil => intro f acc tail hf; cases f with
    | zero => omega
    | succ f => simp [packedLoop]
  | cons v vs w d r hs _ ih =>
    intro f acc tail hf
    cases hs with
    | double v d h1 h2 =>
      cases f with
      | zero => omega
      | succ f =>
        simp only [List.length_append] at hf ⊢
        unfold packedLoop
        rw [if_neg (by omega), List.append_assoc, readF64_scalar h1 h2]
        simp only
        rw [show d.length + r.length - 8 = r.length by omega, ih f _ _ (by omega)]
        simp [dblOf]

theorem doubles_takes {dec : Contents → M} {get : M → List F64} {set : M → List F64 → M} {name : String} {num : Nat}
    (hset : ∀ c vs, dec (put c name vs) = set (dec c) (vs.map dblOf)) (hget : ∀ c, get (dec c) = (values c name).map dblOf) :
    (doublesField num get set).Takes (repeated .double name num) dec := by
  refine ⟨rfl, fun c vs w p hp l tail hlen hl => ?_⟩
  rw [show (repeated .double name num).name = name from rfl, hset]
  cases hp with
  | scalar h => cases h
  | cast h => cases h
  | message h => cases h
  | merge h => cases h
  | one _ h =>
    change Scalar .double _ _ _ at h
    cases h with
    | double v d h1 h2 =>
      simp only [doublesField, if_true, readF64_scalar h1 h2, hget]
      simp [dblOf, repeated]
  | packed _ _ hn hv =>
    change Packed .double _ _ at hv
    rename_i vs s d
    simp only [List.length_append] at hlen
    simp only [doublesField, show ¬ (2 : Nat) = 1 by decide, if_false, if_true]
    rw [List.append_assoc, readLen_num hn (by omega)]
    simp only [List.length_append]
    rw [if_neg (by omega), if_neg (by omega), packedLoop_takes hv _ _ _ (by omega), hget]
    simp [repeated]
  | element _ e => cases e

theorem enumsLoop_takes {e : Enum} {vs : List Val} {d : Bytes} (h : Packed (.enum e) vs d) : ∀ (f : Nat) (acc : List Int) (tail : Bytes),
    d.length < f → enumsLoop f d.length (d ++ tail) acc = some (acc ++ vs.map (enumOf e), tail) := by
  induction h with
  | nil => intro f acc tail hf; cases f with
    | zero => omega
    | succ f => simp [enumsLoop]
  | cons v vs w d r hs _ ih =>
    intro f acc tail hf
    cases hs with
    | enum _ l n d hm hn =>
      obtain ⟨h1, h2⟩ := enum_value hm
      have hpos := varint_ne hn.1
      cases f with
      | zero => omega
      | succ f =>
        simp only [List.length_append] at hf ⊢
        unfold enumsLoop
        rw [if_neg (by omega), List.append_assoc, readVarint_num hn (by omega)]
        simp only [List.length_append]
        have hi : toI32 n = n := by unfold toI32; split <;> omega
        rw [show d.length + r.length - (d.length + (r.length + tail.length) - (r.length + tail.length)) = r.length by omega,
          ih f _ _ (by omega), hi]
        simp [enumOf, h1]

theorem enums_takes {dec : Contents → M} {get : M → List Int} {set : M → List Int → M} {name : String} {num : Nat} {e : Enum}
    (hset : ∀ c vs, dec (put c name vs) = set (dec c) (vs.map (enumOf e))) (hget : ∀ c, get (dec c) = (values c name).map (enumOf e)) :
    (enumsField num get set).Takes (repeated (.enum e) name num) dec := by
  refine ⟨rfl, fun c vs w p hp l tail hlen hl => ?_⟩
  rw [show (repeated (.enum e) name num).name = name from rfl, hset]
  cases hp with
  | scalar h => cases h
  | cast h => cases h
  | message h => cases h
  | merge h => cases h
  | one _ h =>
    change Scalar (.enum e) _ _ _ at h
    cases h with
    | enum _ l' n d hm hn =>
      obtain ⟨h1, h2⟩ := enum_value hm
      have hi : toI32 n = n := by unfold toI32; split <;> omega
      simp only [enumsField, if_true, readVarint_num hn (show n < 18446744073709551616 by omega), hget, hi]
      simp [enumOf, h1, repeated]
  | packed _ _ hn hv =>
    change Packed (.enum e) _ _ at hv
    rename_i vs s d
    simp only [List.length_append] at hlen
    simp only [enumsField, show ¬ (2 : Nat) = 0 by decide, if_false, if_true]
    rw [List.append_assoc, readLen_num hn (by omega)]
    simp only [List.length_append]
    rw [if_neg (by omega), if_neg (by omega), enumsLoop_takes hv _ _ _ (by omega), hget]
    simp [repeated]
  | element _ e => cases e

/-! ### Embedded messages -/

theorem unmarshalMsg_reads {b : Codec A} {msg : Message} {dec : Contents → A} (hb : b.ReadsAs msg dec) {c c' : Contents} {s d : Bytes}
    (hn : Num d.length s) (hr : Reads msg c d c') {l : Nat} (tail : Bytes) (hl : l < 9223372036854775808)
    (hlen : (s ++ d ++ tail).length ≤ l) : unmarshalMsg b l (s ++ d ++ tail) (dec c) = .ok (dec c', tail) := by
  unfold unmarshalMsg
  rw [readSlice_takes hn tail hl hlen]
  simp only [List.length_append] at hlen
  simp only [hb.reads _ _ _ hr (show d.length < 9223372036854775808 by omega)]

theorem msg_takes {dec : Contents → M} {b : Codec A} {msg : Message} {decA : Contents → A} (hb : b.ReadsAs msg decA) {get : M → A}
    {set : M → A → M} {name : String} {num : Nat} (hset : ∀ c vs, dec (put c name vs) = set (dec c) (asMsg b decA vs))
    (hget : ∀ c, get (dec c) = asMsg b decA (values c name)) : (msgField num b get set).Takes (single (.msg msg) name num) dec := by
  refine ⟨rfl, fun c vs w p hp l tail hlen hl => ?_⟩
  rw [show (single (.msg msg) name num).name = name from rfl, hset]
  cases hp with
  | scalar _ h =>
    change Scalar (.msg msg) _ _ _ at h
    cases h
  | cast _ _ _ h =>
    change Cast (.msg msg) _ _ at h
    cases h
  | message _ e hv hn hr =>
    cases e
    change values c name = [] at hv
    have := unmarshalMsg_reads hb hn hr tail hl hlen
    simp only [msgField, ne_eq, not_true_eq_false, if_false, hget, hv, asMsg]
    rw [← hb.zero, this]
    rfl
  | merge _ e hv hn hr =>
    cases e
    change values c name = [_] at hv
    have := unmarshalMsg_reads hb hn hr tail hl hlen
    simp only [msgField, ne_eq, not_true_eq_false, if_false, hget, hv, asMsg, msgOf, this]
  | one h => cases h
  | packed h => cases h
  | element h => cases h

theorem opt_takes {dec : Contents → M} {b : Codec A} {msg : Message} {decA : Contents → A} (hb : b.ReadsAs msg decA) {get : M → Option A}
    {set : M → Option A → M} {name : String} {num : Nat} (hset : ∀ c vs, dec (put c name vs) = set (dec c) (asOpt b decA vs))
    (hget : ∀ c, get (dec c) = asOpt b decA (values c name)) : (optField num b get set).Takes (single (.msg msg) name num) dec := by
  refine ⟨rfl, fun c vs w p hp l tail hlen hl => ?_⟩
  rw [show (single (.msg msg) name num).name = name from rfl, hset]
  cases hp with
  | scalar _ h =>
    change Scalar (.msg msg) _ _ _ at h
    cases h
  | cast _ _ _ h =>
    change Cast (.msg msg) _ _ at h
    cases h
  | message _ e hv hn hr =>
    cases e
    change values c name = [] at hv
    have := unmarshalMsg_reads hb hn hr tail hl hlen
    simp only [optField, ne_eq, not_true_eq_false, if_false, hget, hv, asOpt, Option.getD_none]
    rw [← hb.zero, this]
    rfl
  | merge _ e hv hn hr =>
    cases e
    change values c name = [_] at hv
    have := unmarshalMsg_reads hb hn hr tail hl hlen
    simp only [optField, ne_eq, not_true_eq_false, if_false, hget, hv, asOpt, msgOf, Option.getD_some, this]
  | one h => cases h
  | packed h => cases h
  | element h => cases h

theorem rep_takes {dec : Contents → M} {b : Codec A} {msg : Message} {decA : Contents → A} (hb : b.ReadsAs msg decA) {get : M → List A}
    {set : M → List A → M} {name : String} {num : Nat} (hset : ∀ c vs, dec (put c name vs) = set (dec c) (vs.map (msgOf b decA)))
    (hget : ∀ c, get (dec c) = (values c name).map (msgOf b decA)) :
    (repField num b get set).Takes (repeated (.msg msg) name num) dec := by
  refine ⟨rfl, fun c vs w p hp l tail hlen hl => ?_⟩
  rw [show (repeated (.msg msg) name num).name = name from rfl, hset]
  cases hp with
  | scalar h => cases h
  | cast h => cases h
  | message h => cases h
  | merge h => cases h
  | one _ h =>
    change Scalar (.msg msg) _ _ _ at h
    cases h
  | packed _ h => cases h
  | element _ e hn hr =>
    cases e
    have := unmarshalMsg_reads hb hn hr tail hl hlen
    simp only [repField, ne_eq, not_true_eq_false, if_false, hget]
    rw [← hb.zero, this]
    simp [msgOf, repeated]

theorem ptrs_takes {dec : Contents → M} {b : Codec A} {msg : Message} {decA : Contents → A} (hb : b.ReadsAs msg decA)
    {get : M → List (Option A)} {set : M → List (Option A) → M} {name : String} {num : Nat}
    (hset : ∀ c vs, dec (put c name vs) = set (dec c) (vs.map fun v => some (msgOf b decA v)))
    (hget : ∀ c, get (dec c) = (values c name).map fun v => some (msgOf b decA v)) :
    (ptrsField num b get set).Takes (repeated (.msg msg) name num) dec :=
  rep_takes hb (fun c vs => by rw [hset, List.map_map]; rfl) (fun c => by
    rw [hget]
    induction values c name with
    | nil => rfl
    | cons v vs ih => simp [ih])

end Verif.Wire
