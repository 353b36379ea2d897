import Verif.Lemmas.WireRules
import Verif.Spec.SchemaContents
/- The template of the generated code writes fields as the encoding documentation says. -/
namespace Verif.Wire
open Verif.Spec.WireFormat Verif.Spec.Schema

/-! ### Numbers -/

theorem varint_enc : ∀ (f v : Nat), v < 128 ^ f → 0 < f → Varint v (encLoop f v)
  | 0, _, _, h => absurd h (by omega)
  | f + 1, v, hv, _ => by
    unfold encLoop
    split
    · next h =>
      have hb : (UInt8.ofNat (v % 128 + 128)).toNat = v % 128 + 128 := toNat_ofNat (by omega)
      have hf : 0 < f := by
        cases f with
        | zero => simp at hv; omega
        | succ => omega
      have hd : v / 128 < 128 ^ f := by
        rw [Nat.pow_succ] at hv
        exact (Nat.div_lt_iff_lt_mul (by omega)).mpr hv
      have := Varint.more (UInt8.ofNat (v % 128 + 128)) (v / 128) _ (by omega) (varint_enc f (v / 128) hd hf)
      rw [hb] at this
      have e : v % 128 + 128 - 128 + 128 * (v / 128) = v := by omega
      rwa [e] at this
    · next h =>
      have hb : (UInt8.ofNat v).toNat = v := toNat_ofNat (by omega)
      have := Varint.last (UInt8.ofNat v) (by omega)
      rwa [hb] at this

theorem encLoop_length : ∀ (f v : Nat), (encLoop f v).length ≤ f
  | 0, _ => by simp [encLoop]
  | f + 1, v => by
    unfold encLoop
    split
    · simp [encLoop_length f (v / 128)]
    · simp

theorem num_enc {v : Nat} (h : v < 2 ^ 64) : Num v (encodeVarint v) :=
  ⟨varint_enc 10 v (Nat.lt_of_lt_of_le h (by decide)) (by decide), encLoop_length 10 v⟩

theorem num_tag {num wt : Nat} (h : num < 16) (hw : wt < 8) : Num (num * 8 + wt) [tag num wt] := by
  have ht := tag_toNat h hw
  refine ⟨?_, by simp⟩
  have := Varint.last (tag num wt) (by omega)
  rwa [ht] at this

theorem little_put : ∀ (k v : Nat), v < 256 ^ k → littleEndian (putLE k v) = v
  | 0, v, h => by simp at h; simp [putLE, littleEndian, h]
  | k + 1, v, h => by
    have hb : (UInt8.ofNat (v % 256)).toNat = v % 256 := toNat_ofNat (by omega)
    rw [Nat.pow_succ] at h
    simp only [putLE, littleEndian, hb, little_put k (v / 256) ((Nat.div_lt_iff_lt_mul (by omega)).mpr h)]
    omega

/-! ### Fields -/

/-- Lengths are less than this. -/
abbrev Small (d : Bytes) : Prop := d.length < 9223372036854775808

/-- What the field writes for `m` is the declared field with these values. -/
def Field.Follows (f : Field M) (decl : Decl) (m : M) (vs : List Val) : Prop :=
  Small (f.marshal m) → ∀ (fs : List Decl) (c : Contents) (r : Bytes), Fields fs c r →
    Fields (decl :: fs) ((decl.name, vs) :: c) (f.marshal m ++ r)

/-- What is written for `a` is the declared message with these contents. -/
def Codec.Follows (b : Codec A) (msg : Spec.Schema.Message) (a : A) (c : Contents) : Prop :=
  Small (b.marshal a) → Encodes msg c (b.marshal a)

theorem scalar_follows {f : Field M} {ty : Ty} {name : String} {num : Nat} {m : M} {v : Val} (h : num < 16) {w : Nat} (hw : w < 8)
    {d : Bytes} (e : f.marshal m = tag num w :: d) (hs : Scalar ty v w d) : f.Follows (single ty name num) m [v] := by
  intro _ fs c r hr
  rw [e]
  exact Fields.scalar ty name num fs v c w [tag num w] d r (num_tag h hw) hs hr

theorem default_follows {f : Field M} {ty : Ty} {name : String} {num : Nat} {m : M} {v : Val}
    (e : f.marshal m = []) (hs : Default ty v) : f.Follows (single ty name num) m [v] := by
  intro _ fs c r hr
  rw [e]
  exact Fields.default ty name num fs v c r hs hr

theorem varint_follows {put : A → Nat} {take : Nat → A} {get : M → A} {set : M → A → M} {ty : Ty} {name : String} {num : Nat}
    {m : M} {v : Val} (h : num < 16) (hs : ∀ d, Num (put (get m)) d → Scalar ty v 0 d) (hd : put (get m) = 0 → Default ty v)
    (hl : put (get m) < 2 ^ 64) : (varintField num put take get set).Follows (single ty name num) m [v] := by
  by_cases hz : put (get m) = 0
  · exact default_follows (by simp [varintField, hz]) (hd hz)
  · exact scalar_follows h (w := 0) (by decide) (d := encodeVarint (put (get m))) (by simp [varintField, hz]) (hs _ (num_enc hl))

theorem toU64_eq (v : Int) : toU64 v = (v % 2 ^ 64).toNat := rfl

theorem int64_follows {get : M → Int} {set : M → Int → M} {name : String} {num : Nat} {m : M} (h : num < 16) (hv : I64 (get m)) :
    (int64Field num get set).Follows (single .int64 name num) m [.int (get m)] := by
  refine varint_follows h (fun d hd => .int64 _ _ hv.1 hv.2 (by rwa [toU64_eq] at hd)) (fun hz => ?_) (toU64_lt _)
  rw [toU64_zero hv hz]
  exact .int64

theorem int32_follows {get : M → Int} {set : M → Int → M} {name : String} {num : Nat} {m : M} (h : num < 16) (hv : I32 (get m)) :
    (int32Field num get set).Follows (single .int32 name num) m [.int (get m)] := by
  refine varint_follows h (fun d hd => .int32 _ _ hv.1 hv.2 (by rwa [toU64_eq] at hd)) (fun hz => ?_) (toU64_lt _)
  rw [toU64_zero hv.i64 hz]
  exact .int32

theorem enum_follows {get : M → Int} {set : M → Int → M} {name : String} {num : Nat} {m : M} {e : Enum} {l : String} {n : Nat}
    (h : num < 16) (hv : (l, n) ∈ e.values) (hg : get m = n) (hn : n < 2 ^ 64) :
    (int32Field num get set).Follows (single (.enum e) name num) m [.label l] := by
  have hu : toU64 (get m) = n := by rw [hg]; unfold toU64; omega
  refine varint_follows h (fun d hd => .enum _ _ n _ hv (by rwa [hu] at hd)) (fun hz => ?_) (toU64_lt _)
  rw [hu] at hz
  subst hz
  exact .enum _ _ hv

theorem uint64_follows {get : M → BitVec 64} {set : M → BitVec 64 → M} {name : String} {num : Nat} {m : M} (h : num < 16) :
    (uint64Field num get set).Follows (single .uint64 name num) m [.int (get m).toNat] := by
  refine varint_follows h (fun d hd => .uint64 _ _ (get m).isLt hd) (fun hz => ?_) (get m).isLt
  rw [hz]
  exact .uint64

theorem uint32_follows {get : M → BitVec 32} {set : M → BitVec 32 → M} {name : String} {num : Nat} {m : M} (h : num < 16) :
    (uint32Field num get set).Follows (single .uint32 name num) m [.int (get m).toNat] := by
  have := (get m).isLt
  refine varint_follows h (fun d hd => .uint32 _ _ (get m).isLt hd) (fun hz => ?_) (by omega)
  rw [hz]
  exact .uint32

theorem bool_follows {get : M → Bool} {set : M → Bool → M} {name : String} {num : Nat} {m : M} (h : num < 16) :
    (boolField num get set).Follows (single .bool name num) m [.bool (get m)] := by
  refine varint_follows h (fun d hd => .bool _ _ hd) (fun hz => ?_) ?_
  · cases hg : get m with
    | false => exact .bool
    | true => rw [hg] at hz; cases hz
  · cases get m <;> decide

theorem double_follows {get : M → F64} {set : M → F64 → M} {name : String} {num : Nat} {m : M} (h : num < 16) :
    (doubleField num get set).Follows (single .double name num) m [.dbl (Spec.Msg.plainZero (get m))] := by
  by_cases hz : (get m).isZero = true
  · refine default_follows (by simp [doubleField, hz]) ?_
    rw [show Spec.Msg.plainZero (get m) = 0 from norm_zero hz]
    exact .double
  · refine scalar_follows h (w := 1) (by decide) (d := putLE 8 (get m).toNat) (by simp [doubleField, hz]) ?_
    rw [show Spec.Msg.plainZero (get m) = get m from norm_other hz]
    exact .double _ _ (putLE_length 8 _) (little_put 8 _ (get m).isLt)

theorem bytes_follows {get : M → Bytes} {set : M → Bytes → M} {name : String} {num : Nat} {m : M} (h : num < 16) :
    (bytesField num get set).Follows (single .bytes name num) m [.bytes (get m)] := by
  intro hs
  by_cases hz : (get m).length > 0
  · have e : (bytesField num get set).marshal m = tag num 2 :: (encodeVarint (get m).length ++ get m) := by simp [bytesField, hz]
    rw [e] at hs
    simp only [Small, List.length_cons, List.length_append] at hs
    exact scalar_follows h (w := 2) (by decide) e (.bytes _ _ (num_enc (by omega))) (by
      rw [Small, e]; simp only [List.length_cons, List.length_append]; omega)
  · have e : get m = [] := List.length_eq_zero_iff.mp (by omega)
    rw [e]
    exact default_follows (by simp [bytesField, hz]) .bytes (by simp [Small, bytesField, hz])

theorem string_follows {get : M → Bytes} {set : M → Bytes → M} {name : String} {num : Nat} {m : M} (h : num < 16) :
    (bytesField num get set).Follows (single .string name num) m [.bytes (get m)] := by
  intro hs
  by_cases hz : (get m).length > 0
  · have e : (bytesField num get set).marshal m = tag num 2 :: (encodeVarint (get m).length ++ get m) := by simp [bytesField, hz]
    rw [e] at hs
    simp only [Small, List.length_cons, List.length_append] at hs
    exact scalar_follows h (w := 2) (by decide) e (.string _ _ (num_enc (by omega))) (by
      rw [Small, e]; simp only [List.length_cons, List.length_append]; omega)
  · have e : get m = [] := List.length_eq_zero_iff.mp (by omega)
    rw [e]
    exact default_follows (by simp [bytesField, hz]) .string (by simp [Small, bytesField, hz])

theorem packed_doubles : ∀ vs : List F64, Packed .double (vs.map .dbl) (vs.flatMap fun v => putLE 8 v.toNat)
  | [] => .nil
  | v :: vs => .cons _ _ 1 _ _ (.double _ _ (putLE_length 8 _) (little_put 8 _ v.isLt)) (packed_doubles vs)

theorem doubles_follows {get : M → List F64} {set : M → List F64 → M} {name : String} {num : Nat} {m : M} (h : num < 16) :
    (doublesField num get set).Follows (repeated .double name num) m ((get m).map .dbl) := by
  intro hs fs c r hr
  by_cases hz : (get m).length > 0
  · have e : (doublesField num get set).marshal m = tag num 2 :: (encodeVarint ((get m).length * 8) ++
        (get m).flatMap (fun v => putLE 8 v.toNat)) := by simp [doublesField, hz]
    rw [e] at hs ⊢
    simp only [Small, List.length_cons, List.length_append, flat_length] at hs
    have := Fields.packed .double name num fs _ c [tag num 2] (encodeVarint ((get m).length * 8)) _ r rfl (num_tag h (by decide))
      (by rw [flat_length]; exact num_enc (by omega)) (packed_doubles (get m)) hr
    simpa [List.append_assoc, single, repeated] using this
  · have e : get m = [] := List.length_eq_zero_iff.mp (by omega)
    have e' : (doublesField num get set).marshal m = [] := by simp [doublesField, hz]
    rw [e', e]
    exact Fields.absent true .double name num fs c r (.inl rfl) hr

theorem packed_enums {e : Enum} : ∀ (vs : List Int) (ls : List (String × Nat)), vs = ls.map (fun l => (l.2 : Int)) →
    (∀ l ∈ ls, l ∈ e.values ∧ l.2 < 2 ^ 64) → Packed (.enum e) (ls.map fun l => .label l.1) (packEnums vs)
  | _, [], rfl, _ => .nil
  | _, l :: ls, rfl, h => by
    have h1 := h l (by simp)
    have := Packed.cons (.label l.1) _ 0 (packEnum l.2) _ (.enum e l.1 l.2 _ h1.1 (by
      unfold packEnum
      rw [if_pos (by omega)]
      exact num_enc h1.2)) (packed_enums _ ls rfl fun l hl => h l (by simp [hl]))
    exact this

theorem enums_follows {get : M → List Int} {set : M → List Int → M} {name : String} {num : Nat} {m : M} {e : Enum}
    (ls : List (String × Nat)) (h : num < 16) (hg : get m = ls.map (fun l => (l.2 : Int))) (hv : ∀ l ∈ ls, l ∈ e.values ∧ l.2 < 2 ^ 64) :
    (enumsField num get set).Follows (repeated (.enum e) name num) m (ls.map fun l => .label l.1) := by
  intro hs fs c r hr
  by_cases hz : (get m).length > 0
  · have e' : (enumsField num get set).marshal m = tag num 2 :: (encodeVarint (packEnums (get m)).length ++ packEnums (get m)) := by
      simp [enumsField, hz]
    rw [e'] at hs ⊢
    simp only [Small, List.length_cons, List.length_append] at hs
    have := Fields.packed (.enum e) name num fs _ c [tag num 2] (encodeVarint (packEnums (get m)).length) _ r rfl (num_tag h (by decide))
      (num_enc (by omega)) (packed_enums (get m) ls hg hv) hr
    simpa [List.append_assoc, single, repeated] using this
  · have e1 : get m = [] := List.length_eq_zero_iff.mp (by omega)
    have e2 : ls = [] := by
      rw [e1] at hg
      exact List.map_eq_nil_iff.mp hg.symm
    have e' : (enumsField num get set).marshal m = [] := by simp [enumsField, hz]
    rw [e', e2]
    exact Fields.absent true _ name num fs c r (.inl rfl) hr

theorem strs_follow (name : String) {num : Nat} (h : num < 16) {fs : List Decl} {c : Contents} {r : Bytes} (hr : Fields fs c r) :
    ∀ l : List Bytes, Small (l.flatMap (marshalStr num)) →
      Fields (repeated .string name num :: fs) ((name, l.map .bytes) :: c) (l.flatMap (marshalStr num) ++ r)
  | [], _ => Fields.absent true _ name num fs c r (.inl rfl) hr
  | s :: l, hs => by
    simp only [Small, List.flatMap_cons, List.length_append, marshalStr, List.length_cons] at hs
    have := Fields.more .string name num fs (.bytes s) (l.map .bytes) c 2 [tag num 2] (encodeVarint s.length ++ s) _ rfl
      (num_tag h (by decide)) (.string s _ (num_enc (by omega))) (strs_follow name h hr l (by
        simp only [Small]; omega))
    simpa [marshalStr, List.append_assoc, single, repeated] using this

theorem strings_follows {get : M → List Bytes} {set : M → List Bytes → M} {name : String} {num : Nat} {m : M} (h : num < 16) :
    (strsField num get set).Follows (repeated .string name num) m ((get m).map .bytes) :=
  fun hs _ _ _ hr => strs_follow name h hr (get m) hs

/-! ### Embedded messages -/

theorem marshalMsg_small {num : Nat} {b : Codec A} (hb : b.OK) {a : A} (hs : Small (marshalMsg num b a)) :
    Small (b.marshal a) ∧ b.size a = (b.marshal a).length := by
  refine ⟨?_, hb.sized a⟩
  simp only [Small, marshalMsg, List.length_cons, List.length_append] at hs
  simp only [Small]; omega

theorem msg_follows' {b : Codec A} (hb : b.OK) {msg : Spec.Schema.Message} {a : A} {c' : Contents} (ha : b.Follows msg a c')
    {name : String} {num : Nat} (h : num < 16) (hs : Small (marshalMsg num b a)) {fs : List Decl} {c : Contents} {r : Bytes}
    (hr : Fields fs c r) : Fields (single (.msg msg) name num :: fs) ((name, [.msg c']) :: c) (marshalMsg num b a ++ r) := by
  obtain ⟨h1, h2⟩ := marshalMsg_small hb hs
  have := Fields.message msg name num fs c' c [tag num 2] (encodeVarint (b.marshal a).length) (b.marshal a) r
    (num_tag h (by decide)) (num_enc (by simp only [Small] at h1; omega)) (ha h1) hr
  simpa [marshalMsg, h2, List.append_assoc, single, repeated] using this

theorem msg_follows {b : Codec A} (hb : b.OK) {msg : Spec.Schema.Message} {get : M → A} {set : M → A → M} {name : String} {num : Nat}
    {m : M} {c' : Contents} (h : num < 16) (ha : b.Follows msg (get m) c') :
    (msgField num b get set).Follows (single (.msg msg) name num) m [.msg c'] :=
  fun hs _ _ _ hr => msg_follows' hb ha h hs hr

theorem opt_follows_some {b : Codec A} (hb : b.OK) {msg : Spec.Schema.Message} {get : M → Option A} {set : M → Option A → M}
    {name : String} {num : Nat} {m : M} {a : A} {c' : Contents} (h : num < 16) (hg : get m = some a) (ha : b.Follows msg a c') :
    (optField num b get set).Follows (single (.msg msg) name num) m [.msg c'] := by
  have e : (optField num b get set).marshal m = marshalMsg num b a := by simp [optField, hg]
  intro hs fs c r hr
  rw [e] at hs ⊢
  exact msg_follows' hb ha h hs hr

theorem opt_follows_none {b : Codec A} {msg : Spec.Schema.Message} {get : M → Option A} {set : M → Option A → M}
    {name : String} {num : Nat} {m : M} (hg : get m = none) : (optField num b get set).Follows (single (.msg msg) name num) m [] := by
  have e : (optField num b get set).marshal m = [] := by simp [optField, hg]
  intro hs fs c r hr
  rw [e]
  exact Fields.absent false _ name num fs c r (.inr ⟨msg, rfl⟩) hr

theorem msgs_follow {b : Codec A} (hb : b.OK) {msg : Spec.Schema.Message} (name : String) {num : Nat} (h : num < 16) {fs : List Decl}
    {c : Contents} {r : Bytes} (hr : Fields fs c r) : ∀ (l : List A) (cs : List Contents),
      (∀ i (h1 : i < l.length) (h2 : i < cs.length), b.Follows msg l[i] cs[i]) → l.length = cs.length →
      Small (l.flatMap (marshalMsg num b)) →
      Fields (repeated (.msg msg) name num :: fs) ((name, cs.map .msg) :: c) (l.flatMap (marshalMsg num b) ++ r)
  | [], [], _, _, _ => Fields.absent true _ name num fs c r (.inl rfl) hr
  | [], _ :: _, _, hl, _ => by cases hl
  | _ :: _, [], _, hl, _ => by cases hl
  | a :: l, c' :: cs, ha, hl, hs => by
    have hs' : (marshalMsg num b a).length + (l.flatMap (marshalMsg num b)).length < 9223372036854775808 := by
      simpa [Small, List.length_append] using hs
    obtain ⟨h1, h2⟩ := marshalMsg_small (num := num) hb (a := a) (by simp only [Small]; omega)
    have := Fields.moreMessages msg name num fs c' (cs.map .msg) c [tag num 2] (encodeVarint (b.marshal a).length) (b.marshal a) _
      (num_tag h (by decide)) (num_enc (by simp only [Small] at h1; omega)) (ha 0 (by simp) (by simp) h1)
      (msgs_follow hb name h hr l cs (fun i i1 i2 => ha (i + 1) (by simp; omega) (by simp; omega)) (by simpa using hl)
        (by simp only [Small]; omega))
    simpa [marshalMsg, h2, List.append_assoc, single, repeated] using this

theorem rep_follows {b : Codec A} (hb : b.OK) {msg : Spec.Schema.Message} {get : M → List A} {set : M → List A → M} {name : String}
    {num : Nat} {m : M} (cs : List Contents) (h : num < 16) (hl : (get m).length = cs.length)
    (ha : ∀ i (h1 : i < (get m).length) (h2 : i < cs.length), b.Follows msg (get m)[i] cs[i]) :
    (repField num b get set).Follows (repeated (.msg msg) name num) m (cs.map .msg) :=
  fun hs _ _ _ hr => msgs_follow hb name h hr (get m) cs ha hl hs

/-! ### Messages -/

/-- All fields write what they should. -/
inductive Follow (m : M) : List (Field M) → List Decl → Contents → Prop
  | nil : Follow m [] [] []
  | cons {f : Field M} {fs : List (Field M)} {d : Decl} {ds : List Decl} {vs : List Val} {c : Contents} {name : String} :
      name = d.name → f.Follows d m vs → Follow m fs ds c → Follow m (f :: fs) (d :: ds) ((name, vs) :: c)

theorem Follow.fields {m : M} {fs : List (Field M)} {ds : List Decl} {c : Contents} (h : Follow m fs ds c) :
    Small (fs.flatMap fun f => f.marshal m) → Fields ds c (fs.flatMap fun f => f.marshal m) := by
  induction h with
  | nil => intro _; exact .nil
  | cons e hf _ ih =>
    intro hs
    simp only [Small, List.flatMap_cons, List.length_append] at hs
    subst e
    exact hf (by simp only [Small]; omega) _ _ _ (ih (by simp only [Small]; omega))

theorem follows {c : Codec M} {msg : Spec.Schema.Message} {m : M} {cs : Contents} (h : Follow m c.fields msg.fields cs) :
    c.Follows msg m cs := fun hs => h.fields hs

end Verif.Wire
