import Verif.Spec.SchemaLiberty
import Verif.Lemmas.SchemaRead
import Verif.Lemmas.SchemaUnique
/-
Readers that take all liberties with the encoding documentation, and readers that take none.
-/
namespace Verif.Spec.Schema.Liberties
open Verif.Spec.WireFormat
open Verif.Wire (values_put)

/-! ### All -/

def All : Liberty → Prop := fun _ => True

def Nothing : Liberty → Prop := fun _ => False

theorem low_all {n : Nat} {d : Bytes} : LowBy All n d ↔ Low n d :=
  ⟨fun ⟨v, h1, h2, _⟩ => ⟨v, h1, h2⟩, fun ⟨v, h1, h2⟩ => ⟨v, h1, h2, .inr trivial⟩⟩

theorem key_all {n w : Nat} {k : Bytes} : KeyBy All n w k ↔ Key n w k :=
  ⟨fun ⟨t, h1, h2, h3, _⟩ => ⟨t, low_all.mp h1, h2, h3⟩, fun ⟨t, h1, h2, h3⟩ => ⟨t, low_all.mpr h1, h2, h3, .inr trivial⟩⟩

theorem passed_all {b : Bool} {n : Nat} {d : Bytes} (h : PassedBy All b n d) : Passed (if b then none else some n) d := by
  induction h with
  | varint n v k d _ hk hv => exact .varint n v k d (key_all.mp hk) hv
  | fixed64 n k d _ hk hv => exact .fixed64 n k d (key_all.mp hk) hv
  | bytes n k l d _ hk hv => exact .bytes n k l d (key_all.mp hk) (low_all.mp hv)
  | group n k d _ hk _ ih => exact .group n k d (key_all.mp hk) ih
  | fixed32 n k d _ hk hv => exact .fixed32 n k d (key_all.mp hk) hv
  | close g n e _ hk => exact .close n e (key_all.mp hk)
  | cons g n d r _ _ ih1 ih2 => exact .cons n d r ih1 ih2

theorem all_passed {o : Option Nat} {d : Bytes} (h : Passed o d) :
    match o with
    | some n => PassedBy All false n d
    | none => ∀ g, PassedBy All true g d := by
  induction h with
  | varint n v k d hk hv => exact .varint n v k d (.inr trivial) (key_all.mpr hk) hv
  | fixed64 n k d hk hv => exact .fixed64 n k d (.inr trivial) (key_all.mpr hk) hv
  | bytes n k l d hk hv => exact .bytes n k l d (.inr trivial) (key_all.mpr hk) (low_all.mpr hv)
  | group n k d hk _ ih => exact .group n k d (.inr trivial) (key_all.mpr hk) (ih n)
  | fixed32 n k d hk hv => exact .fixed32 n k d (.inr trivial) (key_all.mpr hk) hv
  | close n e hk => exact fun g => .close g n e (.inr trivial) (key_all.mpr hk)
  | cons n d r _ _ ih1 ih2 => exact fun g => .cons g n d r ih1 (ih2 g)

theorem number_all (ty : Ty) (v : Nat) : NumberBy All ty v := ⟨.inr trivial, .inr trivial⟩

theorem pack_all {ty : Ty} {n : Nat} {d : Bytes} : PackBy All ty n d ↔ Pack ty.wire n d := by
  constructor
  · intro h
    induction h with
    | nil => exact .nil
    | number n v d r h1 h2 h3 _ _ _ ih => exact .number n v d r h1 h2 h3 ih
    | double n d r h1 h2 h3 _ _ ih => exact .double n d r h1 h2 h3 ih
  · intro h
    induction h with
    | nil => exact .nil
    | number n v d r h1 h2 h3 _ ih => exact .number n v d r h1 h2 h3 (number_all _ _) (.inr trivial) ih
    | double n d r h1 h2 h3 _ ih => exact .double n d r h1 h2 h3 (.inr trivial) ih

theorem accepted_all {m : Message} {l : Nat} {d : Bytes} : AcceptedBy All m l d ↔ Accepted m l d := by
  constructor
  · intro h
    induction h with
    | done m l => exact .done m l
    | number m l x v k d r h1 h2 h3 h4 _ _ ih => exact .number m l x v k d r h1 h2 (key_all.mp h3) h4 ih
    | double m l x k d r h1 h2 h3 h4 _ ih => exact .double m l x k d r h1 h2 (key_all.mp h3) h4 ih
    | bytes m l x k s d r h1 h2 h3 h4 _ ih => exact .bytes m l x k s d r h1 h2 (key_all.mp h3) (low_all.mp h4) ih
    | message m l x sub k s d r h1 h2 h3 h4 _ _ ih1 ih2 => exact .message m l x sub k s d r h1 h2 (key_all.mp h3) (low_all.mp h4) ih1 ih2
    | packed m l x n k s d r h1 h2 h3 h4 h5 h6 h7 _ ih =>
      exact .packed m l x n k s d r h1 h2 h3 (key_all.mp h4) (low_all.mp h5) h6 (pack_all.mp h7) ih
    | overflow m l x n k s r h1 h2 h3 h4 h5 h6 h7 _ _ ih => exact .overflow m l x n k s r h1 h2 h3 (key_all.mp h4) (low_all.mp h5) h6 h7 ih
    | unknown m l n d r h1 h2 h3 h4 _ ih => exact .unknown m l n d r h1 h2 h3 (passed_all h4) ih
  · intro h
    induction h with
    | done m l => exact .done m l
    | number m l x v k d r h1 h2 h3 h4 _ ih => exact .number m l x v k d r h1 h2 (key_all.mpr h3) h4 (number_all _ _) ih
    | double m l x k d r h1 h2 h3 h4 _ ih => exact .double m l x k d r h1 h2 (key_all.mpr h3) h4 ih
    | bytes m l x k s d r h1 h2 h3 h4 _ ih => exact .bytes m l x k s d r h1 h2 (key_all.mpr h3) (low_all.mpr h4) ih
    | message m l x sub k s d r h1 h2 h3 h4 _ _ ih1 ih2 =>
      exact .message m l x sub k s d r h1 h2 (key_all.mpr h3) (low_all.mpr h4) ih1 ih2
    | packed m l x n k s d r h1 h2 h3 h4 h5 h6 h7 _ ih =>
      exact .packed m l x n k s d r h1 h2 h3 (key_all.mpr h4) (low_all.mpr h5) h6 (pack_all.mpr h7) ih
    | overflow m l x n k s r h1 h2 h3 h4 h5 h6 h7 _ ih =>
      exact .overflow m l x n k s r h1 h2 h3 (key_all.mpr h4) (low_all.mpr h5) h6 h7 trivial ih
    | unknown m l n d r h1 h2 h3 h4 _ ih => exact .unknown m l n d r h1 h2 h3 (all_passed h4) ih

/-! ### More of them -/

section
variable {S T : Liberty → Prop} (hS : ∀ x, S x → T x)
include hS

theorem low_mono {n : Nat} {d : Bytes} : LowBy S n d → LowBy T n d := fun ⟨v, h1, h2, h3⟩ => ⟨v, h1, h2, h3.imp_right (hS _)⟩

theorem key_mono {n w : Nat} {k : Bytes} : KeyBy S n w k → KeyBy T n w k :=
  fun ⟨t, h1, h2, h3, h4⟩ => ⟨t, low_mono hS h1, h2, h3, h4.imp_right (hS _)⟩

theorem passed_mono {b : Bool} {n : Nat} {d : Bytes} (h : PassedBy S b n d) : PassedBy T b n d := by
  induction h with
  | varint n v k d h hk hv => exact .varint n v k d (h.imp_right (hS _)) (key_mono hS hk) hv
  | fixed64 n k d h hk hv => exact .fixed64 n k d (h.imp_right (hS _)) (key_mono hS hk) hv
  | bytes n k l d h hk hv => exact .bytes n k l d (h.imp_right (hS _)) (key_mono hS hk) (low_mono hS hv)
  | group n k d h hk _ ih => exact .group n k d (h.imp_right (hS _)) (key_mono hS hk) ih
  | fixed32 n k d h hk hv => exact .fixed32 n k d (h.imp_right (hS _)) (key_mono hS hk) hv
  | close g n e h hk => exact .close g n e (h.imp_right (hS _)) (key_mono hS hk)
  | cons g n d r _ _ ih1 ih2 => exact .cons g n d r ih1 ih2

theorem number_mono {ty : Ty} {v : Nat} : NumberBy S ty v → NumberBy T ty v :=
  fun ⟨h1, h2⟩ => ⟨h1.imp_right (hS _), h2.imp_right (hS _)⟩

theorem pack_mono {ty : Ty} {n : Nat} {d : Bytes} (h : PackBy S ty n d) : PackBy T ty n d := by
  induction h with
  | nil => exact .nil
  | number n v d r h1 h2 h3 h4 h5 _ ih => exact .number n v d r h1 h2 h3 (number_mono hS h4) (h5.imp_right (hS _)) ih
  | double n d r h1 h2 h3 h4 _ ih => exact .double n d r h1 h2 h3 (h4.imp_right (hS _)) ih

/-- What is taken with some liberties is taken with more. -/
theorem mono {m : Message} {l : Nat} {d : Bytes} (h : AcceptedBy S m l d) : AcceptedBy T m l d := by
  induction h with
  | done m l => exact .done m l
  | number m l x v k d r h1 h2 h3 h4 h5 _ ih => exact .number m l x v k d r h1 h2 (key_mono hS h3) h4 (number_mono hS h5) ih
  | double m l x k d r h1 h2 h3 h4 _ ih => exact .double m l x k d r h1 h2 (key_mono hS h3) h4 ih
  | bytes m l x k s d r h1 h2 h3 h4 _ ih => exact .bytes m l x k s d r h1 h2 (key_mono hS h3) (low_mono hS h4) ih
  | message m l x sub k s d r h1 h2 h3 h4 _ _ ih1 ih2 =>
    exact .message m l x sub k s d r h1 h2 (key_mono hS h3) (low_mono hS h4) ih1 ih2
  | packed m l x n k s d r h1 h2 h3 h4 h5 h6 h7 _ ih =>
    exact .packed m l x n k s d r h1 h2 h3 (key_mono hS h4) (low_mono hS h5) h6 (pack_mono hS h7) ih
  | overflow m l x n k s r h1 h2 h3 h4 h5 h6 h7 h8 _ ih =>
    exact .overflow m l x n k s r h1 h2 h3 (key_mono hS h4) (low_mono hS h5) h6 h7 (hS _ h8) ih
  | unknown m l n d r h1 h2 h3 h4 _ ih => exact .unknown m l n d r h1 h2 h3 (passed_mono hS h4) ih

end

/-! ### None -/

theorem low_none {n : Nat} {d : Bytes} : LowBy Nothing n d ↔ Num n d ∧ n < 2 ^ 64 := by
  constructor
  · rintro ⟨v, h1, h2, h | h⟩
    · rw [Nat.mod_eq_of_lt h] at h2
      subst h2
      exact ⟨h1, h⟩
    · exact h.elim
  · rintro ⟨h1, h2⟩
    exact ⟨n, h1, (Nat.mod_eq_of_lt h2).symm, .inl h2⟩

theorem key_none {n w : Nat} {k : Bytes} (hw : w < 8) : KeyBy Nothing n w k ↔ Num (n * 8 + w) k ∧ n < 2 ^ 32 := by
  constructor
  · rintro ⟨t, h1, h2, h3, h | h⟩
    · rw [Nat.mod_eq_of_lt h] at h3
      obtain ⟨h4, -⟩ := low_none.mp h1
      have : n * 8 + w = t := by omega
      rw [this]
      exact ⟨h4, by omega⟩
    · exact h.elim
  · rintro ⟨h1, h2⟩
    refine ⟨n * 8 + w, low_none.mpr ⟨h1, by omega⟩, by omega, ?_, .inl (by omega)⟩
    rw [Nat.mod_eq_of_lt (by omega)]
    omega

theorem range_none {n : Nat} (h : FieldNumber n ∨ Nothing .range) : FieldNumber n := h.elim id False.elim

/-- What is passed over is a field, or fields and the end of the group. -/
theorem passed_none {b : Bool} {n : Nat} {d : Bytes} (h : PassedBy Nothing b n d) :
    match b with
    | false => Chunk (some n) d
    | true => ∃ c e, d = c ++ e ∧ Chunk none c ∧ Num (n * 8 + 4) e := by
  induction h with
  | varint n v k d hn hk hv => exact .varint n v k d (range_none hn) ((key_none (by decide)).mp hk).1 hv
  | fixed64 n k d hn hk hv => exact .fixed64 n k d (range_none hn) ((key_none (by decide)).mp hk).1 hv
  | bytes n k l d hn hk hv => exact .bytes n k l d (range_none hn) ((key_none (by decide)).mp hk).1 (low_none.mp hv).1
  | group n k d hn hk _ ih =>
    obtain ⟨c, e, rfl, h1, h2⟩ := ih
    exact .group n k c e (range_none hn) ((key_none (by decide)).mp hk).1 h1 h2
  | fixed32 n k d hn hk hv => exact .fixed32 n k d (range_none hn) ((key_none (by decide)).mp hk).1 hv
  | close g n e hn hk =>
    rcases hn with rfl | h
    · exact ⟨[], e, rfl, .nil, ((key_none (by decide)).mp hk).1⟩
    · exact h.elim
  | cons g n d r _ _ ih1 ih2 =>
    obtain ⟨c, e, rfl, h1, h2⟩ := ih2
    exact ⟨d ++ c, e, (List.append_assoc ..).symm, .cons n d c ih1 h1, h2⟩

theorem none_passed {o : Option Nat} {d : Bytes} (h : Chunk o d) : d.length < 2 ^ 64 →
    match o with
    | some n => PassedBy Nothing false n d
    | none => ∀ g e, g < 2 ^ 32 → Num (g * 8 + 4) e → PassedBy Nothing true g (d ++ e) := by
  induction h with
  | varint n v k d hn hk hv => exact fun _ => .varint n v k d (.inl hn) ((key_none (by decide)).mpr ⟨hk, by have := hn.2; omega⟩) hv
  | fixed64 n k d hn hk hv => exact fun _ => .fixed64 n k d (.inl hn) ((key_none (by decide)).mpr ⟨hk, by have := hn.2; omega⟩) hv
  | bytes n k l d hn hk hv =>
    intro hd
    simp only [List.length_append] at hd
    exact .bytes n k l d (.inl hn) ((key_none (by decide)).mpr ⟨hk, by have := hn.2; omega⟩) (low_none.mpr ⟨hv, by omega⟩)
  | group n k d e hn hk _ he ih =>
    intro hd
    simp only [List.length_append] at hd
    have := hn.2
    exact .group n k (d ++ e) (.inl hn) ((key_none (by decide)).mpr ⟨hk, by omega⟩) (ih (by omega) n e (by omega) he)
  | fixed32 n k d hn hk hv => exact fun _ => .fixed32 n k d (.inl hn) ((key_none (by decide)).mpr ⟨hk, by have := hn.2; omega⟩) hv
  | nil => exact fun _ g e hg he => .close g g e (.inl rfl) ((key_none (by decide)).mpr ⟨he, hg⟩)
  | cons n d r _ _ ih1 ih2 =>
    intro hd g e hg he
    simp only [List.length_append] at hd
    rw [List.append_assoc]
    exact .cons g n d (r ++ e) (ih1 (by omega)) (ih2 (by omega) g e hg he)

/-! Declarations -/

theorem declared_num (m : Message) : ∀ x ∈ m.fields, 0 < x.num ∧ x.num < 16 := by
  cases m <;> simp [Message.fields, single, repeated]

theorem names_nodup (m : Message) : (m.fields.map Decl.name).Nodup := by cases m <;> decide

theorem name_unique {fs : List Decl} (h : (fs.map Decl.name).Nodup) : ∀ x ∈ fs, ∀ y ∈ fs, x.name = y.name → x = y := by
  induction fs with
  | nil => intro x hx; simp at hx
  | cons z fs ih =>
    simp only [List.map_cons, List.nodup_cons] at h
    intro x hx y hy e
    rcases List.mem_cons.mp hx with ex | hx' <;> rcases List.mem_cons.mp hy with ey | hy'
    · rw [ex, ey]
    · exact absurd (List.mem_map.mpr ⟨y, hy', by rw [← e, ex]⟩) h.1
    · exact absurd (List.mem_map.mpr ⟨x, hx', by rw [e, ey]⟩) h.1
    · exact ih h.2 x hx' y hy' e

/-- Repeated numbers are floating point numbers or values of enumerations. -/
theorem repeated_numbers (m : Message) : ∀ x ∈ m.fields, x.rep = true → x.ty.packed = true → x.ty = .double ∨ ∃ e, x.ty = .enum e := by
  cases m <;> simp [Message.fields, single, repeated, Ty.packed]

theorem packed_wire {ty : Ty} (h : ty.wire < 2) : ty.packed = true := by
  cases ty <;> simp [Ty.wire, Ty.packed] at h ⊢

/-- The contents of embedded messages that occur once: none or one, with such contents again. -/
inductive Shape : Message → Contents → Prop
  | mk (m : Message) (c : Contents)
      (one : ∀ sub name num, ⟨false, .msg sub, name, num⟩ ∈ m.fields → values c name = [] ∨ ∃ old, values c name = [.msg old])
      (sub : ∀ sub name num old, ⟨false, .msg sub, name, num⟩ ∈ m.fields → values c name = [.msg old] → Shape sub old) : Shape m c

theorem values_map (fs : List Decl) (h : (fs.map Decl.name).Nodup) : ∀ x ∈ fs, values (fs.map fun d => (d.name, d.absent)) x.name = x.absent := by
  induction fs with
  | nil => intro x hx; simp at hx
  | cons z fs ih =>
    simp only [List.map_cons, List.nodup_cons] at h
    intro x hx
    rw [List.map_cons]
    unfold values
    by_cases e : z.name = x.name
    · rw [if_pos e]
      rcases List.mem_cons.mp hx with rfl | hx
      · rfl
      · exact absurd (List.mem_map.mpr ⟨x, hx, e.symm⟩) h.1
    · rw [if_neg e]
      rcases List.mem_cons.mp hx with rfl | hx
      · exact absurd rfl e
      · exact ih h.2 x hx

theorem shape_empty (m : Message) : Shape m m.empty := by
  have h : ∀ sub name num, (⟨false, .msg sub, name, num⟩ : Decl) ∈ m.fields → values m.empty name = [] := by
    intro sub name num hx
    have := values_map m.fields (names_nodup m) _ hx
    exact this
  refine .mk m _ (fun sub name num hx => .inl (h sub name num hx)) fun sub name num old hx e => ?_
  rw [h sub name num hx] at e
  cases e

/-- Values of another field than an embedded message. -/
theorem shape_put {m : Message} {c : Contents} (h : Shape m c) {x : Decl} (hx : x ∈ m.fields) (hn : x.rep = true ∨ ∀ sub, x.ty ≠ .msg sub)
    (vs : List Val) : Shape m (put c x.name vs) := by
  obtain ⟨_, _, h1, h2⟩ := h
  have hne : ∀ sub name num, (⟨false, .msg sub, name, num⟩ : Decl) ∈ m.fields → values (put c x.name vs) name = values c name := by
    intro sub name num hy
    rw [values_put, if_neg]
    intro e
    have := name_unique (names_nodup m) _ hy _ hx (by first | exact e | exact e.symm)
    subst this
    rcases hn with h | h
    · cases h
    · exact h sub rfl
  refine .mk m _ (fun sub name num hy => ?_) fun sub name num old hy e => ?_
  · rw [hne sub name num hy]; exact h1 sub name num hy
  · rw [hne sub name num hy] at e; exact h2 sub name num old hy e

/-- Contents of an embedded message. -/
theorem shape_msg {m : Message} {c : Contents} (h : Shape m c) {sub : Message} {name : String} {num : Nat}
    (hx : (⟨false, .msg sub, name, num⟩ : Decl) ∈ m.fields) {new : Contents} (hn : Shape sub new) : Shape m (put c name [.msg new]) := by
  obtain ⟨_, _, h1, h2⟩ := h
  refine .mk m _ (fun sub' name' num' hy => ?_) fun sub' name' num' old hy e => ?_
  · rw [values_put]
    by_cases e : name = name'
    · first
        | (rw [if_pos e]; exact .inr ⟨_, rfl⟩)
        | (rw [if_pos e.symm]; exact .inr ⟨_, rfl⟩)
    · first
        | (rw [if_neg e]; exact h1 sub' name' num' hy)
        | (rw [if_neg (Ne.symm e)]; exact h1 sub' name' num' hy)
  · rw [values_put] at e
    by_cases en : name = name'
    · have := name_unique (names_nodup m) _ hx _ hy en
      simp only [Decl.mk.injEq, Ty.msg.injEq, true_and] at this
      first
        | rw [if_pos en] at e
        | rw [if_pos en.symm] at e
      simp only [List.cons.injEq, Val.msg.injEq, and_true] at e
      rw [← this.1, ← e]
      exact hn
    · first
        | rw [if_neg en] at e
        | rw [if_neg (Ne.symm en)] at e
      exact h2 sub' name' num' old hy e

/-- A number of at most 64 bits is a value of any type of numbers. -/
theorem number_none {m : Message} {c : Contents} {x : Decl} (hx : x ∈ m.fields) (hw : x.ty.wire = 0) {v : Nat} {k d r : Bytes}
    (hk : Num (x.num * 8) k) (hv : Num v d) (h : NumberBy Nothing x.ty v) :
    ∃ vs, ∀ c', Reads m (put c x.name vs) r c' → Reads m c (k ++ (d ++ r)) c' := by
  obtain ⟨h1, h2⟩ := h
  have h1 : v < 2 ^ 64 := h1.elim id False.elim
  have h2 : ∀ e, x.ty = .enum e → v ∈ e.values.map (·.2) := h2.elim id False.elim
  have hr := repeated_numbers m x hx
  obtain ⟨rep, ty, name, num⟩ := x
  simp only at hw h2 hk hr ⊢
  have enum : ∀ e, ty = .enum e → ∃ l, Scalar ty (.label l) 0 d := by
    intro e he
    obtain ⟨⟨l, n⟩, h3, rfl⟩ := List.mem_map.mp (h2 e he)
    subst he
    exact ⟨l, .enum e l _ d h3 hv⟩
  cases rep with
  | true =>
    rcases hr rfl (packed_wire (by omega)) with h | ⟨e, h⟩
    · subst h; simp [Ty.wire] at hw
    · obtain ⟨l, hl⟩ := enum e h
      exact ⟨_, fun c' hc => .one m c ty name num (.label l) 0 k d r c' hx hk hl hc⟩
  | false =>
    have toInt : ((((v : Int).bmod (2 ^ 64)) % 2 ^ 64).toNat) = v := by
      have h := Int.bmod_emod (x := (v : Int)) (m := 2 ^ 64)
      omega
    cases ty with
    | int64 =>
      refine ⟨[.int ((v : Int).bmod (2 ^ 64))], fun c' hc => .scalar m c _ name num _ 0 k d r c' hx hk (.int64 _ d ?_ ?_ ?_) hc⟩
      · have := Int.le_bmod (x := (v : Int)) (m := 2 ^ 64) (by decide); omega
      · have := Int.bmod_lt (x := (v : Int)) (m := 2 ^ 64) (by decide); omega
      · rw [toInt]; exact hv
    | int32 => exact ⟨_, fun c' hc => .cast m c _ name num v _ k d r c' hx hk h1 hv (.int32 v) hc⟩
    | uint64 => exact ⟨_, fun c' hc => .scalar m c _ name num _ 0 k d r c' hx hk (.uint64 v d h1 hv) hc⟩
    | uint32 => exact ⟨_, fun c' hc => .cast m c _ name num v _ k d r c' hx hk h1 hv (.uint32 v) hc⟩
    | bool => exact ⟨_, fun c' hc => .cast m c _ name num v _ k d r c' hx hk h1 hv (.bool v) hc⟩
    | enum e =>
      obtain ⟨l, hl⟩ := enum e rfl
      exact ⟨_, fun c' hc => .scalar m c _ name num _ 0 k d r c' hx hk hl hc⟩
    | double => simp [Ty.wire] at hw
    | bytes => simp [Ty.wire] at hw
    | string => simp [Ty.wire] at hw
    | msg => simp [Ty.wire] at hw

theorem little_lt : ∀ d : Bytes, littleEndian d < 256 ^ d.length
  | [] => by simp [littleEndian]
  | b :: r => by
    have := little_lt r
    have hb : b.toNat < 256 := b.toNat_lt
    simp only [littleEndian, List.length_cons, Nat.pow_succ]
    omega

theorem double_none {d : Bytes} (h : d.length = 8) : Scalar .double (.dbl (BitVec.ofNat 64 (littleEndian d))) 1 d := by
  refine .double _ d h ?_
  have := little_lt d
  rw [h] at this
  rw [BitVec.toNat_ofNat, Nat.mod_eq_of_lt (by omega)]

theorem pack_none {ty : Ty} (ht : ty = .double ∨ ∃ e, ty = .enum e) {n : Nat} {d : Bytes} (h : PackBy Nothing ty n d) :
    n = d.length ∧ ∃ vs, Packed ty vs d := by
  induction h with
  | nil => exact ⟨rfl, [], .nil⟩
  | number n v d r h1 h2 h3 h4 h5 _ ih =>
    obtain ⟨e, vs, hvs⟩ := ih
    have h5 : d.length ≤ n := h5.elim id False.elim
    refine ⟨by rw [List.length_append]; omega, ?_⟩
    rcases ht with rfl | ⟨en, rfl⟩
    · simp [Ty.wire] at h1
    · obtain ⟨⟨l, n⟩, h6, rfl⟩ := List.mem_map.mp ((h4.2.elim id False.elim : ∀ e, _ → _) en rfl)
      exact ⟨_, .cons _ vs 0 d r (.enum en l _ d h6 h3) hvs⟩
  | double n d r h1 h2 h3 h4 _ ih =>
    obtain ⟨e, vs, hvs⟩ := ih
    have h4 : 8 ≤ n := h4.elim id False.elim
    refine ⟨by rw [List.length_append]; omega, ?_⟩
    rcases ht with rfl | ⟨en, rfl⟩
    · exact ⟨_, .cons _ vs 1 d r (double_none h3) hvs⟩
    · simp [Ty.wire] at h1

/-- One value of a field that is no message. -/
theorem value_none {m : Message} {c : Contents} {x : Decl} (hx : x ∈ m.fields) {v : Val} {w : Nat} {k d r : Bytes}
    (hk : Num (x.num * 8 + w) k) (hv : Scalar x.ty v w d) : ∃ vs, ∀ c', Reads m (put c x.name vs) r c' → Reads m c (k ++ (d ++ r)) c' := by
  obtain ⟨rep, ty, name, num⟩ := x
  cases rep with
  | true => exact ⟨_, fun c' hc => .one m c ty name num v w k d r c' hx hk hv hc⟩
  | false => exact ⟨_, fun c' hc => .scalar m c ty name num v w k d r c' hx hk hv hc⟩

/-- Without liberties every message that is taken is read, after whatever came before. -/
theorem accepted_none {m : Message} {l : Nat} {d : Bytes} (h : AcceptedBy Nothing m l d) :
    ∀ c, Shape m c → ∃ c', Reads m c d c' ∧ Shape m c' := by
  induction h with
  | done m l => exact fun c hc => ⟨c, .done m c, hc⟩
  | number m l x v k d r h1 h2 h3 h4 h5 _ ih =>
    intro c hc
    obtain ⟨vs, h6⟩ := number_none (c := c) (r := r) h1 h2 ((key_none (by decide)).mp h3).1 h4 h5
    obtain ⟨c', h7, h8⟩ := ih _ (shape_put hc h1 (.inr fun sub e => by rw [e] at h2; simp [Ty.wire] at h2) vs)
    exact ⟨c', h6 c' h7, h8⟩
  | double m l x k d r h1 h2 h3 h4 _ ih =>
    intro c hc
    have ht : x.ty = .double := by
      cases e : x.ty <;> rw [e] at h2 <;> simp [Ty.wire] at h2
    have hv : Scalar x.ty (.dbl (BitVec.ofNat 64 (littleEndian d))) 1 d := by rw [ht]; exact double_none h4
    obtain ⟨vs, h6⟩ := value_none (c := c) (r := r) h1 ((key_none (by decide)).mp h3).1 hv
    obtain ⟨c', h7, h8⟩ := ih _ (shape_put hc h1 (.inr fun sub e => by rw [ht] at e; cases e) vs)
    exact ⟨c', h6 c' h7, h8⟩
  | bytes m l x k s d r h1 h2 h3 h4 _ ih =>
    intro c hc
    have hv : Scalar x.ty (.bytes d) 2 (s ++ d) := by
      rcases h2 with h2 | h2 <;> rw [h2]
      · exact .bytes d s (low_none.mp h4).1
      · exact .string d s (low_none.mp h4).1
    obtain ⟨vs, h6⟩ := value_none (c := c) (r := r) h1 ((key_none (by decide)).mp h3).1 hv
    obtain ⟨c', h7, h8⟩ := ih _ (shape_put hc h1 (.inr fun sub e => by rcases h2 with h2 | h2 <;> rw [h2] at e <;> cases e) vs)
    refine ⟨c', ?_, h8⟩
    have := h6 c' h7
    rwa [List.append_assoc] at this
  | message m l x sub k s d r h1 h2 h3 h4 _ _ ih1 ih2 =>
    intro c hc
    obtain ⟨rep, ty, name, num⟩ := x
    simp only at h2 h3
    subst h2
    have hk := ((key_none (by decide)).mp h3).1
    have hs := (low_none.mp h4).1
    cases rep with
    | true =>
      obtain ⟨new, h5, -⟩ := ih1 _ (shape_empty sub)
      obtain ⟨c', h7, h8⟩ := ih2 _ (shape_put hc h1 (.inl rfl) (values c name ++ [.msg new]))
      exact ⟨c', .element m c sub name num new k s d r c' h1 hk hs h5 h7, h8⟩
    | false =>
      obtain ⟨_, _, hc1, hc2⟩ := id hc
      rcases hc1 sub name num h1 with e | ⟨old, e⟩
      · obtain ⟨new, h5, h6⟩ := ih1 _ (shape_empty sub)
        obtain ⟨c', h7, h8⟩ := ih2 _ (shape_msg hc h1 h6)
        exact ⟨c', .message m c sub name num new k s d r c' h1 e hk hs h5 h7, h8⟩
      · obtain ⟨new, h5, h6⟩ := ih1 _ (hc2 sub name num old h1 e)
        obtain ⟨c', h7, h8⟩ := ih2 _ (shape_msg hc h1 h6)
        exact ⟨c', .merge m c sub name num old new k s d r c' h1 e hk hs h5 h7, h8⟩
  | packed m l x n k s d r h1 h2 h3 h4 h5 _ h6 _ ih =>
    intro c hc
    obtain ⟨e, vs, hvs⟩ := pack_none (repeated_numbers m x h1 h2 h3) h6
    subst e
    have hp := shape_put hc h1 (.inl h2) (values c x.name ++ vs)
    obtain ⟨c', h7, h8⟩ := ih _ hp
    obtain ⟨rep, ty, name, num⟩ := x
    simp only at h2
    subst h2
    exact ⟨c', .packed m c ty name num vs k s d r c' h1 h3 ((key_none (by decide)).mp h4).1 (low_none.mp h5).1 hvs h7, h8⟩
  | overflow m l x n k s r _ _ _ _ _ _ _ h => exact h.elim
  | unknown m l n d r _ _ h3 h4 _ ih =>
    intro c hc
    obtain ⟨c', h7, h8⟩ := ih c hc
    exact ⟨c', .unknown m c n d r c' h3 (passed_none h4) h7, h8⟩

theorem enum_lt {e : Enum} {l : String} {n : Nat} (h : (l, n) ∈ e.values) : n < 100 := by
  have : ∀ e : Enum, ∀ v ∈ e.values, v.2 < 100 := by intro e; cases e <;> simp [Enum.values]
  exact this e _ h

/-- A value that is a number. -/
theorem scalar_number {ty : Ty} {v : Val} {w : Nat} {d : Bytes} (h : Scalar ty v w d) :
    (ty.wire = 0 ∧ w = 0 ∧ ∃ n, Num n d ∧ NumberBy Nothing ty n) ∨ (ty.wire = 1 ∧ w = 1 ∧ d.length = 8) ∨
    ((ty = .bytes ∨ ty = .string) ∧ w = 2 ∧ ∃ s b : Bytes, d = s ++ b ∧ Num b.length s) := by
  cases h with
  | int64 v d _ _ h => exact .inl ⟨rfl, rfl, _, h, .inl (by omega), .inl fun e he => by cases he⟩
  | int32 v d _ _ h => exact .inl ⟨rfl, rfl, _, h, .inl (by omega), .inl fun e he => by cases he⟩
  | uint64 n d h1 h => exact .inl ⟨rfl, rfl, _, h, .inl h1, .inl fun e he => by cases he⟩
  | uint32 n d h1 h => exact .inl ⟨rfl, rfl, _, h, .inl (by omega), .inl fun e he => by cases he⟩
  | bool b d h => exact .inl ⟨rfl, rfl, _, h, .inl (by cases b <;> decide), .inl fun e he => by cases he⟩
  | enum e l n d h1 h =>
    refine .inl ⟨rfl, rfl, _, h, .inl (by have := enum_lt h1; omega), .inl fun e' he => ?_⟩
    cases he
    exact List.mem_map.mpr ⟨_, h1, rfl⟩
  | double v d h1 h => exact .inr (.inl ⟨rfl, rfl, h1⟩)
  | bytes b l h => exact .inr (.inr ⟨.inl rfl, rfl, l, b, rfl, h⟩)
  | string b l h => exact .inr (.inr ⟨.inr rfl, rfl, l, b, rfl, h⟩)

theorem none_pack {ty : Ty} (hp : ty.packed = true) {vs : List Val} {d : Bytes} (h : Packed ty vs d) : PackBy Nothing ty d.length d := by
  induction h with
  | nil => exact .nil
  | cons v vs w d r hv _ ih =>
    have hd := List.length_pos_iff.mpr (Verif.Spec.Schema.scalar_ne_nil hv)
    have hl : (d ++ r).length - d.length = r.length := by simp
    rcases scalar_number hv with ⟨h1, -, n, h2, h3⟩ | ⟨h1, -, h2⟩ | ⟨h1 | h1, -⟩
    · exact .number _ n d r h1 (by simp; omega) h2 h3 (.inl (by simp)) (by rw [hl]; exact ih)
    · exact .double _ d r h1 (by simp; omega) h2 (.inl (by simp; omega)) (by rw [← h2, hl]; exact ih)
    · subst h1; simp [Ty.packed] at hp
    · subst h1; simp [Ty.packed] at hp

theorem chunk_number {n : Nat} {d : Bytes} (h : Chunk (some n) d) : FieldNumber n := by
  cases h <;> assumption

theorem declared_key {m : Message} {x : Decl} (hx : x ∈ m.fields) {w : Nat} (hw : w < 8) {k : Bytes} (h : Num (x.num * 8 + w) k) :
    KeyBy Nothing x.num w k := (key_none hw).mpr ⟨h, by have := (declared_num m x hx).2; omega⟩

/-- A value of a field. -/
theorem none_value {m : Message} {l : Nat} {x : Decl} (hx : x ∈ m.fields) {v : Val} {w : Nat} {k d r : Bytes}
    (hk : Num (x.num * 8 + w) k) (hv : Scalar x.ty v w d) (hd : d.length < 2 ^ 64) (h : AcceptedBy Nothing m l r) :
    AcceptedBy Nothing m l (k ++ (d ++ r)) := by
  rcases scalar_number hv with ⟨h1, rfl, n, h2, h3⟩ | ⟨h1, rfl, h2⟩ | ⟨h1, rfl, s, b, rfl, h2⟩
  · exact .number m l x n k d r hx h1 (declared_key hx (by decide) hk) h2 h3 h
  · exact .double m l x k d r hx h1 (declared_key hx (by decide) hk) h2 h
  · rw [List.append_assoc]
    rw [List.length_append] at hd
    exact .bytes m l x k s b r hx h1 (declared_key hx (by decide) hk) (low_none.mpr ⟨h2, by omega⟩) h

/-- What is read is taken without liberties. -/
theorem none_accepted {m : Message} {c c' : Contents} {d : Bytes} (h : Reads m c d c') :
    d.length < 2 ^ 64 → ∀ l, AcceptedBy Nothing m l d := by
  induction h with
  | done m c => exact fun _ l => .done m l
  | scalar m c ty name num v w k d r c' hx hk hv _ ih =>
    intro hl l
    simp only [List.length_append] at hl
    exact none_value hx hk hv (by omega) (ih (by omega) l)
  | cast m c ty name num n v k d r c' hx hk hn hv hc _ ih =>
    intro hl l
    simp only [List.length_append] at hl
    refine .number m l _ n k d r hx ?_ (declared_key hx (by decide) hk) hv ⟨.inl hn, .inl ?_⟩ (ih (by omega) l)
    · cases hc <;> rfl
    · cases hc <;> exact fun e he => by cases he
  | message m c sub name num new k s d r c' hx _ hk hs _ _ ih1 ih2 =>
    intro hl l
    simp only [List.length_append] at hl
    exact .message m l _ sub k s d r hx rfl (declared_key hx (by decide) hk) (low_none.mpr ⟨hs, by omega⟩) (ih1 (by omega) _) (ih2 (by omega) l)
  | merge m c sub name num old new k s d r c' hx _ hk hs _ _ ih1 ih2 =>
    intro hl l
    simp only [List.length_append] at hl
    exact .message m l _ sub k s d r hx rfl (declared_key hx (by decide) hk) (low_none.mpr ⟨hs, by omega⟩) (ih1 (by omega) _) (ih2 (by omega) l)
  | one m c ty name num v w k d r c' hx hk hv _ ih =>
    intro hl l
    simp only [List.length_append] at hl
    exact none_value hx hk hv (by omega) (ih (by omega) l)
  | packed m c ty name num vs k s d r c' hx hp hk hs hv _ ih =>
    intro hl l
    simp only [List.length_append] at hl
    exact .packed m l _ d.length k s d r hx rfl hp (declared_key hx (by decide) hk) (low_none.mpr ⟨hs, by omega⟩) (by simp)
      (none_pack hp hv) (ih (by omega) l)
  | element m c sub name num new k s d r c' hx hk hs _ _ ih1 ih2 =>
    intro hl l
    simp only [List.length_append] at hl
    exact .message m l _ sub k s d r hx rfl (declared_key hx (by decide) hk) (low_none.mpr ⟨hs, by omega⟩) (ih1 (by omega) _) (ih2 (by omega) l)
  | unknown m c n d r c' hn hd _ ih =>
    intro hl l
    simp only [List.length_append] at hl
    obtain ⟨h1, h2⟩ := chunk_number hd
    exact .unknown m l n d r (by omega) (by omega) hn (none_passed hd (by omega)) (ih (by omega) l)

end Verif.Spec.Schema.Liberties
