import Verif.Props.SchemaAccept
import Verif.Lemmas.SchemaLiberty
/- C116: in what the bytes that are taken for a message differ from those that follow the encoding documentation. -/
namespace Verif.Wire
open Verif.Policy Verif.Rules Verif.RuleSet Verif.Meta Verif.Msg Verif.PIter
open Verif.Spec.Schema

/-- A reader that takes all of the liberties takes exactly what is accepted, and one that takes none of them exactly what is read by the
documentation with some contents. -/
theorem C116_liberties {m : Message} {d : Bytes} (hd : d.length < 2 ^ 63) :
    (AcceptedBy (fun _ => True) m d.length d ↔ Acceptable m d) ∧
    (AcceptedBy (fun _ => False) m d.length d ↔ ∃ c, ReadAs m c d) :=
  ⟨Liberties.accepted_all, fun h => (Liberties.accepted_none h _ (Liberties.shape_empty m)).imp fun _ h => h.1,
    fun ⟨_, h⟩ => Liberties.none_accepted h (by omega) _⟩

/-- So `Unmarshal` takes exactly what a reader takes that takes all of the liberties. -/
theorem C116_all_taken {d : Bytes} (hd : d.length < 2 ^ 63) :
    (∀ m, (∃ m', metricWithMetadatas.unmarshal d m = .ok m') ↔ AcceptedBy (fun _ => True) .MetricWithMetadatas d.length d) ∧
    (∀ m, (∃ m', ruleSet.unmarshal d m = .ok m') ↔ AcceptedBy (fun _ => True) .RuleSet d.length d) ∧
    (∀ m, (∃ m', namespacesMsg.unmarshal d m = .ok m') ↔ AcceptedBy (fun _ => True) .Namespaces d.length d) := by
  obtain ⟨h1, h2, h3⟩ := C116_exactly hd
  exact ⟨fun m => (h1 m).trans (C116_liberties hd).1.symm, fun m => (h2 m).trans (C116_liberties hd).1.symm,
    fun m => (h3 m).trans (C116_liberties hd).1.symm⟩

/-! ### Each of them is taken -/

theorem byte_num {b : UInt8} (h : b.toNat < 128) : Spec.WireFormat.Num b.toNat [b] := ⟨.last b h, by simp⟩

/-- The first key of what is taken without liberties. -/
theorem strict_key {m : Message} {l : Nat} {d : Bytes} (h : AcceptedBy (fun _ => False) m l d) (hd : d ≠ []) :
    ∃ n w k r, d = k ++ r ∧ w < 8 ∧ Spec.WireFormat.FieldNumber n ∧ Spec.WireFormat.Num (n * 8 + w) k := by
  have decl : ∀ {x : Decl}, x ∈ m.fields → Spec.WireFormat.FieldNumber x.num := fun hx => by
    have := Liberties.declared_num m _ hx
    exact ⟨this.1, by omega⟩
  cases h with
  | done => exact absurd rfl hd
  | number _ _ x v k d r hx _ hk => exact ⟨_, 0, k, _, rfl, by decide, decl hx, ((Liberties.key_none (by decide)).mp hk).1⟩
  | double _ _ x k d r hx _ hk => exact ⟨_, 1, k, _, rfl, by decide, decl hx, ((Liberties.key_none (by decide)).mp hk).1⟩
  | bytes _ _ x k s d r hx _ hk => exact ⟨_, 2, k, _, rfl, by decide, decl hx, ((Liberties.key_none (by decide)).mp hk).1⟩
  | message _ _ x sub k s d r hx _ hk => exact ⟨_, 2, k, _, rfl, by decide, decl hx, ((Liberties.key_none (by decide)).mp hk).1⟩
  | packed _ _ x n k s d r hx _ _ hk => exact ⟨_, 2, k, _, rfl, by decide, decl hx, ((Liberties.key_none (by decide)).mp hk).1⟩
  | overflow _ _ x n k s r _ _ _ _ _ _ _ h => exact h.elim
  | unknown _ _ n d r _ _ _ hp _ =>
    cases hp with
    | varint _ v k d hn hk => exact ⟨_, 0, k, _, List.append_assoc .., by decide, Liberties.range_none hn, ((Liberties.key_none (by decide)).mp hk).1⟩
    | fixed64 _ k d hn hk => exact ⟨_, 1, k, _, List.append_assoc .., by decide, Liberties.range_none hn, ((Liberties.key_none (by decide)).mp hk).1⟩
    | bytes _ k s d hn hk => exact ⟨_, 2, k, _, List.append_assoc .., by decide, Liberties.range_none hn, ((Liberties.key_none (by decide)).mp hk).1⟩
    | group _ k d hn hk => exact ⟨_, 3, k, _, List.append_assoc .., by decide, Liberties.range_none hn, ((Liberties.key_none (by decide)).mp hk).1⟩
    | fixed32 _ k d hn hk => exact ⟨_, 5, k, _, List.append_assoc .., by decide, Liberties.range_none hn, ((Liberties.key_none (by decide)).mp hk).1⟩

/-- Bytes with a first key of a number beyond the range are not taken without liberties. -/
theorem strict_not {m : Message} {l : Nat} {k r : Bytes} {t : Nat} (ht : t < 8 ∨ 2 ^ 32 ≤ t) (hk : Spec.WireFormat.Num t k) :
    ¬ AcceptedBy (fun _ => False) m l (k ++ r) := by
  intro h
  obtain ⟨n, w, k', r', e, hw, hn, hk'⟩ := strict_key h (by simp [num_ne_nil hk])
  obtain ⟨h1, -⟩ := num_prefix hk hk' e
  obtain ⟨h2, h3⟩ := hn
  omega

/-- The key of the value of a counter with a bit more than fits. -/
def exBits : Bytes := [144, 128, 128, 128, 128, 128, 128, 128, 128, 2]

theorem exBits_num : Spec.WireFormat.Num (2 ^ 64 + 16) exBits :=
  ⟨.more 144 _ _ (by decide) (.more 128 _ _ (by decide) (.more 128 _ _ (by decide) (.more 128 _ _ (by decide) (.more 128 _ _ (by decide)
    (.more 128 _ _ (by decide) (.more 128 _ _ (by decide) (.more 128 _ _ (by decide) (.more 128 _ _ (by decide) (.last 2 (by decide)))))))))),
    by decide⟩

theorem exNumber_num : Spec.WireFormat.Num (2 ^ 35 + 16) [144, 128, 128, 128, 128, 1] :=
  ⟨.more 144 _ _ (by decide) (.more 128 _ _ (by decide) (.more 128 _ _ (by decide) (.more 128 _ _ (by decide) (.more 128 _ _ (by decide)
    (.last 1 (by decide)))))), by decide⟩

/-- The key of a number that is 2^29. -/
theorem exRange_num : Spec.WireFormat.Num (2 ^ 32) [128, 128, 128, 128, 16] :=
  ⟨.more 128 _ _ (by decide) (.more 128 _ _ (by decide) (.more 128 _ _ (by decide) (.more 128 _ _ (by decide) (.last 16 (by decide))))),
    by decide⟩

theorem single_byte {b : UInt8} {n : Nat} {k r r' : Bytes} (hb : b.toNat < 128) (hk : Spec.WireFormat.Num n k) (e : b :: r = k ++ r') :
    n = b.toNat ∧ k = [b] ∧ r = r' := by
  obtain ⟨h1, h2, h3⟩ := num_prefix (byte_num hb) hk (show [b] ++ r = k ++ r' from e)
  exact ⟨h1.symm, h2.symm, h3⟩

/-- A transformation with the number 99, which is no type of it. -/
theorem exEnum_not {l : Nat} : ¬ AcceptedBy (fun _ => False) .TransformationOp l [8, 99] := by
  intro h
  generalize hm : Message.TransformationOp = m at h
  generalize he : ([8, 99] : Bytes) = d at h
  have key : ∀ {n w : Nat} {k r : Bytes}, w < 8 → KeyBy (fun _ => False) n w k → [8, 99] = k ++ r → n = 1 ∧ w = 0 ∧ r = [99] := by
    intro n w k r hw hk e
    obtain ⟨h1, -, h2⟩ := single_byte (by decide) ((Liberties.key_none hw).mp hk).1 e
    have : (8 : UInt8).toNat = 8 := by decide
    exact ⟨by omega, by omega, h2.symm⟩
  cases h with
  | done => cases he
  | number _ _ x v k d r hx _ hk hv hn =>
    subst hm
    obtain ⟨-, -, e⟩ := key (by decide) hk he
    obtain ⟨h1, -⟩ := single_byte (b := 99) (by decide) hv e.symm
    simp only [Message.fields, single, List.mem_singleton] at hx
    subst hx
    have := (hn.2.elim id False.elim : ∀ e, _ → _) _ rfl
    rw [h1] at this
    exact absurd this (by decide)
  | double _ _ x k d r _ _ hk => exact absurd (key (by decide) hk he).2.1 (by decide)
  | bytes _ _ x k s d r _ _ hk => exact absurd (key (by decide) hk he).2.1 (by decide)
  | message _ _ x sub k s d r _ _ hk => exact absurd (key (by decide) hk he).2.1 (by decide)
  | packed _ _ x n k s d r _ _ _ hk => exact absurd (key (by decide) hk he).2.1 (by decide)
  | overflow _ _ x n k s r _ _ _ _ _ _ _ h => exact h
  | unknown _ _ n d r _ _ hn hp _ =>
    subst hm
    have : n = 1 := by
      cases hp with
      | varint _ v k d _ hk => exact (key (by decide) hk (he.trans (List.append_assoc ..))).1
      | fixed64 _ k d _ hk => exact (key (by decide) hk (he.trans (List.append_assoc ..))).1
      | bytes _ k s d _ hk => exact (key (by decide) hk (he.trans (List.append_assoc ..))).1
      | group _ k d _ hk => exact (key (by decide) hk (he.trans (List.append_assoc ..))).1
      | fixed32 _ k d _ hk => exact (key (by decide) hk (he.trans (List.append_assoc ..))).1
    subst this
    exact hn (by decide)

theorem key_by {S : Liberty → Prop} {b : UInt8} {n w : Nat} (hb : b.toNat < 128) (h : b.toNat = n * 8 + w) (hw : w < 8) : KeyBy S n w [b] := by
  refine ⟨b.toNat, ⟨b.toNat, byte_num hb, by omega, .inl (by omega)⟩, by omega, by omega, .inl (by omega)⟩

/-- Each liberty by itself has bytes that are taken with it and not without: they are the value of a counter after a key with bits from
the 64th on, after a number with bits from the 32nd on and after the number 2^29, the group of number 9 that ends with the number 10, a
transformation of a type that is none, and the packed values of `C116_lenient`. -/
theorem C116_each_taken (x : Liberty) : ∃ m d, d.length < 2 ^ 63 ∧ AcceptedBy (· = x) m d.length d ∧ Acceptable m d ∧
    ¬ ∃ c, ReadAs m c d := by
  have all : ∀ m (d : Bytes), d.length < 2 ^ 63 → AcceptedBy (· = x) m d.length d → ¬ AcceptedBy (fun _ => False) m d.length d →
      ∃ m d, d.length < 2 ^ 63 ∧ AcceptedBy (· = x) m d.length d ∧ Acceptable m d ∧ ¬ ∃ c, ReadAs m c d :=
    fun m d h1 h2 h3 => ⟨m, d, h1, h2, (C116_liberties h1).1.mp (Liberties.mono (fun _ _ => trivial) h2),
      fun h => h3 ((C116_liberties h1).2.mpr h)⟩
  have b7 : Spec.WireFormat.Num 7 [7] := byte_num (b := 7) (by decide)
  cases x with
  | bits =>
    refine all .Counter (exBits ++ ([7] ++ [])) (by decide) ?_ (strict_not (.inr (by decide)) exBits_num)
    refine .number _ _ (single .int64 "value" 2) 7 _ _ _ (by simp [Message.fields]) rfl ?_ b7 ⟨.inl (by decide), .inl fun e he => by cases he⟩ (.done _ _)
    exact ⟨16, ⟨_, exBits_num, by decide, .inr rfl⟩, by decide, by decide, .inl (by decide)⟩
  | number =>
    refine all .Counter ([144, 128, 128, 128, 128, 1] ++ ([7] ++ [])) (by decide) ?_ (strict_not (.inr (by decide)) exNumber_num)
    refine .number _ _ (single .int64 "value" 2) 7 _ _ _ (by simp [Message.fields]) rfl ?_ b7 ⟨.inl (by decide), .inl fun e he => by cases he⟩ (.done _ _)
    exact ⟨2 ^ 35 + 16, ⟨_, exNumber_num, by decide, .inl (by decide)⟩, by decide, by decide, .inr rfl⟩
  | range =>
    refine all .Counter ([128, 128, 128, 128, 16] ++ [7] ++ []) (by decide) ?_ (by
      rw [List.append_assoc]; exact strict_not (.inr (by decide)) exRange_num)
    refine .unknown _ _ (2 ^ 29) _ _ (by decide) (by decide) (by decide) (.varint _ 7 _ _ (.inr rfl) ?_ b7) (.done _ _)
    exact ⟨2 ^ 32, ⟨_, exRange_num, by decide, .inl (by decide)⟩, by decide, by decide, .inl (by decide)⟩
  | close =>
    refine all .Counter (([75] ++ [84]) ++ []) (by decide) ?_ fun h => C116_lenient.2.2.1.2.1 ((C116_liberties (by decide)).2.mp h)
    exact .unknown _ _ 9 _ _ (by decide) (by decide) (by decide) (.group _ _ _ (.inl ⟨by decide, by decide⟩)
      (key_by (by decide) (by decide) (by decide)) (.close 9 10 _ (.inr rfl) (key_by (by decide) (by decide) (by decide)))) (.done _ _)
  | enum =>
    refine all .TransformationOp ([8] ++ ([99] ++ [])) (by decide) ?_ exEnum_not
    exact .number _ _ (single (.enum .TransformationType) "type" 1) 99 _ _ _ (by simp [Message.fields]) rfl (key_by (by decide) (by decide) (by decide))
      (byte_num (b := 99) (by decide)) ⟨.inl (by decide), .inr rfl⟩ (.done _ _)
  | tail =>
    refine all .BatchTimer ([18] ++ ([3] ++ (([0, 0, 0, 0, 0, 0, 240, 63] ++ []) ++ []))) (by decide) ?_ fun h =>
      C116_lenient.1.2.1 ((C116_liberties (by decide)).2.mp h)
    exact .packed _ _ (repeated .double "values" 2) 3 _ _ _ _ (by simp [Message.fields]) rfl rfl (key_by (by decide) (by decide) (by decide))
      ⟨_, byte_num (b := 3) (by decide), by decide, .inl (by decide)⟩ (by decide)
      (.double 3 _ _ rfl (by decide) (by decide) (.inr rfl) .nil) (.done _ _)
  | overflow =>
    refine all .BatchTimer ([18] ++ ([255, 255, 255, 255, 255, 255, 255, 255, 127] ++ [])) (by decide) ?_ fun h =>
      C116_lenient.2.1.2.1 ((C116_liberties (by decide)).2.mp h)
    refine .overflow _ _ (repeated .double "values" 2) (2 ^ 63 - 1) _ _ _ (by simp [Message.fields]) rfl rfl (key_by (by decide) (by decide) (by decide))
      ⟨2 ^ 63 - 1, ⟨?_, by decide⟩, by decide, .inl (by decide)⟩ (by decide) (by decide) rfl (.done _ _)
    exact .more 255 _ _ (by decide) (.more 255 _ _ (by decide) (.more 255 _ _ (by decide) (.more 255 _ _ (by decide) (.more 255 _ _ (by decide)
      (.more 255 _ _ (by decide) (.more 255 _ _ (by decide) (.more 255 _ _ (by decide) (.last 127 (by decide)))))))))

/-- A counter `a` of value 5 is taken without any liberty. -/
example : AcceptedBy (fun _ => False) .Counter 5 ([10] ++ ([1] ++ ([97] ++ ([16] ++ ([5] ++ []))))) :=
  .bytes _ _ (single .bytes "id" 1) _ _ _ _ (by simp [Message.fields]) (.inl rfl) (key_by (by decide) (by decide) (by decide))
    ⟨_, byte_num (b := 1) (by decide), by decide, .inl (by decide)⟩
    (.number _ _ (single .int64 "value" 2) 5 _ _ _ (by simp [Message.fields]) rfl (key_by (by decide) (by decide) (by decide)) (byte_num (b := 5) (by decide))
      ⟨.inl (by decide), .inl fun e he => by cases he⟩ (.done _ _))

end Verif.Wire
