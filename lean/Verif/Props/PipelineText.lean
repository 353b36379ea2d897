import Std.Data.String.ToInt
import Mathlib.Data.List.Forall2
import Verif.Model.Text
import Verif.Props.Aggregation
import Verif.Spec.Text
/-
C111, pipelines: pipelines with the same text are equal.  It does not hold for names, tags and identifiers that contain the
punctuation of the text (`C111_pipeline_violation`, `C111_applied_violation`), and holds for all others.
-/
namespace Verif.Text
open Verif.Agg Verif.Policy Verif.Spec

/-! ### Reading texts from the left -/

theorem cut_unique {c : UInt8} : ∀ {a b x y : Bytes}, c ∉ a → c ∉ b → a ++ c :: x = b ++ c :: y → a = b ∧ x = y
  | [], [], _, _, _, _, h => ⟨rfl, by simpa using h⟩
  | [], b :: bs, _, _, _, hb, h => by
    simp only [List.nil_append, List.cons_append, List.cons.injEq] at h
    exact absurd (h.1 ▸ List.mem_cons_self) hb
  | a :: as, [], _, _, ha, _, h => by
    simp only [List.nil_append, List.cons_append, List.cons.injEq] at h
    exact absurd (h.1 ▸ List.mem_cons_self) ha
  | a :: as, b :: bs, _, _, ha, hb, h => by
    simp only [List.cons_append, List.cons.injEq] at h
    have := cut_unique (fun m => ha (List.mem_cons_of_mem _ m)) (fun m => hb (List.mem_cons_of_mem _ m)) h.2
    exact ⟨by rw [h.1, this.1], this.2⟩

/-- The same from the right. -/
theorem cutLast_unique {c : UInt8} {a b x y : Bytes} (ha : c ∉ a) (hb : c ∉ b) (h : x ++ c :: a = y ++ c :: b) : x = y ∧ a = b := by
  have h' := congrArg List.reverse h
  simp only [List.reverse_append, List.reverse_cons, List.append_assoc, List.singleton_append] at h'
  obtain ⟨h1, h2⟩ := cut_unique (c := c) (by simpa using ha) (by simpa using hb) h'
  exact ⟨by simpa using congrArg List.reverse h2, by simpa using congrArg List.reverse h1⟩

/-! ### Numbers and types -/

theorem digit_char {n : Int} {c : Char} (h : c ∈ (toString n).toList) : c.isDigit = true ∨ c = '-' := by
  have e : toString n = Int.repr n := rfl
  rw [e, Int.repr_eq_if] at h
  split at h
  · left; exact Nat.isDigit_of_mem_toDigits (b := 10) (n := n.toNat) (by decide) (by decide) (by simpa using h)
  · have h' : c = '-' ∨ c ∈ Nat.toDigits 10 (-n).toNat := by simpa using h
    rcases h' with h | h
    · exact .inr h
    · exact .inl (Nat.isDigit_of_mem_toDigits (by decide) (by decide) h)

theorem digit_byte {n : Int} {b : UInt8} (h : b ∈ bs (toString n)) : b = 45 ∨ (48 ≤ b.toNat ∧ b.toNat ≤ 57) := by
  obtain ⟨c, hc, rfl⟩ := List.mem_map.mp h
  rcases digit_char hc with h | rfl
  · right
    simp only [Char.isDigit, Bool.and_eq_true, decide_eq_true_eq] at h
    have h1 : 48 ≤ c.toNat := h.1
    have h2 : c.toNat ≤ 57 := h.2
    have : (UInt8.ofNat c.toNat).toNat = c.toNat := by simp; omega
    omega
  · left; rfl

theorem bs_append (a b : String) : bs (a ++ b) = bs a ++ bs b := by simp [bs]

theorem map_inj_on {α β : Type} {f : α → β} {P : α → Prop} (hf : ∀ a b, P a → P b → f a = f b → a = b) :
    ∀ {l m : List α}, (∀ a ∈ l, P a) → (∀ a ∈ m, P a) → l.map f = m.map f → l = m
  | [], [], _, _, _ => rfl
  | [], _ :: _, _, _, h => by simp at h
  | _ :: _, [], _, _, h => by simp at h
  | a :: l, b :: m, hl, hm, h => by
    simp only [List.map_cons, List.cons.injEq] at h
    rw [hf a b (hl a List.mem_cons_self) (hm b List.mem_cons_self) h.1,
      map_inj_on hf (fun x hx => hl x (List.mem_cons_of_mem _ hx)) (fun x hx => hm x (List.mem_cons_of_mem _ hx)) h.2]

theorem decimal_inj {m n : Int} (h : bs (toString m) = bs (toString n)) : m = n := by
  have := map_inj_on (f := fun c : Char => UInt8.ofNat c.toNat) (P := fun c => c.isDigit = true ∨ c = '-') (fun a b ha hb e => ?_)
    (fun c hc => digit_char hc) (fun c hc => digit_char hc) h
  · exact Int.repr_injective (String.toList_inj.mp this)
  · have small : ∀ c : Char, c.isDigit = true ∨ c = '-' → c.toNat < 256 := by
      rintro c (h | rfl)
      · simp only [Char.isDigit, Bool.and_eq_true, decide_eq_true_eq] at h
        have h2 : c.toNat ≤ 57 := h.2
        omega
      · decide
    have e' := congrArg UInt8.toNat e
    simp only [UInt8.toNat_ofNat'] at e'
    have ha' := small a ha
    have hb' := small b hb
    have : a.toNat = b.toNat := by omega
    exact Char.toNat_inj.mp this

/-- Texts with a number in parentheses. -/
theorem paren_inj (w : String) {m n : Int} (h : bs (w ++ toString m ++ ")") = bs (w ++ toString n ++ ")")) : m = n := by
  simp only [bs_append] at h
  exact decimal_inj (List.append_cancel_left (List.append_cancel_right h))

theorem paren_mem (w : String) {n : Int} {b : UInt8} (h : b ∈ bs (w ++ toString n ++ ")")) :
    b ∈ bs w ∨ b = 45 ∨ (48 ≤ b.toNat ∧ b.toNat ≤ 57) ∨ b = 41 := by
  simp only [bs_append, List.mem_append] at h
  rcases h with (h | h) | h
  · exact .inl h
  · exact .inr ((digit_byte h).elim .inl fun h => .inr (.inl h))
  · right; right; right; simpa [bs] using h

theorem typeNameAt_facts : ∀ i < 23, ((typeNameAt i).all fun b => b != 125 && b != 32 && b != 40) = true := by decide +kernel

theorem typeNameAt_inj : ∀ i < 23, ∀ j < 23, typeNameAt i = typeNameAt j → i = j := by decide +kernel

theorem aggregationString_inj {s t : Int} (h : Pipe.aggregationString s = Pipe.aggregationString t) : s = t := by
  unfold Pipe.aggregationString Agg.typeString at h
  have paren : ∀ n : Int, (40 : UInt8) ∈ goOutOfRange n := fun n => by
    unfold goOutOfRange; simp [bs]
  have noParen : ∀ i < 23, (40 : UInt8) ∉ typeNameAt i := fun i hi m => by
    have := typeNameAt_facts i hi
    rw [List.all_eq_true] at this
    simpa using this 40 m
  split at h <;> split at h
  · exact paren_inj "Type(" h
  · exact absurd (h ▸ paren s) (noParen _ (by omega))
  · exact absurd (h ▸ paren t) (noParen _ (by omega))
  · have := typeNameAt_inj s.toNat (by omega) t.toNat (by omega) h
    omega

theorem aggregationString_clean (t : Int) : (125 : UInt8) ∉ Pipe.aggregationString t ∧ (32 : UInt8) ∉ Pipe.aggregationString t := by
  unfold Pipe.aggregationString Agg.typeString
  split
  · constructor <;> intro m <;> have := paren_mem "Type(" m <;> revert this <;> decide
  · have := typeNameAt_facts t.toNat (by omega)
    rw [List.all_eq_true] at this
    constructor <;> intro m <;> simpa using this _ m

theorem transformationString_out {t : Int} (h : ¬ (t = 0 ∨ t = 1 ∨ t = 2)) : Pipe.transformationString t = goOutOfRange t := by
  unfold Pipe.transformationString Tf.typeString
  rw [if_neg (by omega), if_neg (by omega), if_neg (by omega)]
  rfl

theorem transformationString_inj {s t : Int} (h : Pipe.transformationString s = Pipe.transformationString t) : s = t := by
  have paren : ∀ n : Int, (40 : UInt8) ∈ goOutOfRange n := fun n => by
    unfold goOutOfRange; simp [bs]
  have no : (40 : UInt8) ∉ Pipe.transformationString 0 ∧ (40 : UInt8) ∉ Pipe.transformationString 1 ∧
      (40 : UInt8) ∉ Pipe.transformationString 2 := by decide
  by_cases hs : s = 0 ∨ s = 1 ∨ s = 2 <;> by_cases ht : t = 0 ∨ t = 1 ∨ t = 2
  · rcases hs with rfl | rfl | rfl <;> rcases ht with rfl | rfl | rfl <;> revert h <;> decide
  · exfalso
    have p := paren t
    rw [← transformationString_out ht, ← h] at p
    rcases hs with rfl | rfl | rfl
    · exact no.1 p
    · exact no.2.1 p
    · exact no.2.2 p
  · exfalso
    have p := paren s
    rw [← transformationString_out hs, h] at p
    rcases ht with rfl | rfl | rfl
    · exact no.1 p
    · exact no.2.1 p
    · exact no.2.2 p
  · rw [transformationString_out hs, transformationString_out ht] at h
    exact paren_inj "Type(" h

theorem transformationString_clean (t : Int) : (125 : UInt8) ∉ Pipe.transformationString t := by
  by_cases ht : t = 0 ∨ t = 1 ∨ t = 2
  · rcases ht with rfl | rfl | rfl <;> decide
  · rw [transformationString_out ht]
    intro m
    have := paren_mem "Type(" m
    revert this; decide

theorem opTypeString_inj {s t : Int} (h : Pipe.opTypeString s = Pipe.opTypeString t) : s = t := by
  have paren : ∀ n : Int, (40 : UInt8) ∈ bs ("OpType(" ++ toString n ++ ")") := fun n => by simp [bs]
  have small : ∀ t : Int, ¬ (t < 0 ∨ t ≥ 4) → t = 0 ∨ t = 1 ∨ t = 2 ∨ t = 3 := fun t h => by omega
  have noParen : ∀ t : Int, ¬ (t < 0 ∨ t ≥ 4) → (40 : UInt8) ∉ Pipe.opTypeString t := fun t h => by
    rcases small t h with rfl | rfl | rfl | rfl <;> decide
  by_cases hs : s < 0 ∨ s ≥ 4 <;> by_cases ht : t < 0 ∨ t ≥ 4
  · unfold Pipe.opTypeString at h
    rw [if_pos hs, if_pos ht] at h
    exact paren_inj "OpType(" h
  · have p := paren s
    have e : Pipe.opTypeString s = bs ("OpType(" ++ toString s ++ ")") := if_pos hs
    rw [← e, h] at p
    exact absurd p (noParen t ht)
  · have p := paren t
    have e : Pipe.opTypeString t = bs ("OpType(" ++ toString t ++ ")") := if_pos ht
    rw [← e, ← h] at p
    exact absurd p (noParen s hs)
  · rcases small t ht with rfl | rfl | rfl | rfl <;> rcases small s hs with rfl | rfl | rfl | rfl <;> revert h <;> decide

theorem opTypeString_clean (t : Int) : (125 : UInt8) ∉ Pipe.opTypeString t := by
  by_cases ht : t < 0 ∨ t ≥ 4
  · unfold Pipe.opTypeString
    rw [if_pos ht]
    intro m
    have := paren_mem "OpType(" m
    revert this; decide
  · have : t = 0 ∨ t = 1 ∨ t = 2 ∨ t = 3 := by omega
    rcases this with rfl | rfl | rfl | rfl <;> decide

/-! ### Aggregation IDs -/

theorem types_valid {id : Agg.ID} {ts : List AType} (h : id.types = some ts) : ∀ t ∈ ts, ValidAggType t := by
  intro t ht
  refine Classical.byContradiction fun hv => ?_
  have := (C01_fails_iff 0 ts).mpr ⟨t, ht, hv⟩
  rw [C02_reencode 0 id ts h] at this
  cases this

theorem aggIDString_inj {a b : Agg.ID} {ta tb : List AType} (ha : a.types = some ta) (hb : b.types = some tb)
    (h : aggIDString a = aggIDString b) : a = b := by
  unfold aggIDString at h
  rw [ha, hb] at h
  have e : ta = tb := by
    have va := types_valid ha
    have vb := types_valid hb
    have none : parseTypes (typesString []) = none := by decide
    cases ta with
    | nil =>
      cases tb with
      | nil => rfl
      | cons t ts =>
        have := C03_roundtrip (t :: ts) (by simp) vb
        rw [show typesString ([] : List AType) = typesString (t :: ts) from h, this] at none
        cases none
    | cons t ts =>
      have r := C03_roundtrip (t :: ts) (by simp) va
      cases tb with
      | nil =>
        rw [← show typesString (t :: ts) = typesString [] from h, r] at none
        cases none
      | cons u us =>
        have r' := C03_roundtrip (u :: us) (by simp) vb
        rw [← show typesString (t :: ts) = typesString (u :: us) from h, r] at r'
        exact Option.some.inj r'
  subst e
  have := (C02_reencode 0 a ta ha).symm.trans (C02_reencode 0 b ta hb)
  exact Option.some.inj this

theorem mem_joinWith {sep b : UInt8} : ∀ {l : List Bytes}, b ∈ joinWith sep l → b = sep ∨ ∃ x ∈ l, b ∈ x
  | [], h => by simp [joinWith] at h
  | [x], h => .inr ⟨x, by simp, h⟩
  | x :: y :: ys, h => by
    simp only [joinWith, List.mem_append, List.mem_cons] at h
    rcases h with h | h | h
    · exact .inr ⟨x, by simp, h⟩
    · exact .inl h
    · rcases mem_joinWith h with h | ⟨z, hz, hb⟩
      · exact .inl h
      · exact .inr ⟨z, List.mem_cons_of_mem _ hz, hb⟩

theorem aggIDString_clean {a : Agg.ID} {ta : List AType} (ha : a.types = some ta) : (125 : UInt8) ∉ aggIDString a ∧ (32 : UInt8) ∉ aggIDString a := by
  have e : aggIDString a = typesString ta := by unfold aggIDString; rw [ha]
  rw [e]
  unfold typesString
  split
  · simp
  · constructor <;> intro m <;> rcases mem_joinWith m with h | ⟨x, hx, hb⟩
    · cases h
    · obtain ⟨t, _, rfl⟩ := List.mem_map.mp hx
      exact (aggregationString_clean t).1 hb
    · cases h
    · obtain ⟨t, _, rfl⟩ := List.mem_map.mp hx
      exact (aggregationString_clean t).2 hb

/-! ### Lists -/

/-- Lists of parts with commas between them, closed by something that is neither a comma nor the beginning of a part, are read
part by part when the parts are.  `R` relates parts that are read alike. -/
theorem join_unique {α : Type} {R : α → α → Prop} {text : α → Bytes} {e : UInt8} {P : α → Prop}
    (hne : ∀ a, P a → ∀ x y, text a ++ x ≠ e :: y)
    (hu : ∀ a b, P a → P b → ∀ x y, (x.head? = some 44 ∨ x.head? = some e) → (y.head? = some 44 ∨ y.head? = some e) →
      text a ++ x = text b ++ y → R a b ∧ x = y) (he : e ≠ 44) :
    ∀ (l m : List α) (x y : Bytes), (∀ a ∈ l, P a) → (∀ a ∈ m, P a) →
      joinText (bs ", ") (l.map text) ++ e :: x = joinText (bs ", ") (m.map text) ++ e :: y → List.Forall₂ R l m ∧ x = y
  | [], [], _, _, _, _, h => ⟨.nil, by simpa [joinText] using h⟩
  | [], [b], x, y, _, hm, h => by
    exact absurd (by simpa [joinText] using h.symm) (hne b (hm b (by simp)) (e :: y) x)
  | [], b :: c :: m, x, y, _, hm, h => by
    simp only [joinText, List.map_nil, List.map_cons, List.nil_append, List.append_assoc] at h
    exact absurd h.symm (hne b (hm b (by simp)) _ x)
  | [a], [], x, y, hl, _, h => by
    exact absurd (by simpa [joinText] using h) (hne a (hl a (by simp)) (e :: x) y)
  | a :: c :: l, [], x, y, hl, _, h => by
    simp only [joinText, List.map_nil, List.map_cons, List.nil_append, List.append_assoc] at h
    exact absurd h (hne a (hl a (by simp)) _ y)
  | [a], [b], x, y, hl, hm, h => by
    obtain ⟨h1, h2⟩ := hu a b (hl a (by simp)) (hm b (by simp)) _ _ (.inr rfl) (.inr rfl) h
    exact ⟨.cons h1 .nil, (List.cons.inj h2).2⟩
  | [a], b :: c :: m, x, y, hl, hm, h => by
    simp only [joinText, List.map_nil, List.map_cons, List.append_assoc] at h
    obtain ⟨_, h2⟩ := hu a b (hl a (by simp)) (hm b (by simp)) _ _ (.inr rfl) (.inl rfl) h
    exact absurd (List.cons.inj h2).1 he
  | a :: c :: l, [b], x, y, hl, hm, h => by
    simp only [joinText, List.map_nil, List.map_cons, List.append_assoc] at h
    obtain ⟨_, h2⟩ := hu a b (hl a (by simp)) (hm b (by simp)) _ _ (.inl rfl) (.inr rfl) h
    exact absurd (List.cons.inj h2).1.symm he
  | a :: c :: l, b :: d :: m, x, y, hl, hm, h => by
    have ih := join_unique hne hu he (c :: l) (d :: m) x y (fun z hz => hl z (List.mem_cons_of_mem _ hz))
      (fun z hz => hm z (List.mem_cons_of_mem _ hz))
    simp only [joinText, List.map_cons, List.append_assoc] at h ih
    obtain ⟨h1, h2⟩ := hu a b (hl a (by simp)) (hm b (by simp)) _ _ (.inl rfl) (.inl rfl) h
    obtain ⟨h3, h4⟩ := ih (List.append_cancel_left h2)
    exact ⟨.cons h1 h3, h4⟩

/-- Reading up to the first of two bytes. -/
theorem cut2_unique {c e : UInt8} : ∀ {a b x y : Bytes}, c ∉ a → e ∉ a → c ∉ b → e ∉ b → (x.head? = some c ∨ x.head? = some e) →
    (y.head? = some c ∨ y.head? = some e) → a ++ x = b ++ y → a = b ∧ x = y
  | [], [], _, _, _, _, _, _, _, _, h => ⟨rfl, by simpa using h⟩
  | [], b :: bs, x, y, _, _, hb, hb', hx, _, h => by
    simp only [List.nil_append, List.cons_append] at h
    subst h
    rcases hx with h | h
    · exact absurd (by simp at h; simp [h]) hb
    · exact absurd (by simp at h; simp [h]) hb'
  | a :: as, [], x, y, ha, ha', _, _, _, hy, h => by
    simp only [List.nil_append, List.cons_append] at h
    subst h
    rcases hy with h | h
    · exact absurd (by simp at h; simp [h]) ha
    · exact absurd (by simp at h; simp [h]) ha'
  | a :: as, b :: bs, _, _, ha, ha', hb, hb', hx, hy, h => by
    simp only [List.cons_append, List.cons.injEq] at h
    have := cut2_unique (fun m => ha (List.mem_cons_of_mem _ m)) (fun m => ha' (List.mem_cons_of_mem _ m))
      (fun m => hb (List.mem_cons_of_mem _ m)) (fun m => hb' (List.mem_cons_of_mem _ m)) hx hy h.2
    exact ⟨by rw [h.1, this.1], this.2⟩

theorem tags_unique (l m : List Bytes) (x y : Bytes) (hl : ∀ t ∈ l, t ≠ [] ∧ (44 : UInt8) ∉ t ∧ (93 : UInt8) ∉ t)
    (hm : ∀ t ∈ m, t ≠ [] ∧ (44 : UInt8) ∉ t ∧ (93 : UInt8) ∉ t)
    (h : joinText (bs ", ") l ++ 93 :: x = joinText (bs ", ") m ++ 93 :: y) : l = m ∧ x = y := by
  have := join_unique (α := Bytes) (R := Eq) (text := id) (e := 93) (P := fun t => t ≠ [] ∧ (44 : UInt8) ∉ t ∧ (93 : UInt8) ∉ t)
    (fun a ha x y h => ?_) (fun a b ha hb x y hx hy h => cut2_unique ha.2.1 ha.2.2 hb.2.1 hb.2.2 hx hy h) (by decide) l m x y hl hm
    (by simpa using h)
  · exact ⟨List.forall₂_eq_eq_eq ▸ this.1, this.2⟩
  · cases a with
    | nil => exact ha.1 rfl
    | cons c cs =>
      simp only [id, List.cons_append, List.cons.injEq] at h
      exact ha.2.2 (h.1 ▸ List.mem_cons_self)

/-! ### Operations -/

theorem rollup_unique {a b : Pipe.RollupOp} (ha : PlainRollup a) (hb : PlainRollup b) {x y : Bytes}
    (h : a.string ++ x = b.string ++ y) : a = b ∧ x = y := by
  obtain ⟨ha1, ha2, ta, hta⟩ := ha
  obtain ⟨hb1, hb2, tb, htb⟩ := hb
  unfold Pipe.RollupOp.string at h
  simp only [List.append_assoc] at h
  have h := List.append_cancel_left (List.append_cancel_left h)
  obtain ⟨h1, h⟩ := cut_unique ha1 hb1 h
  have h := List.append_cancel_left (as := bs " tags: [") h
  obtain ⟨h2, h⟩ := tags_unique _ _ _ _ ha2 hb2 h
  have h := List.append_cancel_left (as := bs ", aggregation: ") h
  obtain ⟨h3, h⟩ := cut_unique (aggIDString_clean hta).1 (aggIDString_clean htb).1 h
  have h4 := aggIDString_inj hta htb h3
  refine ⟨?_, h⟩
  cases a; cases b
  simp only at h1 h2 h4
  rw [h1, h2, h4]

theorem op_unique {u v : Pipe.OpUnion} (hu : u.type = 3 → PlainRollup u.rollup) (hv : v.type = 3 → PlainRollup v.rollup) {x y : Bytes}
    (h : u.string ++ x = v.string ++ y) : u.equal v = true ∧ x = y := by
  unfold Pipe.OpUnion.string at h
  simp only [List.append_assoc] at h
  have h := List.append_cancel_left h
  have key : ∀ {w : String} {f : Int → Bytes} {s t : Int} {x y : Bytes}, (∀ t, (125 : UInt8) ∉ f t) → (∀ {s t}, f s = f t → s = t) →
      bs w ++ f s ++ (bs "}" ++ x) = bs w ++ f t ++ (bs "}" ++ y) → s = t ∧ x = y := by
    intro w f s t x y h1 h2 h
    simp only [List.append_assoc] at h
    obtain ⟨h3, h4⟩ := cut_unique (h1 s) (h1 t) (List.append_cancel_left h)
    exact ⟨h2 h3, h4⟩
  unfold Pipe.AggregationOpType Pipe.TransformationOpType Pipe.RollupOpType at h
  by_cases u1 : u.type = 1
  · by_cases v1 : v.type = 1
    · rw [if_pos u1, if_pos v1] at h
      obtain ⟨e, h⟩ := key (fun t => (aggregationString_clean t).1) aggregationString_inj h
      refine ⟨?_, h⟩
      simp [Pipe.OpUnion.equal, Pipe.AggregationOpType, u1, v1, e]
    · rw [if_pos u1, if_neg v1] at h
      exfalso
      split at h
      · simp [bs] at h
      · split at h <;> simp [bs] at h
  · rw [if_neg u1] at h
    by_cases u2 : u.type = 2
    · rw [if_pos u2] at h
      by_cases v1 : v.type = 1
      · rw [if_pos v1] at h; simp [bs] at h
      · rw [if_neg v1] at h
        by_cases v2 : v.type = 2
        · rw [if_pos v2] at h
          obtain ⟨e, h⟩ := key transformationString_clean transformationString_inj h
          refine ⟨?_, h⟩
          simp [Pipe.OpUnion.equal, Pipe.AggregationOpType, Pipe.TransformationOpType, u2, v2, e]
        · rw [if_neg v2] at h
          split at h <;> simp [bs] at h
    · rw [if_neg u2] at h
      by_cases u3 : u.type = 3
      · rw [if_pos u3] at h
        by_cases v1 : v.type = 1
        · rw [if_pos v1] at h; simp [bs] at h
        · rw [if_neg v1] at h
          by_cases v2 : v.type = 2
          · rw [if_pos v2] at h; simp [bs] at h
          · rw [if_neg v2] at h
            by_cases v3 : v.type = 3
            · rw [if_pos v3] at h
              simp only [List.append_assoc] at h
              obtain ⟨e, h⟩ := rollup_unique (hu u3) (hv v3) (List.append_cancel_left h)
              refine ⟨?_, List.append_cancel_left h⟩
              have refl : ∀ l : List Bytes, allEq l l = true := fun l => by
                induction l with
                | nil => rfl
                | cons a l ih => simp [allEq, ih]
              simp [Pipe.OpUnion.equal, Pipe.AggregationOpType, Pipe.TransformationOpType, Pipe.RollupOpType, u3, v3, e,
                Pipe.RollupOp.equal, Pipe.RollupOp.sameTransform, refl]
            · rw [if_neg v3] at h; simp [bs] at h
      · rw [if_neg u3] at h
        by_cases v1 : v.type = 1
        · rw [if_pos v1] at h; simp [bs] at h
        · rw [if_neg v1] at h
          by_cases v2 : v.type = 2
          · rw [if_pos v2] at h; simp [bs] at h
          · rw [if_neg v2] at h
            by_cases v3 : v.type = 3
            · rw [if_pos v3] at h; simp [bs] at h
            · rw [if_neg v3] at h
              obtain ⟨e, h⟩ := key opTypeString_clean opTypeString_inj h
              refine ⟨?_, h⟩
              unfold Pipe.OpUnion.equal
              rw [← e]
              simp [Pipe.AggregationOpType, Pipe.TransformationOpType, Pipe.RollupOpType, u1, u2, u3]

theorem listEqualBy_of {α : Type} {eq : α → α → Bool} : ∀ {l m : List α}, List.Forall₂ (fun a b => eq a b = true) l m → listEqualBy eq l m = true := by
  have go : ∀ {l m : List α}, List.Forall₂ (fun a b => eq a b = true) l m → listEqualBy.go eq l m = true := by
    intro l m h
    induction h with
    | nil => rfl
    | cons h _ ih => simp [listEqualBy.go, h, ih]
  intro l m h
  unfold listEqualBy
  have := h.length_eq
  simp [this, go h]

/-- C111: pipelines with the same text are equal, when their names and tags do not contain the punctuation of the text. -/
theorem C111_pipeline_partial (p q : Pipe.Pipeline) (hp : PlainPipeline p) (hq : PlainPipeline q)
    (h : Pipe.pipelineString p = Pipe.pipelineString q) : Pipe.pipelineEqual p q = true := by
  unfold Pipe.pipelineString at h
  simp only [List.append_assoc] at h
  refine listEqualBy_of (join_unique (P := fun u : Pipe.OpUnion => u.type = 3 → PlainRollup u.rollup) (e := 93) (x := bs "}") (y := bs "}")
    (fun a _ x y => ?_) (fun a b ha hb x y _ _ h => op_unique ha hb h) (by decide) p q hp hq (List.append_cancel_left h)).1
  unfold Pipe.OpUnion.string
  simp [bs]

/-- C111: what the texts of pipelines look like. -/
theorem C111_pipeline_texts :
    Pipe.pipelineString [{ type := 1, aggregation := 7 }, { type := 2, transformation := 2 },
      { type := 3, rollup := { newName := bs "foo", tags := [bs "a", bs "b"], aggID := 0b1010 } }] =
    bs "{operations: [{aggregation: Sum}, {transformation: PerSecond}, {rollup: {name: foo, tags: [a, b], aggregation: Last,Max}}]}" ∧
    Pipe.pipelineString [] = bs "{operations: []}" ∧
    Pipe.pipelineString [{ type := 0 }, { type := 4 }, { type := 1, aggregation := -1 }, { type := 1, aggregation := 0 },
      { type := 2, transformation := 3 }, { type := 2, transformation := 0 }, { type := 2, transformation := 1 }] =
    bs ("{operations: [{unknown op type: UnknownOpType}, {unknown op type: OpType(4)}, {aggregation: Type(-1)}, {aggregation: UnknownType}, " ++
      "{transformation: Type(3)}, {transformation: UnknownType}, {transformation: Absolute}]}") ∧
    [0, 1, 2, 3].map Pipe.opTypeString =
      [bs "UnknownOpType", bs "AggregationOpType", bs "TransformationOpType", bs "RollupOpType"] := by
  refine ⟨?_, ?_, ?_, ?_⟩ <;> decide +kernel

/-- C111: two rollups, over the tags a and b and over one tag whose name has a comma, have the same text and are not equal.  So have
a rollup over no tag and one over a tag without name. -/
theorem C111_pipeline_violation :
    (∃ p q : Pipe.Pipeline, Pipe.pipelineString p = Pipe.pipelineString q ∧ Pipe.pipelineEqual p q = false ∧
      p = [{ type := 3, rollup := { newName := bs "foo", tags := [bs "a", bs "b"] } }] ∧
      q = [{ type := 3, rollup := { newName := bs "foo", tags := [bs "a, b"] } }]) ∧
    ∃ p q : Pipe.Pipeline, Pipe.pipelineString p = Pipe.pipelineString q ∧ Pipe.pipelineEqual p q = false ∧
      p = [{ type := 3, rollup := { newName := bs "foo" } }] ∧ q = [{ type := 3, rollup := { newName := bs "foo", tags := [[]] } }] :=
  ⟨⟨_, _, by decide +kernel, by decide +kernel, rfl, rfl⟩, ⟨_, _, by decide +kernel, by decide +kernel, rfl, rfl⟩⟩

/-! ### Applied pipelines -/

theorem appliedRollup_unique {a b : Applied.RollupOp} (ha : (125 : UInt8) ∉ a.id ∧ KnownID a.aggID)
    (hb : (125 : UInt8) ∉ b.id ∧ KnownID b.aggID) {x y : Bytes} (h : a.string ++ x = b.string ++ y) : a = b ∧ x = y := by
  obtain ⟨ha1, ta, hta⟩ := ha
  obtain ⟨hb1, tb, htb⟩ := hb
  unfold Applied.RollupOp.string at h
  have ca := aggIDString_clean hta
  have cb := aggIDString_clean htb
  have lit : (125 : UInt8) ∉ bs ", aggregation: " := by decide
  have h : (a.id ++ bs ", aggregation: " ++ aggIDString a.aggID) ++ 125 :: x = (b.id ++ bs ", aggregation: " ++ aggIDString b.aggID) ++ 125 :: y := by
    simp only [List.append_assoc] at h
    have := List.append_cancel_left h
    simpa [bs] using this
  obtain ⟨h, hx⟩ := cut_unique (by simp only [List.mem_append, not_or]; exact ⟨⟨ha1, lit⟩, ca.1⟩)
    (by simp only [List.mem_append, not_or]; exact ⟨⟨hb1, lit⟩, cb.1⟩) h
  have h : (a.id ++ bs ", aggregation:") ++ 32 :: aggIDString a.aggID = (b.id ++ bs ", aggregation:") ++ 32 :: aggIDString b.aggID := by
    simpa [bs] using h
  obtain ⟨h1, h2⟩ := cutLast_unique ca.2 cb.2 h
  have h1 := List.append_cancel_right h1
  have h2 := aggIDString_inj hta htb h2
  refine ⟨?_, hx⟩
  cases a; cases b
  simp only at h1 h2
  rw [h1, h2]

theorem appliedOp_unique {u v : Applied.OpUnion} (hu : u.type = 3 → (125 : UInt8) ∉ u.rollup.id ∧ KnownID u.rollup.aggID)
    (hv : v.type = 3 → (125 : UInt8) ∉ v.rollup.id ∧ KnownID v.rollup.aggID) {x y : Bytes}
    (h : u.string ++ x = v.string ++ y) : u.equal v = true ∧ x = y := by
  unfold Applied.OpUnion.string at h
  simp only [List.append_assoc] at h
  have h := List.append_cancel_left h
  have key : ∀ {w : String} {f : Int → Bytes} {s t : Int} {x y : Bytes}, (∀ t, (125 : UInt8) ∉ f t) → (∀ {s t}, f s = f t → s = t) →
      bs w ++ f s ++ (bs "}" ++ x) = bs w ++ f t ++ (bs "}" ++ y) → s = t ∧ x = y := by
    intro w f s t x y h1 h2 h
    simp only [List.append_assoc] at h
    obtain ⟨h3, h4⟩ := cut_unique (h1 s) (h1 t) (List.append_cancel_left h)
    exact ⟨h2 h3, h4⟩
  unfold Pipe.TransformationOpType Pipe.RollupOpType at h
  by_cases u2 : u.type = 2
  · rw [if_pos u2] at h
    by_cases v2 : v.type = 2
    · rw [if_pos v2] at h
      obtain ⟨e, h⟩ := key transformationString_clean transformationString_inj h
      refine ⟨?_, h⟩
      simp [Applied.OpUnion.equal, Pipe.TransformationOpType, u2, v2, e]
    · rw [if_neg v2] at h
      split at h <;> simp [bs] at h
  · rw [if_neg u2] at h
    by_cases u3 : u.type = 3
    · rw [if_pos u3] at h
      by_cases v2 : v.type = 2
      · rw [if_pos v2] at h; simp [bs] at h
      · rw [if_neg v2] at h
        by_cases v3 : v.type = 3
        · rw [if_pos v3] at h
          simp only [List.append_assoc] at h
          obtain ⟨e, h⟩ := appliedRollup_unique (hu u3) (hv v3) (List.append_cancel_left h)
          refine ⟨?_, List.append_cancel_left h⟩
          simp [Applied.OpUnion.equal, Pipe.TransformationOpType, Pipe.RollupOpType, u3, v3, e, Applied.RollupOp.equal]
        · rw [if_neg v3] at h; simp [bs] at h
    · rw [if_neg u3] at h
      by_cases v2 : v.type = 2
      · rw [if_pos v2] at h; simp [bs] at h
      · rw [if_neg v2] at h
        by_cases v3 : v.type = 3
        · rw [if_pos v3] at h; simp [bs] at h
        · rw [if_neg v3] at h
          obtain ⟨e, h⟩ := key opTypeString_clean opTypeString_inj h
          refine ⟨?_, h⟩
          unfold Applied.OpUnion.equal
          rw [← e]
          simp [Pipe.TransformationOpType, Pipe.RollupOpType, u2, u3]

/-- C111: applied pipelines with the same text are equal, when their identifiers have no closing brace. -/
theorem C111_applied_partial (p q : Applied.Pipeline) (hp : PlainApplied p) (hq : PlainApplied q)
    (h : Applied.pipelineString p = Applied.pipelineString q) : Applied.pipelineEqual p q = true := by
  unfold Applied.pipelineString at h
  simp only [List.append_assoc] at h
  refine listEqualBy_of (join_unique (P := fun u : Applied.OpUnion => u.type = 3 → (125 : UInt8) ∉ u.rollup.id ∧ KnownID u.rollup.aggID)
    (e := 93) (x := bs "}") (y := bs "}") (fun a _ x y => ?_) (fun a b ha hb x y _ _ h => appliedOp_unique ha hb h) (by decide) p q hp hq
    (List.append_cancel_left h)).1
  unfold Applied.OpUnion.string
  simp [bs]

/-- C111: what the texts of applied pipelines look like. -/
theorem C111_applied_texts :
    Applied.pipelineString [{ type := 2, transformation := 1 }, { type := 3, rollup := { id := bs "m3+foo+a=b,c=d", aggID := 0b10 } }] =
    bs "{operations: [{transformation: Absolute}, {rollup: {id: m3+foo+a=b,c=d, aggregation: Last}}]}" ∧
    Applied.pipelineString [] = bs "{operations: []}" ∧
    Applied.pipelineString [{ type := 1 }, { type := -1 }] =
      bs "{operations: [{unknown op type: AggregationOpType}, {unknown op type: OpType(-1)}]}" := by
  refine ⟨?_, ?_, ?_⟩ <;> decide +kernel

/-- C111: an applied pipeline of two rollups has the text of one of a single rollup, whose identifier has braces. -/
theorem C111_applied_violation : ∃ p q : Applied.Pipeline, Applied.pipelineString p = Applied.pipelineString q ∧
    Applied.pipelineEqual p q = false ∧
    p = [{ type := 3, rollup := { id := bs "a" } }, { type := 3, rollup := { id := bs "b" } }] ∧
    q = [{ type := 3, rollup := { id := bs "a, aggregation: }}, {rollup: {id: b" } }] :=
  ⟨_, _, by decide +kernel, by decide +kernel, rfl, rfl⟩

end Verif.Text
