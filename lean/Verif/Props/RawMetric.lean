import Verif.Model.MsgpackAgg
import Verif.Model.MsgpackLib
/-
C24: the accessors of a raw metric do not depend on what was called before, except after an error.
-/
namespace Verif.MP
open Verif.Wire

variable (l : Lib)

/-- A sequence of calls: the answers and the metric afterwards. -/
def calls : List Acc → Raw → List Ans × Raw
  | [], m => ([], m)
  | a :: as, m => match m.call l a with
    | (r, m) => match calls as m with
      | (rs, m) => (r :: rs, m)

/-! Properties of the three steps. -/

theorem id_err (m : Raw) (h : m.base.err.isSome = true) : m.decodeID l = m := by simp [Raw.decodeID, h]
theorem time_err (m : Raw) (h : m.base.err.isSome = true) : m.decodeTime l = m := by simp [Raw.decodeTime, h]
theorem value_err (m : Raw) (h : m.base.err.isSome = true) : m.decodeValue l = m := by simp [Raw.decodeValue, h]
theorem id_done (m : Raw) (h : m.idDecoded = true) : m.decodeID l = m := by simp [Raw.decodeID, h]
theorem time_done (m : Raw) (h : m.timeDecoded = true) : m.decodeTime l = m := by simp [Raw.decodeTime, h]
theorem value_done (m : Raw) (h : m.valueDecoded = true) : m.decodeValue l = m := by simp [Raw.decodeValue, h]

theorem checkNumFields_none (t : Int) (s s' : Base) (h : checkNumFields l t s = (none, s')) : s'.err.isSome = true := by
  unfold checkNumFields at h
  rcases hd : decodeArrayLen l s with ⟨n, s1⟩
  rcases he : checkExpected t n s1 with ⟨e, s2⟩
  simp only [bind, hd, he, pure, Prod.mk.injEq, Option.map_eq_none_iff] at h
  obtain ⟨rfl, rfl⟩ := h
  unfold checkExpected at he
  split at he
  · next h' => simp only [Prod.mk.injEq] at he; rw [← he.2, h']; rfl
  · split at he
    · simp only [Prod.mk.injEq] at he; rw [← he.2]; rfl
    · simp at he

/-- What `decodeID` changes. -/
theorem id_form (m : Raw) (h : m.base.err.isSome = false) (hd : m.idDecoded = false) : ∃ (s : Base) (id : Bytes) (b : Bool),
    m.decodeID l = { m with base := s, metric := { m.metric with id := id }, idDecoded := b } ∧ (s.err.isSome = false → b = true) := by
  unfold Raw.decodeID
  simp only [h, hd, Bool.or_self, Bool.false_eq_true, if_false, onRaw]
  rcases h1 : decodeVarint l m.base with ⟨v, s1⟩
  simp only
  split
  · next he => exact ⟨s1, m.metric.id, false, by rw [← hd], fun hn => by simp [hn] at he⟩
  split
  · exact ⟨_, m.metric.id, false, by rw [← hd], fun hn => by simp at hn⟩
  rcases h2 : checkNumFields l metricType s1 with ⟨e, s2⟩
  cases e with
  | none => exact ⟨s2, m.metric.id, false, by rw [← hd], fun hn => by simp [checkNumFields_none l _ _ _ h2] at hn⟩
  | some e =>
    simp only
    obtain ⟨n, s3, h3⟩ : ∃ n s3, decodeBytesLen l s2 = (n, s3) := ⟨_, _, rfl⟩
    simp only [h3]
    split
    · next he => exact ⟨s3, m.metric.id, false, by rw [← hd], fun hn => by simp [hn] at he⟩
    split
    · exact ⟨s3, [], true, rfl, fun _ => rfl⟩
    unfold readBytes
    simp only
    split
    · exact ⟨{ s3 with err := some .other }, [], false, by simp [hd], fun hn => by simp at hn⟩
    · next he _ _ =>
      exact ⟨{ s3 with data := s3.data.drop n.toNat }, (m.data.drop ((m.data.length : Int) - s3.data.length).toNat).take n.toNat, true,
        by simp only [he, if_false, Bool.false_eq_true], fun _ => rfl⟩

theorem time_form (m : Raw) (h : m.base.err.isSome = false) (hd : m.timeDecoded = false) : ∃ (s : Base) (t : Int) (b : Bool),
    m.decodeTime l = { m with base := s, metric := { m.metric with timeNanos := t }, timeDecoded := b } ∧
      (s.err.isSome = false → b = true) := by
  unfold Raw.decodeTime
  simp only [h, hd, Bool.or_self, Bool.false_eq_true, if_false, onRaw]
  rcases h1 : decodeVarint l m.base with ⟨v, s1⟩
  simp only
  split
  · next he => exact ⟨s1, m.metric.timeNanos, false, by rw [← hd], fun hn => by simp [hn] at he⟩
  · exact ⟨s1, v, true, rfl, fun _ => rfl⟩

theorem value_form (m : Raw) (h : m.base.err.isSome = false) (hd : m.valueDecoded = false) : ∃ (s : Base) (v : F64) (b : Bool),
    m.decodeValue l = { m with base := s, metric := { m.metric with value := v }, valueDecoded := b } ∧
      (s.err.isSome = false → b = true) := by
  unfold Raw.decodeValue
  simp only [h, hd, Bool.or_self, Bool.false_eq_true, if_false, onRaw]
  rcases h1 : decodeFloat64 l m.base with ⟨v, s1⟩
  simp only
  split
  · next he => exact ⟨s1, m.metric.value, false, by rw [← hd], fun hn => by simp [hn] at he⟩
  · exact ⟨s1, v, true, rfl, fun _ => rfl⟩

/-! The states a metric goes through. -/
def stage0 (d : Bytes) : Raw := newRaw d
def stage1 (d : Bytes) : Raw := (stage0 d).decodeID l
def stage2 (d : Bytes) : Raw := (stage1 l d).decodeTime l
def stage3 (d : Bytes) : Raw := (stage2 l d).decodeValue l

/-- No error so far. -/
def Fine (m : Raw) : Prop := m.base.err.isSome = false

theorem fine_not {m : Raw} (h : ¬ Fine m) : m.base.err.isSome = true := by
  unfold Fine at h; exact Bool.not_eq_false _ |>.mp h

theorem stage1_facts (d : Bytes) (h : Fine (stage1 l d)) :
    (stage1 l d).idDecoded = true ∧ (stage1 l d).timeDecoded = false ∧ (stage1 l d).valueDecoded = false := by
  obtain ⟨s, id, b, he, hb⟩ := id_form l (stage0 d) rfl rfl
  unfold Fine at h
  unfold stage1 at *
  rw [he] at h ⊢
  exact ⟨hb h, rfl, rfl⟩

theorem stage1_data (d : Bytes) : (stage1 l d).data = d := by
  obtain ⟨s, id, b, he, hb⟩ := id_form l (stage0 d) rfl rfl
  unfold stage1; rw [he]; rfl

theorem stage2_fine (d : Bytes) (h : Fine (stage2 l d)) : Fine (stage1 l d) := by
  refine Classical.byContradiction fun hc => ?_
  unfold stage2 at h
  rw [time_err l _ (fine_not hc)] at h
  exact hc h

theorem stage3_fine (d : Bytes) (h : Fine (stage3 l d)) : Fine (stage2 l d) := by
  refine Classical.byContradiction fun hc => ?_
  unfold stage3 at h
  rw [value_err l _ (fine_not hc)] at h
  exact hc h

theorem stage2_facts (d : Bytes) (h : Fine (stage2 l d)) :
    (stage2 l d).idDecoded = true ∧ (stage2 l d).timeDecoded = true ∧ (stage2 l d).valueDecoded = false ∧
      (stage2 l d).metric.id = (stage1 l d).metric.id := by
  have h1 := stage2_fine l d h
  obtain ⟨f1, f2, f3⟩ := stage1_facts l d h1
  obtain ⟨s, t, b, he, hb⟩ := time_form l (stage1 l d) h1 f2
  unfold Fine at h
  unfold stage2 at *
  rw [he] at h ⊢
  exact ⟨f1, hb h, f3, rfl⟩

theorem stage2_data (d : Bytes) : (stage2 l d).data = d := by
  by_cases h1 : Fine (stage1 l d)
  · obtain ⟨f1, f2, f3⟩ := stage1_facts l d h1
    obtain ⟨s, t, b, he, hb⟩ := time_form l (stage1 l d) h1 f2
    unfold stage2; rw [he]; exact stage1_data l d
  · unfold stage2; rw [time_err l _ (fine_not h1)]; exact stage1_data l d

theorem stage3_facts (d : Bytes) (h : Fine (stage3 l d)) :
    (stage3 l d).idDecoded = true ∧ (stage3 l d).timeDecoded = true ∧ (stage3 l d).valueDecoded = true ∧
      (stage3 l d).metric.id = (stage1 l d).metric.id ∧ (stage3 l d).metric.timeNanos = (stage2 l d).metric.timeNanos := by
  have h2 := stage3_fine l d h
  obtain ⟨f1, f2, f3, f4⟩ := stage2_facts l d h2
  obtain ⟨s, t, b, he, hb⟩ := value_form l (stage2 l d) h2 f3
  unfold Fine at h
  unfold stage3 at *
  rw [he] at h ⊢
  exact ⟨f1, f2, hb h, f4, rfl⟩

theorem stage3_data (d : Bytes) : (stage3 l d).data = d := by
  by_cases h2 : Fine (stage2 l d)
  · obtain ⟨f1, f2, f3, f4⟩ := stage2_facts l d h2
    obtain ⟨s, t, b, he, hb⟩ := value_form l (stage2 l d) h2 f3
    unfold stage3; rw [he]; exact stage2_data l d
  · unfold stage3; rw [value_err l _ (fine_not h2)]; exact stage2_data l d

/-- A metric that has had no error is in one of four states. -/
inductive At4 (d : Bytes) : Raw → Prop
  | s0 : At4 d (stage0 d)
  | s1 : Fine (stage1 l d) → At4 d (stage1 l d)
  | s2 : Fine (stage2 l d) → At4 d (stage2 l d)
  | s3 : Fine (stage3 l d) → At4 d (stage3 l d)

/-- A metric after an error. -/
def Broken (d : Bytes) (m : Raw) : Prop := m.base.err.isSome = true ∧ m.data = d

/-- The answers of a new metric. -/
def first (d : Bytes) (a : Acc) : Ans := ((newRaw d).call l a).1

theorem call_stage {d : Bytes} {m : Raw} (h : At4 l d m) (a : Acc) :
    (m.call l a).1 = first l d a ∧ (At4 l d (m.call l a).2 ∨ ((m.call l a).1 = .err ∧ Broken d (m.call l a).2)) := by
  have e1 : (newRaw d).decodeID l = stage1 l d := rfl
  have e2 : (stage1 l d).decodeTime l = stage2 l d := rfl
  have e3 : (stage2 l d).decodeValue l = stage3 l d := rfl
  have b1 : ¬ Fine (stage1 l d) → Broken d (stage1 l d) := fun h => ⟨fine_not h, stage1_data l d⟩
  have b2 : ¬ Fine (stage2 l d) → Broken d (stage2 l d) := fun h => ⟨fine_not h, stage2_data l d⟩
  have b3 : ¬ Fine (stage3 l d) → Broken d (stage3 l d) := fun h => ⟨fine_not h, stage3_data l d⟩
  cases h with
  | s0 =>
    refine ⟨rfl, ?_⟩
    show At4 l d ((newRaw d).call l a).2 ∨ ((newRaw d).call l a).1 = .err ∧ Broken d ((newRaw d).call l a).2
    cases a <;> simp only [Raw.call, e1, e2, e3]
    · by_cases hf : Fine (stage1 l d)
      · rw [if_neg (by simpa [Fine] using hf)]; exact .inl (.s1 hf)
      · rw [if_pos (fine_not hf)]; exact .inr ⟨by first | rfl | trivial, b1 hf⟩
    · by_cases hf : Fine (stage2 l d)
      · rw [if_neg (by simpa [Fine] using hf)]; exact .inl (.s2 hf)
      · rw [if_pos (fine_not hf)]; exact .inr ⟨by first | rfl | trivial, b2 hf⟩
    · by_cases hf : Fine (stage3 l d)
      · rw [if_neg (by simpa [Fine] using hf)]; exact .inl (.s3 hf)
      · rw [if_pos (fine_not hf)]; exact .inr ⟨by first | rfl | trivial, b3 hf⟩
    · by_cases hf : Fine (stage3 l d)
      · rw [if_neg (by simpa [Fine] using hf)]; exact .inl (.s3 hf)
      · rw [if_pos (fine_not hf)]; exact .inr ⟨by first | rfl | trivial, b3 hf⟩
    · exact .inl .s0
  | s1 f1 =>
    obtain ⟨d1, _, _⟩ := stage1_facts l d f1
    have i1 := id_done l _ d1
    cases a <;> simp only [first, Raw.call, e1, e2, e3, i1]
    · rw [if_neg (by simpa [Fine] using f1)]; exact ⟨by first | rfl | trivial, .inl (.s1 f1)⟩
    · by_cases hf : Fine (stage2 l d)
      · rw [if_neg (by simpa [Fine] using hf)]; exact ⟨by first | rfl | trivial, .inl (.s2 hf)⟩
      · rw [if_pos (fine_not hf)]; exact ⟨by first | rfl | trivial, .inr ⟨by first | rfl | trivial, b2 hf⟩⟩
    · by_cases hf : Fine (stage3 l d)
      · rw [if_neg (by simpa [Fine] using hf)]; exact ⟨by first | rfl | trivial, .inl (.s3 hf)⟩
      · rw [if_pos (fine_not hf)]; exact ⟨by first | rfl | trivial, .inr ⟨by first | rfl | trivial, b3 hf⟩⟩
    · by_cases hf : Fine (stage3 l d)
      · rw [if_neg (by simpa [Fine] using hf)]; exact ⟨by first | rfl | trivial, .inl (.s3 hf)⟩
      · rw [if_pos (fine_not hf)]; exact ⟨by first | rfl | trivial, .inr ⟨by first | rfl | trivial, b3 hf⟩⟩
    · exact ⟨by rw [stage1_data]; rfl, .inl (.s1 f1)⟩
  | s2 f2 =>
    have f1 := stage2_fine l d f2
    obtain ⟨d1, d2, _, q1⟩ := stage2_facts l d f2
    have i1 := id_done l _ d1
    have i2 := time_done l _ d2
    have n1 : ¬ (stage1 l d).base.err.isSome = true := by simpa [Fine] using f1
    have n2 : ¬ (stage2 l d).base.err.isSome = true := by simpa [Fine] using f2
    cases a <;> simp only [first, Raw.call, e1, e2, e3, i1, i2]
    · rw [if_neg n2, if_neg n1]; exact ⟨by rw [q1], .inl (.s2 f2)⟩
    · rw [if_neg n2]; exact ⟨by first | rfl | trivial, .inl (.s2 f2)⟩
    · by_cases hf : Fine (stage3 l d)
      · rw [if_neg (by simpa [Fine] using hf)]; exact ⟨by first | rfl | trivial, .inl (.s3 hf)⟩
      · rw [if_pos (fine_not hf)]; exact ⟨by first | rfl | trivial, .inr ⟨by first | rfl | trivial, b3 hf⟩⟩
    · by_cases hf : Fine (stage3 l d)
      · rw [if_neg (by simpa [Fine] using hf)]; exact ⟨by first | rfl | trivial, .inl (.s3 hf)⟩
      · rw [if_pos (fine_not hf)]; exact ⟨by first | rfl | trivial, .inr ⟨by first | rfl | trivial, b3 hf⟩⟩
    · exact ⟨by rw [stage2_data]; rfl, .inl (.s2 f2)⟩
  | s3 f3 =>
    have f2 := stage3_fine l d f3
    have f1 := stage2_fine l d f2
    obtain ⟨d1, d2, d3, q1, q2⟩ := stage3_facts l d f3
    have i1 := id_done l _ d1
    have i2 := time_done l _ d2
    have i3 := value_done l _ d3
    have n1 : ¬ (stage1 l d).base.err.isSome = true := by simpa [Fine] using f1
    have n2 : ¬ (stage2 l d).base.err.isSome = true := by simpa [Fine] using f2
    have n3 : ¬ (stage3 l d).base.err.isSome = true := by simpa [Fine] using f3
    cases a <;> simp only [first, Raw.call, e1, e2, e3, i1, i2, i3]
    · rw [if_neg n3, if_neg n1]; exact ⟨by rw [q1], .inl (.s3 f3)⟩
    · rw [if_neg n3, if_neg n2]; exact ⟨by rw [q2], .inl (.s3 f3)⟩
    · rw [if_neg n3]; exact ⟨by first | rfl | trivial, .inl (.s3 f3)⟩
    · rw [if_neg n3]; exact ⟨by first | rfl | trivial, .inl (.s3 f3)⟩
    · exact ⟨by rw [stage3_data]; rfl, .inl (.s3 f3)⟩

theorem call_broken {d : Bytes} {m : Raw} (h : Broken d m) (a : Acc) :
    ((m.call l a).1 = .err ∨ (m.call l a).1 = first l d a) ∧ Broken d (m.call l a).2 := by
  obtain ⟨h1, h2⟩ := h
  cases a <;> simp only [Raw.call, id_err l m h1, time_err l m h1, value_err l m h1, h1, if_true]
  case bytes => exact ⟨.inr (by rw [h2]; rfl), h1, h2⟩
  all_goals exact ⟨.inl trivial, h1, h2⟩

theorem calls_state : ∀ (as : List Acc) {d : Bytes} {m : Raw}, At4 l d m ∨ Broken d m →
    (At4 l d (calls l as m).2 ∨ Broken d (calls l as m).2) ∧
      (At4 l d m → (∀ r ∈ (calls l as m).1, r ≠ .err) → At4 l d (calls l as m).2) := by
  intro as
  induction as with
  | nil => intro d m h; exact ⟨h, fun h _ => h⟩
  | cons a as ih =>
    intro d m h
    simp only [calls]
    have hn : At4 l d (m.call l a).2 ∨ Broken d (m.call l a).2 := by
      rcases h with h | h
      · rcases (call_stage l h a).2 with h' | h'
        · exact .inl h'
        · exact .inr h'.2
      · exact .inr (call_broken l h a).2
    refine ⟨(ih hn).1, fun h4 he => (ih hn).2 ?_ fun r hr => he r (by simp [hr])⟩
    rcases (call_stage l h4 a).2 with h' | h'
    · exact h'
    · exact absurd h'.1 (he _ (by simp))

/-- C24, as far as it holds: as long as no accessor has returned an error, the answer of an accessor is the one it would have
given first, on any bytes. -/
theorem C24_partial (d : Bytes) (as : List Acc) (a : Acc) (h : ∀ r ∈ (calls l as (newRaw d)).1, r ≠ .err) :
    ((calls l as (newRaw d)).2.call l a).1 = first l d a :=
  (call_stage l ((calls_state l as (.inl .s0)).2 .s0 h) a).1

/-- C24: after any calls, the answer of an accessor is the one it would have given first, or an error. -/
theorem C24_or_error (d : Bytes) (as : List Acc) (a : Acc) :
    ((calls l as (newRaw d)).2.call l a).1 = first l d a ∨ ((calls l as (newRaw d)).2.call l a).1 = .err := by
  rcases (calls_state l as (d := d) (.inl .s0)).1 with h | h
  · exact .inl (call_stage l h a).1
  · rcases (call_broken l h a).1 with h' | h'
    · exact .inr h'
    · exact .inl h'

/-- C24: a metric that is used again is like a new one. -/
theorem C24_reset (m : Raw) (d : Bytes) : m.reset d = newRaw d := rfl

/-- C24 does not hold of bytes that are cut off: the identifier can be read first, but not after the time. -/
theorem C24_violation : ∃ (d : Bytes) (as : List Acc) (a : Acc) (v : Bytes),
    first std d a = .id v ∧ ((calls std as (newRaw d)).2.call std a).1 = .err :=
  ⟨std.putInt 1 ++ std.putArrayLen 3 ++ std.putBytes (some (bs "foo")), [.time], .id, bs "foo", by decide +kernel, by decide +kernel⟩

/-- A history without errors in which the order matters for the state. -/
example : (calls std [.id, .id, .time, .bytes] (newRaw (std.putInt 1 ++ std.putArrayLen 3 ++ std.putBytes (some (bs "foo")) ++
    std.putInt 77))).1 = [.id (bs "foo"), .id (bs "foo"), .time 77,
      .bytes (std.putInt 1 ++ std.putArrayLen 3 ++ std.putBytes (some (bs "foo")) ++ std.putInt 77)] := by decide +kernel

end Verif.MP
